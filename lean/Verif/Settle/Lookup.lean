import Verif.Settle.Model
import Mathlib.Data.List.Nodup
/-!
# Finding positions by token or market index
-/
namespace Mango
namespace Settlement

variable {α : Type} {key : α → Nat}

/-- a list with distinct keys: finding by key -/
theorem find_key {l : List α} (hd : (l.map key).Nodup) {k : Nat} {x : α} : l.find? (fun y => key y == k) = some x ↔ x ∈ l ∧ key x = k := by
  induction l with
  | nil => simp
  | cons a l ih =>
    rw [List.map_cons, List.nodup_cons] at hd
    rw [List.find?_cons]
    by_cases e : key a = k
    · simp only [e, beq_self_eq_true, Option.some.injEq, List.mem_cons]
      refine ⟨fun h => ⟨Or.inl h.symm, h ▸ e⟩, fun ⟨h, hk⟩ => ?_⟩
      rcases h with h | h
      · exact h.symm
      · exact absurd (List.mem_map_of_mem (f := key) h) (by rw [hk, ← e]; exact hd.1)
    · have : (key a == k) = false := by simpa using e
      rw [this, ih hd.2]
      simp only [List.mem_cons]
      refine ⟨fun ⟨h, hk⟩ => ⟨Or.inr h, hk⟩, fun ⟨h, hk⟩ => ⟨?_, hk⟩⟩
      rcases h with h | h
      · exact absurd (h ▸ hk) e
      · exact h

theorem nodup_set {l : List α} (hd : (l.map key).Nodup) {i : Nat} {x y : α} (hx : l[i]? = some x) (hk : key y = key x) : ((l.set i y).map key).Nodup := by
  have : (l.set i y).map key = l.map key := by
    rw [List.map_set, hk]
    apply List.ext_getElem?
    intro j
    by_cases e : j = i
    · subst e
      have := (List.getElem?_eq_some_iff.mp hx).1
      rw [List.getElem?_set_self (by simpa using this), List.getElem?_map, hx]; rfl
    · rw [List.getElem?_set_ne (fun h => e h.symm)]
  rw [this]; exact hd

theorem mem_set_iff {l : List α} (hd : (l.map key).Nodup) {i : Nat} {x y z : α} (hx : l[i]? = some x) (hk : key y = key x) :
    z ∈ l.set i y ↔ z = y ∨ (z ∈ l ∧ key z ≠ key x) := by
  obtain ⟨hi, hxi⟩ := List.getElem?_eq_some_iff.mp hx
  constructor
  · intro h
    obtain ⟨j, hj⟩ := List.mem_iff_getElem?.mp h
    by_cases e : i = j
    · subst e
      rw [List.getElem?_set_self hi] at hj
      exact Or.inl (by simpa using hj.symm)
    · rw [List.getElem?_set_ne e] at hj
      refine Or.inr ⟨List.mem_of_getElem? hj, fun hkk => ?_⟩
      obtain ⟨hj', rfl⟩ := List.getElem?_eq_some_iff.mp hj
      subst hxi
      have := (List.Nodup.getElem_inj_iff hd (i := j) (j := i) (hi := by simpa using hj') (hj := by simpa using hi)).mp (by simpa using hkk)
      omega
  · rintro (rfl | ⟨h, hne⟩)
    · exact List.mem_of_getElem? (List.getElem?_set_self hi)
    · obtain ⟨j, hj⟩ := List.mem_iff_getElem?.mp h
      by_cases e : i = j
      · subst e
        rw [hx, Option.some.injEq] at hj
        subst hj
        exact absurd rfl hne
      · exact List.mem_of_getElem? (by rw [List.getElem?_set_ne e]; exact hj)

theorem find_set {l : List α} (hd : (l.map key).Nodup) {i : Nat} {x y : α} (hx : l[i]? = some x) (hk : key y = key x) (k : Nat) :
    (l.set i y).find? (fun z => key z == k) = if k = key x then some y else l.find? (fun z => key z == k) := by
  apply Option.ext
  intro z
  rw [find_key (nodup_set hd hx hk), mem_set_iff hd hx hk]
  by_cases e : k = key x
  · rw [if_pos e]
    subst e
    constructor
    · rintro ⟨rfl | ⟨_, h⟩, h2⟩
      · rfl
      · exact absurd h2 h
    · intro h
      rw [Option.some.injEq] at h
      subst h
      exact ⟨Or.inl rfl, hk⟩
  · rw [if_neg e, find_key hd]
    constructor
    · rintro ⟨rfl | ⟨h1, h⟩, h2⟩
      · exact absurd (h2.symm.trans hk) e
      · exact ⟨h1, h2⟩
    · rintro ⟨h1, h2⟩
      exact ⟨Or.inr ⟨h1, fun h => e (h2.symm.trans h)⟩, h2⟩

theorem find_append {l : List α} {y : α} (hn : l.any (fun z => key z == key y) = false) (k : Nat) :
    (l ++ [y]).find? (fun z => key z == k) = if k = key y then some y else l.find? (fun z => key z == k) := by
  rw [List.find?_append]
  by_cases e : k = key y
  · subst e
    rw [if_pos rfl]
    have : l.find? (fun z => key z == key y) = none := by
      rw [List.find?_eq_none]
      intro z hz h
      rw [List.any_eq_false] at hn
      exact hn z hz h
    rw [this]
    simp
  · rw [if_neg e]
    have : ([y].find? (fun z => key z == k)) = none := by
      have : (key y == k) = false := by simpa using fun h => e h.symm
      simp [this]
    rw [this]
    simp

theorem nodup_append {l : List α} (hd : (l.map key).Nodup) {y : α} (hn : l.any (fun z => key z == key y) = false) : ((l ++ [y]).map key).Nodup := by
  rw [List.map_append, List.nodup_append]
  refine ⟨hd, by simp, ?_⟩
  intro a ha b hb
  obtain ⟨z, hz, rfl⟩ := List.mem_map.mp ha
  simp only [List.map_cons, List.map_nil, List.mem_singleton] at hb
  subst hb
  rw [List.any_eq_false] at hn
  simpa using hn z hz

theorem nodup_erase {l : List α} (hd : (l.map key).Nodup) (i : Nat) : ((l.eraseIdx i).map key).Nodup :=
  List.Nodup.sublist (List.Sublist.map key (List.eraseIdx_sublist l i)) hd

theorem mem_erase_iff {l : List α} (hd : (l.map key).Nodup) {i : Nat} {x z : α} (hx : l[i]? = some x) : z ∈ l.eraseIdx i ↔ z ∈ l ∧ key z ≠ key x := by
  obtain ⟨hi, hxi⟩ := List.getElem?_eq_some_iff.mp hx
  rw [List.mem_eraseIdx_iff_getElem?]
  constructor
  · rintro ⟨j, hne, hj⟩
    refine ⟨List.mem_of_getElem? hj, fun hkk => hne ?_⟩
    obtain ⟨hj', rfl⟩ := List.getElem?_eq_some_iff.mp hj
    subst hxi
    exact (List.Nodup.getElem_inj_iff hd (i := j) (j := i) (hi := by simpa using hj') (hj := by simpa using hi)).mp (by simpa using hkk)
  · rintro ⟨h, hne⟩
    obtain ⟨j, hj⟩ := List.mem_iff_getElem?.mp h
    refine ⟨j, fun e => ?_, hj⟩
    subst e
    rw [hx, Option.some.injEq] at hj
    subst hj
    exact hne rfl

theorem find_erase {l : List α} (hd : (l.map key).Nodup) {i : Nat} {x : α} (hx : l[i]? = some x) (k : Nat) :
    (l.eraseIdx i).find? (fun z => key z == k) = if k = key x then none else l.find? (fun z => key z == k) := by
  apply Option.ext
  intro z
  rw [find_key (nodup_erase hd i), mem_erase_iff hd hx]
  by_cases e : k = key x
  · rw [if_pos e]
    subst e
    simp
  · rw [if_neg e, find_key hd]
    exact ⟨fun h => ⟨h.1.1, h.2⟩, fun h => ⟨⟨h.1, fun h' => e (h.2.symm.trans h')⟩, h.2⟩⟩

theorem zipFind_ok {l : List α} {k : Nat} {x : α × Nat} (h : (l.zipIdx).find? (fun x => key x.1 == k) = some x) : l[x.2]? = some x.1 ∧ key x.1 = k := by
  have h1 := List.mem_of_find?_eq_some h
  have h2 := List.find?_some h
  exact ⟨List.mk_mem_zipIdx_iff_getElem?.mp h1, by simpa using h2⟩

/-- the account's position in a token, in a perp market -/
def Acct.tokOf (a : Acct) (ti : Nat) : Option TokenPosition := (a.toks.find? (fun x => x.1 == ti)).map (·.2)
def Acct.perpOf (a : Acct) (mi : Nat) : Option PerpSlot := a.perps.find? (fun x => x.market == mi)

/-- at most one position per token and per perp market (what `ensure_*_position` maintains, C32) -/
structure Acct.Ok (a : Acct) : Prop where
  toks : (a.toks.map (·.1)).Nodup
  perps : (a.perps.map (·.market)).Nodup

theorem tok_ok {a : Acct} {ti : Nat} {k : Nat} {t : TokenPosition} (h : a.tok ti = .ok (k, t)) : a.toks[k]? = some (ti, t) := by
  unfold Acct.tok at h
  split at h
  · next x hx =>
    obtain ⟨h1, h2⟩ := zipFind_ok (key := fun x : Nat × TokenPosition => x.1) hx
    simp only [ok_inj, Prod.mk.injEq] at h
    obtain ⟨rfl, rfl⟩ := h
    rw [h1]
    obtain ⟨⟨u, v⟩, w⟩ := x
    dsimp only at *
    rw [h2]
  · simp at h

theorem perp_ok {a : Acct} {mi : Nat} {j : Nat} {p : PerpSlot} (h : a.perp mi = .ok (j, p)) : a.perps[j]? = some p ∧ p.market = mi := by
  unfold Acct.perp at h
  split at h
  · next x hx =>
    obtain ⟨h1, h2⟩ := zipFind_ok (key := fun x : PerpSlot => x.market) hx
    simp only [ok_inj, Prod.mk.injEq] at h
    obtain ⟨rfl, rfl⟩ := h
    exact ⟨h1, h2⟩
  · simp at h

theorem tokOf_at {a : Acct} (ha : a.Ok) {k ti : Nat} {t : TokenPosition} (h : a.toks[k]? = some (ti, t)) : a.tokOf ti = some t := by
  unfold Acct.tokOf
  rw [(find_key (key := fun x : Nat × TokenPosition => x.1) ha.toks).mpr ⟨List.mem_of_getElem? h, rfl⟩]
  rfl

theorem perpOf_at {a : Acct} (ha : a.Ok) {j : Nat} {p : PerpSlot} (h : a.perps[j]? = some p) : a.perpOf p.market = some p :=
  (find_key (key := fun x : PerpSlot => x.market) ha.perps).mpr ⟨List.mem_of_getElem? h, rfl⟩

theorem tokOf_set {a : Acct} (ha : a.Ok) {k ti : Nat} {t t' : TokenPosition} (h : a.toks[k]? = some (ti, t)) (x : Nat) :
    (a.setTok k ti t').tokOf x = if x = ti then some t' else a.tokOf x := by
  unfold Acct.tokOf Acct.setTok
  dsimp only
  rw [find_set (key := fun x : Nat × TokenPosition => x.1) ha.toks h (y := (ti, t')) rfl]
  split <;> rfl

theorem perpOf_set {a : Acct} (ha : a.Ok) {j : Nat} {p p' : PerpSlot} (h : a.perps[j]? = some p) (hm : p'.market = p.market) (x : Nat) :
    (a.setPerp j p').perpOf x = if x = p.market then some p' else a.perpOf x := by
  unfold Acct.perpOf Acct.setPerp
  exact find_set (key := fun x : PerpSlot => x.market) ha.perps h hm x

theorem setTok_ok {a : Acct} (ha : a.Ok) {k ti : Nat} {t t' : TokenPosition} (h : a.toks[k]? = some (ti, t)) : (a.setTok k ti t').Ok :=
  ⟨nodup_set (key := fun x : Nat × TokenPosition => x.1) ha.toks h rfl, ha.perps⟩

theorem setPerp_ok {a : Acct} (ha : a.Ok) {j : Nat} {p p' : PerpSlot} (h : a.perps[j]? = some p) (hm : p'.market = p.market) : (a.setPerp j p').Ok :=
  ⟨ha.toks, nodup_set (key := fun x : PerpSlot => x.market) ha.perps h hm⟩

end Settlement
end Mango
