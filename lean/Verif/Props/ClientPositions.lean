import Verif.Props.ClientAccounts
/-!
# C80: from accounts to lists
-/
namespace Mango
namespace ClientAccounts
open Fx Oracle

theorem mem_activeTokens {a : Slots.Acc} {t : Nat} : t ∈ activeTokens a ↔ ∃ p ∈ a.tokens, p.index ≠ Slots.FREE ∧ p.index = t := by
  simp only [activeTokens, List.mem_map, List.mem_filter, decide_eq_true_eq]
  constructor
  · rintro ⟨p, ⟨h1, h2⟩, h3⟩; exact ⟨p, h1, h2, h3⟩
  · rintro ⟨p, h1, h2, h3⟩; exact ⟨p, ⟨h1, h2⟩, h3⟩

theorem mem_activePerps {a : Slots.Acc} {t : Nat} : t ∈ activePerps a ↔ ∃ p ∈ a.perps, p.market ≠ Slots.FREE ∧ p.market = t := by
  simp only [activePerps, List.mem_map, List.mem_filter, decide_eq_true_eq]
  constructor
  · rintro ⟨p, ⟨h1, h2⟩, h3⟩; exact ⟨p, h1, h2, h3⟩
  · rintro ⟨p, h1, h2, h3⟩; exact ⟨p, ⟨h1, h2⟩, h3⟩

/-- distinct keys of the active slots -/
theorem active_nodup {α : Type} (key : α → Nat) (P : α → Bool) {l : List α}
    (h : ∀ (i j : Nat) p q, l[i]? = some p → l[j]? = some q → P p = true → key p = key q → i = j) : ((l.filter P).map key).Nodup := by
  induction l with
  | nil => simp
  | cons x l ih =>
    have ih' := ih (fun i j p q hi hj hp hk => by
      have := h (i + 1) (j + 1) p q (by simpa using hi) (by simpa using hj) hp hk; omega)
    by_cases hx : P x = true
    · rw [List.filter_cons_of_pos hx, List.map_cons, List.nodup_cons]
      refine ⟨?_, ih'⟩
      intro hm
      rw [List.mem_map] at hm
      obtain ⟨y, hy, he⟩ := hm
      obtain ⟨j, hj⟩ := List.mem_iff_getElem?.mp (List.mem_filter.mp hy).1
      have := h 0 (j + 1) x y (by simp) (by simpa using hj) hx he.symm
      omega
    · rw [List.filter_cons_of_neg hx]; exact ih'

theorem reach_nodup {mk : Slots.Markets} {a : Slots.Acc} (h : Slots.Reach mk a) : (activeTokens a).Nodup ∧ (activePerps a).Nodup := by
  obtain ⟨h1, _, h3, _⟩ := Slots.C32_unique h
  exact ⟨active_nodup _ _ (fun i j p q hi hj hp hk => h1 i j p q hi hj (by simpa using hp) hk), active_nodup _ _ (fun i j p q hi hj hp hk => h3 i j p q hi hj (by simpa using hp) hk)⟩

theorem set_same {α : Type} {l : List α} {i : Nat} {x : α} (h : l[i]? = some x) : l.set i x = l := by
  apply List.ext_getElem?
  intro j
  by_cases hj : i = j
  · subst hj; rw [List.getElem?_set_self (List.getElem?_eq_some_iff.mp h).1, h]
  · rw [List.getElem?_set_ne hj]

/-- one position made sure of -/
theorem ensureToken_step {mk : Slots.Markets} {a : Slots.Acc} {t : Nat} (ht : t ≠ Slots.FREE) {ts : List Slots.TokenSlot} {raw act : Nat} (h : Slots.ensureToken a.tokens t = .ok (ts, raw, act))
    (ha : Slots.Reach mk a) :
    Slots.Reach mk { a with tokens := ts } ∧ (∀ u, u ∈ activeTokens { a with tokens := ts } ↔ u ∈ activeTokens a ∨ u = t) := by
  have hs := Slots.C32_ensure_token (a := a) ht
  rw [h] at hs
  obtain ⟨_, hs⟩ := hs
  constructor
  · have : ∃ p, ts[raw]? = some p ∧ ts.set raw { p with pos := p.pos } = ts := by
      rcases hs with ⟨p, hp, _, rfl⟩ | ⟨_, _, _, hp, _⟩
      · exact ⟨p, hp, set_same hp⟩
      · exact ⟨_, hp, set_same hp⟩
    obtain ⟨p, hp, he⟩ := this
    refine Slots.Reach.step (.token t p.pos false) ha ht ?_
    simp only [Slots.step, Slots.changeToken, h, bind, Except.bind, hp]
    rw [if_neg (by simp), he]
    rfl
  · intro u
    rw [mem_activeTokens, mem_activeTokens]
    rcases hs with ⟨p, hp, he, rfl⟩ | ⟨h1, ⟨q, hq, hqf⟩, _, hp, hl, hr⟩
    · constructor
      · exact fun h => Or.inl h
      · rintro (h | rfl)
        · exact h
        · exact ⟨p, List.mem_of_getElem? hp, by rw [he]; exact ht, he⟩
    · constructor
      · rintro ⟨x, hx, hf, e⟩
        obtain ⟨i, hi⟩ := List.mem_iff_getElem?.mp hx
        by_cases hir : i = raw
        · subst hir; dsimp only at hi; rw [hp] at hi; injection hi with hi; subst hi; exact Or.inr e.symm
        · dsimp only at hi; rw [hr i hir] at hi; exact Or.inl ⟨x, List.mem_of_getElem? hi, hf, e⟩
      · rintro (⟨x, hx, hf, e⟩ | rfl)
        · obtain ⟨i, hi⟩ := List.mem_iff_getElem?.mp hx
          have hir : i ≠ raw := by rintro rfl; rw [hq] at hi; injection hi with hi; subst hi; exact hf hqf
          exact ⟨x, List.mem_of_getElem? (by dsimp only; rw [hr i hir]; exact hi), hf, e⟩
        · exact ⟨_, List.mem_of_getElem? hp, ht, rfl⟩

/-- **Specification**: `b` is `a` with positions for the given tokens and perp markets -/
structure Ensured (mk : Slots.Markets) (a b : Slots.Acc) (tokens perps : List Nat) : Prop where
  reach : Slots.Reach mk b
  keptTokens : ∀ t ∈ activeTokens a, t ∈ activeTokens b
  keptPerps : ∀ m ∈ activePerps a, m ∈ activePerps b
  newTokens : ∀ t ∈ tokens, t ∈ activeTokens b
  newPerps : ∀ m ∈ perps, m ∈ activePerps b
  oos : b.serums = a.serums
  onlyTokens : ∀ t ∈ activeTokens b, t ∈ activeTokens a ∨ t ∈ tokens ∨ ∃ m ∈ perps, mk.settle m = t
  onlyPerps : ∀ m ∈ activePerps b, m ∈ activePerps a ∨ m ∈ perps

theorem ensureTokens_ok {mk : Slots.Markets} : ∀ {l : List Nat} {a b : Slots.Acc}, (∀ t ∈ l, t ≠ Slots.FREE) → Slots.Reach mk a → ensureTokens a l = .ok b → Ensured mk a b l [] := by
  intro l
  induction l with
  | nil =>
    intro a b _ ha h
    injection h with h; subst h
    exact ⟨ha, fun _ h => h, fun _ h => h, by simp, by simp, rfl, fun _ h => Or.inl h, fun _ h => Or.inl h⟩
  | cons t l ih =>
    intro a b hf ha h
    simp only [ensureTokens, bind_ok] at h
    obtain ⟨⟨ts, raw, act⟩, h1, h2⟩ := h
    obtain ⟨hr, hm⟩ := ensureToken_step (hf t (by simp)) h1 ha
    obtain ⟨e1, e2, e3, e4, e5, e6, e7, e8⟩ := ih (fun t h => hf t (by simp [h])) hr h2
    refine ⟨e1, fun u hu => e2 u ((hm u).mpr (Or.inl hu)), fun u hu => e3 u hu, ?_, by simp, e6, ?_, e8⟩
    · intro u hu
      rcases List.mem_cons.mp hu with rfl | hu
      · exact e2 u ((hm u).mpr (Or.inr rfl))
      · exact e4 u hu
    · intro u hu
      rcases e7 u hu with h | h | h
      · rcases (hm u).mp h with h | rfl
        · exact Or.inl h
        · exact Or.inr (Or.inl (by simp))
      · exact Or.inr (Or.inl (by simp [h]))
      · exact Or.inr (Or.inr h)

theorem ensurePerp_congr {mk mk' : Slots.Markets} {a : Slots.Acc} {m : Nat} (h : mk.settle m = mk'.settle m) : Slots.ensurePerp mk a m = Slots.ensurePerp mk' a m := by
  unfold Slots.ensurePerp; rw [h]

theorem holdToken_active {ts ts' : List Slots.TokenSlot} {t : Nat} (ht : t ≠ Slots.FREE) (h : Slots.holdToken ts t = .ok ts') (a : Slots.Acc) :
    ∀ u, u ∈ activeTokens { a with tokens := ts' } ↔ u ∈ activeTokens { a with tokens := ts } ∨ u = t := by
  unfold Slots.holdToken at h
  simp only [bind_ok] at h
  obtain ⟨⟨l, raw, act⟩, h1, h2⟩ := h
  have hs := Slots.C32_ensure_token (a := { a with tokens := ts }) ht
  rw [h1] at hs
  obtain ⟨_, hs⟩ := hs
  unfold Slots.incUse at h2
  split at h2
  · rename_i p hp
    split at h2
    · injection h2 with h2
      subst h2
      dsimp only at hp
      intro u
      rw [mem_activeTokens, mem_activeTokens]
      have hlt : raw < l.length := (List.getElem?_eq_some_iff.mp hp).1
      have key : (∃ x ∈ l.set raw { p with inUse := p.inUse + 1 }, x.index ≠ Slots.FREE ∧ x.index = u) ↔ ∃ x ∈ l, x.index ≠ Slots.FREE ∧ x.index = u := by
        constructor
        · rintro ⟨x, hx, h⟩
          obtain ⟨i, hi⟩ := List.mem_iff_getElem?.mp hx
          by_cases hir : raw = i
          · subst hir
            rw [List.getElem?_set_self hlt] at hi
            injection hi with hi; subst hi
            exact ⟨p, List.mem_of_getElem? hp, h⟩
          · rw [List.getElem?_set_ne hir] at hi
            exact ⟨x, List.mem_of_getElem? hi, h⟩
        · rintro ⟨x, hx, h⟩
          obtain ⟨i, hi⟩ := List.mem_iff_getElem?.mp hx
          by_cases hir : raw = i
          · subst hir
            rw [hp] at hi; injection hi with hi; subst hi
            exact ⟨_, List.mem_of_getElem? (List.getElem?_set_self hlt), h⟩
          · exact ⟨x, List.mem_of_getElem? (by rw [List.getElem?_set_ne hir]; exact hi), h⟩
      rw [key]
      rcases hs with ⟨q, hq, he, rfl⟩ | ⟨_, ⟨q, hq, hqf⟩, _, hq2, _, hr⟩
      · constructor
        · exact fun h => Or.inl h
        · rintro (h | rfl)
          · exact h
          · exact ⟨q, List.mem_of_getElem? hq, by rw [he]; exact ht, he⟩
      · constructor
        · rintro ⟨x, hx, hf, e⟩
          obtain ⟨i, hi⟩ := List.mem_iff_getElem?.mp hx
          by_cases hir : i = raw
          · subst hir; rw [hq2] at hi; injection hi with hi; subst hi; exact Or.inr e.symm
          · rw [hr i hir] at hi; exact Or.inl ⟨x, List.mem_of_getElem? hi, hf, e⟩
        · rintro (⟨x, hx, hf, e⟩ | rfl)
          · obtain ⟨i, hi⟩ := List.mem_iff_getElem?.mp hx
            have hir : i ≠ raw := by rintro rfl; dsimp only at hi hq; rw [hq] at hi; injection hi with hi; subst hi; exact hf hqf
            exact ⟨x, List.mem_of_getElem? (by rw [hr i hir]; exact hi), hf, e⟩
          · exact ⟨_, List.mem_of_getElem? hq2, ht, rfl⟩
    · simp at h2
  · simp at h2

theorem ensurePerp_step {mk : Slots.Markets} {a b : Slots.Acc} {m raw : Nat} (hm : m ≠ Slots.FREE) (hs : mk.settle m ≠ Slots.FREE) (ha : Slots.Reach mk a) (h : Slots.ensurePerp mk a m = .ok (b, raw)) :
    Ensured mk a b [] [m] := by
  have hr : Slots.Reach mk b := Slots.Reach.step (.ensurePerp m) ha ⟨hm, hs⟩ (by simp only [Slots.step, h]; rfl)
  unfold Slots.ensurePerp at h
  split at h
  · rename_i k hk
    injection h with h
    simp only [Prod.mk.injEq] at h
    obtain ⟨rfl, _⟩ := h
    obtain ⟨hk1, hk2⟩ := List.findIdx?_eq_some_iff_getElem.mp hk
    have he : a.perps[k].market = m := by simpa using hk2.1
    have hin : m ∈ activePerps a := mem_activePerps.mpr ⟨a.perps[k], List.getElem_mem hk1, by rw [he]; exact hm, he⟩
    exact ⟨hr, fun _ h => h, fun _ h => h, by simp, by simpa using hin, rfl, fun _ h => Or.inl h, fun _ h => Or.inl h⟩
  · rename_i hnone
    split at h
    · simp at h
    · rename_i k hk
      simp only [bind_ok] at h
      obtain ⟨ts, h1, h2⟩ := h
      rw [pure_ok, Prod.mk.injEq] at h2
      obtain ⟨rfl, _⟩ := h2
      obtain ⟨hk1, hk2⟩ := List.findIdx?_eq_some_iff_getElem.mp hk
      have hfree : a.perps[k].market = Slots.FREE := by simpa using hk2.1
      have ht := holdToken_active hs h1 a
      have hp : ∀ u, u ∈ activePerps { a with perps := a.perps.set k { Slots.freePerp with market := m }, tokens := ts } ↔ u ∈ activePerps a ∨ u = m := by
        intro u
        rw [mem_activePerps, mem_activePerps]
        constructor
        · rintro ⟨x, hx, hf, e⟩
          obtain ⟨i, hi⟩ := List.mem_iff_getElem?.mp hx
          dsimp only at hi
          by_cases hik : k = i
          · subst hik
            rw [List.getElem?_set_self hk1] at hi
            injection hi with hi; subst hi; exact Or.inr e.symm
          · rw [List.getElem?_set_ne hik] at hi
            exact Or.inl ⟨x, List.mem_of_getElem? hi, hf, e⟩
        · rintro (⟨x, hx, hf, e⟩ | rfl)
          · obtain ⟨i, hi⟩ := List.mem_iff_getElem?.mp hx
            have hik : k ≠ i := by
              rintro rfl
              rw [List.getElem?_eq_getElem hk1] at hi
              injection hi with hi; subst hi; exact hf hfree
            exact ⟨x, List.mem_of_getElem? (by dsimp only; rw [List.getElem?_set_ne hik]; exact hi), hf, e⟩
          · exact ⟨{ Slots.freePerp with market := u }, List.mem_of_getElem? (i := k) (by dsimp only; rw [List.getElem?_set_self hk1]), hm, rfl⟩
      refine ⟨hr, fun u hu => (ht u).mpr (Or.inl hu), fun u hu => (hp u).mpr (Or.inl hu), by simp, ?_, rfl, ?_, ?_⟩
      · intro u hu; simp at hu; subst hu; exact (hp _).mpr (Or.inr rfl)
      · intro u hu
        rcases (ht u).mp hu with h | rfl
        · exact Or.inl h
        · exact Or.inr (Or.inr ⟨m, by simp, rfl⟩)
      · intro u hu
        rcases (hp u).mp hu with h | rfl
        · exact Or.inl h
        · exact Or.inr (by simp)

theorem Ensured.trans {mk : Slots.Markets} {a b d : Slots.Acc} {t1 t2 p1 p2 : List Nat} (h1 : Ensured mk a b t1 p1) (h2 : Ensured mk b d t2 p2) : Ensured mk a d (t1 ++ t2) (p1 ++ p2) where
  reach := h2.reach
  keptTokens := fun t h => h2.keptTokens t (h1.keptTokens t h)
  keptPerps := fun t h => h2.keptPerps t (h1.keptPerps t h)
  newTokens := fun t h => (List.mem_append.mp h).elim (fun h => h2.keptTokens t (h1.newTokens t h)) (h2.newTokens t)
  newPerps := fun t h => (List.mem_append.mp h).elim (fun h => h2.keptPerps t (h1.newPerps t h)) (h2.newPerps t)
  oos := h2.oos.trans h1.oos
  onlyTokens := by
    intro t ht
    rcases h2.onlyTokens t ht with h | h | ⟨m, hm, e⟩
    · rcases h1.onlyTokens t h with h | h | ⟨m, hm, e⟩
      · exact Or.inl h
      · exact Or.inr (Or.inl (by simp [h]))
      · exact Or.inr (Or.inr ⟨m, by simp [hm], e⟩)
    · exact Or.inr (Or.inl (by simp [h]))
    · exact Or.inr (Or.inr ⟨m, by simp [hm], e⟩)
  onlyPerps := by
    intro t ht
    rcases h2.onlyPerps t ht with h | h
    · rcases h1.onlyPerps t h with h | h
      · exact Or.inl h
      · exact Or.inr (by simp [h])
    · exact Or.inr (by simp [h])

theorem ensurePerps_ok {K : Keys} {chain : Nat → Content} {group : Nat} {c : Ctx} (hc : CtxOk K chain group c) {mk : Slots.Markets} (hmk : ∀ m x, c.perp m = some x → mk.settle m = x.settle) :
    ∀ {l : List Nat} {a b : Slots.Acc}, Slots.Reach mk a → ensurePerps c a l = .ok b → Ensured mk a b [] l := by
  intro l
  induction l with
  | nil =>
    intro a b ha h
    injection h with h; subst h
    exact ⟨ha, fun _ h => h, fun _ h => h, by simp, by simp, rfl, fun _ h => Or.inl h, fun _ h => Or.inl h⟩
  | cons m l ih =>
    intro a b ha h
    simp only [ensurePerps, bind_ok, require_ok] at h
    obtain ⟨_, h0, ⟨a1, raw⟩, h1, h2⟩ := h
    obtain ⟨x, hx⟩ := Option.isSome_iff_exists.mp h0
    obtain ⟨g1, g2, _⟩ := hc.perps m x hx
    have e : mk.settle m = c.markets.settle m := by rw [hmk m x hx]; simp [Ctx.markets, hx]
    rw [← ensurePerp_congr e] at h1
    have s1 := ensurePerp_step g1 (by rw [hmk m x hx]; exact g2) ha h1
    exact s1.trans (ih s1.reach h2)

theorem derive_ok {K : Keys} {chain : Nat → Content} {group : Nat} {c : Ctx} (hc : CtxOk K chain group c) {mk : Slots.Markets} (hmk : ∀ m x, c.perp m = some x → mk.settle m = x.settle)
    {fc : Nat → Option (Nat × Nat)} {a : Slots.Acc} (ha : Slots.Reach mk a) {affected writable perps : List Nat} (hf : ∀ t ∈ affected ++ writable, t ≠ Slots.FREE) {l : List Meta}
    (h : derive K c fc a affected writable perps = .ok l) :
    ∃ b, Ensured mk a b (affected ++ writable) perps ∧ metasOf K c fc (activeTokens b) writable (activePerps b) (activeOos b) = .ok l ∧
      ensureTokens a (affected ++ writable) >>= (fun a => ensurePerps c a perps) = .ok b := by
  unfold derive at h
  simp only [bind_ok] at h
  obtain ⟨a1, h1, a2, h2, h3⟩ := h
  refine ⟨a2, ?_, h3, by simp only [bind_ok]; exact ⟨a1, h1, h2⟩⟩
  have s1 := ensureTokens_ok hf ha h1
  have s2 := s1.trans (ensurePerps_ok hc hmk s1.reach h2)
  simpa using s2

end ClientAccounts
end Mango
