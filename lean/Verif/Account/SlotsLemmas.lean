import Verif.Account.Slots
import Mathlib.Data.List.Basic

namespace Mango.Slots

theorem findIdx?_some {α : Type} {p : α → Bool} : ∀ {l : List α} {i : Nat}, l.findIdx? p = some i →
    ∃ x, l[i]? = some x ∧ p x = true ∧ ∀ j y, j < i → l[j]? = some y → p y = false := by
  intro l
  induction l with
  | nil => intro i h; simp at h
  | cons a l ih =>
    intro i h
    rw [List.findIdx?_cons] at h
    by_cases ha : p a = true
    · rw [if_pos ha, Option.some.injEq] at h
      subst h
      exact ⟨a, rfl, ha, by intros; omega⟩
    · rw [if_neg ha, Option.map_eq_some_iff] at h
      obtain ⟨k, hk, rfl⟩ := h
      obtain ⟨x, h1, h2, h3⟩ := ih hk
      refine ⟨x, by simpa using h1, h2, ?_⟩
      intro j y hj hy
      cases j with
      | zero => simp at hy; subst hy; simpa using ha
      | succ j => exact h3 j y (by omega) (by simpa using hy)

theorem findIdx?_none {α : Type} {p : α → Bool} {l : List α} (h : l.findIdx? p = none) :
    ∀ x ∈ l, p x = false := by
  simpa [List.findIdx?_eq_none_iff] using h

/-- The number of used positions among the first `i`. -/
def activeBefore (ts : List TokenSlot) (i : Nat) : Nat := ((ts.take i).filter fun p => p.index ≠ FREE).length

theorem activeBefore_succ_active {p : TokenSlot} {ts : List TokenSlot} {i : Nat} (h : p.index ≠ FREE) :
    activeBefore (p :: ts) (i + 1) = activeBefore ts i + 1 := by
  simp [activeBefore, h]

theorem activeBefore_succ_free {p : TokenSlot} {ts : List TokenSlot} {i : Nat} (h : p.index = FREE) :
    activeBefore (p :: ts) (i + 1) = activeBefore ts i := by
  simp [activeBefore, h]

/-- What the search of `ensure_token_position` finds. -/
theorem ensureLoop_spec {t : Nat} (ht : t ≠ FREE) : ∀ (ts : List TokenSlot) (raw act : Nat) (acc : Option (Nat × Nat)),
    (∃ i p, ts[i]? = some p ∧ p.index = t ∧ (∀ j q, j < i → ts[j]? = some q → q.index ≠ t) ∧
      ensureLoop t ts raw act acc = some (raw + i, act + activeBefore ts i)) ∨
    ((∀ p ∈ ts, p.index ≠ t) ∧
      ((acc ≠ none ∧ ensureLoop t ts raw act acc = acc) ∨
       (acc = none ∧
        ((∃ i p, ts[i]? = some p ∧ p.index = FREE ∧ (∀ j q, j < i → ts[j]? = some q → q.index ≠ FREE) ∧
            ensureLoop t ts raw act acc = some (raw + i, act + activeBefore ts i)) ∨
         ((∀ p ∈ ts, p.index ≠ FREE) ∧ ensureLoop t ts raw act acc = none))))) := by
  intro ts
  induction ts with
  | nil =>
    intro raw act acc
    right
    refine ⟨by simp, ?_⟩
    cases acc with
    | none => exact Or.inr ⟨rfl, Or.inr ⟨by simp, rfl⟩⟩
    | some x => exact Or.inl ⟨by simp, rfl⟩
  | cons p ps ih =>
    intro raw act acc
    by_cases h1 : p.index = t
    · left
      refine ⟨0, p, rfl, h1, by intros; omega, ?_⟩
      unfold ensureLoop
      rw [if_pos h1]; simp [activeBefore]
    · by_cases h2 : p.index ≠ FREE
      · have hstep : ensureLoop t (p :: ps) raw act acc = ensureLoop t ps (raw + 1) (act + 1) acc := by
          conv_lhs => unfold ensureLoop
          rw [if_neg h1, if_pos h2]
        rw [hstep]
        rcases ih (raw + 1) (act + 1) acc with ⟨i, q, a1, a2, a3, a4⟩ | ⟨a1, a2⟩
        · left
          refine ⟨i + 1, q, by simpa using a1, a2, ?_, ?_⟩
          · intro j r hj hr
            cases j with
            | zero => simp at hr; subst hr; exact h1
            | succ j => exact a3 j r (by omega) (by simpa using hr)
          · rw [a4, activeBefore_succ_active h2]; congr 2 <;> omega
        · right
          refine ⟨?_, ?_⟩
          · intro q hq
            rcases List.mem_cons.mp hq with rfl | hq
            · exact h1
            · exact a1 q hq
          · rcases a2 with a2 | ⟨hn, ⟨i, q, b1, b2, b3, b4⟩ | ⟨b1, b2⟩⟩
            · exact Or.inl a2
            · refine Or.inr ⟨hn, Or.inl ⟨i + 1, q, by simpa using b1, b2, ?_, ?_⟩⟩
              · intro j r hj hr
                cases j with
                | zero => simp at hr; subst hr; exact h2
                | succ j => exact b3 j r (by omega) (by simpa using hr)
              · rw [b4, activeBefore_succ_active h2]; congr 2 <;> omega
            · refine Or.inr ⟨hn, Or.inr ⟨?_, b2⟩⟩
              intro q hq
              rcases List.mem_cons.mp hq with rfl | hq
              · exact h2
              · exact b1 q hq
      · have h2' : p.index = FREE := by simpa using h2
        have hstep : ensureLoop t (p :: ps) raw act acc =
            ensureLoop t ps (raw + 1) act (if acc = none then some (raw, act) else acc) := by
          conv_lhs => unfold ensureLoop
          rw [if_neg h1, if_neg h2]
        rw [hstep]
        rcases ih (raw + 1) act (if acc = none then some (raw, act) else acc) with
          ⟨i, q, a1, a2, a3, a4⟩ | ⟨a1, a2⟩
        · left
          refine ⟨i + 1, q, by simpa using a1, a2, ?_, ?_⟩
          · intro j r hj hr
            cases j with
            | zero => simp at hr; subst hr; exact h1
            | succ j => exact a3 j r (by omega) (by simpa using hr)
          · rw [a4, activeBefore_succ_free h2']; congr 2; omega
        · right
          refine ⟨?_, ?_⟩
          · intro q hq
            rcases List.mem_cons.mp hq with rfl | hq
            · exact h1
            · exact a1 q hq
          · by_cases hacc : acc = none
            · refine Or.inr ⟨hacc, Or.inl ⟨0, p, rfl, h2', by intros; omega, ?_⟩⟩
              rw [if_pos hacc] at a2 ⊢
              rcases a2 with ⟨_, a2⟩ | ⟨a2, _⟩
              · rw [a2]; simp [activeBefore]
              · simp at a2
            · left
              rw [if_neg hacc] at a2 ⊢
              rcases a2 with a2 | ⟨a2, _⟩
              · exact a2
              · exact absurd a2 hacc

/-- What `ensure_token_position` does. -/
theorem ensureToken_spec {ts ts' : List TokenSlot} {t raw act : Nat} (ht : t ≠ FREE)
    (h : ensureToken ts t = .ok (ts', raw, act)) :
    (∃ p, ts[raw]? = some p ∧ p.index = t ∧ ts' = ts ∧ act = activeBefore ts raw ∧
      ∀ j q, j < raw → ts[j]? = some q → q.index ≠ t) ∨
    ((∀ p ∈ ts, p.index ≠ t) ∧ ∃ p, ts[raw]? = some p ∧ p.index = FREE ∧
      ts' = ts.set raw ⟨t, 0, 0⟩ ∧ act = activeBefore ts raw ∧
      ∀ j q, j < raw → ts[j]? = some q → q.index ≠ FREE) := by
  unfold ensureToken at h
  rcases ensureLoop_spec ht ts 0 0 none with ⟨i, p, a1, a2, a3, a4⟩ | ⟨a1, ⟨hc, _⟩ | ⟨_, ⟨i, p, b1, b2, b3, b4⟩ | ⟨b1, b2⟩⟩⟩
  · rw [a4] at h
    simp only [Nat.zero_add, a1, a2, if_true] at h
    simp only [Except.ok.injEq, Prod.mk.injEq] at h
    obtain ⟨rfl, rfl, rfl⟩ := h
    exact Or.inl ⟨p, a1, a2, rfl, rfl, a3⟩
  · exact absurd rfl hc
  · rw [b4] at h
    simp only [Nat.zero_add, b1] at h
    rw [if_neg (by rw [b2]; exact fun hc => ht hc.symm)] at h
    simp only [Except.ok.injEq, Prod.mk.injEq] at h
    obtain ⟨rfl, rfl, rfl⟩ := h
    exact Or.inr ⟨a1, p, b1, b2, rfl, rfl, b3⟩
  · rw [b2] at h; simp at h

/-- `ensure_token_position` only fails when the token has no position and no slot is free. -/
theorem ensureToken_total {ts : List TokenSlot} {t : Nat} (ht : t ≠ FREE)
    (h : (∃ p ∈ ts, p.index = t) ∨ ∃ p ∈ ts, p.index = FREE) : ∃ r, ensureToken ts t = .ok r := by
  unfold ensureToken
  rcases ensureLoop_spec ht ts 0 0 none with ⟨i, p, a1, a2, a3, a4⟩ | ⟨a1, ⟨hc, _⟩ | ⟨_, ⟨i, p, b1, b2, b3, b4⟩ | ⟨b1, b2⟩⟩⟩
  · rw [a4]; simp only [Nat.zero_add, a1]; exact ⟨_, rfl⟩
  · exact absurd rfl hc
  · rw [b4]; simp only [Nat.zero_add, b1]; exact ⟨_, rfl⟩
  · rcases h with ⟨p, hp, h⟩ | ⟨p, hp, h⟩
    · exact absurd h (a1 p hp)
    · exact absurd h (b1 p hp)

/-- The positions are unique per token, and the use counts are those given by `r`. -/
structure Uses (ts : List TokenSlot) (r : Nat → Int) : Prop where
  uniq : ∀ (i j : Nat) (p q : TokenSlot), ts[i]? = some p → ts[j]? = some q → p.index = q.index → p.index ≠ FREE → i = j
  count : ∀ p ∈ ts, p.index ≠ FREE → (p.inUse : Int) = r p.index
  held : ∀ t, t ≠ FREE → 0 < r t → ∃ p ∈ ts, p.index = t

theorem getElem?_set_cases {α : Type} {l : List α} {k i : Nat} {x y : α} (h : (l.set k y)[i]? = some x) :
    (i = k ∧ x = y) ∨ (i ≠ k ∧ l[i]? = some x) := by
  by_cases hik : i = k
  · subst hik
    left
    refine ⟨rfl, ?_⟩
    rw [List.getElem?_set_self'] at h
    cases hl : l[i]? with
    | none => rw [hl] at h; simp at h
    | some z => rw [hl] at h; simpa using h.symm
  · right
    rw [List.getElem?_set_ne (Ne.symm hik)] at h
    exact ⟨hik, h⟩

theorem mem_set_other {α : Type} {l : List α} {k : Nat} {x y z : α} (hk : l[k]? = some z) (hx : x ∈ l)
    (hne : x ≠ z) : x ∈ l.set k y := by
  obtain ⟨i, hi⟩ := List.mem_iff_getElem?.mp hx
  have : i ≠ k := by rintro rfl; rw [hk] at hi; exact hne (by simpa using hi.symm)
  exact List.mem_iff_getElem?.mpr ⟨i, by rw [List.getElem?_set_ne (Ne.symm this)]; exact hi⟩

theorem mem_set_self {α : Type} {l : List α} {k : Nat} {y z : α} (hk : l[k]? = some z) : y ∈ l.set k y := by
  refine List.mem_iff_getElem?.mpr ⟨k, ?_⟩
  rw [List.getElem?_set_self', hk]; rfl

/-- Replacing the data of one position while keeping its token. -/
theorem Uses.replace {ts : List TokenSlot} {r r' : Nat → Int} (h : Uses ts r) {raw : Nat} {p q : TokenSlot}
    (hp : ts[raw]? = some p) (hidx : q.index = p.index) (hfree : p.index ≠ FREE)
    (hcnt : (q.inUse : Int) = r' p.index) (hr : ∀ t, t ≠ p.index → r' t = r t) :
    Uses (ts.set raw q) r' := by
  have hmem : p ∈ ts := List.mem_iff_getElem?.mpr ⟨raw, hp⟩
  constructor
  · intro i j a b ha hb hab hf
    rcases getElem?_set_cases ha with ⟨rfl, rfl⟩ | ⟨hi, ha'⟩
    · rcases getElem?_set_cases hb with ⟨rfl, rfl⟩ | ⟨hj, hb'⟩
      · rfl
      · exact h.uniq i j p b hp hb' (by rw [← hidx]; exact hab) hfree
    · rcases getElem?_set_cases hb with ⟨rfl, rfl⟩ | ⟨hj, hb'⟩
      · exact h.uniq i j a p ha' hp (by rw [← hidx]; exact hab) hf
      · exact h.uniq i j a b ha' hb' hab hf
  · intro a ha hf
    obtain ⟨i, hi⟩ := List.mem_iff_getElem?.mp ha
    rcases getElem?_set_cases hi with ⟨rfl, rfl⟩ | ⟨hne, hi'⟩
    · rw [hidx]; exact hcnt
    · have hane : a.index ≠ p.index := fun hc => hne (h.uniq i raw a p hi' hp hc hf)
      rw [hr _ hane]
      exact h.count a (List.mem_iff_getElem?.mpr ⟨i, hi'⟩) hf
  · intro t ht hpos
    by_cases htp : t = p.index
    · exact ⟨q, mem_set_self hp, by rw [hidx, htp]⟩
    · rw [hr t htp] at hpos
      obtain ⟨a, ha, hat⟩ := h.held t ht hpos
      exact ⟨a, mem_set_other hp ha (fun hc => htp (by rw [← hat, hc])), hat⟩

/-- A new position in a free slot. -/
theorem Uses.activate {ts : List TokenSlot} {r r' : Nat → Int} (h : Uses ts r) {raw : Nat} {p q : TokenSlot}
    (hp : ts[raw]? = some p) (hfree : p.index = FREE) (hno : ∀ a ∈ ts, a.index ≠ q.index)
    (hq : q.index ≠ FREE) (hcnt : (q.inUse : Int) = r' q.index) (hr : ∀ t, t ≠ q.index → r' t = r t) :
    Uses (ts.set raw q) r' := by
  constructor
  · intro i j a b ha hb hab hf
    rcases getElem?_set_cases ha with ⟨rfl, rfl⟩ | ⟨hi, ha'⟩
    · rcases getElem?_set_cases hb with ⟨rfl, rfl⟩ | ⟨hj, hb'⟩
      · rfl
      · exact absurd hab.symm (hno b (List.mem_iff_getElem?.mpr ⟨j, hb'⟩))
    · rcases getElem?_set_cases hb with ⟨rfl, rfl⟩ | ⟨hj, hb'⟩
      · exact absurd hab (hno a (List.mem_iff_getElem?.mpr ⟨i, ha'⟩))
      · exact h.uniq i j a b ha' hb' hab hf
  · intro a ha hf
    obtain ⟨i, hi⟩ := List.mem_iff_getElem?.mp ha
    rcases getElem?_set_cases hi with ⟨rfl, rfl⟩ | ⟨hne, hi'⟩
    · exact hcnt
    · have hmem := List.mem_iff_getElem?.mpr ⟨i, hi'⟩
      rw [hr _ (hno a hmem)]
      exact h.count a hmem hf
  · intro t ht hpos
    by_cases htq : t = q.index
    · exact ⟨q, mem_set_self hp, htq.symm⟩
    · rw [hr t htq] at hpos
      obtain ⟨a, ha, hat⟩ := h.held t ht hpos
      exact ⟨a, mem_set_other hp ha (fun hc => ht (by rw [← hat, hc, hfree])), hat⟩

/-- Freeing a position whose token nobody uses. -/
theorem Uses.free {ts : List TokenSlot} {r : Nat → Int} (h : Uses ts r) {raw : Nat} {p : TokenSlot}
    (hp : ts[raw]? = some p) (h0 : p.inUse = 0) : Uses (ts.set raw { p with index := FREE }) r := by
  constructor
  · intro i j a b ha hb hab hf
    rcases getElem?_set_cases ha with ⟨rfl, rfl⟩ | ⟨hi, ha'⟩
    · exact absurd rfl hf
    · rcases getElem?_set_cases hb with ⟨rfl, rfl⟩ | ⟨hj, hb'⟩
      · exact absurd hab hf
      · exact h.uniq i j a b ha' hb' hab hf
  · intro a ha hf
    obtain ⟨i, hi⟩ := List.mem_iff_getElem?.mp ha
    rcases getElem?_set_cases hi with ⟨rfl, rfl⟩ | ⟨hne, hi'⟩
    · exact absurd rfl hf
    · exact h.count a (List.mem_iff_getElem?.mpr ⟨i, hi'⟩) hf
  · intro t ht hpos
    obtain ⟨a, ha, hat⟩ := h.held t ht hpos
    refine ⟨a, mem_set_other hp ha ?_, hat⟩
    rintro rfl
    have := h.count a ha (by rw [hat]; exact ht)
    rw [hat] at this
    omega

/-- The effect of one token on the counts. -/
def one (t x : Nat) : Int := if x = t then 1 else 0

theorem one_self (t : Nat) : one t t = 1 := by simp [one]
theorem one_ne {t x : Nat} (h : x ≠ t) : one t x = 0 := by simp [one, h]
theorem one_nonneg (t x : Nat) : 0 ≤ one t x := by unfold one; split <;> omega

theorem hold_spec {ts ts' : List TokenSlot} {r : Nat → Int} (h : Uses ts r) {t : Nat} (ht : t ≠ FREE)
    (hr : ∀ x, 0 ≤ r x) (e : holdToken ts t = .ok ts') : Uses ts' (fun x => r x + one t x) := by
  unfold holdToken at e
  rw [bind_ok] at e
  obtain ⟨⟨ts1, raw, act⟩, e1, e2⟩ := e
  simp only at e2
  unfold incUse at e2
  rcases ensureToken_spec ht e1 with ⟨p, h1, h2, rfl, _, _⟩ | ⟨h0, p, h1, h2, rfl, _, _⟩
  · rw [h1] at e2
    simp only at e2
    split at e2
    · rw [Except.ok.injEq] at e2
      subst e2
      have hc := h.count p (List.mem_iff_getElem?.mpr ⟨raw, h1⟩) (by rw [h2]; exact ht)
      refine h.replace h1 rfl (by rw [h2]; exact ht) ?_ ?_
      · rw [h2, one_self]; rw [h2] at hc; push_cast; omega
      · intro x hx; rw [one_ne (by rw [← h2]; exact hx)]; omega
    · simp at e2
  · have hz : r t = 0 := by
      by_contra hc
      have hpos : 0 < r t := by have := hr t; omega
      obtain ⟨a, ha, hat⟩ := h.held t ht hpos
      exact h0 a ha hat
    rw [List.getElem?_set_self', h1] at e2
    simp only [Option.map_eq_map, Option.map_some, Function.const_apply, Nat.zero_add] at e2
    rw [if_pos (by decide), Except.ok.injEq] at e2
    subst e2
    rw [List.set_set]
    refine h.activate h1 h2 h0 ht ?_ ?_
    · rw [one_self, hz]; rfl
    · intro x hx; rw [one_ne hx]; omega

theorem tokenRaw_of {ts : List TokenSlot} {t : Nat} (h : ∃ p ∈ ts, p.index = t) :
    ∃ raw p, tokenRaw ts t = .ok raw ∧ ts[raw]? = some p ∧ p.index = t := by
  unfold tokenRaw
  cases e : ts.findIdx? (fun p => p.index == t) with
  | none =>
    obtain ⟨p, hp, hpt⟩ := h
    have := findIdx?_none e p hp
    simp [hpt] at this
  | some i =>
    obtain ⟨x, h1, h2, _⟩ := findIdx?_some e
    exact ⟨i, x, rfl, h1, by simpa using h2⟩

theorem release_spec {ts : List TokenSlot} {r : Nat → Int} (h : Uses ts r) {t : Nat} (ht : t ≠ FREE)
    (hpos : 0 < r t) : ∃ ts', releaseToken ts t = .ok ts' ∧ Uses ts' (fun x => r x - one t x) := by
  obtain ⟨raw, p, h1, h2, h3⟩ := tokenRaw_of (h.held t ht hpos)
  have hc := h.count p (List.mem_iff_getElem?.mpr ⟨raw, h2⟩) (by rw [h3]; exact ht)
  refine ⟨ts.set raw { p with inUse := p.inUse - 1 }, ?_, ?_⟩
  · unfold releaseToken decUse
    rw [h1]
    simp only [bind, Except.bind, h2]
  · refine h.replace h2 rfl (by rw [h3]; exact ht) ?_ ?_
    · rw [h3, one_self]; rw [h3] at hc; show ((p.inUse - 1 : Nat) : Int) = _; omega
    · intro x hx; rw [one_ne (by rw [← h3]; exact hx)]; omega

theorem releaseDust_spec {ts : List TokenSlot} {r : Nat → Int} (h : Uses ts r) {t : Nat} (ht : t ≠ FREE)
    (hpos : 0 < r t) (d : Bool) :
    ∃ ts', releaseDust ts t d = .ok ts' ∧ Uses ts' (fun x => r x - one t x) := by
  obtain ⟨raw, p, h1, h2, h3⟩ := tokenRaw_of (h.held t ht hpos)
  have hc := h.count p (List.mem_iff_getElem?.mpr ⟨raw, h2⟩) (by rw [h3]; exact ht)
  have hU : Uses (ts.set raw { p with inUse := p.inUse - 1 }) (fun x => r x - one t x) := by
    refine h.replace h2 rfl (by rw [h3]; exact ht) ?_ ?_
    · rw [h3, one_self]; rw [h3] at hc; show ((p.inUse - 1 : Nat) : Int) = _; omega
    · intro x hx; rw [one_ne (by rw [← h3]; exact hx)]; omega
  have hget : (ts.set raw { p with inUse := p.inUse - 1 })[raw]? = some { p with inUse := p.inUse - 1 } := by
    rw [List.getElem?_set_self', h2]; rfl
  unfold releaseDust decUse
  rw [h1]
  simp only [bind, Except.bind, h2, hget]
  by_cases hz : p.inUse - 1 > 0
  · rw [if_pos hz]; exact ⟨_, rfl, hU⟩
  · rw [if_neg hz]
    cases d with
    | false => exact ⟨_, rfl, hU⟩
    | true =>
      rw [if_pos rfl]
      unfold deactivateToken
      simp only [hget]
      rw [if_pos (by omega)]
      exact ⟨_, rfl, hU.free hget (by show p.inUse - 1 = 0; omega)⟩

end Mango.Slots
