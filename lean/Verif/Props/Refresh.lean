import Verif.Client.Refresh
/-!
# C110: refreshing accounts after a transaction
-/
namespace Mango
namespace Refresh

variable {A D : Type}

theorem refresh_eq {c c' : Chain A D} {a : A} {ans : Answer D} {s : Nat} (h : refresh c a ans = some (s, c')) :
    ∃ d, ans = some (s, d) ∧ c'.upds = ⟨a, s, d⟩ :: c.upds ∧ c.best ≤ c'.best ∧ s ≤ c'.best ∧
      (c'.best = c.best ∨ c'.best = s) := by
  unfold refresh at h
  cases ans with
  | none => cases h
  | some x =>
    obtain ⟨s', d⟩ := x
    simp only [Option.some.injEq, Prod.mk.injEq] at h
    obtain ⟨rfl, rfl⟩ := h
    refine ⟨d, rfl, rfl, ?_, ?_, ?_⟩ <;> simp only <;> split <;> omega

/-- **C110.** However waiting ends, the chain data has only learnt what the node answered for the asked accounts, has forgotten nothing, and its best slot is its old one or that of an answer (not before
any of the answers). -/
theorem C110_only (min timeout : Nat) (ts : List (Turn A D)) : ∀ (as : List A) (c : Chain A D),
    let c' := (refreshUntil min timeout as ts c).2
    c.upds <:+ c'.upds ∧ c.best ≤ c'.best ∧
    (c'.best = c.best ∨ ∃ u ∈ c'.upds, u.slot = c'.best) ∧
    ∀ u ∈ c'.upds, u ∈ c.upds ∨
      (u.slot ≤ c'.best ∧ u.address ∈ as ∧ ∃ t ∈ ts, t.elapsed ≤ timeout ∧ t.answer u.address = some (u.slot, u.data)) := by
  induction ts with
  | nil =>
    intro as c
    cases as <;> exact ⟨List.suffix_rfl, Nat.le_refl _, .inl rfl, fun u hu => .inl hu⟩
  | cons t ts ih =>
    intro as c
    cases as with
    | nil => exact ⟨List.suffix_rfl, Nat.le_refl _, .inl rfl, fun u hu => .inl hu⟩
    | cons a as =>
      unfold refreshUntil
      by_cases ht : t.elapsed > timeout
      · rw [if_pos ht]
        exact ⟨List.suffix_rfl, Nat.le_refl _, .inl rfl, fun u hu => .inl hu⟩
      · rw [if_neg ht]
        cases hr : refresh c a (t.answer a) with
        | none => exact ⟨List.suffix_rfl, Nat.le_refl _, .inl rfl, fun u hu => .inl hu⟩
        | some x =>
          obtain ⟨s, c1⟩ := x
          obtain ⟨d, e1, e2, e3, e4, e5⟩ := refresh_eq hr
          have key : ∀ as', (∀ x ∈ as', x ∈ a :: as) →
              let c' := (refreshUntil min timeout as' ts c1).2
              c.upds <:+ c'.upds ∧ c.best ≤ c'.best ∧
              (c'.best = c.best ∨ ∃ u ∈ c'.upds, u.slot = c'.best) ∧
              ∀ u ∈ c'.upds, u ∈ c.upds ∨
                (u.slot ≤ c'.best ∧ u.address ∈ a :: as ∧
                  ∃ t' ∈ t :: ts, t'.elapsed ≤ timeout ∧ t'.answer u.address = some (u.slot, u.data)) := by
            intro as' hsub
            obtain ⟨i1, i2, i3, i4⟩ := ih as' c1
            have hmem : (⟨a, s, d⟩ : Upd A D) ∈ (refreshUntil min timeout as' ts c1).2.upds :=
              i1.mem (by rw [e2]; simp)
            refine ⟨List.IsSuffix.trans (by rw [e2]; exact List.suffix_cons _ _) i1, Nat.le_trans e3 i2, ?_, ?_⟩
            · rcases i3 with i3 | i3
              · rcases e5 with e5 | e5
                · exact .inl (i3.trans e5)
                · exact .inr ⟨_, hmem, by rw [i3, e5]⟩
              · exact .inr i3
            · intro u hu
              rcases i4 u hu with h | ⟨h0, h1, t', h2, h3⟩
              · rw [e2, List.mem_cons] at h
                rcases h with rfl | h
                · exact .inr ⟨Nat.le_trans e4 i2, by simp, t, by simp, by omega, e1⟩
                · exact .inl h
              · exact .inr ⟨h0, hsub _ h1, t', by simp [h2], h3⟩
          by_cases hs : s ≥ min
          · simp only [if_pos hs]; exact key as (fun x hx => by simp [hx])
          · simp only [if_neg hs]; exact key (a :: as) (fun x hx => hx)

/-- **C110.** If waiting succeeds, every account was answered for within the timeout as of the wanted slot or a later one, and the chain data has that answer on its best chain; it fails only when the
node did, for one of the accounts, and times out only past the timeout. -/
theorem C110_ends (min timeout : Nat) (ts : List (Turn A D)) : ∀ (as : List A) (c : Chain A D),
    let r := refreshUntil min timeout as ts c
    (r.1 = .done → ∀ a ∈ as, ∃ u ∈ r.2.upds, u.address = a ∧ min ≤ u.slot ∧ u.slot ≤ r.2.best ∧
      ∃ t ∈ ts, t.elapsed ≤ timeout ∧ t.answer a = some (u.slot, u.data)) ∧
    (r.1 = .failed → ∃ a ∈ as, ∃ t ∈ ts, t.answer a = none) ∧
    (r.1 = .timeout → ∃ t ∈ ts, timeout < t.elapsed) ∧
    (r.1 = .pending → as ≠ [] ∧ ∀ t ∈ ts, t.elapsed ≤ timeout) := by
  induction ts with
  | nil => intro as c; cases as <;> simp [refreshUntil]
  | cons t ts ih =>
    intro as c
    cases as with
    | nil => simp [refreshUntil]
    | cons a as =>
      unfold refreshUntil
      by_cases ht : t.elapsed > timeout
      · rw [if_pos ht]
        refine ⟨by simp, by simp, fun _ => ⟨t, by simp, ht⟩, by simp⟩
      · rw [if_neg ht]
        cases hr : refresh c a (t.answer a) with
        | none =>
          have : t.answer a = none := by
            unfold refresh at hr
            cases hx : t.answer a with
            | none => rfl
            | some x => rw [hx] at hr; simp at hr
          exact ⟨by simp, fun _ => ⟨a, by simp, t, by simp, this⟩, by simp, by simp⟩
        | some x =>
          obtain ⟨s, c1⟩ := x
          obtain ⟨d, e1, e2, e3, e4, e5⟩ := refresh_eq hr
          by_cases hs : s ≥ min
          · simp only [if_pos hs]
            obtain ⟨i1, i2, i3, i4⟩ := ih as c1
            obtain ⟨o1, o2, _, _⟩ := C110_only min timeout ts as c1
            refine ⟨?_, ?_, ?_, ?_⟩
            · intro h x hx
              rcases List.mem_cons.mp hx with rfl | hx
              · exact ⟨⟨x, s, d⟩, o1.mem (by rw [e2]; simp), rfl, hs, Nat.le_trans e4 o2, t, by simp, by omega, e1⟩
              · obtain ⟨u, h1, h2, h3, h4, t', h5, h6⟩ := i1 h x hx
                exact ⟨u, h1, h2, h3, h4, t', by simp [h5], h6⟩
            · intro h
              obtain ⟨x, hx, t', h5, h6⟩ := i2 h
              exact ⟨x, by simp [hx], t', by simp [h5], h6⟩
            · intro h
              obtain ⟨t', h5, h6⟩ := i3 h
              exact ⟨t', by simp [h5], h6⟩
            · intro h
              refine ⟨by simp, fun t' h' => ?_⟩
              rcases List.mem_cons.mp h' with rfl | h'
              · omega
              · exact (i4 h).2 t' h'
          · simp only [if_neg hs]
            obtain ⟨i1, i2, i3, i4⟩ := ih (a :: as) c1
            refine ⟨?_, ?_, ?_, ?_⟩
            · intro h x hx
              obtain ⟨u, h1, h2, h3, h4, t', h5, h6⟩ := i1 h x hx
              exact ⟨u, h1, h2, h3, h4, t', by simp [h5], h6⟩
            · intro h
              obtain ⟨x, hx, t', h5, h6⟩ := i2 h
              exact ⟨x, hx, t', by simp [h5], h6⟩
            · intro h
              obtain ⟨t', h5, h6⟩ := i3 h
              exact ⟨t', by simp [h5], h6⟩
            · intro h
              refine ⟨by simp, fun t' h' => ?_⟩
              rcases List.mem_cons.mp h' with rfl | h'
              · omega
              · exact (i4 h).2 t' h'

theorem le_maxSlot {statuses : List (Option Nat)} {s : Nat} (h : some s ∈ statuses) : s ≤ maxSlot statuses := by
  unfold maxSlot
  induction statuses with
  | nil => simp at h
  | cons x xs ih =>
    simp only [List.map_cons, List.foldr_cons]
    rcases List.mem_cons.mp h with rfl | h
    · exact Nat.le_max_left _ _
    · exact Nat.le_trans (ih h) (Nat.le_max_right _ _)

theorem maxSlot_mem {statuses : List (Option Nat)} : maxSlot statuses = 0 ∨ some (maxSlot statuses) ∈ statuses := by
  unfold maxSlot
  induction statuses with
  | nil => left; rfl
  | cons x xs ih =>
    simp only [List.map_cons, List.foldr_cons]
    rcases Nat.le_total (x.getD 0) ((xs.map fun s => s.getD 0).foldr max 0) with h | h
    · rw [Nat.max_eq_right h]
      rcases ih with h | h
      · exact .inl h
      · exact .inr (by simp [h])
    · rw [Nat.max_eq_left h]
      cases x with
      | none => left; rfl
      | some x => right; simp

/-- **C110.** After sending transactions that the node knows, successful waiting leaves, for each of the accounts, data on the best chain as of a slot not before any of the transactions': if an effect of
the transactions shows in the account from their last slot on, it shows in the data. -/
theorem C110_after {statuses : List (Option Nat)} {timeout : Nat} {as : List A} {ts : List (Turn A D)} {c c' : Chain A D}
    (h : afterSending statuses timeout as ts c = (.done, c')) :
    (∀ a ∈ as, ∃ u ∈ c'.upds, u.address = a ∧ u.slot ≤ c'.best ∧ ∀ s, some s ∈ statuses → s ≤ u.slot) ∧
    ∀ (shows : A → D → Prop), (∀ a ∈ as, ∀ t ∈ ts, ∀ s d, t.answer a = some (s, d) →
        (∀ x, some x ∈ statuses → x ≤ s) → shows a d) →
      ∀ a ∈ as, ∃ u ∈ c'.upds, u.address = a ∧ u.slot ≤ c'.best ∧ shows a u.data := by
  have e := (C110_ends (maxSlot statuses) timeout ts as c).1
  unfold afterSending at h
  rw [h] at e
  refine ⟨?_, ?_⟩
  · intro a ha
    obtain ⟨u, h1, h2, h3, h4, _⟩ := e rfl a ha
    exact ⟨u, h1, h2, h4, fun s hs => Nat.le_trans (le_maxSlot hs) h3⟩
  · intro shows hshows a ha
    obtain ⟨u, h1, h2, h3, h4, t, h5, _, h6⟩ := e rfl a ha
    exact ⟨u, h1, h2, h4, hshows a ha t h5 _ _ h6 (fun x hx => Nat.le_trans (le_maxSlot hx) h3)⟩

/-- **C110.** Waiting ends as soon as every account was answered for late enough: if the node always answers, within the timeout and as of the wanted slot or later, one turn per account suffices. -/
theorem C110_live (min timeout : Nat) (as : List A) : ∀ (ts : List (Turn A D)) (c : Chain A D),
    (∀ t ∈ ts, t.elapsed ≤ timeout ∧ ∀ a ∈ as, ∃ s d, t.answer a = some (s, d) ∧ min ≤ s) → as.length ≤ ts.length →
    (refreshUntil min timeout as ts c).1 = .done := by
  induction as with
  | nil => intro ts c _ _; cases ts <;> rfl
  | cons a as ih =>
    intro ts c h hl
    cases ts with
    | nil => simp at hl
    | cons t ts =>
      obtain ⟨h1, h2⟩ := h t (by simp)
      obtain ⟨s, d, h3, h4⟩ := h2 a (by simp)
      unfold refreshUntil
      rw [if_neg (by omega), h3]
      simp only [refresh]
      rw [if_pos h4]
      refine ih ts _ (fun t' ht' => ?_) (by simpa using hl)
      obtain ⟨k1, k2⟩ := h t' (by simp [ht'])
      exact ⟨k1, fun x hx => k2 x (by simp [hx])⟩

/-- **C110, the limit.** When the node knows none of the transactions yet, any answers end the waiting, however old. -/
theorem C110_unknown (timeout : Nat) (n : Nat) (as : List A) (ts : List (Turn A D)) (c : Chain A D)
    (h : ∀ t ∈ ts, t.elapsed ≤ timeout ∧ ∀ a ∈ as, t.answer a ≠ none) (hl : as.length ≤ ts.length) :
    (afterSending (List.replicate n none) timeout as ts c).1 = .done := by
  have h0 : maxSlot (List.replicate n none) = 0 := by
    rcases maxSlot_mem (statuses := List.replicate n none) with h | h
    · exact h
    · have := List.eq_of_mem_replicate h; simp at this
  unfold afterSending
  rw [h0]
  refine C110_live 0 timeout as ts c (fun t ht => ⟨(h t ht).1, fun a ha => ?_⟩) hl
  cases hx : t.answer a with
  | none => exact absurd hx ((h t ht).2 a ha)
  | some x => exact ⟨x.1, x.2, rfl, Nat.zero_le _⟩

/-! ## Examples: the transactions are in slots 7 and 9; account 1 is answered for as of slots 8 and 9 -/

/-- the turns of the example -/
def exTurns : List (Turn Nat Nat) :=
  [⟨0, fun _ => some (8, 80)⟩, ⟨500, fun _ => some (9, 90)⟩, ⟨510, fun a => if a = 2 then some (12, 95) else none⟩]

example : (afterSending [some 9, some 7] 600 [1, 2] exTurns ⟨5, []⟩).1 = .done ∧
    (afterSending [some 9, some 7] 600 [1, 2] exTurns ⟨5, []⟩).2.upds = [⟨2, 12, 95⟩, ⟨1, 9, 90⟩, ⟨1, 8, 80⟩] ∧
    (afterSending [some 9, some 7] 600 [1, 2] exTurns ⟨5, []⟩).2.best = 12 := by decide
example : (afterSending [some 9] 499 [1] exTurns ⟨5, []⟩).1 = .timeout := by decide
example : (afterSending [some 10] 600 [1] exTurns ⟨5, []⟩).1 = .failed := by decide
example : (afterSending [some 20] 600 [2] exTurns ⟨5, []⟩).1 = .pending := by decide

end Refresh
end Mango
