import Verif.Client.Confirm
import Mathlib.Tactic.Common
/-!
# C106, C107: what a confirmation tells, and when errors surface
-/
namespace Mango
namespace Confirm

/-! ## Specification -/

/-- a node that follows one fork: at each time, what has become of the transaction and whether its blockhash can still be used.  A
transaction seen stays, with its error, and only becomes more final; an unusable blockhash stays unusable and nothing lands with it. -/
structure World where
  seen : Nat → Option Status
  valid : Nat → Bool
  stays : ∀ t t' s, t ≤ t' → seen t = some s → ∃ s', seen t' = some s' ∧ s'.err = s.err ∧ s.level.rank ≤ s'.level.rank
  invalid : ∀ t t', t ≤ t' → valid t = false → valid t' = false
  closed : ∀ t t', t ≤ t' → valid t = false → seen t = none → seen t' = none

/-- the turn's answers are truthful: the status is that of some time `q` between the two checks, the validity that of some time
`q'` after the second check -/
def Truthful (w : World) (t : Turn) (q q' : Nat) : Prop :=
  t.time1 ≤ q ∧ q ≤ t.time2 ∧ t.time2 ≤ q' ∧ t.statuses = some [w.seen q] ∧ t.valid = some (w.valid q')

/-! ## Proofs -/

theorem wait_turn {c : Cfg} {ts : List Turn} {r : Except Err Status} (h : wait c ts = some r) : ∃ t ∈ ts, turn c t = some r := by
  induction ts with
  | nil => simp [wait] at h
  | cons t ts ih =>
    simp only [wait] at h
    cases ht : turn c t with
    | some r' => rw [ht] at h; exact ⟨t, by simp, by rw [← h]; exact ht⟩
    | none =>
      rw [ht] at h
      obtain ⟨t', h1, h2⟩ := ih h
      exact ⟨t', by simp [h1], h2⟩

theorem wait_some {c : Cfg} {ts : List Turn} {t : Turn} (ht : t ∈ ts) (h : turn c t ≠ none) : wait c ts ≠ none := by
  induction ts with
  | nil => simp at ht
  | cons x ts ih =>
    simp only [wait]
    cases hx : turn c x with
    | some r => simp
    | none =>
      rcases List.mem_cons.mp ht with rfl | ht
      · exact absurd hx h
      · exact ih ht

/-- what each result of a turn means -/
theorem turn_ok {c : Cfg} {t : Turn} {st : Status} (h : turn c t = some (.ok st)) :
    (∃ l, t.statuses = some (some st :: l)) ∧ c.commitment.rank ≤ st.level.rank ∧ ∀ d, c.timeout = some d → t.time1 ≤ d := by
  unfold turn at h
  split at h
  · simp at h
  next hto =>
  have hd : ∀ d, c.timeout = some d → t.time1 ≤ d := by
    intro d hd
    unfold Cfg.timedOut at hto
    rw [hd] at hto
    simpa using hto
  split at h
  · simp at h
  · simp at h
  · split at h
    · split at h <;> simp at h
    · simp at h
  next st' l hs =>
    split at h
    next hsat =>
      simp only [Option.some.injEq, Except.ok.injEq] at h
      subst h
      exact ⟨⟨l, hs⟩, by simpa [Status.satisfies] using hsat, hd⟩
    · simp at h

theorem turn_expired {c : Cfg} {t : Turn} (h : turn c t = some (.error .blockhashExpired)) :
    (∃ l, t.statuses = some (none :: l)) ∧ c.initialTimeout < t.time2 ∧ t.valid = some false := by
  unfold turn at h
  split at h
  · simp at h
  split at h
  · simp at h
  · simp at h
  next l hs =>
    split at h
    next h2 =>
      split at h
      · simp at h
      · simp at h
      next hv => exact ⟨⟨l, hs⟩, h2, hv⟩
    · simp at h
  · split at h <;> simp at h

theorem turn_timeout {c : Cfg} {t : Turn} (h : turn c t = some (.error .timeout)) : ∃ d, c.timeout = some d ∧ d < t.time1 := by
  unfold turn at h
  split at h
  next hto =>
    unfold Cfg.timedOut at hto
    cases hc : c.timeout with
    | none => rw [hc] at hto; simp at hto
    | some d => rw [hc] at hto; exact ⟨d, rfl, by simpa using hto⟩
  · split at h
    · simp at h
    · simp at h
    · split at h
      · split at h <;> simp at h
      · simp at h
    · split at h <;> simp at h

/-- **C106 (confirmed).** If waiting returns a status, the node answered with it, and it has the wanted commitment; if the node is
truthful, the transaction is in the chain from then on, at least as final, with that very error or success. -/
theorem C106_confirmed {c : Cfg} {ts : List Turn} {st : Status} (h : wait c ts = some (.ok st)) :
    ∃ t ∈ ts, (∃ l, t.statuses = some (some st :: l)) ∧ c.commitment.rank ≤ st.level.rank ∧
      ∀ w q q', Truthful w t q q' → ∀ t', q ≤ t' → ∃ s', w.seen t' = some s' ∧ s'.err = st.err ∧ c.commitment.rank ≤ s'.level.rank := by
  obtain ⟨t, ht, h1⟩ := wait_turn h
  obtain ⟨⟨l, hl⟩, h2, _⟩ := turn_ok h1
  refine ⟨t, ht, ⟨l, hl⟩, h2, ?_⟩
  intro w q q' hT t' hq
  obtain ⟨_, _, _, hs, _⟩ := hT
  rw [hl] at hs
  simp only [Option.some.injEq, List.cons.injEq] at hs
  obtain ⟨s', g1, g2, g3⟩ := w.stays q t' st hq hs.1.symm
  exact ⟨s', g1, g2, Nat.le_trans h2 g3⟩

/-- **C106 (expired).** If waiting returns that the blockhash has expired, the first timeout has passed; and if the node is truthful
the transaction was not in the chain at the time of a status query, and it never will be, unless it came into the chain between
that query and the following query for the blockhash. -/
theorem C106_expired {c : Cfg} {ts : List Turn} (h : wait c ts = some (.error .blockhashExpired)) :
    ∃ t ∈ ts, c.initialTimeout < t.time2 ∧ ∀ w q q', Truthful w t q q' →
      w.seen q = none ∧ ((∀ t', w.seen t' = none) ∨ ∃ x, q < x ∧ x ≤ q' ∧ w.seen x ≠ none) := by
  obtain ⟨t, ht, h1⟩ := wait_turn h
  obtain ⟨⟨l, hl⟩, h2, h3⟩ := turn_expired h1
  refine ⟨t, ht, h2, ?_⟩
  intro w q q' hT
  obtain ⟨_, hq1, hq2, hs, hv⟩ := hT
  rw [hl] at hs
  simp only [Option.some.injEq, List.cons.injEq] at hs
  rw [h3] at hv
  simp only [Option.some.injEq] at hv
  have hn : w.seen q = none := hs.1.symm
  refine ⟨hn, ?_⟩
  cases hq : w.seen q' with
  | none =>
    left
    intro t'
    by_cases ht' : q' ≤ t'
    · exact w.closed q' t' ht' hv.symm hq
    · cases hx : w.seen t' with
      | none => rfl
      | some s =>
        obtain ⟨s', g, _⟩ := w.stays t' q' s (by omega) hx
        rw [hq] at g; simp at g
  | some s =>
    right
    refine ⟨q', ?_, Nat.le_refl _, by rw [hq]; simp⟩
    rcases Nat.lt_or_ge q q' with h | h
    · exact h
    · have : q = q' := by omega
      rw [this, hq] at hn; simp at hn

/-- **C106 (timeout).** A timeout is only returned after it has passed; and once it has, the next turn does not wait any more. -/
theorem C106_timeout {c : Cfg} {ts : List Turn} :
    (wait c ts = some (.error .timeout) → ∃ t ∈ ts, ∃ d, c.timeout = some d ∧ d < t.time1) ∧
    ∀ d, c.timeout = some d → (∃ t ∈ ts, d < t.time1) → wait c ts ≠ none := by
  constructor
  · intro h
    obtain ⟨t, ht, h1⟩ := wait_turn h
    exact ⟨t, ht, turn_timeout h1⟩
  · rintro d hd ⟨t, ht, h1⟩
    apply wait_some ht
    unfold turn
    rw [if_pos (by unfold Cfg.timedOut; rw [hd]; simpa using h1)]
    simp

/-- **C106 (ends).** With a truthful node waiting ends: as soon as a turn's queries see the transaction at the wanted commitment, or
after the first timeout find it missing with an unusable blockhash. -/
theorem C106_ends {c : Cfg} {ts : List Turn} {t : Turn} (ht : t ∈ ts) {w : World} {q q' : Nat} (hT : Truthful w t q q')
    (h : (∃ s, w.seen q = some s ∧ c.commitment.rank ≤ s.level.rank) ∨ (w.seen q = none ∧ w.valid q' = false ∧ c.initialTimeout < t.time2)) :
    wait c ts ≠ none := by
  apply wait_some ht
  obtain ⟨_, _, _, hs, hv⟩ := hT
  unfold turn
  split
  · simp
  rcases h with ⟨s, h1, h2⟩ | ⟨h1, h2, h3⟩
  · rw [hs, h1]
    simp [Status.satisfies, h2]
  · rw [hs, h1, hv, h2]
    simp [h3]

/-- **C106 (sent).** If sending and confirming succeeds some node took the transaction and it is confirmed as above — whether it
executed or failed.  If no node takes it, it fails. -/
theorem C106_sent {c : Cfg} {results : List Bool} {ts : List Turn} :
    (sendAndConfirm c results ts = some (.ok ()) ↔ true ∈ results ∧ ∃ st, wait c ts = some (.ok st)) ∧
    (true ∉ results → sendAndConfirm c results ts = some (.error .client)) := by
  have h1 : (results.filter (fun r => r) = []) ↔ true ∉ results := by simp
  unfold sendAndConfirm send
  by_cases h : true ∈ results
  · rw [if_neg (by rw [h1]; simpa using h)]
    refine ⟨?_, fun hn => absurd h hn⟩
    cases hw : wait c ts with
    | none => simp
    | some r => cases r <;> simp [h]
  · rw [if_pos (h1.mpr h)]
    simp [h]

/-! ### Examples -/

def exCfg : Cfg := { commitment := .confirmed, initialTimeout := 5000, timeout := none }

/-- it lands at time `at` with error `err` and is confirmed 500 later; the blockhash is usable before time `b` -/
def landsAt (t0 b : Nat) (err : Option Nat) (h : t0 < b) : World where
  seen t := if t < t0 then none else some { level := if t < t0 + 500 then .processed else .confirmed, err }
  valid t := decide (t < b)
  stays := by
    intro t t' s h1 h2
    by_cases h3 : t < t0
    · simp [h3] at h2
    · simp only [h3, if_false, Option.some.injEq] at h2
      subst h2
      have h4 : ¬ t' < t0 := by omega
      simp only [h4, if_false, Option.some.injEq, exists_eq_left', true_and]
      by_cases h5 : t < t0 + 500 <;> by_cases h6 : t' < t0 + 500 <;> simp [h5, h6, Level.rank]
      omega
  invalid := by intro t t' h1 h2; simp at h2 ⊢; omega
  closed := by
    intro t t' h1 h2 h3
    simp at h2 h3
    omega

-- a transaction that failed is reported as sent and confirmed
example : ∃ w : World, (∀ t s, w.seen t = some s → s.err = some 7) ∧ ∃ ts : List Turn,
    (∀ t ∈ ts, ∃ q q', Truthful w t q q') ∧ sendAndConfirm exCfg [true] ts = some (.ok ()) := by
  refine ⟨landsAt 600 60000 (some 7) (by omega), ?_, [⟨500, some [none], 501, some true⟩, ⟨1000, some [some ⟨.processed, some 7⟩], 1001, some true⟩,
    ⟨1500, some [some ⟨.confirmed, some 7⟩], 1501, some true⟩], ?_, by decide⟩
  · intro t s h
    by_cases h1 : t < 600
    · simp [landsAt, h1] at h
    · simp only [landsAt, h1, if_false, Option.some.injEq] at h
      rw [← h]
  · intro t ht
    simp only [List.mem_cons, List.not_mem_nil, or_false] at ht
    rcases ht with rfl | rfl | rfl
    · exact ⟨500, 501, by simp [Truthful, landsAt]⟩
    · exact ⟨1000, 1001, by simp [Truthful, landsAt]⟩
    · exact ⟨1500, 1501, by simp [Truthful, landsAt]⟩

-- a transaction that lands just before its blockhash expires, between the two queries, is reported as expired although it succeeded
example : ∃ w : World, (∃ t, w.seen t = some ⟨.confirmed, none⟩) ∧ ∃ ts : List Turn,
    (∀ t ∈ ts, ∃ q q', Truthful w t q q') ∧ sendAndConfirm exCfg [true] ts = some (.error .blockhashExpired) := by
  refine ⟨landsAt 60005 60010 none (by omega), ⟨70000, by simp [landsAt]⟩, [⟨60000, some [none], 60003, some false⟩], ?_, by decide⟩
  intro t ht
  simp only [List.mem_cons, List.not_mem_nil, or_false] at ht
  subst ht
  exact ⟨60002, 60020, by simp [Truthful, landsAt]⟩

end Confirm

namespace Retry

/-! ## Specification -/

/-- how many of the latest results are errors -/
def streak {α : Type} : List (Except Nat α) → Nat
  | [] => 0
  | .error _ :: rs => streak rs + 1
  | .ok _ :: _ => 0

/-! ## Proofs -/

theorem run_append {α : Type} (c : Counter) (a b : List (Except Nat α)) :
    run c (a ++ b) = ((run (run c a).1 b).1, (run c a).2 ++ (run (run c a).1 b).2) := by
  induction a generalizing c with
  | nil => rfl
  | cons r a ih => simp only [List.cons_append, run, ih]

theorem run_errors {α : Type} (max : Nat) (rs : List (Except Nat α)) :
    (run (Counter.new max) rs.reverse).1.max = max ∧ (run (Counter.new max) rs.reverse).1.errors = streak rs % (max + 1) := by
  induction rs with
  | nil => simp [run, Counter.new, streak]
  | cons r rs ih =>
    obtain ⟨h1, h2⟩ := ih
    rw [List.reverse_cons, run_append]
    generalize run (Counter.new max) rs.reverse = x at *
    obtain ⟨⟨n, m⟩, xs⟩ := x
    simp only at h1 h2
    subst h1 h2
    have hlt := Nat.mod_lt (streak rs) (show 0 < m + 1 by omega)
    cases r with
    | ok v => simp [run, Counter.failOrIgnore, streak]
    | error e =>
      simp only [run, Counter.failOrIgnore, streak]
      by_cases hle : streak rs % (m + 1) + 1 ≤ m
      · rw [if_pos hle]
        refine ⟨rfl, ?_⟩
        show streak rs % (m + 1) + 1 = _
        rw [Nat.add_mod]
        rcases Nat.eq_zero_or_pos m with rfl | hm
        · omega
        · rw [Nat.mod_eq_of_lt (show 1 < m + 1 by omega), Nat.mod_eq_of_lt (by omega : streak rs % (m + 1) + 1 < m + 1)]
      · rw [if_neg hle]
        refine ⟨rfl, ?_⟩
        show 0 = _
        have : streak rs % (m + 1) = m := by omega
        rw [Nat.add_mod, this]
        rcases Nat.eq_zero_or_pos m with rfl | hm
        · simp
        · rw [Nat.mod_eq_of_lt (show 1 < m + 1 by omega), Nat.mod_self]

/-- **C107 (counter).** Whatever the results so far, a success is passed on; an error is swallowed, except that each time `max + 1`
errors in a row have come since the last success or the last error passed on, the last of them is passed on. -/
theorem C107_counter {α : Type} (max : Nat) (rs : List (Except Nat α)) (r : Except Nat α) :
    (run (Counter.new max) (rs ++ [r])).2 = (run (Counter.new max) rs).2 ++
      [match r with
        | .ok v => .ok (some v)
        | .error e => if (streak (r :: rs.reverse)) % (max + 1) = 0 then .error e else .ok none] := by
  rw [run_append]
  obtain ⟨h1, h2⟩ := run_errors max rs.reverse
  rw [List.reverse_reverse] at h1 h2
  generalize run (Counter.new max) rs = x at *
  obtain ⟨⟨n, m⟩, xs⟩ := x
  simp only at h1 h2
  subst h1 h2
  have hlt := Nat.mod_lt (streak rs.reverse) (show 0 < m + 1 by omega)
  cases r with
  | ok v => rfl
  | error e =>
    have key : (streak rs.reverse + 1) % (m + 1) = 0 ↔ ¬ streak rs.reverse % (m + 1) + 1 ≤ m := by
      constructor
      · intro h hle
        rw [Nat.add_mod] at h
        rw [Nat.mod_eq_of_lt (show 1 < m + 1 by omega), Nat.mod_eq_of_lt (by omega : streak rs.reverse % (m + 1) + 1 < m + 1)] at h
        omega
      · intro h
        have : streak rs.reverse % (m + 1) = m := by omega
        rw [Nat.add_mod, this]
        rcases Nat.eq_zero_or_pos m with rfl | hm
        · simp
        · rw [Nat.mod_eq_of_lt (show 1 < m + 1 by omega), Nat.mod_self]
    by_cases hle : streak rs.reverse % (m + 1) + 1 ≤ m
    · have h0 : ¬ streak (Except.error e :: rs.reverse) % (m + 1) = 0 := fun h => key.mp h hle
      simp only [run, Counter.failOrIgnore]
      rw [if_pos hle, if_neg h0]
    · have h0 : streak (Except.error e :: rs.reverse) % (m + 1) = 0 := key.mpr hle
      simp only [run, Counter.failOrIgnore]
      rw [if_neg hle, if_pos h0]

theorem retry_errors {α : Type} (max n : Nat) (hn : n ≤ max) (rest : List (Except Nat α)) : ∀ (k : Nat) (es : List Nat), es.length + k = n →
    failOrRetry { errors := k, max } (es.map .error ++ rest) = failOrRetry { errors := n, max } rest := by
  intro k es
  induction es generalizing k with
  | nil => intro h; simp only [List.length_nil, Nat.zero_add] at h; subst h; rfl
  | cons e es ih =>
    intro h
    simp only [List.length_cons] at h
    simp only [List.map_cons, List.cons_append, failOrRetry, Counter.failOrIgnore]
    rw [if_pos (by omega)]
    exact ih (k + 1) (by omega)

/-- **C107 (retry).** Retrying evaluates the expression until it succeeds, but at most `max + 1` times: after at most `max` errors the
success is the result, otherwise error number `max + 1`; nothing is evaluated after that, and the counter can be used again as new. -/
theorem C107_retry {α : Type} (max : Nat) (es : List Nat) (rest : List (Except Nat α)) :
    (∀ v, es.length ≤ max → failOrRetry (Counter.new max) (es.map .error ++ .ok v :: rest) = (Counter.new max, some (.ok v, rest))) ∧
    (∀ e, es.length = max → failOrRetry (Counter.new max) (es.map .error ++ .error e :: rest) = (Counter.new max, some (.error e, rest))) := by
  constructor
  · intro v h
    have := retry_errors max es.length h (.ok v :: rest) 0 es (by simp)
    unfold Counter.new
    rw [this]
    rfl
  · intro e h
    have := retry_errors max es.length (by omega) (.error e :: rest) 0 es (by simp)
    unfold Counter.new
    rw [this]
    simp only [failOrRetry, Counter.failOrIgnore]
    rw [if_neg (by omega)]

-- three errors with two retries, then two errors that are swallowed
example : (run (Counter.new 2) [.error 1, .error 2, .error 3, .error 4, .error 5, .ok 6] : Counter × List (Except Nat (Option Nat))).2 =
    [.ok none, .ok none, .error 3, .ok none, .ok none, .ok (some 6)] := by rfl

end Retry
end Mango
