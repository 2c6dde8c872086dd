import Verif.Bots.QuoteCache
import Verif.Props.StablePrice
import Mathlib.Tactic.Linarith
import Mathlib.Tactic.Positivity
/-!
# C93: the cache of swap quotes
-/
namespace Mango
namespace QuoteCache

/-! ## Specification -/

/-- the amounts of an answer are u64 -/
def Ev.Valid : Ev → Prop
  | .reply _ (some (x, y)) => x < 2 ^ 64 ∧ y < 2 ^ 64
  | _ => True

/-- a state some schedule leads to -/
def Reachable (rnd : ℚ → ℚ) (s : St) : Prop := ∃ es, (∀ e ∈ es, e.Valid) ∧ run rnd init es = some s

/-- a call for this pair has finished, and the answer to its request had this price -/
def Answered (s : St) (pair : Pair) (q : ℚ) : Prop := ∃ c ∈ s.calls, c.pair = pair ∧ c.got = some (.fin q) ∧ ∃ o, c.phase = .done o

/-- the call has sent its request and has not finished -/
def Call.Busy (c : Call) : Prop := (∃ h, c.phase = .request h) ∨ ∃ p, c.phase = .store p

/-- the call has sent a request, and it did not fail -/
def Call.Asked (c : Call) : Prop := c.Busy ∨ c.got ≠ none

/-- the best price known for a leg of a route -/
def Known (s : St) (i o : Nat) (q : ℚ) : Prop := (i = o ∧ q = 1) ∨ (i ≠ o ∧ Answered s (i, o) q)

/-- steps a call still has to make, at most -/
def Call.left (c : Call) : Nat :=
  match c.phase with
  | .enter => 3
  | .request _ => 2
  | .store _ => 1
  | .done _ => 0

def work (s : St) : Nat := (s.calls.map Call.left).sum

/-! ## Prices -/

theorem big : (2 : ℚ) ^ 67 < 2 ^ 1024 - 2 ^ 971 := by
  have e : (2 : ℚ) ^ 1024 = 2 ^ 971 * 2 ^ 53 := by
    have e' : (1024 : ℕ) = 971 + 53 := by omega
    rw [e', pow_add]
  have h : (2 : ℚ) ^ 67 ≤ 2 ^ 971 := pow_le_pow_right₀ (by norm_num) (by omega)
  have h0 : (0 : ℚ) < 2 ^ 971 := by positivity
  rw [e]
  generalize (2 : ℚ) ^ 971 = z at *
  have : z * 2 ^ 53 - z = z * (2 ^ 53 - 1) := by ring
  rw [this]
  have h1 : z * 1 < z * (2 ^ 53 - 1) := mul_lt_mul_of_pos_left (by norm_num) h0
  rw [mul_one] at h1
  exact lt_of_le_of_lt h h1

theorem price_cases {rnd : ℚ → ℚ} {ε : ℚ} (R : Stable.IsRnd rnd ε) (he : ε ≤ 1 / 5) {x y : Nat} (hx : x < 2 ^ 64) :
    price rnd x y = .inf ∨ price rnd x y = .nan ∨ ∃ q, price rnd x y = .fin q ∧ 0 ≤ q ∧ q < 2 ^ 1024 - 2 ^ 971 := by
  unfold price
  by_cases h0 : y = 0
  · rw [if_pos h0]
    split <;> simp
  · rw [if_neg h0]
    refine Or.inr (Or.inr ⟨_, rfl, ?_, ?_⟩)
    · have a : 0 ≤ rnd (x : ℚ) := by rw [← R.zero]; exact R.mono _ _ (Nat.cast_nonneg x)
      have b : 0 ≤ rnd (y : ℚ) := by rw [← R.zero]; exact R.mono _ _ (Nat.cast_nonneg y)
      rw [← R.zero]; exact R.mono _ _ (div_nonneg a b)
    · have hy : (1 : ℚ) ≤ y := by exact_mod_cast Nat.one_le_iff_ne_zero.2 h0
      have b : 1 ≤ rnd (y : ℚ) := by rw [← R.one]; exact R.mono _ _ hy
      have a0 : 0 ≤ rnd (x : ℚ) := by rw [← R.zero]; exact R.mono _ _ (Nat.cast_nonneg x)
      have hx' : (x : ℚ) ≤ 2 ^ 64 := by exact_mod_cast hx.le
      have a : rnd (x : ℚ) ≤ 2 ^ 66 := by
        have e := abs_le.mp (R.err (x : ℚ))
        rw [abs_of_nonneg (Nat.cast_nonneg x)] at e
        have : ε * (x : ℚ) ≤ 1 / 5 * 2 ^ 64 := mul_le_mul he hx' (Nat.cast_nonneg x) (by norm_num)
        have : (x : ℚ) + 1 / 5 * 2 ^ 64 ≤ 2 ^ 66 := by linarith
        linarith [e.2]
      have d : rnd (x : ℚ) / rnd (y : ℚ) ≤ 2 ^ 66 := le_trans (div_le_self a0 b) a
      have d0 : 0 ≤ rnd (x : ℚ) / rnd (y : ℚ) := div_nonneg a0 (by linarith)
      have e := abs_le.mp (R.err (rnd (x : ℚ) / rnd (y : ℚ)))
      rw [abs_of_nonneg d0] at e
      have : ε * (rnd (x : ℚ) / rnd (y : ℚ)) ≤ 1 / 5 * 2 ^ 66 := mul_le_mul he d d0 (by norm_num)
      have h2 : (2 : ℚ) ^ 66 + 1 / 5 * 2 ^ 66 < 2 ^ 67 := by norm_num
      have h3 := big
      have h4 : rnd (rnd (x : ℚ) / rnd (y : ℚ)) ≤ 2 ^ 66 + 1 / 5 * 2 ^ 66 := by linarith [e.2]
      exact lt_trans (lt_of_le_of_lt h4 h2) h3

/-! ## The invariant -/

/-- answers are u64 quotients -/
def PxOk (p : Px) : Prop := p = .inf ∨ p = .nan ∨ ∃ q, p = .fin q ∧ 0 ≤ q ∧ q < 2 ^ 1024 - 2 ^ 971

def PhaseOk (c : Call) : Prop :=
  match c.phase with
  | .enter => c.got = none
  | .request _ => c.got = none
  | .store p => c.got = some p
  | .done (.bad p) => p.gt c.max = true ∧ (c.got = some p ∨ c.got = none)
  | .done (.quote p) => p.gt c.max = false ∧ c.got = some p
  | .done .failed => c.got = none

structure Inv (s : St) : Prop where
  cacheOk : ∀ pair, ∃ q, s.cache pair = .fin q ∧ 0 ≤ q ∧ q ≤ 2 ^ 1024 - 2 ^ 971
  low : ∀ pair q r, Answered s pair q → s.cache pair = .fin r → r ≤ q
  attained : ∀ pair q, s.cache pair = .fin q → s.cache pair ≠ FMAX → Answered s pair q
  lock : ∀ pair i, s.lock pair = some i → s.cache pair = FMAX ∧ ∃ c, s.calls[i]? = some c ∧ c.pair = pair ∧ c.phase = .request true
  held : ∀ (i : Nat) c, s.calls[i]? = some c → c.phase = .request true → s.lock c.pair = some i
  free : ∀ c ∈ s.calls, (c.phase = .request false ∨ ∃ p, c.phase = .store p) → s.cache c.pair ≠ FMAX
  phase : ∀ c ∈ s.calls, PhaseOk c
  got : ∀ c ∈ s.calls, ∀ p, c.got = some p → PxOk p

theorem lower_le {a q : ℚ} {p : Px} (h : lower (.fin a) p = .fin q) : q ≤ a := by
  unfold lower at h
  split at h
  · rename_i hg
    subst h
    simp only [Px.gt, decide_eq_true_eq] at hg
    exact hg.le
  · cases h; exact le_refl _

theorem lower_le' {a b q : ℚ} (h : lower (.fin a) (.fin b) = .fin q) : q ≤ b := by
  unfold lower at h
  split at h
  · cases h; exact le_refl _
  · rename_i hg
    cases h
    simp only [Px.gt, decide_eq_true_eq, not_lt] at hg
    exact hg

theorem lower_cases (a : ℚ) (p : Px) : lower (.fin a) p = .fin a ∨ ∃ b, p = .fin b ∧ b < a ∧ lower (.fin a) p = .fin b := by
  unfold lower
  cases p with
  | fin b =>
    by_cases h : b < a
    · exact Or.inr ⟨b, rfl, h, by simp [Px.gt, h]⟩
    · exact Or.inl (by simp [Px.gt, h])
  | inf => exact Or.inl (by simp [Px.gt])
  | nan => exact Or.inl (by simp [Px.gt])

/-- what a step changes: one call moves on, or a call is added -/
theorem set_mem {l : List Call} {i : Nat} {c c' d : Call} (hc : l[i]? = some c) (hd : d ∈ l.set i c') : d = c' ∨ ∃ j, j ≠ i ∧ l[j]? = some d := by
  obtain ⟨j, hj⟩ := List.mem_iff_getElem?.1 hd
  rw [List.getElem?_set] at hj
  by_cases h : i = j
  · subst h
    obtain ⟨hl, _⟩ := List.getElem?_eq_some_iff.1 hc
    rw [if_pos rfl, if_pos hl] at hj
    exact Or.inl (Option.some.inj hj).symm
  · rw [if_neg h] at hj
    exact Or.inr ⟨j, Ne.symm h, hj⟩

theorem set_get {l : List Call} {i j : Nat} {c c' d : Call} (hc : l[i]? = some c) (hd : (l.set i c')[j]? = some d) : (j = i ∧ d = c') ∨ (j ≠ i ∧ l[j]? = some d) := by
  rw [List.getElem?_set] at hd
  by_cases h : i = j
  · subst h
    obtain ⟨hl, _⟩ := List.getElem?_eq_some_iff.1 hc
    rw [if_pos rfl, if_pos hl] at hd
    exact Or.inl ⟨rfl, (Option.some.inj hd).symm⟩
  · rw [if_neg h] at hd
    exact Or.inr ⟨Ne.symm h, hd⟩

theorem set_self {l : List Call} {i : Nat} {c c' : Call} (hc : l[i]? = some c) : (l.set i c')[i]? = some c' := by
  obtain ⟨hl, _⟩ := List.getElem?_eq_some_iff.1 hc
  simp [hl]

theorem set_ne {l : List Call} {i j : Nat} {c' : Call} (h : j ≠ i) : (l.set i c')[j]? = l[j]? := by
  simp [Ne.symm h]

/-- answers of finished calls when one call moves on -/
theorem answered_set {s : St} {i : Nat} {c c' : Call} (hc : s.calls[i]? = some c) (hn : ¬ ∃ o, c.phase = .done o) (hp : c'.pair = c.pair) {cache lock} (pair : Pair) (q : ℚ) :
    Answered ⟨cache, lock, s.calls.set i c'⟩ pair q ↔ Answered s pair q ∨ (c.pair = pair ∧ c'.got = some (.fin q) ∧ ∃ o, c'.phase = .done o) := by
  constructor
  · rintro ⟨d, hd, e1, e2, e3⟩
    rcases set_mem hc hd with rfl | ⟨j, _, hj⟩
    · exact Or.inr ⟨by rw [← hp]; exact e1, e2, e3⟩
    · exact Or.inl ⟨d, List.mem_of_getElem? hj, e1, e2, e3⟩
  · rintro (⟨d, hd, e1, e2, e3⟩ | ⟨e1, e2, e3⟩)
    · obtain ⟨j, hj⟩ := List.mem_iff_getElem?.1 hd
      have hji : j ≠ i := by
        rintro rfl
        rw [hc] at hj
        cases hj
        exact hn e3
      exact ⟨d, List.mem_of_getElem? (i := j) (by rw [set_ne hji]; exact hj), e1, e2, e3⟩
    · exact ⟨c', List.mem_of_getElem? (i := i) (set_self hc), by rw [hp]; exact e1, e2, e3⟩

theorem inv_init : Inv init := by
  constructor
  · intro pair
    refine ⟨2 ^ 1024 - 2 ^ 971, rfl, ?_, le_refl _⟩
    have := big
    have h0 : (0 : ℚ) < 2 ^ 67 := by positivity
    exact (lt_trans h0 this).le
  · rintro pair q r ⟨c, hc, _⟩; cases hc
  · intro pair q _ h; exact absurd rfl h
  · intro pair i h; cases h
  · intro i c h; simp [init] at h
  · intro c h; cases h
  · intro c h; cases h
  · intro c h; cases h

/-- a call is added -/
theorem inv_call {s : St} (I : Inv s) (pair : Pair) (max : Px) : Inv { s with calls := s.calls ++ [{ pair := pair, max := max }] } := by
  have ans : ∀ pr q, Answered { s with calls := s.calls ++ [{ pair := pair, max := max }] } pr q ↔ Answered s pr q := by
    intro pr q
    constructor
    · rintro ⟨c, hc, e1, e2, e3⟩
      rcases List.mem_append.1 hc with hc | hc
      · exact ⟨c, hc, e1, e2, e3⟩
      · rw [List.mem_singleton] at hc
        subst hc
        cases e2
    · rintro ⟨c, hc, e⟩
      exact ⟨c, List.mem_append.2 (Or.inl hc), e⟩
  have get : ∀ (i : Nat) c, (s.calls ++ [({ pair := pair, max := max } : Call)])[i]? = some c → s.calls[i]? = some c ∨ c = { pair := pair, max := max } := by
    intro i c h
    by_cases hi : i < s.calls.length
    · rw [List.getElem?_append_left hi] at h; exact Or.inl h
    · rw [List.getElem?_append_right (by omega)] at h
      exact Or.inr (List.mem_singleton.1 (List.mem_of_getElem? h))
  have mem : ∀ c ∈ s.calls ++ [({ pair := pair, max := max } : Call)], c ∈ s.calls ∨ c = { pair := pair, max := max } := by
    intro c hc
    simpa using hc
  constructor
  · exact I.cacheOk
  · intro pr q r h; exact I.low pr q r ((ans pr q).1 h)
  · intro pr q h h'; exact (ans pr q).2 (I.attained pr q h h')
  · intro pr i h
    obtain ⟨e, c, hc, e'⟩ := I.lock pr i h
    refine ⟨e, c, ?_, e'⟩
    obtain ⟨hl, _⟩ := List.getElem?_eq_some_iff.1 hc
    show (s.calls ++ _)[i]? = _
    rw [List.getElem?_append_left hl]; exact hc
  · intro i c hc hp
    rcases get i c hc with h | rfl
    · exact I.held i c h hp
    · cases hp
  · intro c hc hp
    rcases mem c hc with h | rfl
    · exact I.free c h hp
    · rcases hp with hp | ⟨p, hp⟩ <;> cases hp
  · intro c hc
    rcases mem c hc with h | rfl
    · exact I.phase c h
    · rfl
  · intro c hc p hp
    rcases mem c hc with h | rfl
    · exact I.got c h p hp
    · cases hp

/-- the call stays at the same cache, and takes no part in a lock -/
theorem inv_move {s : St} (I : Inv s) {i : Nat} {c c' : Call} (hc : s.calls[i]? = some c) (hn : ¬ ∃ o, c.phase = .done o) (hp : c'.pair = c.pair)
    (hq : c.phase ≠ .request true) (hq' : c'.phase ≠ .request true) (hf : (c'.phase = .request false ∨ ∃ p, c'.phase = .store p) → s.cache c.pair ≠ FMAX)
    (hph : PhaseOk c') (hgot : ∀ p, c'.got = some p → PxOk p) (hans : ∀ q, c'.got = some (.fin q) → ¬ ∃ o, c'.phase = .done o) :
    Inv { s with calls := s.calls.set i c' } := by
  have ans := answered_set hc hn hp (cache := s.cache) (lock := s.lock)
  constructor
  · exact I.cacheOk
  · intro pr q r h
    rcases (ans pr q).1 h with h | ⟨_, h1, h2⟩
    · exact I.low pr q r h
    · exact absurd h2 (hans q h1)
  · intro pr q h h'; exact (ans pr q).2 (Or.inl (I.attained pr q h h'))
  · intro pr j h
    obtain ⟨e, d, hd, e1, e2⟩ := I.lock pr j h
    have hji : j ≠ i := by
      rintro rfl
      rw [hc] at hd; cases hd
      exact hq e2
    exact ⟨e, d, by show (s.calls.set i c')[j]? = _; rw [set_ne hji]; exact hd, e1, e2⟩
  · intro j d hd hx
    rcases set_get hc hd with ⟨_, rfl⟩ | ⟨hji, hd⟩
    · exact absurd hx hq'
    · exact I.held j d hd hx
  · intro d hd hx
    rcases set_mem hc hd with rfl | ⟨j, _, hj⟩
    · show s.cache d.pair ≠ FMAX
      rw [hp]; exact hf hx
    · exact I.free d (List.mem_of_getElem? hj) hx
  · intro d hd
    rcases set_mem hc hd with rfl | ⟨j, _, hj⟩
    · exact hph
    · exact I.phase d (List.mem_of_getElem? hj)
  · intro d hd
    rcases set_mem hc hd with rfl | ⟨j, _, hj⟩
    · exact hgot
    · exact I.got d (List.mem_of_getElem? hj)

/-- the first call takes the mutex -/
theorem inv_take {s : St} (I : Inv s) {i : Nat} {c : Call} (hc : s.calls[i]? = some c) (he : c.phase = .enter) (hl : s.lock c.pair = none) (hm : s.cache c.pair = FMAX) :
    Inv { s with lock := Function.update s.lock c.pair (some i), calls := s.calls.set i { c with phase := .request true } } := by
  have hn : ¬ ∃ o, c.phase = .done o := by rintro ⟨o, h⟩; rw [he] at h; cases h
  have hg : c.got = none := by have := I.phase c (List.mem_of_getElem? hc); simpa [PhaseOk, he] using this
  have ans := answered_set hc hn (c' := { c with phase := .request true }) rfl (cache := s.cache) (lock := Function.update s.lock c.pair (some i))
  constructor
  · exact I.cacheOk
  · intro pr q r h
    rcases (ans pr q).1 h with h | ⟨_, h1, h2⟩
    · exact I.low pr q r h
    · obtain ⟨o, h2⟩ := h2; cases h2
  · intro pr q h h'; exact (ans pr q).2 (Or.inl (I.attained pr q h h'))
  · intro pr j h
    by_cases hpr : pr = c.pair
    · subst hpr
      dsimp only at h
      rw [show (Function.update s.lock c.pair (some i)) c.pair = some i from Function.update_self ..] at h
      cases h
      exact ⟨hm, _, set_self hc, rfl, rfl⟩
    · dsimp only at h
      rw [show (Function.update s.lock c.pair (some i)) pr = s.lock pr from Function.update_of_ne hpr ..] at h
      obtain ⟨e, d, hd, e1, e2⟩ := I.lock pr j h
      have hji : j ≠ i := by
        rintro rfl
        rw [hc] at hd; cases hd
        rw [he] at e2; cases e2
      exact ⟨e, d, by show (s.calls.set i _)[j]? = _; rw [set_ne hji]; exact hd, e1, e2⟩
  · intro j d hd hph
    rcases set_get hc hd with ⟨rfl, rfl⟩ | ⟨hji, hd⟩
    · exact Function.update_self ..
    · have h1 := I.held j d hd hph
      have hpr : d.pair ≠ c.pair := by
        intro e; rw [e, hl] at h1; cases h1
      show Function.update s.lock c.pair (some i) d.pair = some j
      rw [Function.update_of_ne hpr]; exact h1
  · intro d hd hph
    rcases set_mem hc hd with rfl | ⟨j, _, hj⟩
    · rcases hph with h | ⟨p, h⟩ <;> cases h
    · exact I.free d (List.mem_of_getElem? hj) hph
  · intro d hd
    rcases set_mem hc hd with rfl | ⟨j, _, hj⟩
    · exact hg
    · exact I.phase d (List.mem_of_getElem? hj)
  · intro d hd
    rcases set_mem hc hd with rfl | ⟨j, _, hj⟩
    · exact I.got c (List.mem_of_getElem? hc)
    · exact I.got d (List.mem_of_getElem? hj)

/-- a call holding the mutex fails -/
theorem inv_drop {s : St} (I : Inv s) {i : Nat} {c : Call} (hc : s.calls[i]? = some c) (he : c.phase = .request true) :
    Inv { s with lock := Function.update s.lock c.pair none, calls := s.calls.set i { c with phase := .done .failed } } := by
  have hn : ¬ ∃ o, c.phase = .done o := by rintro ⟨o, h⟩; rw [he] at h; cases h
  have hg : c.got = none := by have := I.phase c (List.mem_of_getElem? hc); simpa [PhaseOk, he] using this
  have hli := I.held i c hc he
  have ans := answered_set hc hn (c' := { c with phase := .done .failed }) rfl (cache := s.cache) (lock := Function.update s.lock c.pair none)
  constructor
  · exact I.cacheOk
  · intro pr q r h
    rcases (ans pr q).1 h with h | ⟨_, h1, _⟩
    · exact I.low pr q r h
    · rw [hg] at h1; cases h1
  · intro pr q h h'; exact (ans pr q).2 (Or.inl (I.attained pr q h h'))
  · intro pr j h
    by_cases hpr : pr = c.pair
    · subst hpr
      dsimp only at h
      rw [show (Function.update s.lock c.pair none) c.pair = none from Function.update_self ..] at h
      cases h
    · dsimp only at h
      rw [show (Function.update s.lock c.pair none) pr = s.lock pr from Function.update_of_ne hpr ..] at h
      obtain ⟨e, d, hd, e1, e2⟩ := I.lock pr j h
      have hji : j ≠ i := by
        rintro rfl
        rw [hc] at hd; cases hd
        exact hpr e1.symm
      exact ⟨e, d, by show (s.calls.set i _)[j]? = _; rw [set_ne hji]; exact hd, e1, e2⟩
  · intro j d hd hph
    rcases set_get hc hd with ⟨rfl, rfl⟩ | ⟨hji, hd⟩
    · cases hph
    · have h1 := I.held j d hd hph
      have hpr : d.pair ≠ c.pair := by
        intro e; rw [e, hli] at h1; cases h1; exact hji rfl
      show Function.update s.lock c.pair none d.pair = some j
      rw [Function.update_of_ne hpr]; exact h1
  · intro d hd hph
    rcases set_mem hc hd with rfl | ⟨j, _, hj⟩
    · rcases hph with h | ⟨p, h⟩ <;> cases h
    · exact I.free d (List.mem_of_getElem? hj) hph
  · intro d hd
    rcases set_mem hc hd with rfl | ⟨j, _, hj⟩
    · exact hg
    · exact I.phase d (List.mem_of_getElem? hj)
  · intro d hd
    rcases set_mem hc hd with rfl | ⟨j, _, hj⟩
    · exact I.got c (List.mem_of_getElem? hc)
    · exact I.got d (List.mem_of_getElem? hj)

theorem verdict_ok (c : Call) (p : Px) : PhaseOk { c with phase := .done (verdict c.max p), got := some p } := by
  unfold verdict
  by_cases h : p.gt c.max = true
  · rw [if_pos h]; exact ⟨h, Or.inl rfl⟩
  · rw [if_neg h]; exact ⟨by simpa using h, rfl⟩

/-- a call finishes with a price: it lowers the cached price, and drops the mutex if it holds it -/
theorem inv_finish {s : St} (I : Inv s) {i : Nat} {c : Call} {p : Px} (hc : s.calls[i]? = some c) (hpx : PxOk p)
    (hph : c.phase = .request true ∨ (c.phase = .store p ∧ s.lock c.pair = none)) :
    Inv { cache := Function.update s.cache c.pair (lower (s.cache c.pair) p), lock := Function.update s.lock c.pair none, calls := s.calls.set i { c with phase := .done (verdict c.max p), got := some p } } := by
  have hn : ¬ ∃ o, c.phase = .done o := by
    rintro ⟨o, h⟩
    rcases hph with e | ⟨e, _⟩ <;> rw [e] at h <;> cases h
  obtain ⟨a, ha, a0, a1⟩ := I.cacheOk c.pair
  have ans := answered_set hc hn (c' := { c with phase := .done (verdict c.max p), got := some p }) rfl
    (cache := Function.update s.cache c.pair (lower (s.cache c.pair) p)) (lock := Function.update s.lock c.pair none)
  have own : ∀ q, p = .fin q → Answered { cache := Function.update s.cache c.pair (lower (s.cache c.pair) p), lock := Function.update s.lock c.pair none, calls := s.calls.set i { c with phase := .done (verdict c.max p), got := some p } } c.pair q := by
    intro q hq
    exact (ans c.pair q).2 (Or.inr ⟨rfl, by rw [hq], _, rfl⟩)
  have others : ∀ j d, s.calls[j]? = some d → j ≠ i → d.phase = .request true → d.pair ≠ c.pair := by
    intro j d hd hji hp e
    have h1 := I.held j d hd hp
    rcases hph with h | ⟨_, h⟩
    · have := I.held i c hc h
      rw [e, this] at h1; cases h1; exact hji rfl
    · rw [e, h] at h1; cases h1
  have upC : ∀ pr, pr ≠ c.pair → Function.update s.cache c.pair (lower (s.cache c.pair) p) pr = s.cache pr := fun pr h => Function.update_of_ne h ..
  have upS : Function.update s.cache c.pair (lower (s.cache c.pair) p) c.pair = lower (s.cache c.pair) p := Function.update_self ..
  have lc := lower_cases a p
  rw [← ha] at lc
  constructor
  · intro pr
    by_cases hpr : pr = c.pair
    · subst hpr
      show ∃ q, Function.update s.cache c.pair (lower (s.cache c.pair) p) c.pair = .fin q ∧ _
      rw [upS]
      rcases lc with h | ⟨b, h1, h2, h3⟩
      · rw [h]; exact ⟨a, ha, a0, a1⟩
      · refine ⟨b, h3, ?_, le_trans h2.le a1⟩
        rcases hpx with h | h | ⟨q, h, h4, _⟩
        · rw [h1] at h; cases h
        · rw [h1] at h; cases h
        · rw [h1] at h; cases h; exact h4
    · show ∃ q, Function.update s.cache c.pair (lower (s.cache c.pair) p) pr = .fin q ∧ _
      rw [upC pr hpr]; exact I.cacheOk pr
  · intro pr q r h hr
    by_cases hpr : pr = c.pair
    · subst hpr
      dsimp only at hr
      rw [show (Function.update s.cache c.pair (lower (s.cache c.pair) p)) c.pair = _ from upS, ha] at hr
      rcases (ans c.pair q).1 h with h | ⟨_, h1, _⟩
      · exact le_trans (lower_le hr) (I.low c.pair q a h ha)
      · have h1 : some p = some (Px.fin q) := h1
        cases h1
        exact lower_le' hr
    · dsimp only at hr
      rw [show (Function.update s.cache c.pair (lower (s.cache c.pair) p)) pr = _ from upC pr hpr] at hr
      rcases (ans pr q).1 h with h | ⟨h1, _, _⟩
      · exact I.low pr q r h hr
      · exact absurd h1.symm hpr
  · intro pr q hq hne
    by_cases hpr : pr = c.pair
    · subst hpr
      dsimp only at hq hne
      rw [show (Function.update s.cache c.pair (lower (s.cache c.pair) p)) c.pair = _ from upS] at hq hne
      rcases lc with h | ⟨b, h1, h2, h3⟩
      · rw [h] at hq hne
        exact (ans c.pair q).2 (Or.inl (I.attained c.pair q hq hne))
      · rw [h3] at hq; cases hq
        exact own _ h1
    · dsimp only at hq hne
      rw [show (Function.update s.cache c.pair (lower (s.cache c.pair) p)) pr = _ from upC pr hpr] at hq hne
      exact (ans pr q).2 (Or.inl (I.attained pr q hq hne))
  · intro pr j h
    by_cases hpr : pr = c.pair
    · subst hpr
      dsimp only at h
      rw [show (Function.update s.lock c.pair none) c.pair = none from Function.update_self ..] at h
      cases h
    · dsimp only at h
      rw [show (Function.update s.lock c.pair none) pr = s.lock pr from Function.update_of_ne hpr ..] at h
      obtain ⟨e, d, hd, e1, e2⟩ := I.lock pr j h
      have hji : j ≠ i := by
        rintro rfl
        rw [hc] at hd; cases hd
        exact hpr e1.symm
      refine ⟨?_, d, by show (s.calls.set i _)[j]? = _; rw [set_ne hji]; exact hd, e1, e2⟩
      show Function.update s.cache c.pair (lower (s.cache c.pair) p) pr = _
      rw [upC pr hpr]; exact e
  · intro j d hd hp
    rcases set_get hc hd with ⟨rfl, rfl⟩ | ⟨hji, hd⟩
    · cases hp
    · have hpr := others j d hd hji hp
      show Function.update s.lock c.pair none d.pair = some j
      rw [Function.update_of_ne hpr]; exact I.held j d hd hp
  · intro d hd hp
    show Function.update s.cache c.pair (lower (s.cache c.pair) p) d.pair ≠ FMAX
    rcases set_mem hc hd with rfl | ⟨j, _, hj⟩
    · rcases hp with h | ⟨p, h⟩ <;> cases h
    · have h1 := I.free d (List.mem_of_getElem? hj) hp
      by_cases hpr : d.pair = c.pair
      · rw [hpr] at h1 ⊢
        rw [upS]
        rcases lc with h | ⟨b, _, h2, h3⟩
        · rw [h]; exact h1
        · rw [h3]
          intro e
          have : b = 2 ^ 1024 - 2 ^ 971 := by unfold FMAX at e; exact Px.fin.inj e
          rw [this] at h2
          exact absurd (lt_of_lt_of_le h2 a1) (lt_irrefl _)
      · rw [upC _ hpr]; exact h1
  · intro d hd
    rcases set_mem hc hd with rfl | ⟨j, _, hj⟩
    · exact verdict_ok c p
    · exact I.phase d (List.mem_of_getElem? hj)
  · intro d hd r hr
    rcases set_mem hc hd with rfl | ⟨j, _, hj⟩
    · have hr : some p = some r := hr
      cases hr; exact hpx
    · exact I.got d (List.mem_of_getElem? hj) r hr

/-- every step is one of these -/
inductive Move (rnd : ℚ → ℚ) (s : St) : Ev → St → Prop where
  | call (pair max) : Move rnd s (.call pair max) { s with calls := s.calls ++ [{ pair := pair, max := max }] }
  | take (i c) (hc : s.calls[i]? = some c) (he : c.phase = .enter) (hl : s.lock c.pair = none) (hm : s.cache c.pair = FMAX) :
      Move rnd s (.enter i) { s with lock := Function.update s.lock c.pair (some i), calls := s.calls.set i { c with phase := .request true } }
  | early (i c) (hc : s.calls[i]? = some c) (he : c.phase = .enter) (hl : s.lock c.pair = none) (hm : s.cache c.pair ≠ FMAX) (hg : (s.cache c.pair).gt c.max = true) :
      Move rnd s (.enter i) { s with calls := s.calls.set i { c with phase := .done (.bad (s.cache c.pair)) } }
  | ask (i c) (hc : s.calls[i]? = some c) (he : c.phase = .enter) (hl : s.lock c.pair = none) (hm : s.cache c.pair ≠ FMAX) (hg : (s.cache c.pair).gt c.max = false) :
      Move rnd s (.enter i) { s with calls := s.calls.set i { c with phase := .request false } }
  | dropHeld (i c) (hc : s.calls[i]? = some c) (he : c.phase = .request true) :
      Move rnd s (.reply i none) { s with lock := Function.update s.lock c.pair none, calls := s.calls.set i { c with phase := .done .failed } }
  | drop (i c) (hc : s.calls[i]? = some c) (he : c.phase = .request false) :
      Move rnd s (.reply i none) { s with calls := s.calls.set i { c with phase := .done .failed } }
  | finish (i c x y) (hc : s.calls[i]? = some c) (he : c.phase = .request true) :
      Move rnd s (.reply i (some (x, y))) { cache := Function.update s.cache c.pair (lower (s.cache c.pair) (price rnd x y)), lock := Function.update s.lock c.pair none, calls := s.calls.set i { c with phase := .done (verdict c.max (price rnd x y)), got := some (price rnd x y) } }
  | answer (i c x y) (hc : s.calls[i]? = some c) (he : c.phase = .request false) :
      Move rnd s (.reply i (some (x, y))) { s with calls := s.calls.set i { c with phase := .store (price rnd x y), got := some (price rnd x y) } }
  | store (i c p) (hc : s.calls[i]? = some c) (he : c.phase = .store p) (hl : s.lock c.pair = none) :
      Move rnd s (.store i) { s with cache := Function.update s.cache c.pair (lower (s.cache c.pair) p), calls := s.calls.set i { c with phase := .done (verdict c.max p) } }

theorem step_move {rnd : ℚ → ℚ} {s s' : St} {e : Ev} (h : step rnd s e = some s') : Move rnd s e s' := by
  cases e with
  | call pair max =>
    simp only [step, Option.some.injEq] at h
    subst h
    exact .call pair max
  | enter i =>
    simp only [step] at h
    split at h
    · cases h
    · rename_i c hc
      by_cases h1 : c.phase = .enter ∧ s.lock c.pair = none
      · rw [if_pos h1] at h
        by_cases h2 : s.cache c.pair = FMAX
        · rw [if_pos h2] at h; cases h; exact .take i c hc h1.1 h1.2 h2
        · rw [if_neg h2] at h
          by_cases h3 : (s.cache c.pair).gt c.max = true
          · rw [if_pos h3] at h; cases h; exact .early i c hc h1.1 h1.2 h2 h3
          · rw [if_neg h3] at h; cases h; exact .ask i c hc h1.1 h1.2 h2 (by simpa using h3)
      · rw [if_neg h1] at h; cases h
  | reply i a =>
    simp only [step] at h
    split at h
    · cases h
    · rename_i c hc
      split at h
      · rename_i held hph
        cases held with
        | true => cases h; exact .dropHeld i c hc hph
        | false => cases h; exact .drop i c hc hph
      · rename_i x y hph
        cases h; exact .finish i c x y hc hph
      · rename_i x y hph
        cases h; exact .answer i c x y hc hph
      · cases h
  | store i =>
    simp only [step] at h
    split at h
    · cases h
    · rename_i c hc
      split at h
      · rename_i p hph
        by_cases h1 : s.lock c.pair = none
        · rw [if_pos h1] at h; cases h; exact .store i c p hc hph h1
        · rw [if_neg h1] at h; cases h
      · cases h

theorem inv_step {rnd : ℚ → ℚ} {ε : ℚ} (R : Stable.IsRnd rnd ε) (he : ε ≤ 1 / 5) {s s' : St} {e : Ev} (I : Inv s) (hv : e.Valid) (h : step rnd s e = some s') : Inv s' := by
  cases step_move h with
  | call pair max => exact inv_call I pair max
  | take i c hc hp hl hm => exact inv_take I hc hp hl hm
  | early i c hc hp hl hm hg =>
    have hgot : c.got = none := by have := I.phase c (List.mem_of_getElem? hc); simpa [PhaseOk, hp] using this
    refine inv_move I hc (by rintro ⟨o, h⟩; rw [hp] at h; cases h) rfl (by rw [hp]; intro h; cases h) (by intro h; cases h) (by rintro (h | ⟨p, h⟩) <;> cases h) ⟨hg, Or.inr hgot⟩
      (I.got c (List.mem_of_getElem? hc)) (by intro q h; rw [show c.got = none from hgot] at h; cases h)
  | ask i c hc hp hl hm hg =>
    have hgot : c.got = none := by have := I.phase c (List.mem_of_getElem? hc); simpa [PhaseOk, hp] using this
    refine inv_move I hc (by rintro ⟨o, h⟩; rw [hp] at h; cases h) rfl (by rw [hp]; intro h; cases h) (by intro h; cases h) (fun _ => hm) hgot
      (I.got c (List.mem_of_getElem? hc)) (by rintro q h ⟨o, h'⟩; cases h')
  | dropHeld i c hc hp => exact inv_drop I hc hp
  | drop i c hc hp =>
    have hgot : c.got = none := by have := I.phase c (List.mem_of_getElem? hc); simpa [PhaseOk, hp] using this
    refine inv_move I hc (by rintro ⟨o, h⟩; rw [hp] at h; cases h) rfl (by rw [hp]; intro h; cases h) (by intro h; cases h) (by rintro (h | ⟨p, h⟩) <;> cases h) hgot
      (I.got c (List.mem_of_getElem? hc)) (by intro q h; rw [show c.got = none from hgot] at h; cases h)
  | finish i c x y hc hp => exact inv_finish I hc (price_cases R he hv.1) (Or.inl hp)
  | answer i c x y hc hp =>
    refine inv_move I hc (by rintro ⟨o, h⟩; rw [hp] at h; cases h) rfl (by rw [hp]; intro h; cases h) (by intro h; cases h)
      (fun _ => I.free c (List.mem_of_getElem? hc) (Or.inl hp)) rfl (by intro p h; cases h; exact price_cases R he hv.1) (by rintro q h ⟨o, h'⟩; cases h')
  | store i c p hc hp hl =>
    have hgot : c.got = some p := by have := I.phase c (List.mem_of_getElem? hc); simpa [PhaseOk, hp] using this
    have h1 := inv_finish I hc (I.got c (List.mem_of_getElem? hc) p hgot) (Or.inr ⟨hp, hl⟩)
    have e1 : Function.update s.lock c.pair none = s.lock := by rw [← hl]; exact Function.update_eq_self ..
    have e2 : ({ c with phase := .done (verdict c.max p), got := some p } : Call) = { c with phase := .done (verdict c.max p) } := by rw [← hgot]
    rw [e1, e2] at h1
    exact h1

theorem inv_run {rnd : ℚ → ℚ} {ε : ℚ} (R : Stable.IsRnd rnd ε) (he : ε ≤ 1 / 5) {s s' : St} {es : List Ev} (I : Inv s) (hv : ∀ e ∈ es, e.Valid) (h : run rnd s es = some s') : Inv s' := by
  induction es generalizing s with
  | nil => cases h; exact I
  | cons e es ih =>
    simp only [run, Option.bind_eq_some_iff] at h
    obtain ⟨t, ht, h⟩ := h
    exact ih (inv_step R he I (hv e (by simp)) ht) (fun e' h' => hv e' (by simp [h'])) h

theorem inv_reachable {rnd : ℚ → ℚ} {ε : ℚ} (R : Stable.IsRnd rnd ε) (he : ε ≤ 1 / 5) {s : St} (h : Reachable rnd s) : Inv s := by
  obtain ⟨es, hv, h⟩ := h
  exact inv_run R he inv_init hv h

/-! ## C93 -/

/-- C93: the cached price of a pair is the lowest price that finished calls for the pair were quoted, and `f64::MAX` exactly when there is none -/
theorem C93_lowest {rnd : ℚ → ℚ} {ε : ℚ} (R : Stable.IsRnd rnd ε) (he : ε ≤ 1 / 5) {s : St} (h : Reachable rnd s) (pair : Pair) :
    (s.cache pair = FMAX ∧ ∀ q, ¬ Answered s pair q) ∨ (s.cache pair ≠ FMAX ∧ ∃ q, s.cache pair = .fin q ∧ Answered s pair q ∧ ∀ r, Answered s pair r → q ≤ r) := by
  have I := inv_reachable R he h
  by_cases hm : s.cache pair = FMAX
  · refine Or.inl ⟨hm, ?_⟩
    intro q hq
    have h1 := I.low pair q _ hq hm
    obtain ⟨c, hc, _, hg, _⟩ := hq
    rcases I.got c hc _ hg with e | e | ⟨r, e, _, h2⟩
    · cases e
    · cases e
    · cases e; exact absurd (lt_of_le_of_lt h1 h2) (lt_irrefl _)
  · obtain ⟨q, hq, _⟩ := I.cacheOk pair
    exact Or.inr ⟨hm, q, hq, I.attained pair q hq hm, fun r hr => I.low pair r q hr hq⟩

/-- C93: as long as no price of a pair is known, at most one request for it is under way -/
theorem C93_first_alone {rnd : ℚ → ℚ} {ε : ℚ} (R : Stable.IsRnd rnd ε) (he : ε ≤ 1 / 5) {s : St} (h : Reachable rnd s) {pair : Pair} (hno : ∀ q, ¬ Answered s pair q) {i j : Nat} {c d : Call}
    (hc : s.calls[i]? = some c) (hd : s.calls[j]? = some d) (pc : c.pair = pair) (pd : d.pair = pair) (bc : c.Busy) (bd : d.Busy) : i = j := by
  have I := inv_reachable R he h
  have hm : s.cache pair = FMAX := by
    rcases C93_lowest R he h pair with h | ⟨_, q, _, h, _⟩
    · exact h.1
    · exact absurd h (hno q)
  have held : ∀ (k : Nat) (e : Call), s.calls[k]? = some e → e.pair = pair → e.Busy → e.phase = .request true := by
    intro k e hk hp hb
    rcases hb with ⟨b, hb⟩ | hb
    · cases b with
      | true => exact hb
      | false => exact absurd (hp ▸ hm) (I.free e (List.mem_of_getElem? hk) (Or.inl hb))
    · exact absurd (hp ▸ hm) (I.free e (List.mem_of_getElem? hk) (Or.inr hb))
  have h1 := I.held i c hc (held i c hc pc bc)
  have h2 := I.held j d hd (held j d hd pd bd)
  rw [pc] at h1
  rw [pd, h1] at h2
  exact Option.some.inj h2

/-- C93: a call is turned away without a request only if every price known for its pair is above its maximum; it is told the lowest of them -/
theorem C93_early_out {rnd : ℚ → ℚ} {ε : ℚ} (R : Stable.IsRnd rnd ε) (he : ε ≤ 1 / 5) {s s' : St} (h : Reachable rnd s) {i : Nat} (hs : step rnd s (.enter i) = some s') {c : Call}
    (hc : s'.calls[i]? = some c) {o : Out} (ho : c.phase = .done o) :
    ∃ q, o = .bad (.fin q) ∧ Answered s c.pair q ∧ (∀ r, Answered s c.pair r → q ≤ r) ∧ ∀ r, Answered s c.pair r → (Px.fin r).gt c.max = true := by
  cases step_move hs with
  | take i c0 hc0 hp hl hm => rw [set_self hc0] at hc; cases hc; cases ho
  | ask i c0 hc0 hp hl hm hg => rw [set_self hc0] at hc; cases hc; cases ho
  | early i c0 hc0 hp hl hm hg =>
    rw [set_self hc0] at hc
    cases hc
    rcases C93_lowest R he h c0.pair with ⟨h1, _⟩ | ⟨_, q, h2, h3, h4⟩
    · exact absurd h1 hm
    · have ho : Phase.done (.bad (s.cache c0.pair)) = .done o := ho
      cases ho
      refine ⟨q, by rw [h2], h3, h4, ?_⟩
      intro r hr
      have := h4 r hr
      rw [h2] at hg
      show (Px.fin r).gt c0.max = true
      cases hmx : c0.max with
      | fin m =>
        rw [hmx] at hg
        simp only [Px.gt, decide_eq_true_eq] at hg ⊢
        exact lt_of_lt_of_le hg this
      | inf => rw [hmx] at hg; simp [Px.gt] at hg
      | nan => rw [hmx] at hg; simp [Px.gt] at hg

/-- C93: what a finished call returned. A quote is the answer to the call's own request and its price is not above the maximum (it may be no number: see `C93_nan`); a refusal names a price above the maximum -/
theorem C93_result {rnd : ℚ → ℚ} {ε : ℚ} (R : Stable.IsRnd rnd ε) (he : ε ≤ 1 / 5) {s : St} (h : Reachable rnd s) {c : Call} (hc : c ∈ s.calls) {o : Out} (ho : c.phase = .done o) {m : ℚ}
    (hm : c.max = .fin m) :
    (∀ p, o = .quote p → c.got = some p ∧ (p = .nan ∨ ∃ q, p = .fin q ∧ 0 ≤ q ∧ q ≤ m)) ∧
    (∀ p, o = .bad p → (c.got = some p ∨ c.got = none) ∧ (p = .inf ∨ ∃ q, p = .fin q ∧ m < q)) ∧ (o = .failed → c.got = none) := by
  have I := inv_reachable R he h
  have P := I.phase c hc
  refine ⟨?_, ?_, ?_⟩
  · rintro p rfl
    simp only [PhaseOk, ho] at P
    refine ⟨P.2, ?_⟩
    rcases I.got c hc p P.2 with rfl | rfl | ⟨q, rfl, h0, _⟩
    · rw [hm] at P; simp [Px.gt] at P
    · exact Or.inl rfl
    · rw [hm] at P
      simp only [Px.gt, decide_eq_false_iff_not, not_lt] at P
      exact Or.inr ⟨q, rfl, h0, P.1⟩
  · rintro p rfl
    simp only [PhaseOk, ho] at P
    refine ⟨P.2, ?_⟩
    cases p with
    | fin q =>
      rw [hm] at P
      simp only [Px.gt, decide_eq_true_eq] at P
      exact Or.inr ⟨q, rfl, P.1⟩
    | inf => exact Or.inl rfl
    | nan => rw [hm] at P; simp [Px.gt] at P
  · rintro rfl
    simp only [PhaseOk, ho] at P
    exact P

/-- what stays of a call -/
theorem step_keeps {rnd : ℚ → ℚ} {s s' : St} {e : Ev} (I : Inv s) (h : step rnd s e = some s') {i : Nat} {c : Call} (hc : s.calls[i]? = some c) :
    ∃ c', s'.calls[i]? = some c' ∧ c'.pair = c.pair ∧ c'.max = c.max ∧ (∀ p, c.got = some p → c'.got = some p) ∧ (∀ o, c.phase = .done o → c' = c) := by
  have setc : ∀ (j : Nat) (d d' : Call), s.calls[j]? = some d → (¬ ∃ o, d.phase = .done o) → d'.pair = d.pair → d'.max = d.max → (∀ p, d.got = some p → d'.got = some p) →
      ∃ c', (s.calls.set j d')[i]? = some c' ∧ c'.pair = c.pair ∧ c'.max = c.max ∧ (∀ p, c.got = some p → c'.got = some p) ∧ (∀ o, c.phase = .done o → c' = c) := by
    intro j d d' hd hn h1 h2 h3
    by_cases hij : i = j
    · subst hij
      rw [hc] at hd
      cases hd
      exact ⟨d', set_self hc, h1, h2, h3, fun o ho => absurd ⟨o, ho⟩ hn⟩
    · exact ⟨c, by rw [set_ne hij]; exact hc, rfl, rfl, fun _ h => h, fun _ _ => rfl⟩
  cases step_move h with
  | call pair max =>
    obtain ⟨hl, _⟩ := List.getElem?_eq_some_iff.1 hc
    exact ⟨c, by show (s.calls ++ _)[i]? = _; rw [List.getElem?_append_left hl]; exact hc, rfl, rfl, fun _ h => h, fun _ _ => rfl⟩
  | take j d hd hp hl hm => exact setc j d _ hd (by rintro ⟨o, h⟩; rw [hp] at h; cases h) rfl rfl (fun _ h => h)
  | early j d hd hp hl hm hg => exact setc j d _ hd (by rintro ⟨o, h⟩; rw [hp] at h; cases h) rfl rfl (fun _ h => h)
  | ask j d hd hp hl hm hg => exact setc j d _ hd (by rintro ⟨o, h⟩; rw [hp] at h; cases h) rfl rfl (fun _ h => h)
  | dropHeld j d hd hp => exact setc j d _ hd (by rintro ⟨o, h⟩; rw [hp] at h; cases h) rfl rfl (fun _ h => h)
  | drop j d hd hp => exact setc j d _ hd (by rintro ⟨o, h⟩; rw [hp] at h; cases h) rfl rfl (fun _ h => h)
  | finish j d x y hd hp =>
    have P := I.phase d (List.mem_of_getElem? hd)
    simp only [PhaseOk, hp] at P
    exact setc j d _ hd (by rintro ⟨o, h⟩; rw [hp] at h; cases h) rfl rfl (fun p h => by rw [P] at h; cases h)
  | answer j d x y hd hp =>
    have P := I.phase d (List.mem_of_getElem? hd)
    simp only [PhaseOk, hp] at P
    exact setc j d _ hd (by rintro ⟨o, h⟩; rw [hp] at h; cases h) rfl rfl (fun p h => by rw [P] at h; cases h)
  | store j d p hd hp hl => exact setc j d _ hd (by rintro ⟨o, h⟩; rw [hp] at h; cases h) rfl rfl (fun _ h => h)

/-- everyone asks for less than `P`, and no answer is better than `P` -/
structure Hopeless (s : St) (pair : Pair) (P : ℚ) : Prop where
  asked : ∀ c ∈ s.calls, c.pair = pair → ∃ m, c.max = .fin m ∧ m < P
  told : ∀ c ∈ s.calls, c.pair = pair → ∀ p, c.got = some p → ∃ q, p = .fin q ∧ P ≤ q
  noError : ∀ c ∈ s.calls, c.pair = pair → c.phase ≠ .done .failed

theorem hopeless_back {rnd : ℚ → ℚ} {s s' : St} {e : Ev} (I : Inv s) (h : step rnd s e = some s') {pair : Pair} {P : ℚ} (H : Hopeless s' pair P) : Hopeless s pair P := by
  constructor
  · intro c hc hp
    obtain ⟨i, hi⟩ := List.mem_iff_getElem?.1 hc
    obtain ⟨c', h1, h2, h3, _⟩ := step_keeps I h hi
    rw [← h3]
    exact H.asked c' (List.mem_of_getElem? h1) (by rw [h2]; exact hp)
  · intro c hc hp p hg
    obtain ⟨i, hi⟩ := List.mem_iff_getElem?.1 hc
    obtain ⟨c', h1, h2, _, h4, _⟩ := step_keeps I h hi
    exact H.told c' (List.mem_of_getElem? h1) (by rw [h2]; exact hp) p (h4 p hg)
  · intro c hc hp hf
    obtain ⟨i, hi⟩ := List.mem_iff_getElem?.1 hc
    obtain ⟨c', h1, h2, _, _, h5⟩ := step_keeps I h hi
    have := h5 _ hf
    subst this
    exact H.noError c' (List.mem_of_getElem? h1) hp hf

/-- at most one call of the pair has asked -/
def OneAsked (s : St) (pair : Pair) : Prop :=
  ∀ (i j : Nat) (c d : Call), s.calls[i]? = some c → s.calls[j]? = some d → c.pair = pair → d.pair = pair → c.Asked → d.Asked → i = j

theorem one_step {rnd : ℚ → ℚ} {ε : ℚ} (R : Stable.IsRnd rnd ε) (he : ε ≤ 1 / 5) {s s' : St} {e : Ev} (hr : Reachable rnd s) (h : step rnd s e = some s') {pair : Pair} {P : ℚ} (H : Hopeless s pair P)
    (one : OneAsked s pair) : OneAsked s' pair := by
  have I := inv_reachable R he hr
  have same : ∀ (k : Nat) (d d' : Call), s.calls[k]? = some d → d'.pair = d.pair → (d'.Asked → d.Asked) → OneAsked ⟨s.cache, s.lock, s.calls.set k d'⟩ pair := by
    intro k d d' hd hp ha i j c1 c2 h1 h2 p1 p2 a1 a2
    have back : ∀ (l : Nat) (x : Call), (s.calls.set k d')[l]? = some x → x.pair = pair → x.Asked → ∃ y, s.calls[l]? = some y ∧ y.pair = pair ∧ y.Asked := by
      intro l x hx px ax
      rcases set_get hd hx with ⟨rfl, rfl⟩ | ⟨_, hx⟩
      · exact ⟨d, hd, by rw [← hp]; exact px, ha ax⟩
      · exact ⟨x, hx, px, ax⟩
    obtain ⟨y1, e1, e2, e3⟩ := back i c1 h1 p1 a1
    obtain ⟨y2, f1, f2, f3⟩ := back j c2 h2 p2 a2
    exact one i j y1 y2 e1 f1 e2 f2 e3 f3
  cases step_move h with
  | call pr max =>
    intro i j c1 c2 h1 h2 p1 p2 a1 a2
    have old : ∀ (l : Nat) (x : Call), (s.calls ++ [({ pair := pr, max := max } : Call)])[l]? = some x → x.Asked → s.calls[l]? = some x := by
      intro l x hx ax
      by_cases hl : l < s.calls.length
      · rwa [List.getElem?_append_left hl] at hx
      · rw [List.getElem?_append_right (by omega)] at hx
        have := List.mem_singleton.1 (List.mem_of_getElem? hx)
        subst this
        rcases ax with (⟨_, e⟩ | ⟨_, e⟩) | e
        · cases e
        · cases e
        · exact absurd rfl e
    exact one i j c1 c2 (old i c1 h1 a1) (old j c2 h2 a2) p1 p2 a1 a2
  | take k d hd hp hl hm =>
    by_cases hpr : d.pair = pair
    · -- nothing was asked before
      have none_asked : ∀ (l : Nat) (x : Call), s.calls[l]? = some x → x.pair = pair → ¬ x.Asked := by
        intro l x hx px ax
        have hmx : s.cache x.pair = FMAX := by rw [px, ← hpr]; exact hm
        have hlx : s.lock x.pair = none := by rw [px, ← hpr]; exact hl
        have mem := List.mem_of_getElem? hx
        rcases ax with (⟨b, e⟩ | e) | e
        · cases b with
          | true => have := I.held l x hx e; rw [hlx] at this; cases this
          | false => exact I.free x mem (Or.inl e) hmx
        · exact I.free x mem (Or.inr e) hmx
        · obtain ⟨p, hp'⟩ := Option.ne_none_iff_exists'.1 e
          obtain ⟨q, rfl, _⟩ := H.told x mem px p hp'
          have P := I.phase x mem
          cases hph : x.phase with
          | enter => simp only [PhaseOk, hph] at P; exact e P
          | request b => simp only [PhaseOk, hph] at P; exact e P
          | store p' => exact I.free x mem (Or.inr ⟨p', hph⟩) hmx
          | done o =>
            rcases C93_lowest R he hr x.pair with h1 | ⟨h1, _⟩
            · exact h1.2 q ⟨x, mem, rfl, hp', o, hph⟩
            · exact h1 hmx
      intro i j c1 c2 h1 h2 p1 p2 a1 a2
      rcases set_get hd h1 with ⟨rfl, _⟩ | ⟨_, h1⟩
      · rcases set_get hd h2 with ⟨rfl, _⟩ | ⟨_, h2⟩
        · rfl
        · exact absurd a2 (none_asked j c2 h2 p2)
      · exact absurd a1 (none_asked i c1 h1 p1)
    · intro i j c1 c2 h1 h2 p1 p2 a1 a2
      rcases set_get hd h1 with ⟨rfl, rfl⟩ | ⟨_, h1⟩
      · exact absurd p1 hpr
      · rcases set_get hd h2 with ⟨rfl, rfl⟩ | ⟨_, h2⟩
        · exact absurd p2 hpr
        · exact one i j c1 c2 h1 h2 p1 p2 a1 a2
  | early k d hd hp hl hm hg =>
    refine same k d _ hd rfl ?_
    rintro ((⟨_, e⟩ | ⟨_, e⟩) | e)
    · cases e
    · cases e
    · exact Or.inr e
  | ask k d hd hp hl hm hg =>
    by_cases hpr : d.pair = pair
    · exfalso
      have mem := List.mem_of_getElem? hd
      obtain ⟨m, hm1, hm2⟩ := H.asked d mem hpr
      rcases C93_lowest R he hr d.pair with h1 | ⟨_, q, h1, ⟨x, hx, px, gx, _⟩, _⟩
      · exact hm h1.1
      · obtain ⟨q', e, hq⟩ := H.told x hx (by rw [px]; exact hpr) _ gx
        cases e
        rw [h1, hm1] at hg
        simp only [Px.gt, decide_eq_false_iff_not, not_lt] at hg
        exact absurd (lt_of_le_of_lt hg hm2) (not_lt.2 hq)
    · intro i j c1 c2 h1 h2 p1 p2 a1 a2
      rcases set_get hd h1 with ⟨rfl, rfl⟩ | ⟨_, h1⟩
      · exact absurd p1 hpr
      · rcases set_get hd h2 with ⟨rfl, rfl⟩ | ⟨_, h2⟩
        · exact absurd p2 hpr
        · exact one i j c1 c2 h1 h2 p1 p2 a1 a2
  | dropHeld k d hd hp => exact same k d _ hd rfl (fun _ => Or.inl (Or.inl ⟨_, hp⟩))
  | drop k d hd hp => exact same k d _ hd rfl (fun _ => Or.inl (Or.inl ⟨_, hp⟩))
  | finish k d x y hd hp => exact same k d _ hd rfl (fun _ => Or.inl (Or.inl ⟨_, hp⟩))
  | answer k d x y hd hp => exact same k d _ hd rfl (fun _ => Or.inl (Or.inl ⟨_, hp⟩))
  | store k d p hd hp hl => exact same k d _ hd rfl (fun _ => Or.inl (Or.inr ⟨_, hp⟩))

theorem run_append {rnd : ℚ → ℚ} (s : St) (es : List Ev) (e : Ev) : run rnd s (es ++ [e]) = (run rnd s es).bind (fun t => step rnd t e) := by
  induction es generalizing s with
  | nil => simp [run]
  | cons a es ih =>
    simp only [List.cons_append, run]
    cases step rnd s a with
    | none => rfl
    | some t => exact ih t

/-- C93: while the service offers nothing better than `P` for a pair and all callers want less, a single request is made for it, however many calls there are -/
theorem C93_one_request {rnd : ℚ → ℚ} {ε : ℚ} (R : Stable.IsRnd rnd ε) (he : ε ≤ 1 / 5) {s : St} (h : Reachable rnd s) {pair : Pair} {P : ℚ} (H : Hopeless s pair P) : OneAsked s pair := by
  obtain ⟨es, hv, h⟩ := h
  induction es using List.reverseRecOn generalizing s with
  | nil =>
    cases h
    intro i j c d hc
    simp [init] at hc
  | append_singleton es e ih =>
    rw [run_append, Option.bind_eq_some_iff] at h
    obtain ⟨t, ht, h⟩ := h
    have hr : Reachable rnd t := ⟨es, fun x hx => hv x (by simp [hx]), ht⟩
    have Ht := hopeless_back (inv_reachable R he hr) h H
    exact one_step R he hr h Ht (ih Ht (fun x hx => hv x (by simp [hx])) ht)

/-- C93: no deadlock: a call that has not finished can go on, or the service's answer to another call for the same pair is outstanding and any answer to it can be taken -/
theorem C93_progress {rnd : ℚ → ℚ} {ε : ℚ} (R : Stable.IsRnd rnd ε) (he : ε ≤ 1 / 5) {s : St} (h : Reachable rnd s) {i : Nat} {c : Call} (hc : s.calls[i]? = some c) (hn : ∀ o, c.phase ≠ .done o) :
    (step rnd s (.enter i)).isSome ∨ (step rnd s (.store i)).isSome ∨
    ∃ (j : Nat) (d : Call), s.calls[j]? = some d ∧ d.pair = c.pair ∧ ∀ a, (step rnd s (.reply j a)).isSome := by
  have I := inv_reachable R he h
  have rep : ∀ (j : Nat) (d : Call) b, s.calls[j]? = some d → d.phase = .request b → ∀ a, (step rnd s (.reply j a)).isSome := by
    intro j d b hd hp a
    cases a with
    | none => simp [step, hd, hp]
    | some v =>
      obtain ⟨x, y⟩ := v
      cases b <;> simp [step, hd, hp]
  cases hl : s.lock c.pair with
  | some j =>
    obtain ⟨_, d, hd, hp, hph⟩ := I.lock c.pair j hl
    exact Or.inr (Or.inr ⟨j, d, hd, hp, rep j d true hd hph⟩)
  | none =>
    cases hp : c.phase with
    | enter =>
      left
      simp only [step, hc]
      rw [if_pos ⟨hp, hl⟩]
      split
      · rfl
      · split <;> rfl
    | request b => exact Or.inr (Or.inr ⟨i, c, hc, rfl, rep i c b hc hp⟩)
    | store p =>
      right; left
      simp only [step, hc, hp]
      rw [if_pos hl]; rfl
    | done o => exact absurd hp (hn o)

theorem sum_set {l : List Call} {i : Nat} {c c' : Call} (hc : l[i]? = some c) : ((l.set i c').map Call.left).sum + c.left = (l.map Call.left).sum + c'.left := by
  induction l generalizing i with
  | nil => simp at hc
  | cons a l ih =>
    cases i with
    | zero =>
      simp only [List.getElem?_cons_zero, Option.some.injEq] at hc
      subst hc
      simp only [List.set_cons_zero, List.map_cons, List.sum_cons]
      omega
    | succ i =>
      have := ih (i := i) (by simpa using hc)
      simp only [List.set_cons_succ, List.map_cons, List.sum_cons]
      omega

/-- C93: every step other than a new call brings some call nearer to its end: a call needs at most three -/
theorem C93_terminates {rnd : ℚ → ℚ} {s s' : St} {e : Ev} (h : step rnd s e = some s') :
    ((∃ pair max, e = .call pair max) ∧ work s' = work s + 3) ∨ ((∀ pair max, e ≠ .call pair max) ∧ work s' < work s) := by
  have key : ∀ (i : Nat) (c c' : Call), s.calls[i]? = some c → c'.left < c.left → ((s.calls.set i c').map Call.left).sum < (s.calls.map Call.left).sum := by
    intro i c c' hc hlt
    have := sum_set hc (c' := c')
    omega
  have dn : ∀ (c : Call) (o : Out) g, ({ c with phase := .done o, got := g } : Call).left = 0 := fun _ _ _ => rfl
  cases step_move h with
  | call pair max =>
    refine Or.inl ⟨⟨pair, max, rfl⟩, ?_⟩
    unfold work
    simp [Call.left]
  | take i c hc hp hl hm => exact Or.inr ⟨(by intro _ _ h; cases h), key i c _ hc (by simp [Call.left, hp])⟩
  | early i c hc hp hl hm hg => exact Or.inr ⟨(by intro _ _ h; cases h), key i c _ hc (by simp [Call.left, hp])⟩
  | ask i c hc hp hl hm hg => exact Or.inr ⟨(by intro _ _ h; cases h), key i c _ hc (by simp [Call.left, hp])⟩
  | dropHeld i c hc hp => exact Or.inr ⟨(by intro _ _ h; cases h), key i c _ hc (by simp [Call.left, hp])⟩
  | drop i c hc hp => exact Or.inr ⟨(by intro _ _ h; cases h), key i c _ hc (by simp [Call.left, hp])⟩
  | finish i c x y hc hp => exact Or.inr ⟨(by intro _ _ h; cases h), key i c _ hc (by simp [Call.left, hp])⟩
  | answer i c x y hc hp => exact Or.inr ⟨(by intro _ _ h; cases h), key i c _ hc (by simp [Call.left, hp])⟩
  | store i c p hc hp hl => exact Or.inr ⟨(by intro _ _ h; cases h), key i c _ hc (by simp [Call.left, hp])⟩

/-! ### Routes through the collateral -/

theorem known_nonneg {rnd : ℚ → ℚ} {ε : ℚ} (R : Stable.IsRnd rnd ε) (he : ε ≤ 1 / 5) {s : St} (h : Reachable rnd s) {i o : Nat} {q : ℚ} (hk : Known s i o q) : 0 ≤ q := by
  rcases hk with ⟨_, rfl⟩ | ⟨_, c, hc, _, hg, _⟩
  · norm_num
  · rcases (inv_reachable R he h).got c hc _ hg with e | e | ⟨r, e, h0, _⟩
    · cases e
    · cases e
    · cases e; exact h0

theorem cachedPrice_spec {rnd : ℚ → ℚ} {ε : ℚ} (R : Stable.IsRnd rnd ε) (he : ε ≤ 1 / 5) {s : St} (h : Reachable rnd s) {i o : Nat} {p : Px} (hp : cachedPrice s i o = some p) :
    ∃ q, p = .fin q ∧ Known s i o q ∧ ∀ r, Known s i o r → q ≤ r := by
  unfold cachedPrice at hp
  by_cases h1 : i = o
  · rw [if_pos h1] at hp
    cases hp
    refine ⟨1, rfl, Or.inl ⟨h1, rfl⟩, ?_⟩
    rintro r (⟨_, rfl⟩ | ⟨h2, _⟩)
    · exact le_refl _
    · exact absurd h1 h2
  · rw [if_neg h1] at hp
    by_cases h2 : s.cache (i, o) ≠ FMAX
    · rw [if_pos h2] at hp
      cases hp
      rcases C93_lowest R he h (i, o) with h3 | ⟨_, q, h3, h4, h5⟩
      · exact absurd h3.1 h2
      · refine ⟨q, h3, Or.inr ⟨h1, h4⟩, ?_⟩
        rintro r (⟨h6, _⟩ | ⟨_, h6⟩)
        · exact absurd h6 h1
        · exact h5 r h6
    · rw [if_neg h2] at hp; cases hp

/-- C93: a route through the collateral is given up without a request only if every combination of prices known for its two legs is above the maximum (`s₁`, `s₂`: the moments when the two cached prices are read) -/
theorem C93_route_early_out {rnd : ℚ → ℚ} {ε : ℚ} (R : Stable.IsRnd rnd ε) (he : ε ≤ 1 / 5) {s₁ s₂ : St} (h₁ : Reachable rnd s₁) (h₂ : Reachable rnd s₂) {coll buy sell : Nat} {m : ℚ} {p : Px}
    (h : earlyOut rnd (cachedPrice s₁ coll buy) (cachedPrice s₂ sell coll) (.fin m) = some p) :
    ∀ b z, Known s₁ coll buy b → Known s₂ sell coll z → m < rnd (z * b) := by
  intro b z hb hz
  unfold earlyOut at h
  split at h
  · rename_i c s hc hs
    obtain ⟨qb, rfl, kb, lb⟩ := cachedPrice_spec R he h₁ hc
    obtain ⟨qs, rfl, ks, ls⟩ := cachedPrice_spec R he h₂ hs
    by_cases hg : ((Px.fin qs).mul rnd (.fin qb)).gt (.fin m) = true
    · simp only [Px.mul, Px.gt, decide_eq_true_eq] at hg
      refine lt_of_lt_of_le hg (R.mono _ _ ?_)
      exact mul_le_mul (ls z hz) (lb b hb) (known_nonneg R he h₁ kb) (le_trans (known_nonneg R he h₂ ks) (ls z hz))
    · rw [if_neg hg] at h; cases h
  · cases h

/-- the price of a leg: 1 if the tokens are the same, else that of its own quote -/
def LegPrice (leg : Option Out) (q : ℚ) : Prop := (leg = none ∧ q = 1) ∨ leg = some (.quote (.fin q))

/-- C93: a route is accepted with the product of the prices of its own two quotes, at most the maximum, and is refused for that price only if it is above the maximum -/
theorem C93_route {rnd : ℚ → ℚ} {buyLeg sellLeg : Option Out} {m b z : ℚ} (hb : LegPrice buyLeg b) (hz : LegPrice sellLeg z) :
    (rnd (z * b) ≤ m → routePrice rnd buyLeg sellLeg (.fin m) = .ok (.quote (.fin (rnd (z * b))))) ∧
    (m < rnd (z * b) → routePrice rnd buyLeg sellLeg (.fin m) = .ok (.bad (.fin (rnd (z * b))))) := by
  have e : routePrice rnd buyLeg sellLeg (.fin m) = .ok (verdict (.fin m) (.fin (rnd (z * b)))) := by
    rcases hb with ⟨rfl, rfl⟩ | rfl <;> rcases hz with ⟨rfl, rfl⟩ | rfl <;> rfl
  rw [e]
  constructor
  · intro h
    have : ¬ m < rnd (z * b) := not_lt.2 h
    simp [verdict, Px.gt, this]
  · intro h
    simp [verdict, Px.gt, h]

/-- C93: a leg that was not quoted makes the whole fail -/
theorem C93_route_error {rnd : ℚ → ℚ} {buyLeg sellLeg : Option Out} {max : Px} {o : Out} (h : routePrice rnd buyLeg sellLeg max = .ok o) :
    (∀ l, buyLeg = some l → ∃ p, l = .quote p) ∧ ∀ l, sellLeg = some l → ∃ p, l = .quote p := by
  unfold routePrice at h
  simp only [bind_ok] at h
  obtain ⟨b, hb, z, hz, _⟩ := h
  constructor
  · rintro l rfl
    cases l with
    | quote p => exact ⟨p, rfl⟩
    | bad p => cases hb
    | failed => cases hb
  · rintro l rfl
    cases l with
    | quote p => exact ⟨p, rfl⟩
    | bad p => cases hz
    | failed => cases hz

/-! ### Concrete cases -/

/-- two callers for the pair (1, 2), with maximum 3 and 9, and one for (5, 6): the first request is answered with 40 for 8; the second caller asks itself and gets 4 -/
def exRun : List Ev :=
  [.call (1, 2) (.fin 3), .call (1, 2) (.fin 9), .call (5, 6) (.fin 1), .enter 0, .enter 2, .reply 0 (some (40, 8)), .enter 1, .call (1, 2) (.fin 2), .reply 1 (some (8, 2)), .reply 2 none, .enter 3, .store 1]

def exPhases : Option (List (Phase × Option Px)) := (run id init exRun).map (fun s => s.calls.map (fun c => (c.phase, c.got)))

example : exPhases = some
    [(.done (.bad (.fin 5)), some (.fin 5)), (.done (.quote (.fin 4)), some (.fin 4)), (.done .failed, none), (.done (.bad (.fin 5)), none)] := by decide +kernel

example : (run id init exRun).map (fun s => s.cache (1, 2)) = some (.fin 4) := by decide +kernel

/-- while the first request is out, the second caller cannot enter -/
example : (run id init [.call (1, 2) (.fin 3), .call (1, 2) (.fin 9), .enter 0, .enter 1]).isNone = true := by decide +kernel

/-- C93: an answer of nothing for nothing has no price; no comparison holds for it, so it is handed out as an acceptable quote, whatever the maximum, and is not cached -/
theorem C93_nan (rnd : ℚ → ℚ) (m : Px) :
    (run rnd init [.call (1, 2) m, .enter 0, .reply 0 (some (0, 0))]).map (fun s => (s.calls.map (fun c => c.phase), s.cache (1, 2))) = some ([.done (.quote .nan)], FMAX) := by
  simp [run, step, init, verdict, lower, price, Px.gt, FMAX]

end QuoteCache
end Mango
