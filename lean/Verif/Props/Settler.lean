import Verif.Bots.Settler
/-! # C87: the settler -/
namespace Mango
namespace Settler

/-! ## Specification -/

/-- what the priority queue gives: none if it is empty, otherwise an item with the highest priority (any of them) -/
structure PeekOk (peek : List Neg → Option Neg) : Prop where
  none : ∀ q, peek q = none → q = []
  max : ∀ q n, peek q = some n → n ∈ q ∧ ∀ x ∈ q, x.amount ≤ n.amount

/-- expected to be settled out of the gains of `a` -/
def given (l : List Pair) (a : Nat) : Int := (l.map (fun x => if x.a = a then x.amount else 0)).sum

/-- expected to be settled out of the losses of `b` -/
def taken (l : List Pair) (b : Nat) : Int := (l.map (fun x => if x.b = b then x.amount else 0)).sum

/-- the pair is worth it: something is settled, and if only the flat fee is paid, enough for it to be paid -/
def Worth (m : Market) (fee s : Int) : Prop := 0 < s ∧ (fee = m.flat → m.threshold ≤ s)

/-! ## Lemmas -/

@[simp] theorem given_nil (a) : given [] a = 0 := rfl
@[simp] theorem taken_nil (a) : taken [] a = 0 := rfl
theorem given_cons (x l a) : given (x :: l) a = (if x.a = a then x.amount else 0) + given l a := by simp [given]
theorem taken_cons (x l a) : taken (x :: l) a = (if x.b = a then x.amount else 0) + taken l a := by simp [taken]
theorem given_append (l l' a) : given (l ++ l') a = given l a + given l' a := by simp [given]
theorem taken_append (l l' a) : taken (l ++ l') a = taken l a + taken l' a := by simp [taken]

theorem given_none (l : List Pair) (a : Nat) (h : ∀ x ∈ l, x.a ≠ a) : given l a = 0 := by
  induction l with
  | nil => rfl
  | cons x l ih => rw [given_cons, if_neg (h x (by simp)), ih (fun y hy => h y (by simp [hy]))]; rfl

theorem taken_nonneg (l : List Pair) (a : Nat) (h : ∀ x ∈ l, 0 < x.amount) : 0 ≤ taken l a := by
  induction l with
  | nil => simp
  | cons x l ih =>
    have := ih (fun y hy => h y (by simp [hy]))
    have := h x (by simp)
    rw [taken_cons]; split <;> omega

/-- the queue after some pairs are planned -/
def after (q : List Neg) (l : List Pair) : List Neg := q.map (fun n => { n with amount := n.amount - taken l n.key })

theorem after_nil (q) : after q [] = q := by simp [after]
theorem lower_eq (q b s a) : lower q b s = after q [⟨a, b, s⟩] := by
  unfold lower after
  apply List.map_congr_left
  intro n _
  by_cases h : n.key = b
  · subst h; simp [taken_cons]
  · have h' : b ≠ n.key := fun e => h e.symm
    simp [taken_cons, h, h']
theorem after_after (q l l') : after (after q l) l' = after q (l ++ l') := by
  unfold after
  rw [List.map_map]
  apply List.map_congr_left
  intro n _
  simp only [Function.comp_apply, taken_append, Neg.mk.injEq, true_and]
  omega

theorem tooSmall_iff (m fee s) : tooSmall m fee s = false ↔ Worth m fee s := by
  unfold tooSmall Worth
  simp only [Bool.or_eq_false_iff, decide_eq_false_iff_not, Bool.and_eq_false_iff]
  constructor
  · rintro ⟨h1, h2⟩
    refine ⟨by omega, fun e => ?_⟩
    rcases h2 with h2 | h2
    · omega
    · exact absurd e h2
  · rintro ⟨h1, h2⟩
    refine ⟨by omega, ?_⟩
    by_cases e : fee = m.flat
    · left; have := h2 e; omega
    · exact .inr e

theorem worth_mono (m fee s s') (h : s' ≤ s) (hw : Worth m fee s') : Worth m fee s :=
  ⟨by have := hw.1; omega, fun e => by have := hw.2 e; omega⟩

theorem pairUp_after (peek m a fee) : ∀ (fuel : Nat) (left : Int) (q : List Neg),
    (pairUp peek m a fee fuel left q).2 = after q (pairUp peek m a fee fuel left q).1 := by
  intro fuel
  induction fuel with
  | zero => intro left q; simp [pairUp, after_nil]
  | succ f ih =>
    intro left q
    unfold pairUp
    by_cases h : wants m fee left
    · rw [if_pos h]
      cases hp : peek q with
      | none => simp [after_nil]
      | some n =>
        dsimp only
        by_cases h2 : tooSmall m fee (min left n.amount)
        · rw [if_pos h2]; simp [after_nil]
        · rw [if_neg h2]
          dsimp only
          rw [ih, lower_eq q _ _ a, after_after, List.singleton_append]
    · rw [if_neg h]; simp [after_nil]

theorem pairUp_split (peek m a fee) (hk : PeekOk peek) : ∀ (fuel : Nat) (left : Int) (q : List Neg) (pre : List Pair) (x : Pair) (post : List Pair),
    (pairUp peek m a fee fuel left q).1 = pre ++ x :: post →
    x.a = a ∧ Worth m fee x.amount ∧
    ∃ n ∈ q, x.b = n.key ∧ x.amount = min (left - given pre a) (n.amount - taken pre n.key) ∧
      ∀ n' ∈ q, n'.amount - taken pre n'.key ≤ n.amount - taken pre n.key := by
  intro fuel
  induction fuel with
  | zero => intro left q pre x post e; simp [pairUp] at e
  | succ f ih =>
    intro left q pre x post e
    unfold pairUp at e
    by_cases h : wants m fee left
    · rw [if_pos h] at e
      cases hp : peek q with
      | none => rw [hp] at e; simp at e
      | some n =>
        rw [hp] at e
        dsimp only at e
        by_cases h2 : tooSmall m fee (min left n.amount)
        · rw [if_pos h2] at e; simp at e
        · rw [if_neg h2] at e
          dsimp only at e
          obtain ⟨hn, hmax⟩ := hk.max q n hp
          cases pre with
          | nil =>
            simp only [List.nil_append, List.cons.injEq] at e
            obtain ⟨rfl, _⟩ := e
            refine ⟨rfl, (tooSmall_iff _ _ _).mp (by simpa using h2), n, hn, rfl, by simp, ?_⟩
            intro n' hn'
            simpa using hmax n' hn'
          | cons y pre =>
            simp only [List.cons_append, List.cons.injEq] at e
            obtain ⟨hy, e⟩ := e
            obtain ⟨h1, hw, n1, hn1, hb, ham, hm⟩ := ih _ _ pre x post e
            rw [lower_eq q _ _ a] at hn1 hm
            refine ⟨h1, hw, ?_⟩
            obtain ⟨n0, hn0, rfl⟩ := List.mem_map.mp hn1
            refine ⟨n0, hn0, hb, ?_, ?_⟩
            · rw [ham, given_cons, taken_cons, ← hy]
              simp only [taken_cons, taken_nil, if_true]
              congr 1 <;> omega
            · intro n' hn'
              have := hm _ (List.mem_map.mpr ⟨n', hn', rfl⟩)
              rw [taken_cons, taken_cons, ← hy]
              simp only [taken_cons, taken_nil] at this
              simp only
              omega
    · rw [if_neg h] at e; simp at e

theorem pairUp_mem (peek m a fee) (hk : PeekOk peek) (fuel left q) (x : Pair) (h : x ∈ (pairUp peek m a fee fuel left q).1) :
    x.a = a ∧ Worth m fee x.amount := by
  obtain ⟨pre, post, e⟩ := List.append_of_mem h
  obtain ⟨h1, h2, _⟩ := pairUp_split peek m a fee hk fuel left q pre x post e
  exact ⟨h1, h2⟩

theorem plan_mem (peek m) (hk : PeekOk peek) : ∀ (ps : List Pos) (q : List Neg), ∀ x ∈ (plan peek m ps q).pairs, ∃ p ∈ ps, x.a = p.key ∧ Worth m p.fee x.amount := by
  intro ps
  induction ps with
  | nil => intro q x hx; simp [plan] at hx
  | cons p ps ih =>
    intro q x hx
    unfold plan at hx
    dsimp only at hx
    split at hx
    · simp at hx
    · rcases List.mem_append.mp hx with hx | hx
      · obtain ⟨h1, h2⟩ := pairUp_mem peek m _ _ hk _ _ _ x hx
        exact ⟨p, by simp, h1, h2⟩
      · obtain ⟨p', hp', h⟩ := ih _ x hx
        exact ⟨p', by simp [hp'], h⟩

theorem plan_split (peek m) (hk : PeekOk peek) : ∀ (ps : List Pos) (q : List Neg), (ps.map Pos.key).Nodup →
    ∀ (pre : List Pair) (x : Pair) (post : List Pair), (plan peek m ps q).pairs = pre ++ x :: post →
    ∃ p ∈ ps, ∃ n ∈ q, x.a = p.key ∧ x.b = n.key ∧
      x.amount = min (p.amount - given pre p.key) (n.amount - taken pre n.key) ∧
      (∀ n' ∈ q, n'.amount - taken pre n'.key ≤ n.amount - taken pre n.key) ∧
      Worth m p.fee x.amount := by
  intro ps
  induction ps with
  | nil => intro q _ pre x post e; simp [plan] at e
  | cons p ps ih =>
    intro q hnd pre x post e
    obtain ⟨hpn, hnd⟩ := List.nodup_cons.mp hnd
    unfold plan at e
    dsimp only at e
    split at e
    · simp at e
    · dsimp only at e
      rcases List.append_eq_append_iff.mp e with ⟨w, e1, e2⟩ | ⟨w, e1, e2⟩
      · -- the pair is of a later account
        obtain ⟨p', hp', n, hn, h1, h2, h3, h4, h5⟩ := ih _ hnd w x post e2
        have hne : p'.key ≠ p.key := fun e => hpn (List.mem_map.mpr ⟨p', hp', e⟩)
        have hg : given (pairUp peek m p.key p.fee (q.length + 1) p.amount q).1 p'.key = 0 :=
          given_none _ _ (fun y hy => by rw [(pairUp_mem peek m _ _ hk _ _ _ y hy).1]; exact fun e => hne e.symm)
        rw [pairUp_after] at hn h4
        obtain ⟨n0, hn0, rfl⟩ := List.mem_map.mp hn
        refine ⟨p', by simp [hp'], n0, hn0, h1, h2, ?_, ?_, h5⟩
        · rw [h3, e1, given_append, taken_append, hg]
          simp only
          congr 1 <;> omega
        · intro n' hn'
          have := h4 _ (List.mem_map.mpr ⟨n', hn', rfl⟩)
          rw [e1, taken_append, taken_append]
          simp only at this
          omega
      · cases w with
        | nil =>
          simp only [List.append_nil, List.nil_append] at e1 e2
          obtain ⟨p', hp', n, hn, h1, h2, h3, h4, h5⟩ := ih _ hnd [] x post e2.symm
          have hne : p'.key ≠ p.key := fun e => hpn (List.mem_map.mpr ⟨p', hp', e⟩)
          have hg : given (pairUp peek m p.key p.fee (q.length + 1) p.amount q).1 p'.key = 0 :=
            given_none _ _ (fun y hy => by rw [(pairUp_mem peek m _ _ hk _ _ _ y hy).1]; exact fun e => hne e.symm)
          rw [pairUp_after] at hn h4
          obtain ⟨n0, hn0, rfl⟩ := List.mem_map.mp hn
          refine ⟨p', by simp [hp'], n0, hn0, h1, h2, ?_, ?_, h5⟩
          · rw [h3, ← e1, hg]
            simp
          · intro n' hn'
            have := h4 _ (List.mem_map.mpr ⟨n', hn', rfl⟩)
            rw [← e1]
            simpa using this
        | cons y w =>
          simp only [List.cons_append, List.cons.injEq] at e2
          obtain ⟨rfl, e2⟩ := e2
          obtain ⟨h1, hw, n, hn, hb, ham, hm⟩ := pairUp_split peek m _ _ hk _ _ _ pre x w e1
          exact ⟨p, by simp, n, hn, h1, hb, ham, hm, hw⟩

theorem sorted_perm (ps : List Pos) : (ps.insertionSort (fun x y => y.fee ≤ x.fee)).Perm ps := List.perm_insertionSort _ _

/-! ## Theorems -/

/-- Every settlement that is planned is between an account with a gain and the account which, after what was planned before, has the largest loss left; it is expected to settle all that is left of the
one or of the other; and it is worth it: something is settled, and if the account pays the flat fee, at least the threshold for it. -/
theorem C87_greedy (peek : List Neg → Option Neg) (hk : PeekOk peek) (m : Market) (ps : List Pos) (q : List Neg) (hp : (ps.map Pos.key).Nodup)
    (pre : List Pair) (x : Pair) (post : List Pair) (h : (planMarket peek m ps q).pairs = pre ++ x :: post) :
    ∃ p ∈ ps, ∃ n ∈ q, x.a = p.key ∧ x.b = n.key ∧
      x.amount = min (p.amount - given pre p.key) (n.amount - taken pre n.key) ∧
      (∀ n' ∈ q, n'.amount - taken pre n'.key ≤ n.amount - taken pre n.key) ∧
      Worth m p.fee x.amount := by
  have hnd : ((ps.insertionSort (fun x y => y.fee ≤ x.fee)).map Pos.key).Nodup := ((sorted_perm ps).map _).nodup_iff.mpr hp
  obtain ⟨p, hp', r⟩ := plan_split peek m hk _ q hnd pre x post h
  exact ⟨p, (sorted_perm ps).mem_iff.mp hp', r⟩

theorem key_inj {α : Type} (f : α → Nat) (l : List α) (h : (l.map f).Nodup) : ∀ x ∈ l, ∀ y ∈ l, f x = f y → x = y := by
  induction l with
  | nil => intro x hx; simp at hx
  | cons z l ih =>
    obtain ⟨h1, h2⟩ := List.nodup_cons.mp h
    intro x hx y hy e
    rcases List.mem_cons.mp hx with hx' | hx' <;> rcases List.mem_cons.mp hy with hy' | hy'
    · rw [hx', hy']
    · exact absurd (List.mem_map.mpr ⟨y, hy', by rw [← hx', e]⟩) h1
    · exact absurd (List.mem_map.mpr ⟨x, hx', by rw [← hy', e]⟩) h1
    · exact ih h2 x hx' y hy' e

/-- No account is planned to settle more than it has. -/
theorem C87_within (peek : List Neg → Option Neg) (hk : PeekOk peek) (m : Market) (ps : List Pos) (q : List Neg) (hp : (ps.map Pos.key).Nodup) (hq : (q.map Neg.key).Nodup)
    (hps : ∀ p ∈ ps, 0 ≤ p.amount) (hqs : ∀ n ∈ q, 0 ≤ n.amount) :
    (∀ p ∈ ps, given (planMarket peek m ps q).pairs p.key ≤ p.amount) ∧
    (∀ n ∈ q, taken (planMarket peek m ps q).pairs n.key ≤ n.amount) := by
  have key : ∀ post pre, (planMarket peek m ps q).pairs = pre ++ post →
      (∀ p ∈ ps, given pre p.key ≤ p.amount) → (∀ n ∈ q, taken pre n.key ≤ n.amount) →
      (∀ p ∈ ps, given (planMarket peek m ps q).pairs p.key ≤ p.amount) ∧ (∀ n ∈ q, taken (planMarket peek m ps q).pairs n.key ≤ n.amount) := by
    intro post
    induction post with
    | nil => intro pre e h1 h2; rw [e, List.append_nil]; exact ⟨h1, h2⟩
    | cons x post ih =>
      intro pre e h1 h2
      obtain ⟨p, hpm, n, hnm, ha, hb, ham, _, hw⟩ := C87_greedy peek hk m ps q hp pre x post e
      refine ih (pre ++ [x]) (by rw [e]; simp) ?_ ?_
      · intro p' hp'
        rw [given_append, given_cons, given_nil]
        have := h1 p' hp'
        by_cases hx : x.a = p'.key
        · have : p = p' := key_inj Pos.key ps hp p hpm p' hp' (ha.symm.trans hx)
          subst this
          rw [if_pos hx]; omega
        · rw [if_neg hx]; omega
      · intro n' hn'
        rw [taken_append, taken_cons, taken_nil]
        have := h2 n' hn'
        by_cases hx : x.b = n'.key
        · have : n = n' := key_inj Neg.key q hq n hnm n' hn' (hb.symm.trans hx)
          subst this
          rw [if_pos hx]; omega
        · rw [if_neg hx]; omega
  exact key _ [] rfl (by simpa using hps) (by simpa using hqs)

/-- number of counterparties with something left -/
def rem (q : List Neg) : Nat := q.countP (fun n => decide (0 < n.amount))

theorem rem_lower (q : List Neg) (n : Neg) (hn : n ∈ q) (s : Int) (hs : 0 < s) (he : n.amount = s) : rem (lower q n.key s) + 1 ≤ rem q := by
  unfold rem lower
  rw [List.countP_map]
  induction q with
  | nil => simp at hn
  | cons x q ih =>
    have hle : List.countP ((fun n => decide (0 < n.amount)) ∘ fun y : Neg => if y.key = n.key then { y with amount := y.amount - s } else y) q ≤ List.countP (fun n => decide (0 < n.amount)) q := by
      apply List.countP_mono_left
      intro y _ hy
      simp only [Function.comp_apply, decide_eq_true_eq] at hy ⊢
      split at hy
      · simp only at hy; omega
      · exact hy
    rw [List.countP_cons, List.countP_cons]
    rcases List.mem_cons.mp hn with rfl | hn
    · have h1 : decide (0 < n.amount) = true := by simp; omega
      simp only [Function.comp_apply, if_true, h1]
      rw [if_neg (by simp; omega)]
      omega
    · have := ih hn
      have : (if ((fun n => decide (0 < n.amount)) ∘ fun y : Neg => if y.key = n.key then { y with amount := y.amount - s } else y) x = true then 1 else 0) ≤
          (if decide (0 < x.amount) = true then 1 else 0) := by
        by_cases hx : 0 < x.amount
        · simp only [hx, decide_true, if_true]; split <;> omega
        · rw [if_neg]
          · omega
          · simp only [Function.comp_apply, decide_eq_true_eq]
            split
            · simp only; omega
            · exact hx
      omega

theorem rem_le (q : List Neg) : rem q ≤ q.length := List.countP_le_length

theorem pairUp_stop (peek m a fee) (fuel : Nat) (left : Int) (q : List Neg) (h : left ≤ 0) : pairUp peek m a fee fuel left q = ([], q) := by
  cases fuel with
  | zero => rfl
  | succ f =>
    unfold pairUp
    by_cases hw : wants m fee left
    · rw [if_pos hw]
      cases hp : peek q with
      | none => rfl
      | some n =>
        have : tooSmall m fee (min left n.amount) = true := by
          unfold tooSmall
          have : min left n.amount ≤ 0 := by omega
          simp [this]
        simp [this]
    · rw [if_neg hw]

theorem rem_lower_le (q : List Neg) (b : Nat) (s : Int) (hs : 0 < s) : rem (lower q b s) ≤ rem q := by
  unfold rem lower
  rw [List.countP_map]
  apply List.countP_mono_left
  intro y _ hy
  simp only [Function.comp_apply, decide_eq_true_eq] at hy ⊢
  split at hy
  · simp only at hy; omega
  · exact hy

/-- each round uses up an account -/
theorem pairUp_length (peek m a fee) (hk : PeekOk peek) : ∀ (fuel : Nat) (left : Int) (q : List Neg),
    (pairUp peek m a fee fuel left q).1.length + rem (pairUp peek m a fee fuel left q).2 ≤ rem q + 1 := by
  intro fuel
  induction fuel with
  | zero => intro left q; simp [pairUp]
  | succ f ih =>
    intro left q
    unfold pairUp
    by_cases h : wants m fee left
    · rw [if_pos h]
      cases hp : peek q with
      | none => simp
      | some n =>
        dsimp only
        by_cases h2 : tooSmall m fee (min left n.amount)
        · rw [if_pos h2]; simp
        · rw [if_neg h2]
          dsimp only
          have hpos := ((tooSmall_iff _ _ _).mp (by simpa using h2)).1
          by_cases hl : left ≤ n.amount
          · rw [pairUp_stop _ _ _ _ _ _ _ (by omega)]
            have := rem_lower_le q n.key _ hpos
            simp only [List.length_cons, List.length_nil]; omega
          · have h3 := rem_lower q n (hk.max q n hp).1 (min left n.amount) hpos (by omega)
            have h4 := ih (left - min left n.amount) (lower q n.key (min left n.amount))
            simp only [List.length_cons]; omega
    · rw [if_neg h]; simp

/-- The planning ends, after at most one round more than there are counterparties: if it is allowed more rounds the result is the same. -/
theorem C87_ends (peek : List Neg → Option Neg) (hk : PeekOk peek) (m : Market) (a : Nat) (fee left : Int) (q : List Neg) (fuel : Nat) (hf : q.length + 1 ≤ fuel) :
    pairUp peek m a fee fuel left q = pairUp peek m a fee (q.length + 1) left q := by
  have key : ∀ (f f' : Nat) (left : Int) (q : List Neg), rem q + 1 ≤ f → rem q + 1 ≤ f' → pairUp peek m a fee f left q = pairUp peek m a fee f' left q := by
    intro f
    induction f with
    | zero => intro f' left q h _; omega
    | succ f ih =>
      intro f' left q h h'
      obtain ⟨f', rfl⟩ : ∃ k, f' = k + 1 := ⟨f' - 1, by omega⟩
      unfold pairUp
      by_cases hw : wants m fee left
      · rw [if_pos hw, if_pos hw]
        cases hp : peek q with
        | none => rfl
        | some n =>
          dsimp only
          by_cases h2 : tooSmall m fee (min left n.amount)
          · rw [if_pos h2, if_pos h2]
          · rw [if_neg h2, if_neg h2]
            have hpos := ((tooSmall_iff _ _ _).mp (by simpa using h2)).1
            have he : pairUp peek m a fee f (left - min left n.amount) (lower q n.key (min left n.amount)) =
                pairUp peek m a fee f' (left - min left n.amount) (lower q n.key (min left n.amount)) := by
              by_cases hl : left ≤ n.amount
              · rw [pairUp_stop _ _ _ _ _ _ _ (by omega), pairUp_stop _ _ _ _ _ _ _ (by omega)]
              · have h3 := rem_lower q n (hk.max q n hp).1 (min left n.amount) hpos (by omega)
                exact ih f' _ _ (by omega) (by omega)
            rw [he]
      · rw [if_neg hw, if_neg hw]
  have := rem_le q
  exact key _ _ _ _ (by omega) (by omega)

theorem plan_length (peek m) (hk : PeekOk peek) : ∀ (ps : List Pos) (q : List Neg), (plan peek m ps q).pairs.length ≤ ps.length + rem q := by
  intro ps
  induction ps with
  | nil => intro q; simp [plan]
  | cons p ps ih =>
    intro q
    unfold plan
    dsimp only
    split
    · simp
    · have h1 := pairUp_length peek m p.key p.fee hk (q.length + 1) p.amount q
      have h2 := ih (pairUp peek m p.key p.fee (q.length + 1) p.amount q).2
      simp only [List.length_append, List.length_cons]
      omega

/-- There are never more settlements than accounts. -/
theorem C87_count (peek : List Neg → Option Neg) (hk : PeekOk peek) (m : Market) (ps : List Pos) (q : List Neg) :
    (planMarket peek m ps q).pairs.length ≤ ps.length + q.length := by
  have h1 := plan_length peek m hk (ps.insertionSort (fun x y => y.fee ≤ x.fee)) q
  have h2 := rem_le q
  rw [(sorted_perm ps).length_eq] at h1
  unfold planMarket
  omega

/-- there is nothing more to settle for the account `p`, of which `left` is left: not enough is left, or it is not worth it with any of the counterparties -/
def Done (m : Market) (p : Pos) (left : Int) (q : List Neg) (l : List Pair) : Prop :=
  (left ≤ m.threshold ∧ (left ≤ 0 ∨ p.fee = m.flat)) ∨ ∀ n ∈ q, ¬ Worth m p.fee (min left (n.amount - taken l n.key))

theorem pairUp_done (peek m a fee) (hk : PeekOk peek) : ∀ (fuel : Nat) (left : Int) (q : List Neg), rem q + 1 ≤ fuel →
    (left - given (pairUp peek m a fee fuel left q).1 a ≤ m.threshold ∧ (left - given (pairUp peek m a fee fuel left q).1 a ≤ 0 ∨ fee = m.flat)) ∨
    ∀ n ∈ q, ¬ Worth m fee (min (left - given (pairUp peek m a fee fuel left q).1 a) (n.amount - taken (pairUp peek m a fee fuel left q).1 n.key)) := by
  intro fuel
  induction fuel with
  | zero => intro left q h; omega
  | succ f ih =>
    intro left q hf
    unfold pairUp
    by_cases h : wants m fee left
    · rw [if_pos h]
      cases hp : peek q with
      | none => right; rw [hk.none q hp]; intro n hn; simp at hn
      | some n =>
        dsimp only
        by_cases h2 : tooSmall m fee (min left n.amount)
        · rw [if_pos h2]
          right
          intro n' hn' hw
          have := (hk.max q n hp).2 n' hn'
          simp only [given_nil, taken_nil, Int.sub_zero] at hw
          have := (tooSmall_iff _ _ _).mpr (worth_mono m fee (min left n.amount) _ (by omega) hw)
          rw [this] at h2; cases h2
        · rw [if_neg h2]
          dsimp only
          have hpos := ((tooSmall_iff _ _ _).mp (by simpa using h2)).1
          by_cases hl : left ≤ n.amount
          · right
            rw [pairUp_stop _ _ _ _ _ _ _ (by omega)]
            intro n' _ hw
            simp only [given_cons, if_true, given_nil] at hw
            have := hw.1
            omega
          · have h3 := rem_lower q n (hk.max q n hp).1 (min left n.amount) hpos (by omega)
            have h4 := ih (left - min left n.amount) (lower q n.key (min left n.amount)) (by omega)
            simp only [given_cons, taken_cons, if_true]
            rcases h4 with h4 | h4
            · left; constructor
              · omega
              · rcases h4.2 with h5 | h5
                · left; omega
                · exact .inr h5
            · right
              intro n' hn' hw
              rw [lower_eq q _ _ a] at h4
              refine h4 _ (List.mem_map.mpr ⟨n', hn', rfl⟩) ?_
              refine worth_mono m fee _ _ (Int.le_of_eq ?_) hw
              rw [lower_eq q _ _ a]
              simp only [taken_cons, taken_nil]
              congr 1 <;> omega
    · rw [if_neg h]
      left
      unfold wants at h
      simp only [Bool.or_eq_true, decide_eq_true_eq, Bool.and_eq_true, not_or, not_and] at h
      simp only [given_nil, Int.sub_zero]
      refine ⟨by omega, ?_⟩
      by_cases h0 : left ≤ 0
      · exact .inl h0
      · right; by_contra hne; exact h.2 (by omega) hne

theorem plan_done (peek m) (hk : PeekOk peek) : ∀ (ps : List Pos) (q : List Neg), (ps.map Pos.key).Nodup →
    ∃ fin rest, ps = fin ++ rest ∧ (plan peek m ps q).recent = fin.map Pos.key ∧
      (∀ p ∈ fin, ∃ x ∈ (plan peek m ps q).pairs, x.a = p.key) ∧ (∀ x ∈ (plan peek m ps q).pairs, ∃ p ∈ fin, x.a = p.key) ∧
      ∀ p ∈ fin ++ rest.take 1, Done m p (p.amount - given (plan peek m ps q).pairs p.key) q (plan peek m ps q).pairs := by
  intro ps
  induction ps with
  | nil => intro q _; exact ⟨[], [], rfl, rfl, by simp, by simp [plan], by simp⟩
  | cons p ps ih =>
    intro q hnd
    obtain ⟨hpn, hnd⟩ := List.nodup_cons.mp hnd
    have hd := pairUp_done peek m p.key p.fee hk (q.length + 1) p.amount q (by have := rem_le q; omega)
    unfold plan
    dsimp only
    by_cases hr : (pairUp peek m p.key p.fee (q.length + 1) p.amount q).1 = []
    · rw [if_pos hr]
      refine ⟨[], p :: ps, rfl, rfl, by simp, by simp, ?_⟩
      intro p' hp'
      simp only [List.take_succ_cons, List.take_zero, List.nil_append, List.mem_singleton] at hp'
      subst hp'
      rw [hr] at hd
      exact hd
    · rw [if_neg hr]
      dsimp only
      obtain ⟨fin, rest, e, h1, h2, h3, h4⟩ := ih (pairUp peek m p.key p.fee (q.length + 1) p.amount q).2 hnd
      set l1 := (pairUp peek m p.key p.fee (q.length + 1) p.amount q).1 with hl1
      set q2 := (pairUp peek m p.key p.fee (q.length + 1) p.amount q).2 with hq2
      have hq2' : q2 = after q l1 := pairUp_after _ _ _ _ _ _ _
      have hmem1 : ∀ y ∈ l1, y.a = p.key := fun y hy => (pairUp_mem peek m _ _ hk _ _ _ y hy).1
      have hpos2 : ∀ y ∈ (plan peek m ps q2).pairs, 0 < y.amount := by
        intro y hy
        obtain ⟨_, _, _, hw⟩ := plan_mem peek m hk ps q2 y hy
        exact hw.1
      refine ⟨p :: fin, rest, by rw [e]; rfl, by simp [h1], ?_, ?_, ?_⟩
      · intro p' hp'
        rcases List.mem_cons.mp hp' with rfl | hp'
        · obtain ⟨x, l', hx⟩ := List.exists_cons_of_ne_nil hr
          exact ⟨x, by simp [hx], hmem1 x (by simp [hx])⟩
        · obtain ⟨x, hx, hx'⟩ := h2 p' hp'
          exact ⟨x, List.mem_append_right _ hx, hx'⟩
      · intro x hx
        rcases List.mem_append.mp hx with hx | hx
        · exact ⟨p, by simp, hmem1 x hx⟩
        · obtain ⟨p', hp', h⟩ := h3 x hx
          exact ⟨p', by simp [hp'], h⟩
      · intro p' hp'
        simp only [List.cons_append] at hp'
        rcases List.mem_cons.mp hp' with rfl | hp'
        · have hg : given (l1 ++ (plan peek m ps q2).pairs) p'.key = given l1 p'.key := by
            rw [given_append, given_none (plan peek m ps q2).pairs]
            · omega
            · intro y hy
              obtain ⟨p0, hp0, hy', _⟩ := plan_mem peek m hk ps q2 y hy
              rw [hy']
              exact fun e => hpn (List.mem_map.mpr ⟨p0, hp0, e⟩)
          rw [hg]
          rcases hd with hd | hd
          · exact .inl hd
          · right
            intro n hn hw
            have := taken_nonneg _ n.key hpos2
            refine hd n hn (worth_mono _ _ _ _ ?_ hw)
            rw [taken_append]
            omega
        · have hmem : p' ∈ ps := by
            rw [e]
            rcases List.mem_append.mp hp' with h | h
            · simp [h]
            · exact List.mem_append_right _ (List.mem_of_mem_take h)
          have hg : given (l1 ++ (plan peek m ps q2).pairs) p'.key = given (plan peek m ps q2).pairs p'.key := by
            rw [given_append, given_none l1]
            · omega
            · intro y hy
              rw [hmem1 y hy]
              exact fun e => hpn (List.mem_map.mpr ⟨p', hmem, e.symm⟩)
          rw [hg]
          rcases h4 p' hp' with h | h
          · exact .inl h
          · right
            intro n hn hw
            rw [hq2'] at h
            refine h _ (List.mem_map.mpr ⟨n, hn, rfl⟩) (worth_mono _ _ _ _ (Int.le_of_eq ?_) hw)
            rw [hq2', taken_append]
            simp only
            congr 1
            omega

/-- The accounts with gains are taken in the order of their fees, highest first, up to some point; exactly those are marked as settled; and for each of them, and for the first one after them, nothing more
that is worth it can be settled. -/
theorem C87_exhaustive (peek : List Neg → Option Neg) (hk : PeekOk peek) (m : Market) (ps : List Pos) (q : List Neg) (hp : (ps.map Pos.key).Nodup) :
    ∃ fin rest : List Pos, (fin ++ rest).Perm ps ∧ (fin ++ rest).Pairwise (fun x y => y.fee ≤ x.fee) ∧
      (planMarket peek m ps q).recent = fin.map Pos.key ∧
      (∀ p ∈ fin, ∃ x ∈ (planMarket peek m ps q).pairs, x.a = p.key) ∧ (∀ x ∈ (planMarket peek m ps q).pairs, ∃ p ∈ fin, x.a = p.key) ∧
      ∀ p ∈ fin ++ rest.take 1, Done m p (p.amount - given (planMarket peek m ps q).pairs p.key) q (planMarket peek m ps q).pairs := by
  have hnd : ((ps.insertionSort (fun x y => y.fee ≤ x.fee)).map Pos.key).Nodup := ((sorted_perm ps).map _).nodup_iff.mpr hp
  obtain ⟨fin, rest, e, h⟩ := plan_done peek m hk _ q hnd
  refine ⟨fin, rest, e ▸ sorted_perm ps, ?_, h⟩
  have : IsTotal Pos (fun x y => y.fee ≤ x.fee) := ⟨fun a b => by omega⟩
  have : IsTrans Pos (fun x y => y.fee ≤ x.fee) := ⟨fun a b c h1 h2 => by omega⟩
  rw [← e]
  exact List.pairwise_insertionSort (fun x y : Pos => y.fee ≤ x.fee) ps

/-- what can be settled never has the opposite sign, and a loss never exceeds what the account's health allows -/
theorem C87_settleable (limited maxSettle : Int) :
    (0 ≤ limited → settleable limited maxSettle = limited) ∧
    (limited < 0 → limited ≤ settleable limited maxSettle ∧ settleable limited maxSettle ≤ 0 ∧ -settleable limited maxSettle ≤ max 0 maxSettle) := by
  unfold settleable
  constructor
  · intro h; rw [if_pos h]
  · intro h; rw [if_neg (by omega)]; omega

/-- a priority queue -/
def peekFirst : List Neg → Option Neg
  | [] => none
  | n :: q => match peekFirst q with
    | none => some n
    | some x => if n.amount ≤ x.amount then some x else some n

theorem peekFirst_ok : PeekOk peekFirst := by
  have h0 : ∀ q, peekFirst q = none → q = [] := by
    intro q h
    cases q with
    | nil => rfl
    | cons n q =>
      unfold peekFirst at h
      cases hq : peekFirst q with
      | none => rw [hq] at h; simp at h
      | some x => rw [hq] at h; dsimp only at h; split at h <;> cases h
  refine ⟨h0, ?_⟩
  intro q
  induction q with
  | nil => intro n h; simp [peekFirst] at h
  | cons y q ih =>
    intro n h
    unfold peekFirst at h
    cases hq : peekFirst q with
    | none =>
      rw [hq] at h
      rw [h0 q hq]
      simp only [Option.some.injEq] at h
      subst h
      simp
    | some x =>
      rw [hq] at h
      obtain ⟨h1, h2⟩ := ih x hq
      dsimp only at h
      split at h
      · rename_i hle
        simp only [Option.some.injEq] at h
        subst h
        refine ⟨by simp [h1], ?_⟩
        intro z hz
        rcases List.mem_cons.mp hz with rfl | hz
        · exact hle
        · exact h2 z hz
      · rename_i hle
        simp only [Option.some.injEq] at h
        subst h
        refine ⟨by simp, ?_⟩
        intro z hz
        rcases List.mem_cons.mp hz with rfl | hz
        · exact Int.le_refl _
        · have := h2 z hz; omega

def exMarket : Market := ⟨100, 5⟩

/-- two gains, three losses: the first gain takes the two largest losses -/
example : planMarket peekFirst exMarket [⟨1, 120, 5⟩, ⟨2, 700, 8⟩] [⟨11, 300⟩, ⟨12, 500⟩, ⟨13, 150⟩] =
    ⟨[⟨2, 12, 500⟩, ⟨2, 11, 200⟩, ⟨1, 13, 120⟩], [2, 1], [⟨11, 100⟩, ⟨12, 0⟩, ⟨13, 30⟩]⟩ := by decide +kernel

/-- Read from the code (settle.rs:251-256): the loop over the accounts ends at the first account that cannot be settled, also when accounts after it could. An account whose gain is exactly the threshold,
which pays the flat fee on chain, stops the settling of all accounts in the market with the same or a lower fee. -/
theorem C87_blocked_at_threshold : ∃ (m : Market) (p p' : Pos) (q : List Neg),
    m.threshold ≤ p.amount ∧ p.fee = m.flat ∧ (planMarket peekFirst m [p, p'] q).pairs = [] ∧ (planMarket peekFirst m [p'] q).pairs ≠ [] :=
  ⟨exMarket, ⟨1, 100, 5⟩, ⟨2, 1000, 5⟩, [⟨11, 1000⟩], by decide, by decide, by decide +kernel, by decide +kernel⟩

/-- The same for an account in bad health, if the accounts before it only miss a counterparty that is large enough for the flat fee. -/
theorem C87_blocked_low_health : ∃ (m : Market) (p p' : Pos) (q : List Neg),
    m.threshold < p.amount ∧ p.fee = m.flat ∧ p'.fee < m.flat ∧ (planMarket peekFirst m [p, p'] q).pairs = [] ∧ (planMarket peekFirst m [p'] q).pairs ≠ [] :=
  ⟨exMarket, ⟨1, 1000, 5⟩, ⟨2, 50, 3⟩, [⟨11, 60⟩], by decide, by decide, by decide, by decide +kernel, by decide +kernel⟩

/-! ## Batches -/

/-- the limits on a transaction -/
def Fits (l : Limits α) (b : List α) : Prop := b.length ≤ l.maxBatch ∧ (b.map l.cu).sum < l.maxCu ∧ l.size b < l.maxSize

/-- what is collected is nothing, fits in a transaction or is a single instruction -/
def Good (l : Limits α) (b : List α) : Prop := Fits l b ∨ b.length = 1

theorem send_facts (l : Limits α) (s : Batcher α) (hc : s.current = [] ∨ Good l s.current) (hs : ∀ b ∈ s.sent, b ≠ [] ∧ Good l b) :
    s.send.current = [] ∧ s.send.sent.flatten = s.sent.flatten ++ s.current ∧ ∀ b ∈ s.send.sent, b ≠ [] ∧ Good l b := by
  unfold Batcher.send
  by_cases h : s.current = []
  · rw [if_pos h]; exact ⟨h, by simp [h], hs⟩
  · rw [if_neg h]
    refine ⟨rfl, by simp, ?_⟩
    intro b hb
    rcases List.mem_append.mp hb with hb | hb
    · exact hs b hb
    · rw [List.mem_singleton.mp hb]
      exact ⟨h, hc.resolve_left h⟩

theorem add_facts (l : Limits α) (s s' : Batcher α) (x : α) (h : s.add l x = .ok s') (hc : s.current = [] ∨ Good l s.current) (hs : ∀ b ∈ s.sent, b ≠ [] ∧ Good l b) :
    Good l s'.current ∧ s'.sent.flatten ++ s'.current = s.sent.flatten ++ s.current ++ [x] ∧ ∀ b ∈ s'.sent, b ≠ [] ∧ Good l b := by
  obtain ⟨h1, h2, h3⟩ := send_facts l s hc hs
  unfold Batcher.add at h
  dsimp only at h
  by_cases c1 : l.maxBatch < (s.current ++ [x]).length ∨ l.maxCu ≤ ((s.current ++ [x]).map l.cu).sum
  · rw [if_pos c1] at h
    cases h
    refine ⟨.inr (by simp [h1]), by simp [h1, h2], h3⟩
  · rw [if_neg c1] at h
    by_cases c2 : l.maxSize ≤ l.size (s.current ++ [x])
    · rw [if_pos c2] at h
      by_cases c3 : (s.current ++ [x]).length = 1
      · rw [if_pos c3] at h; cases h
      · rw [if_neg c3] at h
        cases h
        refine ⟨.inr (by simp [h1]), by simp [h1, h2], h3⟩
    · rw [if_neg c2] at h
      cases h
      refine ⟨.inl ⟨?_, ?_, ?_⟩, by simp, hs⟩ <;> dsimp only <;> omega

/-- All the instructions are sent, each once and in order, in transactions that are not empty and that fit, or that consist of a single instruction. -/
theorem C87_batches (l : Limits α) (xs : List α) (s' : Batcher α) (h : (Batcher.mk [] []).run l xs = .ok s') :
    s'.current = [] ∧ s'.sent.flatten = xs ∧ ∀ b ∈ s'.sent, b ≠ [] ∧ (Fits l b ∨ b.length = 1) := by
  have key : ∀ (xs : List α) (s s' : Batcher α), xs.foldlM (Batcher.add l) s = .ok s' → (s.current = [] ∨ Good l s.current) → (∀ b ∈ s.sent, b ≠ [] ∧ Good l b) →
      (s'.current = [] ∨ Good l s'.current) ∧ s'.sent.flatten ++ s'.current = s.sent.flatten ++ s.current ++ xs ∧ ∀ b ∈ s'.sent, b ≠ [] ∧ Good l b := by
    intro xs
    induction xs with
    | nil => intro s s' h hc hs; simp only [List.foldlM_nil, pure_ok] at h; subst h; exact ⟨hc, by simp, hs⟩
    | cons x xs ih =>
      intro s s' h hc hs
      simp only [List.foldlM_cons, bind_ok] at h
      obtain ⟨s1, h1, h2⟩ := h
      obtain ⟨g1, g2, g3⟩ := add_facts l s s1 x h1 hc hs
      obtain ⟨k1, k2, k3⟩ := ih s1 s' h2 (.inr g1) g3
      exact ⟨k1, by rw [k2, g2]; simp, k3⟩
  unfold Batcher.run at h
  simp only [bind_ok] at h
  obtain ⟨s1, h1, h2⟩ := h
  cases h2
  obtain ⟨k1, k2, k3⟩ := key xs _ s1 h1 (.inl rfl) (by simp)
  obtain ⟨g1, g2, g3⟩ := send_facts l s1 k1 k3
  exact ⟨g1, by rw [g2, k2]; simp, g3⟩

/-- It fails only if one of the instructions does not fit in a transaction on its own. -/
theorem C87_batches_fail (l : Limits α) (xs : List α) (h : ∀ x ∈ xs, l.size [x] < l.maxSize) : ∃ s', (Batcher.mk [] []).run l xs = .ok s' := by
  have key : ∀ (xs : List α) (s : Batcher α), (∀ x ∈ xs, l.size [x] < l.maxSize) → ∃ s', xs.foldlM (Batcher.add l) s = .ok s' := by
    intro xs
    induction xs with
    | nil => intro s _; exact ⟨s, rfl⟩
    | cons x xs ih =>
      intro s h
      have hx := h x (by simp)
      have : ∃ s1, s.add l x = .ok s1 := by
        unfold Batcher.add
        dsimp only
        split
        · exact ⟨_, rfl⟩
        · split
          · rename_i h2
            split
            · rename_i h3
              have : s.current = [] := by
                rw [List.length_append] at h3
                exact List.eq_nil_of_length_eq_zero (by simpa using h3)
              rw [this, List.nil_append] at h2
              omega
            · exact ⟨_, rfl⟩
          · exact ⟨_, rfl⟩
      obtain ⟨s1, h1⟩ := this
      obtain ⟨s2, h2⟩ := ih s1 (fun y hy => h y (by simp [hy]))
      exact ⟨s2, by simp only [List.foldlM_cons, bind_ok]; exact ⟨s1, h1, h2⟩⟩
  obtain ⟨s1, h1⟩ := key xs ⟨[], []⟩ h
  exact ⟨s1.send, by unfold Batcher.run; simp only [bind_ok]; exact ⟨s1, h1, rfl⟩⟩

def exLimits : Limits Nat := ⟨3, fun _ => 10, 100, fun b => b.sum, 50⟩

example : ((Batcher.mk [] []).run exLimits [10, 20, 30, 1, 2, 3, 4]).map (fun s => s.sent) = .ok [[10, 20], [30, 1, 2], [3, 4]] := by decide +kernel

/-- Read from the code (settle.rs:342-357): the check that an instruction fits in a transaction is only made if nothing is collected; otherwise an instruction that is too large is sent anyway. -/
theorem C87_oversized_sent : ∃ (l : Limits Nat) (xs : List Nat) (s' : Batcher Nat), (Batcher.mk [] []).run l xs = .ok s' ∧ ∃ b ∈ s'.sent, l.maxSize ≤ l.size b :=
  ⟨exLimits, [10, 60], ⟨[], [[10], [60]]⟩, by rfl, [60], by simp, by decide⟩

end Settler
end Mango
