import Verif.Client.Search
import Mathlib.Tactic.Linarith
import Mathlib.Tactic.Ring
/-!
# What the searches find
-/
namespace Mango
namespace Client
open Fx

theorem mid_ok {a b m : I80F48} (h : mid a b = .ok m) : 2 * m ≤ a + b ∧ a + b ≤ 2 * m + 1 := by
  unfold mid at h
  simp only [bind_ok, add_ok, mul_ok] at h
  obtain ⟨s, ⟨rfl, _⟩, rfl, _⟩ := h
  unfold HALF S
  constructor <;> omega

theorem mid_range {a b : I80F48} (h : inRange (a + b)) : ∃ m, mid a b = .ok m := by
  refine ⟨HALF * (a + b) / S, ?_⟩
  unfold mid
  simp only [bind_ok, add_ok, mul_ok]
  refine ⟨a + b, ⟨rfl, h⟩, rfl, ?_⟩
  unfold inRange at h ⊢
  unfold HALF S
  unfold I128MIN I128MAX at *
  omega

theorem satSub_pos {v t : I80F48} : satSub v t > 0 ↔ t < v := by
  unfold satSub sat I128MIN I128MAX; omega

theorem satSub_lt {v t : I80F48} (h : satSub v t < TENTH) : v - t < TENTH := by
  unfold satSub sat I128MIN I128MAX TENTH at *; omega

/-- the loop: the left end has a value above the target (or is where the search began), the right end one at or below it -/
theorem binLoop_spec {f : I80F48 → Res I80F48} {rv t step : I80F48} (hrv : rv ≤ t) :
    ∀ (n : Nat) (l r x : I80F48), l ≤ r → (∃ w, f r = .ok w ∧ w ≤ t) → binLoop f rv t step n l r = .ok x →
      l ≤ x ∧ x ≤ r ∧ (x = l ∨ ∃ v, f x = .ok v ∧ t < v) ∧
      ((∃ v, f x = .ok v ∧ t < v ∧ v - t < TENTH) ∨ ∃ y w, x ≤ y ∧ y < x + step ∧ y ≤ r ∧ f y = .ok w ∧ w ≤ t) := by
  intro n
  induction n with
  | zero => intro l r x _ _ h; exact absurd h (by simp [binLoop])
  | succ n ih =>
    intro l r x hlr hr h
    unfold binLoop at h
    simp only [bind_ok, sub_ok] at h
    obtain ⟨d, ⟨rfl, _⟩, a, ha, h⟩ := h
    unfold Fx.abs at ha
    rw [ck_ok] at ha
    obtain ⟨ha, _⟩ := ha
    rw [if_neg (by omega)] at ha
    by_cases hs : a < step
    · rw [if_pos hs] at h
      rw [ok_inj] at h
      subst h
      obtain ⟨w, hw, hwt⟩ := hr
      exact ⟨le_refl _, hlr, Or.inl rfl, Or.inr ⟨r, w, hlr, by omega, le_refl _, hw, hwt⟩⟩
    · rw [if_neg hs] at h
      simp only [bind_ok] at h
      obtain ⟨m, hm, v, hv, h⟩ := h
      have hmb := mid_ok hm
      by_cases he : satSub v t > 0 ∧ satSub v t < TENTH
      · rw [if_pos he, ok_inj] at h
        subst h
        have h1 := satSub_pos.mp he.1
        exact ⟨by omega, by omega, Or.inr ⟨v, hv, h1⟩, Or.inl ⟨v, hv, h1, satSub_lt he.2⟩⟩
      · rw [if_neg he] at h
        have hrvf : decide (rv > t) = false := decide_eq_false (by omega)
        rw [hrvf, Bool.xor_false] at h
        by_cases hvt : v > t
        · rw [if_pos (decide_eq_true hvt)] at h
          obtain ⟨p1, p2, p3, p4⟩ := ih m r x (by omega) hr h
          refine ⟨by omega, p2, ?_, p4⟩
          right
          rcases p3 with rfl | p3
          · exact ⟨v, hv, hvt⟩
          · exact p3
        · rw [if_neg (by simpa using hvt)] at h
          obtain ⟨p1, p2, p3, p4⟩ := ih l m x (by omega) ⟨v, hv, by omega⟩ h
          refine ⟨p1, by omega, p3, ?_⟩
          rcases p4 with p4 | ⟨y, w, q1, q2, q3, q4, q5⟩
          · exact Or.inl p4
          · exact Or.inr ⟨y, w, q1, q2, by omega, q4, q5⟩

/-- what a search downwards (from a value at or above the target to one at or below it) returns -/
structure Found (f : I80F48 → Res I80F48) (l r t step x : I80F48) : Prop where
  left : l ≤ x
  right : x ≤ r
  value : x = l ∨ ∃ v, f x = .ok v ∧ t < v
  near : (∃ v, f x = .ok v ∧ t < v ∧ v - t < TENTH) ∨ ∃ y w, x ≤ y ∧ y < x + step ∧ y ≤ r ∧ f y = .ok w ∧ w ≤ t

/-- searches that start above the target -/
theorem binary_found {f : I80F48 → Res I80F48} {l lv r t step x : I80F48} (hlr : l ≤ r) (hlv : t < lv)
    (h : binarySearch f l lv r t step = .ok x) : Found f l r t step x := by
  unfold binarySearch at h
  simp only [bind_ok, require_ok] at h
  obtain ⟨rv, hrv, _, hc, h⟩ := h
  have : rv ≤ t := by omega
  obtain ⟨a, b, c, d⟩ := binLoop_spec this 50 l r x hlr ⟨rv, hrv, this⟩ h
  exact ⟨a, b, c, d⟩

/-- searches that start at or above the target, when the right end is known to be at or below it -/
theorem binary_found' {f : I80F48 → Res I80F48} {l lv r t step x rv : I80F48} (hlr : l ≤ r) (hrv : f r = .ok rv) (hrt : rv ≤ t)
    (h : binarySearch f l lv r t step = .ok x) : Found f l r t step x := by
  unfold binarySearch at h
  simp only [bind_ok, require_ok] at h
  obtain ⟨rv', hrv', _, hc, h⟩ := h
  rw [hrv, ok_inj] at hrv'
  subst hrv'
  obtain ⟨a, b, c, d⟩ := binLoop_spec hrt 50 l r x hlr ⟨rv, hrv, hrt⟩ h
  exact ⟨a, b, c, d⟩

/-- the loop ends by itself if the function has values everywhere and the interval is not too long -/
theorem binLoop_total {f : I80F48 → Res I80F48} {rv t step : I80F48} :
    ∀ (n : Nat) (l r : I80F48), l ≤ r → I128MIN ≤ 2 * l → 2 * r ≤ I128MAX → (∀ x, l ≤ x → x ≤ r → ∃ v, f x = .ok v) →
      r - l ≤ 2 ^ n * (step - 1) → ∃ x, binLoop f rv t step (n + 1) l r = .ok x := by
  intro n
  induction n with
  | zero =>
    intro l r hlr hl hr hf hlen
    refine ⟨l, ?_⟩
    unfold binLoop
    simp only [bind_ok, sub_ok]
    refine ⟨r - l, ⟨rfl, by unfold inRange I128MIN I128MAX at *; omega⟩, r - l, ?_, ?_⟩
    · unfold Fx.abs; rw [if_neg (by omega), ck_ok]; exact ⟨rfl, by unfold inRange I128MIN I128MAX at *; omega⟩
    · rw [if_pos (by simp only [pow_zero, one_mul] at hlen; omega)]
  | succ n ih =>
    intro l r hlr hl hr hf hlen
    have hpow : (2 : Int) ^ (n + 1) * (step - 1) = 2 * (2 ^ n * (step - 1)) := by ring
    rw [hpow] at hlen
    by_cases hs : r - l < step
    · refine ⟨l, ?_⟩
      unfold binLoop
      simp only [bind_ok, sub_ok]
      refine ⟨r - l, ⟨rfl, by unfold inRange I128MIN I128MAX at *; omega⟩, r - l, ?_, ?_⟩
      · unfold Fx.abs; rw [if_neg (by omega), ck_ok]; exact ⟨rfl, by unfold inRange I128MIN I128MAX at *; omega⟩
      · rw [if_pos hs]
    · obtain ⟨m, hm⟩ := mid_range (a := l) (b := r) (by unfold inRange; omega)
      have hmb := mid_ok hm
      obtain ⟨v, hv⟩ := hf m (by omega) (by omega)
      have key : ∃ x, (if satSub v t > 0 ∧ satSub v t < TENTH then (.ok m : Res I80F48)
          else if xor (decide (v > t)) (decide (rv > t)) = true then binLoop f rv t step (n + 1) m r
          else binLoop f rv t step (n + 1) l m) = .ok x := by
        by_cases he : satSub v t > 0 ∧ satSub v t < TENTH
        · exact ⟨m, by rw [if_pos he]⟩
        · rw [if_neg he]
          by_cases hx : xor (decide (v > t)) (decide (rv > t)) = true
          · rw [if_pos hx]
            exact ih m r (by omega) (by omega) hr (fun x h1 h2 => hf x (by omega) h2) (by omega)
          · rw [if_neg hx]
            exact ih l m (by omega) hl (by omega) (fun x h1 h2 => hf x h1 (by omega)) (by omega)
      obtain ⟨x, hx⟩ := key
      refine ⟨x, ?_⟩
      rw [binLoop]
      simp only [bind_ok, sub_ok]
      refine ⟨r - l, ⟨rfl, by unfold inRange I128MIN I128MAX at *; omega⟩, r - l, ?_, ?_⟩
      · unfold Fx.abs; rw [if_neg (by omega), ck_ok]; exact ⟨rfl, by unfold inRange I128MIN I128MAX at *; omega⟩
      · rw [if_neg hs]
        simp only [bind_ok]
        exact ⟨m, hm, v, hv, hx⟩

/-- a scan ends at a value at or below the target; if it moved, it started above the target -/
theorem scanLoop_spec {f : I80F48 → Res I80F48} {t : I80F48} :
    ∀ (n : Nat) (s x : I80F48), scanLoop f t n s = .ok x →
      s ≤ x ∧ (∃ v, f x = .ok v ∧ v ≤ t) ∧ (x ≠ s → ∃ v, f s = .ok v ∧ t < v) := by
  intro n
  induction n with
  | zero => intro s x h; exact absurd h (by simp [scanLoop])
  | succ n ih =>
    intro s x h
    unfold scanLoop at h
    simp only [bind_ok] at h
    obtain ⟨v, hv, h⟩ := h
    by_cases hvt : v ≤ t
    · rw [if_pos hvt, ok_inj] at h
      subst h
      exact ⟨le_refl _, ⟨v, hv, hvt⟩, fun hc => absurd rfl hc⟩
    · rw [if_neg hvt] at h
      cases hm : Fx.mulInt (max s Fx.ONE) 2 with
      | error e => rw [hm] at h; exact absurd h (by simp)
      | ok next =>
        rw [hm] at h
        rw [mulInt_ok] at hm
        obtain ⟨p1, p2, _⟩ := ih next x h
        refine ⟨?_, p2, fun _ => ⟨v, hv, by omega⟩⟩
        have := hm.1
        have h1 : (Fx.ONE : Int) = 281474976710656 := rfl
        omega

/-! ## The maximum -/

/-- the middle point is in the middle, up to rounding -/
structure Bracket.Centered (b : Bracket) : Prop where
  lm : b.l ≤ b.m
  mr : b.m ≤ b.r
  lo : b.l + b.r - 2 * b.m ≤ 4
  hi : 2 * b.m - b.l - b.r ≤ 4

/-- one step keeps the middle point in the middle, stays inside and about halves the interval -/
theorem step_shrinks {f : I80F48 → Res I80F48} {b b' : Bracket} (hc : b.Centered) (h : maxStep f b = .ok b') :
    b'.Centered ∧ b'.r - b'.l ≤ (b.r - b.l) / 2 + 3 ∧ b.l ≤ b'.l ∧ b'.r ≤ b.r := by
  obtain ⟨c1, c2, c3, c4⟩ := hc
  unfold maxStep at h
  by_cases h1 : b.lv > b.mv
  · rw [if_pos h1] at h
    simp only [bind_ok, require_ok, ok_inj] at h
    obtain ⟨_, _, m, hm, mv, _, rfl⟩ := h
    have := mid_ok hm
    refine ⟨⟨?_, ?_, ?_, ?_⟩, ?_, ?_, ?_⟩ <;> dsimp only <;> omega
  rw [if_neg h1] at h
  by_cases h2 : b.mv ≤ b.rv
  · rw [if_pos h2] at h
    simp only [bind_ok, require_ok, ok_inj] at h
    obtain ⟨_, _, m, hm, mv, _, rfl⟩ := h
    have := mid_ok hm
    refine ⟨⟨?_, ?_, ?_, ?_⟩, ?_, ?_, ?_⟩ <;> dsimp only <;> omega
  rw [if_neg h2] at h
  simp only [bind_ok, require_ok] at h
  obtain ⟨lm, hlm, lmv, _, _, _, h⟩ := h
  have := mid_ok hlm
  by_cases h3 : lmv > b.mv
  · rw [if_pos h3, ok_inj] at h
    subst h
    refine ⟨⟨?_, ?_, ?_, ?_⟩, ?_, ?_, ?_⟩ <;> dsimp only <;> omega
  rw [if_neg h3] at h
  simp only [bind_ok, require_ok] at h
  obtain ⟨rm, hrm, rmv, _, _, _, h⟩ := h
  have := mid_ok hrm
  by_cases h4 : rmv ≥ b.mv
  · rw [if_pos h4, ok_inj] at h
    subst h
    refine ⟨⟨?_, ?_, ?_, ?_⟩, ?_, ?_, ?_⟩ <;> dsimp only <;> omega
  · rw [if_neg h4, ok_inj] at h
    subst h
    refine ⟨⟨?_, ?_, ?_, ?_⟩, ?_, ?_, ?_⟩ <;> dsimp only <;> omega

/-- the fuel is enough -/
theorem maxLoop_some {f : I80F48 → Res I80F48} {step : I80F48} (hs : 7 ≤ step) :
    ∀ (n : Nat) (b : Bracket), b.Centered → b.r - b.l ≤ 2 ^ n + 6 → maxLoop f step (n + 1) b ≠ none := by
  intro n
  induction n with
  | zero =>
    intro b hb hl
    unfold maxLoop
    cases hd : Fx.sub b.r b.l with
    | error e => simp
    | ok d =>
      rw [sub_ok] at hd
      dsimp only
      rw [if_neg (by omega)]
      simp
  | succ n ih =>
    intro b hb hl
    rw [maxLoop]
    cases hd : Fx.sub b.r b.l with
    | error e => simp
    | ok d =>
      dsimp only
      by_cases hc : d > step
      · rw [if_pos hc]
        cases hm : maxStep f b with
        | error e => simp
        | ok b' =>
          dsimp only
          have := step_shrinks hb hm
          refine ih b' this.1 ?_
          have h2 : (2 : Int) ^ (n + 1) = 2 * 2 ^ n := by ring
          omega
      · rw [if_neg hc]; simp

/-- more fuel changes nothing -/
theorem maxLoop_more {f : I80F48 → Res I80F48} {step : I80F48} (k : Nat) :
    ∀ (n : Nat) (b : Bracket) (x : Res Bracket), maxLoop f step n b = some x → maxLoop f step (n + k) b = some x := by
  intro n
  induction n with
  | zero => intro b x h; exact absurd h (by simp [maxLoop])
  | succ n ih =>
    intro b x h
    rw [show n + 1 + k = (n + k) + 1 by omega]
    rw [maxLoop] at h ⊢
    cases hd : Fx.sub b.r b.l with
    | error e => rw [hd] at h; exact h
    | ok d =>
      rw [hd] at h
      dsimp only at h ⊢
      by_cases hc : d > step
      · rw [if_pos hc] at h ⊢
        cases hm : maxStep f b with
        | error e => rw [hm] at h; exact h
        | ok b' => rw [hm] at h; exact ih b' x h
      · rw [if_neg hc] at h ⊢; exact h

/-- the stored values are the function's -/
def Bracket.Values (f : I80F48 → Res I80F48) (b : Bracket) : Prop := f b.l = .ok b.lv ∧ f b.m = .ok b.mv ∧ f b.r = .ok b.rv

theorem step_values {f : I80F48 → Res I80F48} {b b' : Bracket} (hv : b.Values f) (h : maxStep f b = .ok b') : b'.Values f := by
  obtain ⟨v1, v2, v3⟩ := hv
  unfold maxStep at h
  by_cases h1 : b.lv > b.mv
  · rw [if_pos h1] at h
    simp only [bind_ok, require_ok, ok_inj] at h
    obtain ⟨_, _, m, hm, mv, hmv, rfl⟩ := h
    exact ⟨v1, hmv, v2⟩
  rw [if_neg h1] at h
  by_cases h2 : b.mv ≤ b.rv
  · rw [if_pos h2] at h
    simp only [bind_ok, require_ok, ok_inj] at h
    obtain ⟨_, _, m, hm, mv, hmv, rfl⟩ := h
    exact ⟨v2, hmv, v3⟩
  rw [if_neg h2] at h
  simp only [bind_ok, require_ok] at h
  obtain ⟨lm, hlm, lmv, hlmv, _, _, h⟩ := h
  by_cases h3 : lmv > b.mv
  · rw [if_pos h3, ok_inj] at h
    subst h
    exact ⟨v1, hlmv, v2⟩
  rw [if_neg h3] at h
  simp only [bind_ok, require_ok] at h
  obtain ⟨rm, hrm, rmv, hrmv, _, _, h⟩ := h
  by_cases h4 : rmv ≥ b.mv
  · rw [if_pos h4, ok_inj] at h
    subst h
    exact ⟨v2, hrmv, v3⟩
  · rw [if_neg h4, ok_inj] at h
    subst h
    exact ⟨hlmv, v2, hrmv⟩

/-- what holds at the end of the loop: the interval is short, the values are the function's -/
theorem maxLoop_end {f : I80F48 → Res I80F48} {step : I80F48} :
    ∀ (n : Nat) (b b' : Bracket), b.Centered → b.Values f → maxLoop f step n b = some (.ok b') →
      b'.Centered ∧ b'.Values f ∧ b'.r - b'.l ≤ step ∧ b.l ≤ b'.l ∧ b'.r ≤ b.r := by
  intro n
  induction n with
  | zero => intro b b' _ _ h; exact absurd h (by simp [maxLoop])
  | succ n ih =>
    intro b b' hb hv h
    rw [maxLoop] at h
    cases hd : Fx.sub b.r b.l with
    | error e => rw [hd] at h; simp at h
    | ok d =>
      rw [hd] at h
      dsimp only at h
      rw [sub_ok] at hd
      by_cases hc : d > step
      · rw [if_pos hc] at h
        cases hm : maxStep f b with
        | error e => rw [hm] at h; simp at h
        | ok b1 =>
          rw [hm] at h
          have h1 := step_shrinks hb hm
          obtain ⟨q1, q2, q3, q4, q5⟩ := ih b1 b' h1.1 (step_values hv hm) h
          exact ⟨q1, q2, q3, by omega, by omega⟩
      · rw [if_neg hc] at h
        simp only [Option.some.injEq, Except.ok.injEq] at h
        subst h
        exact ⟨hb, hv, by omega, le_refl _, le_refl _⟩

/-- the parts of a successful `findMaximum` -/
theorem findMaximum_parts {f : I80F48 → Res I80F48} {l r step : I80F48} {n : Nat} {x v : I80F48}
    (h : findMaximum f l r step n = some (.ok (x, v))) :
    l ≤ r ∧ ∃ b b' : Bracket, b.l = l ∧ b.r = r ∧ b.Centered ∧ b.Values f ∧ maxLoop f step n b = some (.ok b') ∧ b'.best = (x, v) := by
  unfold findMaximum at h
  by_cases h1 : r < l
  · rw [if_pos h1] at h; simp at h
  rw [if_neg h1] at h
  cases hm : mid l r with
  | error e => rw [hm] at h; simp at h
  | ok m =>
    rw [hm] at h
    have hmb := mid_ok hm
    dsimp only at h
    cases hl : f l with
    | error e => rw [hl] at h; simp at h
    | ok lv =>
      cases hr : f r with
      | error e => rw [hl, hr] at h; simp at h
      | ok rv =>
        cases hf : f m with
        | error e => rw [hl, hr, hf] at h; simp at h
        | ok mv =>
          rw [hl, hr, hf] at h
          dsimp only at h
          cases hb : maxLoop f step n ⟨l, m, r, lv, mv, rv⟩ with
          | none => rw [hb] at h; simp at h
          | some y =>
            rw [hb] at h
            cases y with
            | error e => simp [Except.map] at h
            | ok b' =>
              simp only [Option.map_some, Except.map, Option.some.injEq, Except.ok.injEq] at h
              refine ⟨by omega, ⟨l, m, r, lv, mv, rv⟩, b', rfl, rfl, ⟨?_, ?_, ?_, ?_⟩, ⟨hl, hf, hr⟩, hb, h⟩ <;> dsimp only <;> omega

theorem best_values {f : I80F48 → Res I80F48} {b : Bracket} {x v : I80F48} (hc : b.Centered) (hv : b.Values f) (h : b.best = (x, v)) :
    f x = .ok v ∧ b.l ≤ x ∧ x ≤ b.r := by
  obtain ⟨c1, c2, _, _⟩ := hc
  obtain ⟨v1, v2, v3⟩ := hv
  unfold Bracket.best at h
  by_cases h1 : b.lv > b.mv
  · rw [if_pos h1] at h; obtain ⟨rfl, rfl⟩ := h; exact ⟨v1, le_refl _, by omega⟩
  rw [if_neg h1] at h
  by_cases h2 : b.mv > b.rv
  · rw [if_pos h2] at h; obtain ⟨rfl, rfl⟩ := h; exact ⟨v2, c1, c2⟩
  · rw [if_neg h2] at h; obtain ⟨rfl, rfl⟩ := h; exact ⟨v3, by omega, le_refl _⟩

end Client
end Mango
