import Verif.Health.Equity
import Verif.Health.Bounds
import Verif.Props.StablePrice
import Verif.Props.SerumPrices
import Mathlib.Tactic.FieldSimp
/-! The f64 division: monotone, and accurate up to its roundings. -/
namespace Mango
namespace Health
open Fx

theorem toF_nonneg {rnd : ℚ → ℚ} (hr : Swap.IsFloat rnd) {a : Int} (ha : 0 ≤ a) : 0 ≤ Swap.toF rnd a := by
  unfold Swap.toF
  have := hr.mono 0 ((a : ℚ) / S) (div_nonneg (by exact_mod_cast ha) (by norm_num [S]))
  rwa [hr.zero] at this

theorem toF_mono {rnd : ℚ → ℚ} (hr : Swap.IsFloat rnd) {a b : Int} (h : a ≤ b) : Swap.toF rnd a ≤ Swap.toF rnd b := by
  unfold Swap.toF
  apply hr.mono
  have : (a : ℚ) ≤ b := by exact_mod_cast h
  exact div_le_div_of_nonneg_right this (by norm_num [S])

/-- what C37, C40, C51, C70 and others ask of the division holds of the f64 one -/
theorem f64Div_ok {rnd : ℚ → ℚ} (hr : Swap.IsFloat rnd) : FdOk (f64Div rnd) := by
  have rnd0 : ∀ x, 0 ≤ x → 0 ≤ rnd x := by
    intro x hx
    have := hr.mono 0 x hx
    rwa [hr.zero] at this
  have hS : (0 : ℚ) ≤ (S : ℚ) := by norm_num [S]
  constructor
  · intro a b x ha hb h
    unfold f64Div at h
    by_cases h0 : Swap.toF rnd b = 0
    · rw [if_pos h0] at h; cases h
    · rw [if_neg h0, Swap.toFx, Fx.ck_ok] at h
      rw [h.1, ← Swap.roundEven_zero]
      apply Swap.roundEven_mono
      exact mul_nonneg (rnd0 _ (div_nonneg (toF_nonneg hr ha) (toF_nonneg hr hb))) hS
  · intro a a' b b' x y ha haa hb hbb h1 h2
    unfold f64Div at h1 h2
    by_cases h0 : Swap.toF rnd b = 0
    · rw [if_pos h0] at h1; cases h1
    by_cases h0' : Swap.toF rnd b' = 0
    · rw [if_pos h0'] at h2; cases h2
    rw [if_neg h0, Swap.toFx, Fx.ck_ok] at h1
    rw [if_neg h0', Swap.toFx, Fx.ck_ok] at h2
    rw [h1.1, h2.1]
    apply Swap.roundEven_mono
    apply mul_le_mul_of_nonneg_right _ hS
    apply hr.mono
    have b0 : 0 < Swap.toF rnd b' := lt_of_le_of_ne (toF_nonneg hr hb) (Ne.symm h0')
    exact div_le_div₀ (toF_nonneg hr (by omega)) (toF_mono hr haa) b0 (toF_mono hr hbb)

theorem isFloat_of {rnd : ℚ → ℚ} {ε : ℚ} (R : Stable.IsRnd rnd ε) : Swap.IsFloat rnd := ⟨R.mono, R.one, R.zero, R.idem⟩

/-- the quotient is at most the exact one, up to the roundings of both numbers and of the quotient, and half a unit of the result -/
theorem f64Div_near {rnd : ℚ → ℚ} {ε : ℚ} (R : Stable.IsRnd rnd ε) (he : ε ≤ 1 / 5) {a b x : Int} (ha : 0 ≤ a) (hb : 0 ≤ b) (h : f64Div rnd a b = .ok x) :
    0 < b ∧ (x : ℚ) ≤ (1 + 4 * ε) * (a * S / b) + 1 / 2 := by
  have hr := isFloat_of R
  unfold f64Div at h
  by_cases h0 : Swap.toF rnd b = 0
  · rw [if_pos h0] at h; cases h
  rw [if_neg h0, Swap.toFx, Fx.ck_ok] at h
  have hb' : 0 < b := by
    rcases Int.lt_or_eq_of_le hb with h | h
    · exact h
    · exfalso; apply h0; rw [← h]; simp [Swap.toF, R.zero]
  refine ⟨hb', ?_⟩
  have hS : (0 : ℚ) < (S : ℚ) := by norm_num [S]
  have bq : (0 : ℚ) < b := by exact_mod_cast hb'
  have aq : (0 : ℚ) ≤ a := by exact_mod_cast ha
  have e0 := R.eps
  -- the two numbers
  have ea := abs_le.mp (R.err ((a : ℚ) / S))
  have eb := abs_le.mp (R.err ((b : ℚ) / S))
  rw [abs_of_nonneg (by positivity)] at ea eb
  have A : Swap.toF rnd a ≤ (1 + ε) * (a / S) := by unfold Swap.toF; linarith [ea.2]
  have B : (1 - ε) * (b / S) ≤ Swap.toF rnd b := by unfold Swap.toF; linarith [eb.1]
  have B0 : 0 < (1 - ε) * ((b : ℚ) / S) := mul_pos (by linarith) (by positivity)
  have A0 := toF_nonneg hr ha
  have Q : Swap.toF rnd a / Swap.toF rnd b ≤ ((1 + ε) * (a / S)) / ((1 - ε) * (b / S)) := div_le_div₀ (by positivity) A B0 B
  have Q0 : 0 ≤ Swap.toF rnd a / Swap.toF rnd b := div_nonneg A0 (by linarith)
  have eq := abs_le.mp (R.err (Swap.toF rnd a / Swap.toF rnd b))
  rw [abs_of_nonneg Q0] at eq
  have Q1 : rnd (Swap.toF rnd a / Swap.toF rnd b) ≤ (1 + ε) * (((1 + ε) * (a / S)) / ((1 - ε) * (b / S))) := by
    have := mul_le_mul_of_nonneg_left Q (show 0 ≤ 1 + ε by linarith)
    linarith [eq.2]
  have e1 : (1 + ε) * (((1 + ε) * ((a : ℚ) / S)) / ((1 - ε) * (b / S))) = ((1 + ε) * (1 + ε) / (1 - ε)) * (a / b) := by
    have : (1 - ε) ≠ 0 := by linarith
    field_simp
  have e2 : (1 + ε) * (1 + ε) / (1 - ε) ≤ 1 + 4 * ε := by
    rw [div_le_iff₀ (by linarith)]
    nlinarith
  have e3 : rnd (Swap.toF rnd a / Swap.toF rnd b) ≤ (1 + 4 * ε) * ((a : ℚ) / b) := by
    rw [e1] at Q1
    exact le_trans Q1 (mul_le_mul_of_nonneg_right e2 (by positivity))
  have e4 := Serum.roundEven_le (rnd (Swap.toF rnd a / Swap.toF rnd b) * S)
  rw [h.1]
  have e5 := mul_le_mul_of_nonneg_right e3 hS.le
  have e6 : (1 + 4 * ε) * ((a : ℚ) / b) * S = (1 + 4 * ε) * (a * S / b) := by ring
  linarith

end Health
end Mango
