import Verif.Health.FloatDiv
import Verif.Props.HealthCheckIx
import Mathlib.Data.Int.Log
/-!
# The rounding of f64

Theorems about code that computes with f64 are stated for every rounding `rnd` that is monotone, keeps 0, 1 and its own results, and (where needed) has a small relative error. This file shows that these assumptions describe
f64: `f64` rounds to the nearest number with 53 significant bits, ties to even. Exponents are not limited here (no infinity, no subnormal numbers): where overflow or division by zero matter, the models treat them apart.
-/
namespace Mango
namespace Float64
open Swap

/-- positive numbers: the nearest multiple of 2^(e - 52), where 2^e ≤ x < 2^(e+1) -/
def f64Pos (x : ℚ) : ℚ := roundEven (x / 2 ^ (Int.log 2 x - 52)) * 2 ^ (Int.log 2 x - 52)

/-- IEEE 754 binary64, round to nearest even, unlimited exponent -/
def f64 (x : ℚ) : ℚ := if x = 0 then 0 else if 0 < x then f64Pos x else -f64Pos (-x)

theorem roundEven_int (n : Int) : roundEven (n : ℚ) = n := by
  have h1 := Health.roundEven_ge (n : ℚ)
  have h2 := Serum.roundEven_le (n : ℚ)
  have a : ((roundEven (n : ℚ) : ℚ)) < (n + 1 : Int) := by push_cast; linarith
  have b : ((n - 1 : Int) : ℚ) < roundEven (n : ℚ) := by push_cast; linarith
  have a' : roundEven (n : ℚ) < n + 1 := by exact_mod_cast a
  have b' : n - 1 < roundEven (n : ℚ) := by exact_mod_cast b
  omega

theorem ulp_pos (e : Int) : (0 : ℚ) < (2 : ℚ) ^ e := zpow_pos (by norm_num) e

/-- x in units of the last place is between 2^52 and 2^53 -/
theorem scaled {x : ℚ} (hx : 0 < x) : (2 : ℚ) ^ 52 ≤ x / 2 ^ (Int.log 2 x - 52) ∧ x / 2 ^ (Int.log 2 x - 52) < 2 ^ 53 := by
  have h1 : ((2 : ℕ) : ℚ) ^ Int.log 2 x ≤ x := Int.zpow_log_le_self (by norm_num) hx
  have h2 : x < ((2 : ℕ) : ℚ) ^ (Int.log 2 x + 1) := Int.lt_zpow_succ_log_self (by norm_num) x
  push_cast at h1 h2
  have e1 : (2 : ℚ) ^ 52 * 2 ^ (Int.log 2 x - 52) = 2 ^ Int.log 2 x := by
    rw [← zpow_natCast, ← zpow_add₀ (by norm_num)]; congr 1; push_cast; ring
  have e2 : (2 : ℚ) ^ 53 * 2 ^ (Int.log 2 x - 52) = 2 ^ (Int.log 2 x + 1) := by
    rw [← zpow_natCast, ← zpow_add₀ (by norm_num)]; congr 1; push_cast; ring
  constructor
  · rw [le_div_iff₀ (ulp_pos _), e1]; exact h1
  · rw [div_lt_iff₀ (ulp_pos _), e2]; exact h2

theorem mantissa {x : ℚ} (hx : 0 < x) : (2 : Int) ^ 52 ≤ roundEven (x / 2 ^ (Int.log 2 x - 52)) ∧ roundEven (x / 2 ^ (Int.log 2 x - 52)) ≤ 2 ^ 53 := by
  obtain ⟨h1, h2⟩ := scaled hx
  constructor
  · have := roundEven_mono (x := (((2 : Int) ^ 52 : Int) : ℚ)) (y := x / 2 ^ (Int.log 2 x - 52)) (by push_cast; exact h1)
    rwa [roundEven_int] at this
  · have := roundEven_mono (y := (((2 : Int) ^ 53 : Int) : ℚ)) (x := x / 2 ^ (Int.log 2 x - 52)) (by push_cast; exact h2.le)
    rwa [roundEven_int] at this

theorem pos_bounds {x : ℚ} (hx : 0 < x) : (2 : ℚ) ^ Int.log 2 x ≤ f64Pos x ∧ f64Pos x ≤ 2 ^ (Int.log 2 x + 1) := by
  obtain ⟨h1, h2⟩ := mantissa hx
  have e1 : (2 : ℚ) ^ 52 * 2 ^ (Int.log 2 x - 52) = 2 ^ Int.log 2 x := by
    rw [← zpow_natCast, ← zpow_add₀ (by norm_num)]; congr 1; push_cast; ring
  have e2 : (2 : ℚ) ^ 53 * 2 ^ (Int.log 2 x - 52) = 2 ^ (Int.log 2 x + 1) := by
    rw [← zpow_natCast, ← zpow_add₀ (by norm_num)]; congr 1; push_cast; ring
  have h1' : (2 : ℚ) ^ 52 ≤ roundEven (x / 2 ^ (Int.log 2 x - 52)) := by exact_mod_cast h1
  have h2' : (roundEven (x / 2 ^ (Int.log 2 x - 52)) : ℚ) ≤ 2 ^ 53 := by exact_mod_cast h2
  unfold f64Pos
  constructor
  · rw [← e1]; exact mul_le_mul_of_nonneg_right h1' (ulp_pos _).le
  · rw [← e2]; exact mul_le_mul_of_nonneg_right h2' (ulp_pos _).le

theorem pos_pos {x : ℚ} (hx : 0 < x) : 0 < f64Pos x := lt_of_lt_of_le (ulp_pos _) (pos_bounds hx).1

theorem pos_mono {x y : ℚ} (hx : 0 < x) (h : x ≤ y) : f64Pos x ≤ f64Pos y := by
  have hy : 0 < y := lt_of_lt_of_le hx h
  have hl : Int.log 2 x ≤ Int.log 2 y := Int.log_mono_right hx h
  rcases eq_or_lt_of_le hl with e | e
  · unfold f64Pos
    rw [← e]
    refine mul_le_mul_of_nonneg_right ?_ (ulp_pos _).le
    have := roundEven_mono (div_le_div_of_nonneg_right h (ulp_pos (Int.log 2 x - 52)).le)
    exact_mod_cast this
  · refine le_trans (pos_bounds hx).2 (le_trans ?_ (pos_bounds hy).1)
    exact zpow_le_zpow_right₀ (by norm_num) (by omega)

theorem log_pow (z : Int) : Int.log 2 ((2 : ℚ) ^ z) = z := by
  have := Int.log_zpow (R := ℚ) (b := 2) (by norm_num) z
  push_cast at this
  exact this

theorem pos_two_zpow (z : Int) : f64Pos ((2 : ℚ) ^ z) = 2 ^ z := by
  unfold f64Pos
  rw [log_pow]
  have e : (2 : ℚ) ^ z / 2 ^ (z - 52) = (((2 : Int) ^ 52 : Int) : ℚ) := by
    have c : (((2 : Int) ^ 52 : Int) : ℚ) = (2 : ℚ) ^ (52 : Int) := by norm_num
    rw [← zpow_sub₀ (by norm_num), c]
    congr 1
    ring
  have c : (((2 : Int) ^ 52 : Int) : ℚ) = (2 : ℚ) ^ (52 : Int) := by norm_num
  rw [e, roundEven_int, c, ← zpow_add₀ (by norm_num)]
  congr 1
  ring

theorem pos_idem {x : ℚ} (hx : 0 < x) : f64Pos (f64Pos x) = f64Pos x := by
  obtain ⟨h1, h2⟩ := mantissa hx
  obtain ⟨b1, b2⟩ := pos_bounds hx
  rcases eq_or_lt_of_le b2 with e | e
  · rw [e]; exact pos_two_zpow _
  · have hl : Int.log 2 (f64Pos x) = Int.log 2 x := by
      have a : Int.log 2 x ≤ Int.log 2 (f64Pos x) := (Int.zpow_le_iff_le_log (b := 2) (by norm_num) (pos_pos hx)).1 (by push_cast; exact b1)
      have b : Int.log 2 (f64Pos x) < Int.log 2 x + 1 := (Int.lt_zpow_iff_log_lt (b := 2) (by norm_num) (pos_pos hx)).1 (by push_cast; exact e)
      omega
    have q : f64Pos x / 2 ^ (Int.log 2 x - 52) = (roundEven (x / 2 ^ (Int.log 2 x - 52)) : ℚ) := by
      unfold f64Pos
      rw [mul_div_assoc, div_self (ulp_pos _).ne', mul_one]
    rw [f64Pos, hl, q, roundEven_int]
    rfl

theorem pos_err {x : ℚ} (hx : 0 < x) : |f64Pos x - x| ≤ 1 / 2 ^ 53 * x := by
  have h1 := Health.roundEven_ge (x / 2 ^ (Int.log 2 x - 52))
  have h2 := Serum.roundEven_le (x / 2 ^ (Int.log 2 x - 52))
  have hs := (scaled hx).1
  have e : x = x / 2 ^ (Int.log 2 x - 52) * 2 ^ (Int.log 2 x - 52) := (div_mul_cancel₀ _ (ulp_pos _).ne').symm
  unfold f64Pos
  have u0 := ulp_pos (Int.log 2 x - 52)
  generalize (2 : ℚ) ^ (Int.log 2 x - 52) = u at *
  generalize hz : x / u = z at *
  rw [e]
  have : (roundEven z : ℚ) * u - z * u = (roundEven z - z) * u := by ring
  rw [this, abs_mul, abs_of_pos u0, ← mul_assoc]
  refine mul_le_mul_of_nonneg_right ?_ u0.le
  have hz2 : 1 / 2 ≤ 1 / 2 ^ 53 * z := by
    have : (1 : ℚ) / 2 ^ 53 * 2 ^ 52 = 1 / 2 := by norm_num
    rw [← this]
    exact mul_le_mul_of_nonneg_left hs (by positivity)
  exact le_trans (abs_le.2 ⟨by linarith, by linarith⟩) hz2

/-- the rounding of f64 meets what the theorems assume of a rounding, with relative error 2^-53 -/
theorem isRnd_f64 : Stable.IsRnd f64 (1 / 2 ^ 53) := by
  constructor
  · intro x y h
    unfold f64
    by_cases x0 : x = 0
    · subst x0
      by_cases y0 : y = 0
      · subst y0; exact le_refl _
      · have hy : 0 < y := lt_of_le_of_ne h (Ne.symm y0)
        rw [if_pos rfl, if_neg y0, if_pos hy]
        exact (pos_pos hy).le
    · rw [if_neg x0]
      by_cases hx : 0 < x
      · have hy : 0 < y := lt_of_lt_of_le hx h
        rw [if_pos hx, if_neg hy.ne', if_pos hy]
        exact pos_mono hx h
      · have hx' : 0 < -x := by
          have : x < 0 := lt_of_le_of_ne (not_lt.1 hx) x0
          linarith
        rw [if_neg hx]
        by_cases y0 : y = 0
        · rw [if_pos y0]
          have := pos_pos hx'
          linarith
        · rw [if_neg y0]
          by_cases hy : 0 < y
          · rw [if_pos hy]
            have := pos_pos hx'
            have := pos_pos hy
            linarith
          · rw [if_neg hy]
            have hy' : 0 < -y := by
              have : y < 0 := lt_of_le_of_ne (not_lt.1 hy) y0
              linarith
            have := pos_mono hy' (by linarith : -y ≤ -x)
            linarith
  · exact if_pos rfl
  · unfold f64
    rw [if_neg one_ne_zero, if_pos one_pos]
    have := pos_two_zpow 0
    simpa using this
  · intro x
    by_cases x0 : x = 0
    · subst x0
      simp [f64]
    · by_cases hx : 0 < x
      · have e : f64 x = f64Pos x := by unfold f64; rw [if_neg x0, if_pos hx]
        rw [e]
        have p := pos_pos hx
        unfold f64
        rw [if_neg p.ne', if_pos p]
        exact pos_idem hx
      · have hx' : 0 < -x := by
          have : x < 0 := lt_of_le_of_ne (not_lt.1 hx) x0
          linarith
        have e : f64 x = -f64Pos (-x) := by unfold f64; rw [if_neg x0, if_neg hx]
        rw [e]
        have p := pos_pos hx'
        unfold f64
        rw [if_neg (by linarith : -f64Pos (-x) ≠ 0) , if_neg (by linarith), neg_neg, pos_idem hx']
  · intro x
    by_cases x0 : x = 0
    · subst x0
      simp [f64]
    · by_cases hx : 0 < x
      · have e : f64 x = f64Pos x := by unfold f64; rw [if_neg x0, if_pos hx]
        rw [e, abs_of_pos hx]
        exact pos_err hx
      · have hx' : 0 < -x := by
          have : x < 0 := lt_of_le_of_ne (not_lt.1 hx) x0
          linarith
        have e : f64 x = -f64Pos (-x) := by unfold f64; rw [if_neg x0, if_neg hx]
        have h := pos_err hx'
        rw [e, abs_of_neg (by linarith : x < 0)]
        have e2 : -f64Pos (-x) - x = -(f64Pos (-x) - -x) := by ring
        rw [e2, abs_neg]
        exact h
  · positivity
  · norm_num

theorem isFloat_f64 : Swap.IsFloat f64 := Health.isFloat_of isRnd_f64

/-- not the identity: 1/10 is not a float; 3/4 is -/
example : f64 (1 / 10) = 3602879701896397 / 36028797018963968 := by
  have e : Int.log 2 (1 / 10 : ℚ) = -4 := by
    have a : (-4 : Int) ≤ Int.log 2 (1 / 10 : ℚ) := (Int.zpow_le_iff_le_log (b := 2) (by norm_num) (by norm_num)).1 (by norm_num)
    have b : Int.log 2 (1 / 10 : ℚ) < -3 := (Int.lt_zpow_iff_log_lt (b := 2) (by norm_num) (by norm_num)).1 (by norm_num)
    omega
  unfold f64 f64Pos
  rw [if_neg (by norm_num), if_pos (by norm_num), e]
  have : ((1 / 10 : ℚ) / 2 ^ ((-4 : Int) - 52)) = 36028797018963968 / 5 := by norm_num
  rw [this]
  have r : roundEven (36028797018963968 / 5) = 7205759403792794 := by decide +kernel
  rw [r]
  norm_num

end Float64
end Mango
