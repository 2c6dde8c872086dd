import Verif.Bank.Lemmas
/-! Helper lemmas about the interest curve and `compute_index`. -/
namespace Mango
namespace Bank
open Fx

/-- One linear segment of the curve, as computed in fixed point. -/
def segVal (r0 r1 w x : Int) : Int := r0 + Int.tdiv ((r1 - r0) * S) w * x / S

theorem segVal_up {r0 r1 w x : Int} (hw : 0 < w) (hx : 0 ≤ x) (hxw : x ≤ w) (hr : r0 ≤ r1) :
    r0 ≤ segVal r0 r1 w x ∧ segVal r0 r1 w x ≤ r1 := by
  unfold segVal
  have hb := tdiv_bounds (a := (r1 - r0) * S) (b := w) (Int.mul_nonneg (by omega) (by decide)) hw
  generalize Int.tdiv ((r1 - r0) * S) w = q at *
  constructor
  · have : 0 ≤ q * x / S := floor_nonneg (Int.mul_nonneg hb.2.2 hx)
    omega
  · have h1 : q * x ≤ q * w := Int.mul_le_mul_of_nonneg_left hxw hb.2.2
    have h2 : q * x / S < r1 - r0 + 1 := by
      rw [floor_le_iff]
      have := S_pos
      have e : (r1 - r0 + 1) * S = (r1 - r0) * S + S := by ring
      omega
    omega

theorem segVal_down {r0 r1 w x : Int} (hw : 0 < w) (hx : 0 ≤ x) (hxw : x ≤ w) (hr : r1 ≤ r0) :
    r1 ≤ segVal r0 r1 w x ∧ segVal r0 r1 w x ≤ r0 := by
  unfold segVal
  have e0 : (r1 - r0) * S = -((r0 - r1) * S) := by ring
  rw [e0, Int.neg_tdiv]
  have hb := tdiv_bounds (a := (r0 - r1) * S) (b := w) (Int.mul_nonneg (by omega) (by decide)) hw
  generalize Int.tdiv ((r0 - r1) * S) w = q at *
  have h1 : q * x ≤ q * w := Int.mul_le_mul_of_nonneg_left hxw hb.2.2
  have h3 : 0 ≤ q * x := Int.mul_nonneg hb.2.2 hx
  have e : -q * x = -(q * x) := by ring
  rw [e]
  constructor
  · have : r1 - r0 ≤ -(q * x) / S := by rw [le_floor_iff]; omega
    omega
  · have : -(q * x) / S < 1 := by rw [floor_le_iff]; have := S_pos; omega
    omega

theorem segVal_mono {r0 r1 w x y : Int} (hw : 0 < w) (hxy : x ≤ y) (hr : r0 ≤ r1) :
    segVal r0 r1 w x ≤ segVal r0 r1 w y := by
  unfold segVal
  have hb := tdiv_bounds (a := (r1 - r0) * S) (b := w) (Int.mul_nonneg (by omega) (by decide)) hw
  have := floor_mono (Int.mul_le_mul_of_nonneg_left hxy hb.2.2)
  omega

theorem segVal_zero {r0 r1 w : Int} : segVal r0 r1 w 0 = r0 := by simp [segVal]

theorem unscaled_ok {u z u0 r0 u1 r1 m v : I80F48} (h : interestRateCurveUnscaled u z u0 r0 u1 r1 m = .ok v) :
    (u ≤ u0 ∧ u0 ≠ 0 ∧ v = segVal z r0 u0 u) ∨
    (u0 < u ∧ u ≤ u1 ∧ v = segVal r0 r1 (u1 - u0) (u - u0)) ∨
    (u0 < u ∧ u1 < u ∧ S - u1 ≠ 0 ∧ v = segVal r1 m (S - u1) (u - u1)) := by
  unfold interestRateCurveUnscaled at h
  split at h
  · next hu =>
    simp only [bind_ok, sub_ok, div_ok, mul_ok, add_ok] at h
    obtain ⟨d, ⟨rfl, _⟩, sl, ⟨h0, rfl, _⟩, mm, ⟨rfl, _⟩, rfl, _⟩ := h
    exact Or.inl ⟨hu, h0, rfl⟩
  · next hu =>
    split at h
    · next hu1 =>
      simp only [bind_ok, sub_ok, div_ok, mul_ok, add_ok] at h
      obtain ⟨e, ⟨rfl, _⟩, d, ⟨rfl, _⟩, w, ⟨rfl, _⟩, sl, ⟨h0, rfl, _⟩, mm, ⟨rfl, _⟩, rfl, _⟩ := h
      exact Or.inr (Or.inl ⟨by omega, hu1, rfl⟩)
    · next hu1 =>
      simp only [bind_ok, sub_ok, div_ok, mul_ok, add_ok] at h
      obtain ⟨e, ⟨rfl, _⟩, d, ⟨rfl, _⟩, w, ⟨rfl, _⟩, sl, ⟨h0, rfl, _⟩, mm, ⟨rfl, _⟩, rfl, _⟩ := h
      exact Or.inr (Or.inr ⟨by omega, by omega, h0, rfl⟩)

/-- Every value on the curve lies between the smallest and the largest configured rate. -/
theorem unscaled_bounds {u z u0 r0 u1 r1 m v lo hi : I80F48}
    (h : interestRateCurveUnscaled u z u0 r0 u1 r1 m = .ok v)
    (hu : 0 ≤ u) (hu' : u ≤ S) (h0 : 0 ≤ u0)
    (hz : lo ≤ z ∧ z ≤ hi) (hr0 : lo ≤ r0 ∧ r0 ≤ hi) (hr1 : lo ≤ r1 ∧ r1 ≤ hi) (hm : lo ≤ m ∧ m ≤ hi) :
    lo ≤ v ∧ v ≤ hi := by
  have key : ∀ a b w x : Int, 0 < w → 0 ≤ x → x ≤ w → lo ≤ a ∧ a ≤ hi → lo ≤ b ∧ b ≤ hi →
      lo ≤ segVal a b w x ∧ segVal a b w x ≤ hi := by
    intro a b w x hw hx hxw ha hb
    rcases Int.le_total a b with hab | hab
    · have := segVal_up hw hx hxw hab; omega
    · have := segVal_down hw hx hxw hab; omega
  rcases unscaled_ok h with ⟨h1, h2, rfl⟩ | ⟨h1, h2, rfl⟩ | ⟨h1, h2, h3, rfl⟩
  · exact key _ _ _ _ (by omega) hu h1 hz hr0
  · exact key _ _ _ _ (by omega) (by omega) (by omega) hr0 hr1
  · exact key _ _ _ _ (by omega) (by omega) (by omega) hr1 hm

/-- The part of the configuration that the interest computation relies on (implied by `verify`). -/
def RatesOk (b : Bank) : Prop :=
  (0 ≤ b.util0 ∧ b.util0 ≤ b.util1 ∧ b.util1 ≤ S ∧ 0 ≤ b.rate0 ∧ 0 ≤ b.rate1 ∧ 0 ≤ b.maxRate ∧
      0 ≤ b.zeroUtilRate ∧ S ≤ b.curveScaling) ∧
    (0 ≤ b.loanFeeRate ∧ 0 ≤ b.loanOriginationFeeRate)

theorem verify_ok {b : Bank} {u : Unit} (h : b.verify = .ok u) :
    (0 ≤ b.util0 ∧ b.util0 ≤ b.util1 ∧ b.util1 ≤ S ∧ 0 ≤ b.rate0 ∧ 0 ≤ b.rate1 ∧ 0 ≤ b.maxRate ∧
      0 ≤ b.zeroUtilRate ∧ S ≤ b.curveScaling) ∧
    (0 ≤ b.loanFeeRate ∧ 0 ≤ b.loanOriginationFeeRate) ∧
    (0 ≤ b.initAssetWeight ∧ b.initAssetWeight ≤ b.maintAssetWeight ∧ 0 ≤ b.maintLiabWeight ∧
      b.maintLiabWeight ≤ b.initLiabWeight) ∧
    (0 ≤ b.maintWeightShiftDurationInv ∧ 0 ≤ b.maintWeightShiftAssetTarget ∧ 0 ≤ b.maintWeightShiftLiabTarget) ∧
    b.reduceOnly ≤ 2 := by
  unfold verify at h
  simp only [bind_ok, require_ok] at h
  obtain ⟨_, h1, _, h2, _, h3, _, h4, _, h5, _, h6, _, h7, _, h8, _, h9, _, h10, _, h11, _, h12, _, h13, _, h14,
    _, h15, _, h16, _, h17, _, h18, _, h19, _, h20, h21⟩ := h
  exact ⟨⟨h1, h2, h3, h4, h5, h6, h21, h17⟩, ⟨h7, h8⟩, ⟨h9, h10, h11, h12⟩, ⟨h18, h19, h20⟩, h16⟩

theorem RatesOk.of_verify {b : Bank} {u : Unit} (h : b.verify = .ok u) : b.RatesOk :=
  ⟨(verify_ok h).1, (verify_ok h).2.1⟩

theorem clamp01 (u : Int) : 0 ≤ min (max u 0) Fx.ONE ∧ min (max u 0) Fx.ONE ≤ S := by
  have h := S_pos
  unfold Fx.ONE
  constructor
  · omega
  · omega

theorem computeInterestRate_nonneg {b : Bank} {u r : I80F48} (hv : b.RatesOk)
    (h : b.computeInterestRate u = .ok r) : 0 ≤ r := by
  obtain ⟨⟨h1, h2, h3, h4, h5, h6, h7, h8⟩, _⟩ := hv
  unfold computeInterestRate interestRateCurve at h
  simp only [bind_ok] at h
  obtain ⟨v, hv, h⟩ := h
  have hc := clamp01 u
  have hv0 : 0 ≤ v :=
    (unscaled_bounds (lo := 0)
      (hi := max b.zeroUtilRate (max b.rate0 (max b.rate1 b.maxRate))) hv hc.1 hc.2 h1
      ⟨h7, by omega⟩ ⟨h4, by omega⟩ ⟨h5, by omega⟩ ⟨h6, by omega⟩).1
  have := S_pos
  rw [if_neg (by omega), mul_ok] at h
  rw [h.1]
  exact floor_nonneg (Int.mul_nonneg hv0 (by omega))

theorem util_ok {d n u : I80F48} (h : instantaneousUtilization d n = .ok u) :
    0 ≤ u ∧ u ≤ S ∧ (u = 0 ∨ (d ≠ 0 ∧ u ≤ Int.tdiv (n * S) d)) := by
  unfold instantaneousUtilization at h
  split at h
  · rw [ok_inj] at h; subst h; exact ⟨by omega, by decide, Or.inl rfl⟩
  · next hd =>
    simp only [bind_ok, div_ok, ok_inj] at h
    obtain ⟨q, ⟨_, rfl, _⟩, rfl⟩ := h
    have := clamp01 (Int.tdiv (n * S) d)
    refine ⟨this.1, this.2, ?_⟩
    generalize Int.tdiv (n * S) d = q at *
    unfold Fx.ONE at *
    have := S_pos
    by_cases hq : q ≤ 0
    · left; omega
    · right; exact ⟨hd, by omega⟩

/-- Everything `compute_index` computes, as exact integer equations. -/
theorem computeIndex_ok {b : Bank} {D B dt di bi bf br dr : I80F48}
    (h : b.computeIndex D B dt = .ok (di, bi, bf, br, dr)) :
    ∃ u rf x1 x2 y1 y2 f1 f2,
      instantaneousUtilization (b.depositIndex * D / S) (b.borrowIndex * B / S) = .ok u ∧
      b.computeInterestRate u = .ok br ∧ dr = br * u / S ∧ rf = br + b.loanFeeRate ∧
      f1 = (b.borrowIndex * B / S) * b.loanFeeRate / S ∧ f2 = f1 * dt / S ∧ bf = Int.tdiv (f2 * S) YEAR ∧
      x1 = b.borrowIndex * rf / S ∧ x2 = x1 * dt / S ∧ bi = Int.tdiv (x2 * S) YEAR + b.borrowIndex ∧
      y1 = b.depositIndex * dr / S ∧ y2 = y1 * dt / S ∧ di = Int.tdiv (y2 * S) YEAR + b.depositIndex := by
  unfold computeIndex at h
  simp only [bind_ok, mul_ok, add_ok, div_ok, ok_inj, Prod.mk.injEq] at h
  obtain ⟨nd, ⟨rfl, _⟩, nb, ⟨rfl, _⟩, u, hu, r, hr, dr', ⟨rfl, _⟩, rf, ⟨rfl, _⟩, f1, ⟨rfl, _⟩, f2, ⟨rfl, _⟩,
    bf', ⟨_, rfl, _⟩, x1, ⟨rfl, _⟩, x2, ⟨rfl, _⟩, x3, ⟨_, rfl, _⟩, bi', ⟨rfl, _⟩, y1, ⟨rfl, _⟩, y2, ⟨rfl, _⟩, y3,
    ⟨_, rfl, _⟩, di', ⟨rfl, _⟩, rfl, rfl, rfl, rfl, rfl⟩ := h
  exact ⟨u, _, _, _, _, _, _, _, hu, hr, rfl, rfl, rfl, rfl, rfl, rfl, rfl, rfl, rfl, rfl, rfl⟩

theorem YEAR_pos : 0 < YEAR := by decide

theorem computeIndex_mono {b : Bank} {D B dt di bi bf br dr : I80F48} (hv : b.RatesOk)
    (hb : b.Pos) (hdt : 0 ≤ dt) (h : b.computeIndex D B dt = .ok (di, bi, bf, br, dr)) :
    b.depositIndex ≤ di ∧ b.borrowIndex ≤ bi := by
  obtain ⟨u, rf, x1, x2, y1, y2, f1, f2, hu, hr, rfl, rfl, rfl, rfl, rfl, rfl, rfl, rfl, rfl, rfl, rfl⟩ :=
    computeIndex_ok h
  have hbr := computeInterestRate_nonneg hv hr
  have hu := util_ok hu
  have hlf := hv.2.1
  have h1 : 0 ≤ br * u / S := floor_nonneg (Int.mul_nonneg hbr hu.1)
  have hd := hb.1
  have hbb := hb.2
  constructor
  · have : 0 ≤ Int.tdiv (b.depositIndex * (br * u / S) / S * dt / S * S) YEAR :=
      tdiv_nonneg' (floor_nonneg (Int.mul_nonneg (floor_nonneg (Int.mul_nonneg (by omega) h1)) hdt)) (by decide)
    omega
  · have : 0 ≤ Int.tdiv (b.borrowIndex * (br + b.loanFeeRate) / S * dt / S * S) YEAR :=
      tdiv_nonneg' (floor_nonneg (Int.mul_nonneg (floor_nonneg (Int.mul_nonneg (by omega) (by omega))) hdt))
        (by decide)
    omega

end Bank
end Mango
