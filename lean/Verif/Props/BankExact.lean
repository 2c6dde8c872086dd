import Verif.Props.Bank3
import Mathlib.Tactic.Linarith
/-! # C06, C09, C10, C11: how much, not only "at most"

The other theorems of these properties bound what the program may do.  Those here say that it also does it: interest
charged is the rate of the curve times the time, and is passed on to the depositors; the curve runs through its
configured points on straight lines; a weight shift follows a straight line; the deposit limit rejects nothing below
it, and the headroom reported is all there is.  Each is exact up to rounding, with the rounding written out. -/
namespace Mango
namespace Bank
open Fx

/-! ## C10: the curve is piecewise linear -/

/-- `v` is within two bits of the straight line from `p` (at distance 0) to `q` (at distance `w`), at distance `x`. -/
def OnLine (v p q x w : Int) : Prop := (q - p) * x - 2 * w ≤ (v - p) * w ∧ (v - p) * w ≤ (q - p) * x + 2 * w

theorem floor_scale (x w : Int) (hw : 0 < w) : x / S * w * S ≤ x * w ∧ x * w ≤ x / S * w * S + w * S := by
  have h := mulFloor_bounds x
  have h1 : x / S * S * w ≤ x * w := Int.mul_le_mul_of_nonneg_right h.1 hw.le
  have h2 : x * w ≤ (x / S * S + S) * w := Int.mul_le_mul_of_nonneg_right h.2.le hw.le
  constructor <;> nlinarith

theorem segVal_line {r0 r1 w x : Int} (hw : 0 < w) (hx : 0 ≤ x) (hxw : x ≤ w) (hws : w ≤ S) :
    OnLine (segVal r0 r1 w x) r0 r1 x w := by
  have hS := S_pos
  -- the slope is within one bit
  have hsl : (r1 - r0) * S - w ≤ Int.tdiv ((r1 - r0) * S) w * w ∧ Int.tdiv ((r1 - r0) * S) w * w ≤ (r1 - r0) * S + w := by
    rcases Int.le_total r0 r1 with h | h
    · have := tdiv_bounds (a := (r1 - r0) * S) (b := w) (Int.mul_nonneg (by omega) hS.le) hw
      omega
    · have e0 : (r1 - r0) * S = -((r0 - r1) * S) := by ring
      have := tdiv_bounds (a := (r0 - r1) * S) (b := w) (Int.mul_nonneg (by omega) hS.le) hw
      rw [e0, Int.neg_tdiv]
      have e : -(Int.tdiv ((r0 - r1) * S) w) * w = -(Int.tdiv ((r0 - r1) * S) w * w) := by ring
      rw [e]
      omega
  unfold OnLine segVal
  generalize Int.tdiv ((r1 - r0) * S) w = q at *
  have hf := floor_scale (q * x) w hw
  have e : r0 + q * x / S - r0 = q * x / S := by omega
  rw [e]
  have a1 := Int.mul_le_mul_of_nonneg_right hsl.1 hx
  have a2 := Int.mul_le_mul_of_nonneg_right hsl.2 hx
  have a3 : w * x ≤ w * S := Int.mul_le_mul_of_nonneg_left (by omega) hw.le
  constructor
  · refine Int.le_of_mul_le_mul_right (a := S) ?_ hS
    linarith
  · refine Int.le_of_mul_le_mul_right (a := S) ?_ hS
    linarith

/-- C10: the interest rate at a utilization (limited to between 0 and 1) is, up to two bits of rounding, on the
straight lines through (0, zero-utilization rate), (first kink, its rate), (second kink, its rate), (1, maximum rate),
times the curve scaling. -/
theorem C10_linear {b : Bank} {u r : I80F48} (hv : b.verify = .ok ()) (h : RateAt b u r) :
    ∃ v, r = v * b.curveScaling / S ∧
      (0 ≤ u → u ≤ b.util0 → OnLine v b.zeroUtilRate b.rate0 u b.util0) ∧
      (b.util0 < u → u ≤ b.util1 → OnLine v b.rate0 b.rate1 (u - b.util0) (b.util1 - b.util0)) ∧
      (b.util1 < u → u ≤ S → OnLine v b.rate1 b.maxRate (u - b.util1) (S - b.util1)) ∧
      (S ≤ u → b.util1 < S → OnLine v b.rate1 b.maxRate (S - b.util1) (S - b.util1)) ∧
      (u < 0 → v = b.zeroUtilRate) := by
  obtain ⟨⟨g1, g2, g3, g4, g5, g6, g7, g8⟩, _⟩ := verify_ok hv
  unfold RateAt computeInterestRate interestRateCurve at h
  have hS := S_pos
  have hne : b.curveScaling ≠ 0 := by omega
  simp only [bind_ok, if_neg hne, mul_ok] at h
  obtain ⟨v, hv, rfl, _⟩ := h
  have hone : Fx.ONE = S := rfl
  rw [hone] at hv
  refine ⟨v, rfl, ?_, ?_, ?_, ?_, ?_⟩
  · intro h0 h1
    rw [show min (max u 0) S = u by omega] at hv
    rcases unscaled_ok hv with ⟨h1, h2, rfl⟩ | ⟨h1, h2, rfl⟩ | ⟨h1, h2, h3, rfl⟩
    · exact segVal_line (by omega) h0 h1 (by omega)
    · omega
    · omega
  · intro h0 h1
    rw [show min (max u 0) S = u by omega] at hv
    rcases unscaled_ok hv with ⟨h1, h2, rfl⟩ | ⟨h1, h2, rfl⟩ | ⟨h1, h2, h3, rfl⟩
    · omega
    · exact segVal_line (by omega) (by omega) (by omega) (by omega)
    · omega
  · intro h0 h1
    rw [show min (max u 0) S = u by omega] at hv
    rcases unscaled_ok hv with ⟨h1, h2, rfl⟩ | ⟨h1, h2, rfl⟩ | ⟨h1, h2, h3, rfl⟩
    · omega
    · omega
    · exact segVal_line (by omega) (by omega) (by omega) (by omega)
  · intro h0 h1
    rw [show min (max u 0) S = S by omega] at hv
    rcases unscaled_ok hv with ⟨h1, h2, rfl⟩ | ⟨h1, h2, rfl⟩ | ⟨h1, h2, h3, rfl⟩
    · omega
    · omega
    · exact segVal_line (by omega) (by omega) (by omega) (by omega)
  · intro h0
    rw [show min (max u 0) S = 0 by omega] at hv
    rcases unscaled_ok hv with ⟨h1, h2, rfl⟩ | ⟨h1, h2, rfl⟩ | ⟨h1, h2, h3, rfl⟩
    · exact segVal_zero
    · omega
    · omega

/-! ## C09: interest charged is the curve's rate, and is passed on -/

/-- Utilization: borrows over deposits (in native units), within one bit; 1 when there is more borrowed than
deposited. -/
def Utilization (u deposits borrows : Int) : Prop :=
  (deposits = 0 → u = 0) ∧
  (0 < deposits → borrows ≤ deposits → u * deposits ≤ borrows * S ∧ borrows * S < u * deposits + deposits) ∧
  (0 < deposits → deposits < borrows → u = S)

theorem utilization_ok {d n u : I80F48} (hd : 0 ≤ d) (hn : 0 ≤ n) (h : instantaneousUtilization d n = .ok u) :
    Utilization u d n := by
  have hS := S_pos
  unfold instantaneousUtilization at h
  by_cases h0 : d = 0
  · rw [if_pos h0, ok_inj] at h
    subst h
    exact ⟨fun _ => rfl, fun h => by omega, fun h => by omega⟩
  · rw [if_neg h0] at h
    simp only [bind_ok, div_ok, ok_inj] at h
    obtain ⟨q, ⟨_, rfl, _⟩, rfl⟩ := h
    have t := tdiv_bounds (a := n * S) (b := d) (Int.mul_nonneg hn hS.le) (by omega)
    generalize Int.tdiv (n * S) d = q at *
    have hone : Fx.ONE = S := rfl
    rw [hone]
    refine ⟨fun h => absurd h h0, fun hd' hle => ?_, fun hd' hlt => ?_⟩
    · have : q ≤ S := by
        by_contra hc
        have h1 : (S + 1) * d ≤ q * d := Int.mul_le_mul_of_nonneg_right (by omega) hd
        have h2 : n * S ≤ d * S := Int.mul_le_mul_of_nonneg_right hle hS.le
        have e : (S + 1) * d = d * S + d := by ring
        omega
      rw [show min (max q 0) S = q by omega]
      omega
    · have : S ≤ q := by
        by_contra hc
        have h1 : q * d ≤ (S - 1) * d := Int.mul_le_mul_of_nonneg_right (by omega) hd
        have h2 : (d + 1) * S ≤ n * S := Int.mul_le_mul_of_nonneg_right (by omega) hS.le
        have e : (S - 1) * d = d * S - d := by ring
        have e2 : (d + 1) * S = d * S + S := by ring
        omega
      omega

/-- C09: what borrowers are charged over a time `dt` (in seconds, times `S`): the borrow index grows by the index times
the curve's rate at the current utilization plus the loan fee rate, times the fraction of a year; rounding makes the
growth at most two bits of the index too small. -/
theorem C09_borrow_interest {b : Bank} {D B dt di bi fees br dr : I80F48} (hv : b.verify = .ok ()) (hb : b.Pos)
    (hD : 0 ≤ D) (hB : 0 ≤ B) (hdt : 0 ≤ dt) (hdt' : dt ≤ 3600 * S)
    (h : b.computeIndex D B dt = .ok (di, bi, fees, br, dr)) :
    (∃ u, Utilization u (b.depositIndex * D / S) (b.borrowIndex * B / S) ∧ RateAt b u br) ∧
    (bi - b.borrowIndex) * (31536000 * S * S) ≤ b.borrowIndex * (br + b.loanFeeRate) * dt ∧
    b.borrowIndex * (br + b.loanFeeRate) * dt ≤ (bi - b.borrowIndex + 2) * (31536000 * S * S) := by
  obtain ⟨u, rf, x1, x2, y1, y2, f1, f2, hu, hr, hdr, hrf, hf1, hf2, hbf, hx1, hx2, hbi, hy1, hy2, hdi⟩ :=
    computeIndex_ok h
  have hbr := computeInterestRate_nonneg (RatesOk.of_verify hv) hr
  have hlf := (RatesOk.of_verify hv).2.1
  have hS := S_pos
  have hd0 := hb.1
  have hb0 := hb.2
  have hnb0 : 0 ≤ b.borrowIndex * B / S := floor_nonneg (Int.mul_nonneg (by omega) hB)
  have hnd0 : 0 ≤ b.depositIndex * D / S := floor_nonneg (Int.mul_nonneg (by omega) hD)
  refine ⟨⟨u, utilization_ok hnd0 hnb0 hu, hr⟩, ?_⟩
  have mx1 := mulFloor_bounds (b.borrowIndex * rf)
  have mx2 := mulFloor_bounds (x1 * dt)
  rw [← hx1] at mx1
  rw [← hx2] at mx2
  have hx10 : 0 ≤ x1 := hx1 ▸ floor_nonneg (Int.mul_nonneg hb0.le (by omega))
  have hx20 : 0 ≤ x2 := hx2 ▸ floor_nonneg (Int.mul_nonneg hx10 hdt)
  have tx := tdivYEAR x2 hx20
  have hbi' : bi - b.borrowIndex = Int.tdiv (x2 * S) YEAR := by omega
  rw [hbi']
  generalize Int.tdiv (x2 * S) YEAR = x3 at *
  rw [hrf] at mx1
  generalize b.borrowIndex * (br + b.loanFeeRate) = k at *
  have hss : 0 ≤ S * S := Int.mul_nonneg hS.le hS.le
  have c1 := Int.mul_le_mul_of_nonneg_right tx.1 hss
  have c2 := Int.mul_le_mul_of_nonneg_right tx.2 hss
  have c3 := Int.mul_le_mul_of_nonneg_right mx2.1 hS.le
  have c4 := Int.mul_le_mul_of_nonneg_right mx2.2.le hS.le
  have c5 := Int.mul_le_mul_of_nonneg_right mx1.1 hdt
  have c6 := Int.mul_le_mul_of_nonneg_right mx1.2.le hdt
  have c7 : dt * S ≤ 3600 * S * S := Int.mul_le_mul_of_nonneg_right hdt' hS.le
  constructor <;> linarith

/-- Pure arithmetic core of `C09_passed_on`. -/
theorem passed_arith (s Y di bi D B dt br lf nb nd u dr y1 y2 y3 x1 x2 x3 f1 f2 bf : Int)
    (hs : 0 < s) (hY : 3600 < Y) (hD : 0 ≤ D) (hB : 0 ≤ B) (hdt : 0 ≤ dt) (hdt' : dt ≤ 3600 * s)
    (hbr : 0 ≤ br) (hlf : 0 ≤ lf) (hu0 : 0 ≤ u) (hdi : 0 ≤ di) (hnd0 : 0 ≤ nd)
    (hnb' : bi * B ≤ nb * s + s) (hnd' : nd * s ≤ di * D) (hnd'' : di * D ≤ nd * s + s)
    (hu : nb * s ≤ u * nd + nd)
    (hdr : br * u ≤ dr * s + s) (hy1 : di * dr ≤ y1 * s + s) (hy2 : y1 * dt ≤ y2 * s + s) (hy3 : y2 ≤ y3 * Y + Y)
    (hx1 : x1 * s ≤ bi * (br + lf)) (hx2 : x2 * s ≤ x1 * dt) (hx3 : x3 * Y ≤ x2)
    (hf1 : nb * lf ≤ f1 * s + s) (hf2 : f1 * dt ≤ f2 * s + s) (hf3 : f2 ≤ bf * Y + Y) :
    x3 * B * s ≤ (y3 * D + bf * s + 2 * D + 2 * s + br + lf) * s + (s + br) * (nd + 1) := by
  have hs2 : 0 < s * s := Int.mul_pos hs hs
  -- borrowers
  have a1 : x3 * Y * (s * s) ≤ x2 * (s * s) := Int.mul_le_mul_of_nonneg_right hx3 hs2.le
  have a2 : x2 * s * s ≤ x1 * dt * s := Int.mul_le_mul_of_nonneg_right hx2 hs.le
  have a3 : x1 * s * dt ≤ bi * (br + lf) * dt := Int.mul_le_mul_of_nonneg_right hx1 hdt
  have A : x3 * Y * (s * s) ≤ bi * (br + lf) * dt := by linarith
  have a4 : x3 * Y * (s * s) * B ≤ bi * (br + lf) * dt * B := Int.mul_le_mul_of_nonneg_right A hB
  have hk : 0 ≤ (br + lf) * dt := Int.mul_nonneg (by omega) hdt
  have a5 : (br + lf) * dt * (bi * B) ≤ (br + lf) * dt * (nb * s + s) := Int.mul_le_mul_of_nonneg_left hnb' hk
  have A2 : x3 * B * Y * (s * s) ≤ (br + lf) * dt * (nb * s + s) := by linarith
  -- depositors
  have c1 : y2 * (s * s) ≤ (y3 * Y + Y) * (s * s) := Int.mul_le_mul_of_nonneg_right hy3 hs2.le
  have c2 : y1 * dt * s ≤ (y2 * s + s) * s := Int.mul_le_mul_of_nonneg_right hy2 hs.le
  have c3 : di * dr * dt ≤ (y1 * s + s) * dt := Int.mul_le_mul_of_nonneg_right hy1 hdt
  have C : di * dr * dt ≤ y3 * Y * (s * s) + (Y * (s * s) + s * s + s * dt) := by linarith
  have hDs : 0 ≤ D * s := Int.mul_nonneg hD hs.le
  have c4 : di * dr * dt * (D * s) ≤ (y3 * Y * (s * s) + (Y * (s * s) + s * s + s * dt)) * (D * s) :=
    Int.mul_le_mul_of_nonneg_right C hDs
  have hdd : 0 ≤ di * D * dt := Int.mul_nonneg (Int.mul_nonneg hdi hD) hdt
  have c5 : di * D * dt * (br * u) ≤ di * D * dt * (dr * s + s) := Int.mul_le_mul_of_nonneg_left hdr hdd
  have hbu : 0 ≤ br * u * dt := Int.mul_nonneg (Int.mul_nonneg hbr hu0) hdt
  have c6 : br * u * dt * (nd * s) ≤ br * u * dt * (di * D) := Int.mul_le_mul_of_nonneg_left hnd' hbu
  have hbs : 0 ≤ br * dt * s := Int.mul_nonneg (Int.mul_nonneg hbr hdt) hs.le
  have c7 : br * dt * s * (nb * s) ≤ br * dt * s * (u * nd + nd) := Int.mul_le_mul_of_nonneg_left hu hbs
  have hst : 0 ≤ dt * s := Int.mul_nonneg hdt hs.le
  have c8 : dt * s * (di * D) ≤ dt * s * (nd * s + s) := Int.mul_le_mul_of_nonneg_left hnd'' hst
  -- fees
  have b1 : f2 * (s * s) ≤ (bf * Y + Y) * (s * s) := Int.mul_le_mul_of_nonneg_right hf3 hs2.le
  have b2 : f1 * dt * s ≤ (f2 * s + s) * s := Int.mul_le_mul_of_nonneg_right hf2 hs.le
  have b3 : nb * lf * dt ≤ (f1 * s + s) * dt := Int.mul_le_mul_of_nonneg_right hf1 hdt
  have Bf : nb * lf * dt ≤ bf * Y * (s * s) + (Y * (s * s) + s * s + s * dt) := by linarith
  have Bf' : nb * lf * dt * (s * s) ≤ (bf * Y * (s * s) + (Y * (s * s) + s * s + s * dt)) * (s * s) :=
    Int.mul_le_mul_of_nonneg_right Bf hs2.le
  -- small terms
  have d1 : s * dt ≤ s * (3600 * s) := Int.mul_le_mul_of_nonneg_left hdt' hs.le
  have d2 : s * s * 3601 ≤ s * s * Y := Int.mul_le_mul_of_nonneg_left (by omega) hs2.le
  have d0 : s * s + s * dt ≤ Y * (s * s) := by linarith
  have d3 : (s * s + s * dt) * (D * s) ≤ Y * (s * s) * (D * s) := Int.mul_le_mul_of_nonneg_right d0 hDs
  have d4 : (s * s + s * dt) * (s * s) ≤ Y * (s * s) * (s * s) := Int.mul_le_mul_of_nonneg_right d0 hs2.le
  have d5 : dt * s ≤ Y * (s * s) := by linarith
  have hbl : 0 ≤ (br + lf) * s := Int.mul_nonneg (by omega) hs.le
  have d6 : (br + lf) * s * (dt * s) ≤ (br + lf) * s * (Y * (s * s)) := Int.mul_le_mul_of_nonneg_left d5 hbl
  have hsn : 0 ≤ s * (nd + 1) := Int.mul_nonneg hs.le (by omega)
  have d7 : s * (nd + 1) * (dt * s) ≤ s * (nd + 1) * (Y * (s * s)) := Int.mul_le_mul_of_nonneg_left d5 hsn
  have hbn : 0 ≤ br * nd := Int.mul_nonneg hbr hnd0
  have d8 : br * nd * (dt * s) ≤ br * nd * (Y * (s * s)) := Int.mul_le_mul_of_nonneg_left d5 hbn
  have d9 : 0 ≤ br * (Y * (s * s)) := Int.mul_nonneg hbr (Int.mul_nonneg (by omega) hs2.le)
  have hYs : 0 < Y * (s * s) := Int.mul_pos (by omega) hs2
  have A3 : x3 * B * Y * (s * s) * s ≤ (br + lf) * dt * (nb * s + s) * s := Int.mul_le_mul_of_nonneg_right A2 hs.le
  have fin : (x3 * B * s) * (Y * (s * s)) ≤
      ((y3 * D + bf * s + 2 * D + 2 * s + br + lf) * s + (s + br) * (nd + 1)) * (Y * (s * s)) := by linarith
  exact Int.le_of_mul_le_mul_right fin hYs

/-- C09, the other direction: while no more is borrowed than deposited, the interest charged to borrowers over at most
an hour goes to the depositors and the fees, except for rounding.  In the units of (index bits) × (indexed bits) the
part lost is at most two bits of the index per indexed deposit, two units of `S`, the rates, and one part in `S` of the
deposits times (1 + rate). -/
theorem C09_passed_on {b : Bank} {D B dt di bi fees br dr : I80F48} (hv : b.verify = .ok ())
    (hb : b.Pos) (hD : 0 ≤ D) (hB : 0 ≤ B) (hdt : 0 ≤ dt) (hdt' : dt ≤ 3600 * S)
    (hle : b.borrowIndex * B / S ≤ b.depositIndex * D / S)
    (h : b.computeIndex D B dt = .ok (di, bi, fees, br, dr)) :
    (bi - b.borrowIndex) * B * S ≤
      ((di - b.depositIndex) * D + fees * S + 2 * D + 2 * S + br + b.loanFeeRate) * S +
      (S + br) * (b.depositIndex * D / S + 1) := by
  obtain ⟨u, rf, x1, x2, y1, y2, f1, f2, hu, hr, hdr, hrf, hf1, hf2, hbf, hx1, hx2, hbi, hy1, hy2, hdi⟩ :=
    computeIndex_ok h
  have hbr := computeInterestRate_nonneg (RatesOk.of_verify hv) hr
  have hlf := (RatesOk.of_verify hv).2.1
  have hS := S_pos
  have hd0 := hb.1
  have hb0 := hb.2
  have hnb0 : 0 ≤ b.borrowIndex * B / S := floor_nonneg (Int.mul_nonneg (by omega) hB)
  have hnd0 : 0 ≤ b.depositIndex * D / S := floor_nonneg (Int.mul_nonneg (by omega) hD)
  have hut := utilization_ok hnd0 hnb0 hu
  have hu1 := util_ok hu
  have mnb := mulFloor_bounds (b.borrowIndex * B)
  have mnd := mulFloor_bounds (b.depositIndex * D)
  have mdr := mulFloor_bounds (br * u)
  have mf1 := mulFloor_bounds ((b.borrowIndex * B / S) * b.loanFeeRate)
  have mf2 := mulFloor_bounds (f1 * dt)
  have mx1 := mulFloor_bounds (b.borrowIndex * rf)
  have mx2 := mulFloor_bounds (x1 * dt)
  have my1 := mulFloor_bounds (b.depositIndex * dr)
  have my2 := mulFloor_bounds (y1 * dt)
  rw [← hdr] at mdr
  rw [← hf1] at mf1
  rw [← hf2] at mf2
  rw [← hx1] at mx1
  rw [← hx2] at mx2
  rw [← hy1] at my1
  rw [← hy2] at my2
  have hdr0 : 0 ≤ dr := hdr ▸ floor_nonneg (Int.mul_nonneg hbr hu1.1)
  have hy10 : 0 ≤ y1 := hy1 ▸ floor_nonneg (Int.mul_nonneg hd0.le hdr0)
  have hy20 : 0 ≤ y2 := hy2 ▸ floor_nonneg (Int.mul_nonneg hy10 hdt)
  have hx10 : 0 ≤ x1 := hx1 ▸ floor_nonneg (Int.mul_nonneg hb0.le (by omega))
  have hx20 : 0 ≤ x2 := hx2 ▸ floor_nonneg (Int.mul_nonneg hx10 hdt)
  have hf10 : 0 ≤ f1 := hf1 ▸ floor_nonneg (Int.mul_nonneg hnb0 hlf)
  have hf20 : 0 ≤ f2 := hf2 ▸ floor_nonneg (Int.mul_nonneg hf10 hdt)
  have ty := tdivYEAR y2 hy20
  have tx := tdivYEAR x2 hx20
  have tf := tdivYEAR f2 hf20
  rw [← hbf] at tf
  have hdi' : di - b.depositIndex = Int.tdiv (y2 * S) YEAR := by omega
  have hbi' : bi - b.borrowIndex = Int.tdiv (x2 * S) YEAR := by omega
  rw [hdi', hbi']
  have huu : (b.borrowIndex * B / S) * S ≤ u * (b.depositIndex * D / S) + b.depositIndex * D / S := by
    rcases Int.lt_or_eq_of_le hnd0 with h0 | h0
    · exact (hut.2.1 h0 hle).2.le
    · have : b.borrowIndex * B / S = 0 := by omega
      rw [this, ← h0]
      omega
  subst hrf
  exact passed_arith S 31536000 b.depositIndex b.borrowIndex D B dt br b.loanFeeRate
    (b.borrowIndex * B / S) (b.depositIndex * D / S) u dr y1 y2 _ x1 x2 _ f1 f2 fees hS (by decide) hD hB hdt hdt'
    hbr hlf hu1.1 hd0.le hnd0 mnb.2.le mnd.1 mnd.2.le huu mdr.2.le my1.2.le my2.2.le ty.2 mx1.1 mx2.1 tx.1
    mf1.2.le mf2.2.le tf.2

/-- 1000 deposited and 250 borrowed for an hour: interest is charged, and almost all of it is passed on. -/
example : ∃ di bi fees br dr, exBank.computeIndex (1000 * S) (250 * S) (3600 * S) = .ok (di, bi, fees, br, dr) ∧
    exBank.borrowIndex * (250 * S) / S ≤ exBank.depositIndex * (1000 * S) / S ∧
    exBank.borrowIndex + 1000 < bi ∧ exBank.depositIndex + 100 < di :=
  ⟨_, _, _, _, _, rfl, by decide +kernel, by decide +kernel, by decide +kernel⟩

/-! ## C11: the shift is a straight line in time -/

/-- C11: strictly between start and end, each effective weight is on the straight line from the configured weight at
the start to the target at the end, within two bits plus one part in `S` per second of the shift. -/
theorem C11_linear {b : Bank} {now : Int} {a l : I80F48} (hcfg : ShiftConfigured b)
    (hon : b.maintWeightShiftDurationInv ≠ 0) (h1 : b.maintWeightShiftStart < now) (h2 : now < b.maintWeightShiftEnd)
    (h : b.maintWeights now = .ok (a, l)) (dur el : Int) (hdur : dur = b.maintWeightShiftEnd - b.maintWeightShiftStart)
    (hel : el = now - b.maintWeightShiftStart) :
    let close (w target v : Int) : Prop :=
      -(((target - w).natAbs : Int) * dur * el + dur * S) ≤ ((v - w) * dur - (target - w) * el) * S ∧
      ((v - w) * dur - (target - w) * el) * S ≤ ((target - w).natAbs : Int) * dur * el + dur * S
    close b.maintAssetWeight b.maintWeightShiftAssetTarget a ∧ close b.maintLiabWeight b.maintWeightShiftLiabTarget l := by
  have hS := S_pos
  have key : ∀ w t inv : Int, inv = Int.tdiv (S * S) (dur * S) →
      -(((t - w).natAbs : Int) * dur * el + dur * S) ≤ ((interp w t (el * inv) - w) * dur - (t - w) * el) * S ∧
      ((interp w t (el * inv) - w) * dur - (t - w) * el) * S ≤ ((t - w).natAbs : Int) * dur * el + dur * S := by
    intro w t inv hinv
    have hd : 0 < dur := by omega
    have t0 := tdiv_bounds (a := S * S) (b := dur * S) (Int.mul_nonneg hS.le hS.le) (Int.mul_pos hd hS)
    rw [← hinv] at t0
    have i1 : inv * dur ≤ S := by
      refine Int.le_of_mul_le_mul_right (a := S) ?_ hS
      linarith [t0.1]
    have i2 : S ≤ inv * dur + dur := by
      refine Int.le_of_mul_le_mul_right (a := S) ?_ hS
      linarith [t0.2.1]
    unfold interp
    have hf := floor_scale (el * inv * (t - w)) dur hd
    have e : w + el * inv * (t - w) / S - w = el * inv * (t - w) / S := by omega
    rw [e]
    have hel0 : 0 ≤ el := by omega
    have j1 : inv * dur * el ≤ S * el := Int.mul_le_mul_of_nonneg_right i1 hel0
    have j2 : S * el ≤ (inv * dur + dur) * el := Int.mul_le_mul_of_nonneg_right i2 hel0
    rcases Int.le_total 0 (t - w) with hp | hn
    · rw [Int.natAbs_of_nonneg hp]
      have k1 := Int.mul_le_mul_of_nonneg_right j1 hp
      have k2 := Int.mul_le_mul_of_nonneg_right j2 hp
      have k3 : 0 ≤ (t - w) * dur * el := Int.mul_nonneg (Int.mul_nonneg hp hd.le) hel0
      constructor <;> linarith
    · have en : ((t - w).natAbs : Int) = -(t - w) := by omega
      rw [en]
      have hn' : 0 ≤ -(t - w) := by omega
      have k1 := Int.mul_le_mul_of_nonneg_right j1 hn'
      have k2 := Int.mul_le_mul_of_nonneg_right j2 hn'
      have k3 : 0 ≤ -(t - w) * dur * el := Int.mul_nonneg (Int.mul_nonneg hn' hd.le) hel0
      constructor <;> linarith
  rcases hcfg with h0 | ⟨h0, hinv⟩
  · exact absurd h0 hon
  rw [← hdur] at hinv
  rcases maintWeights_ok h with ⟨hc, _, _⟩ | ⟨_, _, h3, _, _⟩ | ⟨_, _, _, rfl, rfl⟩
  · rcases hc with hc | hc
    · exact absurd hc hon
    · omega
  · omega
  · rw [← hel]
    exact ⟨key _ _ _ hinv, key _ _ _ hinv⟩

example : ∃ a l, exShift.maintWeights 1250 = .ok (a, l) ∧ exShift.maintWeightShiftDurationInv ≠ 0 :=
  ⟨_, _, rfl, by decide⟩

/-! ## C06: the deposit limit rejects nothing below it -/

/-- C06: the check passes exactly if deposits plus potential open-orders deposits are within the limit (zero: no
limit), for every bank whose deposits are representable. -/
theorem C06_check_exact {b : Bank} (hb : b.Pos) (hD : 0 ≤ b.indexedDeposits) (hser : 0 ≤ b.potentialSerumTokens)
    (hser' : b.potentialSerumTokens ≤ U64MAX) (hlim : b.depositLimit ≤ U64MAX) (hlim0 : 0 ≤ b.depositLimit)
    (hrep : depositsOf b + U64MAX * S ≤ I128MAX) :
    b.checkDepositAndOoLimit = .ok () ↔
      b.depositLimit = 0 ∨ depositsOf b + b.potentialSerumTokens * S ≤ b.depositLimit * S := by
  constructor
  · intro h
    by_cases h0 : b.depositLimit = 0
    · exact Or.inl h0
    · exact Or.inr (C06_check_sound h h0)
  · intro h
    unfold checkDepositAndOoLimit
    by_cases h0 : b.depositLimit = 0
    · rw [if_pos h0]
    rw [if_neg h0]
    have hS := S_pos
    have hx0 : 0 ≤ depositsOf b := floor_nonneg (Int.mul_nonneg hb.1.le hD)
    have hsS : 0 ≤ b.potentialSerumTokens * S := Int.mul_nonneg hser hS.le
    have hsS' : b.potentialSerumTokens * S ≤ U64MAX * S := Int.mul_le_mul_of_nonneg_right hser' hS.le
    have hlS : b.depositLimit * S ≤ U64MAX * S := Int.mul_le_mul_of_nonneg_right hlim hS.le
    have hlS0 : 0 ≤ b.depositLimit * S := Int.mul_nonneg hlim0 hS.le
    have hbig : U64MAX * S ≤ I128MAX := by decide
    have hmin : I128MIN = -I128MAX - 1 := by decide
    have h := h.resolve_left h0
    have hmul : b.nativeDeposits = .ok (depositsOf b) := by
      unfold nativeDeposits depositsOf
      rw [mul_ok]
      refine ⟨rfl, ?_⟩
      unfold depositsOf at hrep hx0
      unfold inRange
      have : 0 ≤ U64MAX * S := by decide
      omega
    rw [hmul]
    generalize depositsOf b = x at *
    have hadd : Fx.add x (Fx.ofInt b.potentialSerumTokens) = .ok (x + b.potentialSerumTokens * S) := by
      rw [add_ok]; unfold Fx.ofInt; exact ⟨rfl, by unfold inRange; omega⟩
    have hsub : Fx.sub (Fx.ofInt b.depositLimit) (x + b.potentialSerumTokens * S)
        = .ok (b.depositLimit * S - (x + b.potentialSerumTokens * S)) := by
      rw [sub_ok]; unfold Fx.ofInt; exact ⟨rfl, by unfold inRange; omega⟩
    simp only [bind_ok, ite_ok, err_ok]
    exact ⟨_, rfl, _, hadd, _, hsub, Or.inr ⟨by omega, trivial⟩⟩

/-- C06: the headroom reported is all there is: an account without debt that deposits more than the headroom plus the
value of one index bit (and two bits of rounding) fails the check. -/
theorem C06_headroom_maximal {b b1 : Bank} {p p1 : TokenPosition} {amt room : I80F48} {d a : Bool} {t : Int}
    (hb : b.Pos) (hl : b.depositLimit ≠ 0) (hp : 0 ≤ p.indexed)
    (hroom : b.remainingDepositsUntilLimit = .ok room) (hgt : room + b.depositIndex / S + 2 < amt)
    (hdep : b.depositWrapper p amt d t = .ok (b1, p1, a)) : b1.checkDepositAndOoLimit ≠ .ok () := by
  obtain ⟨q1, h1, e1, _⟩ := depositWrapper_ok hdep
  obtain ⟨ha, hc⟩ := depositInternal_ok hb h1
  have hS := S_pos
  have hdi := hb.1
  intro hok
  unfold remainingDepositsUntilLimit at hroom
  rw [if_neg hl] at hroom
  simp only [bind_ok, mul_ok, add_ok, sub_ok] at hroom
  obtain ⟨i, ⟨rfl, _⟩, dd, ⟨rfl, _⟩, tt, ⟨rfl, _⟩, rfl, _⟩ := hroom
  unfold Fx.DELTA Fx.ofInt at *
  have main : ∀ c : Int, amt * S ≤ c * b.depositIndex →
      depositsOf { b with indexedDeposits := b.indexedDeposits + c } + b.potentialSerumTokens * S ≤ b.depositLimit * S →
      False := by
    intro c hcc hle
    unfold depositsOf at hle
    dsimp only at hle
    have e : b.depositIndex * (b.indexedDeposits + c) = b.depositIndex * b.indexedDeposits + c * b.depositIndex := by ring
    have hx : b.depositIndex * b.indexedDeposits / S + amt ≤ b.depositIndex * (b.indexedDeposits + c) / S := by
      rw [le_floor_iff, e]
      have := (mulFloor_bounds (b.depositIndex * b.indexedDeposits)).1
      linarith
    have e2 : b.depositIndex * (b.indexedDeposits + 1) = b.depositIndex * b.indexedDeposits + b.depositIndex := by ring
    have hy : b.depositIndex * (b.indexedDeposits + 1) / S ≤
        b.depositIndex * b.indexedDeposits / S + b.depositIndex / S + 1 := by
      have m1 := (mulFloor_bounds (b.depositIndex * b.indexedDeposits)).2
      have m2 := (mulFloor_bounds b.depositIndex).2
      have : b.depositIndex * (b.indexedDeposits + 1) / S <
          b.depositIndex * b.indexedDeposits / S + b.depositIndex / S + 1 + 1 := by
        rw [floor_le_iff, e2]
        linarith
      omega
    omega
  cases hc with
  | add c hp' hc =>
    have hcc := divRoundingUp_ok hc ha hdi
    have hs := C06_check_sound hok hl
    exact main c (le_floor_iff.mp hcc.2.1) hs
  | repay c st nb hp' hw hc hn => omega
  | dust c st nb hp' hw hc hn hd' hdust => omega
  | cross c d st nb hp' hw hc hn hd' => omega

example : exBank.depositLimit ≠ 0 ∧ exBank.Pos ∧ depositsOf exBank + U64MAX * S ≤ I128MAX ∧
    exBank.checkDepositAndOoLimit = .ok () ∧ ∃ room b1 p1 a, exBank.remainingDepositsUntilLimit = .ok room ∧
    exBank.depositWrapper { indexed := 3 } (room + exBank.depositIndex / S + 3) true 5 = .ok (b1, p1, a) :=
  ⟨by decide, exBank_pos, by decide, by decide, _, _, _, _, rfl, rfl⟩

end Bank
end Mango
