import Verif.Bank.Interest
/-! Interest paid to depositors plus fees versus interest charged to borrowers, with rounding. -/
namespace Mango
namespace Bank
open Fx

/-- Pure arithmetic core: `y3` is the floored deposit index increase, `x3` the floored borrow index increase,
`bf` the floored fee. `s` is the fixed-point scale, `Y` the number of seconds per year. -/
theorem balance_arith (s Y di bi D B dt br lf nb nd u dr y1 y2 y3 x1 x2 x3 f1 f2 bf : Int)
    (hs : 0 < s) (hY : 3600 < Y)
    (hD : 0 ≤ D) (hB : 0 ≤ B) (hdt : 0 ≤ dt) (hdt' : dt ≤ 3600 * s)
    (hbr : 0 ≤ br) (hlf : 0 ≤ lf) (hu0 : 0 ≤ u) (hus : u ≤ s) (hdi : 0 ≤ di)
    (hnb' : nb * s ≤ bi * B)
    (hnd' : di * D ≤ nd * s + s)
    (hu : u * nd ≤ nb * s)
    (hdr : dr * s ≤ br * u) (hy1 : y1 * s ≤ di * dr) (hy2 : y2 * s ≤ y1 * dt) (hy3 : y3 * Y ≤ y2)
    (hx1 : bi * (br + lf) ≤ x1 * s + s) (hx2 : x1 * dt ≤ x2 * s + s) (hx3 : x2 ≤ x3 * Y + Y)
    (hf1 : f1 * s ≤ nb * lf) (hf2 : f2 * s ≤ f1 * dt) (hf3 : bf * Y ≤ f2) :
    y3 * D + bf * s ≤ x3 * B + 2 * B + br := by
  have hs2 : 0 < s * s := Int.mul_pos hs hs
  -- deposit side
  have a1 : y3 * Y * (s * s) ≤ y2 * (s * s) := Int.mul_le_mul_of_nonneg_right hy3 hs2.le
  have a2 : y2 * s * s ≤ y1 * dt * s := Int.mul_le_mul_of_nonneg_right hy2 hs.le
  have a3 : y1 * s * dt ≤ di * dr * dt := Int.mul_le_mul_of_nonneg_right hy1 hdt
  have A : y3 * Y * (s * s) ≤ di * dr * dt := by linarith
  have a4 : dr * s * (di * dt) ≤ br * u * (di * dt) :=
    Int.mul_le_mul_of_nonneg_right hdr (Int.mul_nonneg hdi hdt)
  have a4' : y3 * Y * (s * s) * s ≤ di * dr * dt * s := Int.mul_le_mul_of_nonneg_right A hs.le
  have A' : y3 * Y * (s * s) * s ≤ br * u * (di * dt) := by linarith
  have a5 : y3 * Y * (s * s) * s * D ≤ br * u * (di * dt) * D := Int.mul_le_mul_of_nonneg_right A' hD
  have hc : 0 ≤ br * dt * u := Int.mul_nonneg (Int.mul_nonneg hbr hdt) hu0
  have a6 : br * dt * u * (di * D) ≤ br * dt * u * (nd * s + s) := Int.mul_le_mul_of_nonneg_left hnd' hc
  have hc2 : 0 ≤ br * dt * s := Int.mul_nonneg (Int.mul_nonneg hbr hdt) hs.le
  have a7 : br * dt * s * (u * nd) ≤ br * dt * s * (nb * s) := Int.mul_le_mul_of_nonneg_left hu hc2
  have a8 : br * dt * s * u ≤ br * dt * s * s := Int.mul_le_mul_of_nonneg_left hus hc2
  have A2 : (y3 * D * Y * (s * s)) * s ≤ (br * dt * s * (nb + 1)) * s := by linarith
  have A3 : y3 * D * Y * (s * s) ≤ br * dt * s * (nb + 1) := Int.le_of_mul_le_mul_right A2 hs
  -- fee side
  have b1 : bf * Y * (s * s) ≤ f2 * (s * s) := Int.mul_le_mul_of_nonneg_right hf3 hs2.le
  have b2 : f2 * s * s ≤ f1 * dt * s := Int.mul_le_mul_of_nonneg_right hf2 hs.le
  have b3 : f1 * s * dt ≤ nb * lf * dt := Int.mul_le_mul_of_nonneg_right hf1 hdt
  have Bf : bf * Y * (s * s) ≤ nb * lf * dt := by linarith
  have Bf' : bf * Y * (s * s) * s ≤ nb * lf * dt * s := Int.mul_le_mul_of_nonneg_right Bf hs.le
  -- borrow side
  have c1 : x2 * (s * s) ≤ (x3 * Y + Y) * (s * s) := Int.mul_le_mul_of_nonneg_right hx3 hs2.le
  have c2 : x1 * dt * s ≤ (x2 * s + s) * s := Int.mul_le_mul_of_nonneg_right hx2 hs.le
  have c3 : bi * (br + lf) * dt ≤ (x1 * s + s) * dt := Int.mul_le_mul_of_nonneg_right hx1 hdt
  have C : bi * (br + lf) * dt ≤ x3 * Y * (s * s) + (Y * (s * s) + s * s + s * dt) := by linarith
  have c4 : bi * (br + lf) * dt * B ≤ (x3 * Y * (s * s) + (Y * (s * s) + s * s + s * dt)) * B :=
    Int.mul_le_mul_of_nonneg_right C hB
  have hc3 : 0 ≤ (br + lf) * dt := Int.mul_nonneg (by omega) hdt
  have c5 : (br + lf) * dt * (nb * s) ≤ (br + lf) * dt * (bi * B) := Int.mul_le_mul_of_nonneg_left hnb' hc3
  -- small terms
  have d1 : s * dt ≤ s * (3600 * s) := Int.mul_le_mul_of_nonneg_left hdt' hs.le
  have d2 : s * s * 3601 ≤ s * s * Y := Int.mul_le_mul_of_nonneg_left (by omega) hs2.le
  have d3 : (Y * (s * s) + s * s + s * dt) * B ≤ (2 * Y * (s * s)) * B :=
    Int.mul_le_mul_of_nonneg_right (by linarith) hB
  have d4 : br * (dt * s) ≤ br * (Y * (s * s)) := Int.mul_le_mul_of_nonneg_left (by linarith) hbr
  have hYs : 0 < Y * (s * s) := Int.mul_pos (by omega) hs2
  have fin : (y3 * D + bf * s) * (Y * (s * s)) ≤ (x3 * B + 2 * B + br) * (Y * (s * s)) := by linarith
  exact Int.le_of_mul_le_mul_right fin hYs

theorem tdivYEAR (x : Int) (hx : 0 ≤ x) :
    Int.tdiv (x * S) YEAR * 31536000 ≤ x ∧ x ≤ Int.tdiv (x * S) YEAR * 31536000 + 31536000 := by
  have h := tdiv_bounds (a := x * S) (b := YEAR) (Int.mul_nonneg hx (by decide)) (by decide)
  generalize Int.tdiv (x * S) YEAR = q at *
  unfold YEAR at h
  have e : q * (31536000 * S) = q * 31536000 * S := by ring
  have e2 : q * 31536000 * S + 31536000 * S = (q * 31536000 + 31536000) * S := by ring
  rw [e] at h
  constructor
  · exact Int.le_of_mul_le_mul_right h.1 S_pos
  · exact Int.le_of_mul_le_mul_right (by omega : x * S ≤ (q * 31536000 + 31536000) * S) S_pos

theorem computeIndex_balance {b : Bank} {D B dt di bi bf br dr : I80F48} (hv : b.RatesOk)
    (hb : b.Pos) (hD : 0 ≤ D) (hB : 0 ≤ B) (hdt : 0 ≤ dt) (hdt' : dt ≤ 3600 * S)
    (h : b.computeIndex D B dt = .ok (di, bi, bf, br, dr)) :
    (di - b.depositIndex) * D + bf * S ≤ (bi - b.borrowIndex) * B + 2 * B + br := by
  obtain ⟨u, rf, x1, x2, y1, y2, f1, f2, hu, hr, hdr, hrf, hf1, hf2, hbf, hx1, hx2, hbi, hy1, hy2, hdi⟩ :=
    computeIndex_ok h
  have hbr := computeInterestRate_nonneg hv hr
  have hu := util_ok hu
  have hlf := hv.2.1
  have hS := S_pos
  have hd0 := hb.1
  have hb0 := hb.2
  have hnb0 : 0 ≤ b.borrowIndex * B / S := floor_nonneg (Int.mul_nonneg (by omega) hB)
  have hnd0 : 0 ≤ b.depositIndex * D / S := floor_nonneg (Int.mul_nonneg (by omega) hD)
  have mnb := mulFloor_bounds (b.borrowIndex * B)
  have mnd := mulFloor_bounds (b.depositIndex * D)
  have mdr := mulFloor_bounds (br * u)
  have mf1 := mulFloor_bounds ((b.borrowIndex * B / S) * b.loanFeeRate)
  have mf2 := mulFloor_bounds (f1 * dt)
  have mx1 := mulFloor_bounds (b.borrowIndex * rf)
  have mx2 := mulFloor_bounds (x1 * dt)
  have my1 := mulFloor_bounds (b.depositIndex * dr)
  have my2 := mulFloor_bounds (y1 * dt)
  rw [← hdr] at mdr
  rw [← hf1] at mf1
  rw [← hf2] at mf2
  rw [← hx1] at mx1
  rw [← hx2] at mx2
  rw [← hy1] at my1
  rw [← hy2] at my2
  have hdr0 : 0 ≤ dr := hdr ▸ floor_nonneg (Int.mul_nonneg hbr hu.1)
  have hy10 : 0 ≤ y1 := hy1 ▸ floor_nonneg (Int.mul_nonneg hd0.le hdr0)
  have hy20 : 0 ≤ y2 := hy2 ▸ floor_nonneg (Int.mul_nonneg hy10 hdt)
  have hx10 : 0 ≤ x1 := hx1 ▸ floor_nonneg (Int.mul_nonneg hb0.le (by omega))
  have hx20 : 0 ≤ x2 := hx2 ▸ floor_nonneg (Int.mul_nonneg hx10 hdt)
  have hf10 : 0 ≤ f1 := hf1 ▸ floor_nonneg (Int.mul_nonneg hnb0 hlf)
  have hf20 : 0 ≤ f2 := hf2 ▸ floor_nonneg (Int.mul_nonneg hf10 hdt)
  have ty := tdivYEAR y2 hy20
  have tx := tdivYEAR x2 hx20
  have tf := tdivYEAR f2 hf20
  rw [← hbf] at tf
  have hdi' : di - b.depositIndex = Int.tdiv (y2 * S) YEAR := by omega
  have hbi' : bi - b.borrowIndex = Int.tdiv (x2 * S) YEAR := by omega
  rw [hdi', hbi']
  have huu : u * (b.depositIndex * D / S) ≤ (b.borrowIndex * B / S) * S := by
    rcases hu.2.2 with h0 | ⟨hne, hle⟩
    · rw [h0]; simp only [Int.zero_mul]; exact Int.mul_nonneg hnb0 hS.le
    · have hndpos : 0 < b.depositIndex * D / S := by omega
      have t := tdiv_bounds (a := (b.borrowIndex * B / S) * S) (b := b.depositIndex * D / S)
        (Int.mul_nonneg hnb0 hS.le) hndpos
      have := Int.mul_le_mul_of_nonneg_right hle hndpos.le
      omega
  subst hrf
  exact balance_arith S 31536000 b.depositIndex b.borrowIndex D B dt br b.loanFeeRate
    (b.borrowIndex * B / S) (b.depositIndex * D / S) u dr y1 y2 _ x1 x2 _ f1 f2 bf hS (by decide) hD hB hdt hdt'
    hbr hlf hu.1 hu.2.1 hd0.le mnb.1 (by omega) huu mdr.1 my1.1 my2.1 ty.1 (by omega) (by omega) tx.2
    mf1.1 mf2.1 tf.1

end Bank
end Mango
