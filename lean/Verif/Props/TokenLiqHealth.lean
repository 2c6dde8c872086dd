import Verif.Props.TokenLiq
import Verif.Props.HealthFormula
import Mathlib.Tactic.Linarith
/-!
# C56: token liquidation, part 2: what it does to the liqee's health
-/
namespace Mango
namespace Liquidation
open Fx Health Bank

/-! ## Arithmetic -/

/-- value of a balance at asset weighted price `A` or liability weighted price `L` -/
def tv (A L b : Int) : Int := if b ≥ 0 then b * A / S else b * L / S

theorem tv_le {A L b : Int} (hAL : A ≤ L) : tv A L b * S ≤ b * A ∧ tv A L b * S ≤ b * L := by
  unfold tv
  split
  · rename_i h
    have m := mulFloor_bounds (b * A)
    have : b * A ≤ b * L := Int.mul_le_mul_of_nonneg_left hAL h
    omega
  · rename_i h
    have m := mulFloor_bounds (b * L)
    have : b * L ≤ b * A := by
      have := Int.mul_le_mul_of_nonneg_left hAL (show 0 ≤ -b by omega)
      have e1 : -b * A = -(b * A) := by ring
      have e2 : -b * L = -(b * L) := by ring
      omega
    omega

theorem tv_pos {A L b : Int} (h : 0 ≤ b) : b * A < tv A L b * S + S := by
  unfold tv
  rw [if_pos h]
  exact (mulFloor_bounds (b * A)).2

theorem tv_neg {A L b : Int} (h : b < 0) : b * L < tv A L b * S + S := by
  unfold tv
  rw [if_neg (by omega)]
  exact (mulFloor_bounds (b * L)).2

theorem tv_nonneg {A L b : Int} (hA : 0 ≤ A) (h : 0 ≤ b) : 0 ≤ tv A L b := by
  unfold tv
  rw [if_pos h]
  exact floor_nonneg (Int.mul_nonneg h hA)

/-- The arithmetic of the upper bound. `H` health, `H'` health afterwards, `lt` debt and `fl` payment, `dL` and `dA` the actual changes of the balances, `IL` and `IA` one index unit of
the banks, `WL` and `WA` weighted prices, `X` the payment's weighted price per unit of debt. -/
theorem over_arith {H H' lt fl dL dA IL IA WL WA X iaw aop lp fft lopa base v : Int} (s : Int) (hs : 0 < s)
    (hWL : 0 ≤ WL) (hWA : 0 ≤ WA) (hiaw : 0 ≤ iaw) (hlt : 0 ≤ lt) (hfl : 0 ≤ fl) (hfft : 0 ≤ fft) (haop : 0 < aop)
    (gain : s * (H' - H) ≤ dL * WL - dA * WA + 2 * s) (h1 : dL * s ≤ lt * s + s + IL) (h2 : fl * s - s - IA ≤ dA * s)
    (need : lt * (WL - X) ≤ -H * s) (x1 : X * s ≤ lopa * iaw) (x2 : lopa * s ≤ lp * fft)
    (w1 : iaw * aop ≤ WA * s + s) (v1 : lt * lp ≤ v * s + s) (b1 : v * s ≤ base * aop + aop) (f1 : base * fft ≤ fl * s + s) :
    H' * (s * s * s) ≤ s * ((s + IL) * WL + (s + IA) * WA + 2 * (s * s)) + iaw * ((s + aop) * fft + s * aop) + fl * (s * s) := by
  -- payment against debt
  have e1 : X * s * s ≤ lp * fft * iaw := by
    have a := Int.mul_le_mul_of_nonneg_right x1 hs.le
    have b := Int.mul_le_mul_of_nonneg_right x2 hiaw
    nlinarith
  have e2 : lt * (X * s * s) ≤ lt * (lp * fft * iaw) := Int.mul_le_mul_of_nonneg_left e1 hlt
  have e3 : fl * (iaw * aop) ≤ fl * (WA * s + s) := Int.mul_le_mul_of_nonneg_left w1 hfl
  have e3' : s * (fl * (iaw * aop)) ≤ s * (fl * (WA * s + s)) := Int.mul_le_mul_of_nonneg_left e3 hs.le
  have e4 : base * fft * aop ≤ (fl * s + s) * aop := Int.mul_le_mul_of_nonneg_right f1 haop.le
  have e5 : lt * lp ≤ base * aop + aop + s := by linarith
  have e6 : lt * lp * fft ≤ (base * aop + aop + s) * fft := Int.mul_le_mul_of_nonneg_right e5 hfft
  have e7 : lt * lp * fft ≤ fl * s * aop + s * aop + (aop + s) * fft := by
    have : (base * aop + aop + s) * fft = base * fft * aop + (aop + s) * fft := by ring
    have : (fl * s + s) * aop = fl * s * aop + s * aop := by ring
    linarith
  have e8 : lt * lp * fft * iaw ≤ (fl * s * aop + s * aop + (aop + s) * fft) * iaw := Int.mul_le_mul_of_nonneg_right e7 hiaw
  have pay : (lt * X - fl * WA) * (s * s) ≤ iaw * ((s + aop) * fft + s * aop) + fl * (s * s) := by
    have t1 : (lt * X - fl * WA) * (s * s) = lt * (X * s * s) - fl * WA * s * s := by ring
    have t2 : lt * (lp * fft * iaw) = lt * lp * fft * iaw := by ring
    have t3 : (fl * s * aop + s * aop + (aop + s) * fft) * iaw = s * (fl * (iaw * aop)) + iaw * ((s + aop) * fft + s * aop) := by ring
    have t4 : s * (fl * (WA * s + s)) = fl * WA * s * s + fl * (s * s) := by ring
    linarith
  -- the gain
  have g1 : dL * s * WL ≤ (lt * s + s + IL) * WL := Int.mul_le_mul_of_nonneg_right h1 hWL
  have g2 : (fl * s - s - IA) * WA ≤ dA * s * WA := Int.mul_le_mul_of_nonneg_right h2 hWA
  have g3 : s * (s * (H' - H)) ≤ s * (dL * WL - dA * WA + 2 * s) := Int.mul_le_mul_of_nonneg_left gain hs.le
  have g4 : s * (lt * (WL - X)) ≤ s * (-H * s) := Int.mul_le_mul_of_nonneg_left need hs.le
  have g5 : s * s * H' ≤ s * (lt * X - fl * WA) + ((s + IL) * WL + (s + IA) * WA + 2 * (s * s)) := by
    have t1 : s * (s * (H' - H)) = s * s * H' - s * s * H := by ring
    have t2 : s * (dL * WL - dA * WA + 2 * s) = dL * s * WL - dA * s * WA + 2 * (s * s) := by ring
    have t3 : s * (lt * (WL - X)) = s * lt * WL - s * (lt * X) := by ring
    have t4 : s * (-H * s) = -(s * s * H) := by ring
    have t5 : (lt * s + s + IL) * WL = s * lt * WL + (s + IL) * WL := by ring
    have t6 : (fl * s - s - IA) * WA = s * (fl * WA) - (s + IA) * WA := by ring
    have t7 : s * (lt * X - fl * WA) = s * (lt * X) - s * (fl * WA) := by ring
    linarith
  have g6 := Int.mul_le_mul_of_nonneg_left g5 hs.le
  have t8 : s * (s * s * H') = H' * (s * s * s) := by ring
  have t9 : s * (s * (lt * X - fl * WA) + ((s + IL) * WL + (s + IA) * WA + 2 * (s * s))) =
    (lt * X - fl * WA) * (s * s) + s * ((s + IL) * WL + (s + IA) * WA + 2 * (s * s)) := by ring
  linarith

/-- The arithmetic of the lower bound; `WLA` the asset token's liability weighted price with weight `ilwa`, `ma` its balance, `over` how far it becomes negative. -/
theorem under_arith {H H' lt fl dA WL WA WLA X iaw ilwa aop lp fft lopa ma over : Int} (s : Int) (hs : 0 < s)
    (hWA : 0 ≤ WA) (hWLA : WA ≤ WLA) (hiaw : 0 ≤ iaw) (hilwa : 0 ≤ ilwa) (hlt : 0 ≤ lt) (hfl : 0 ≤ fl) (haop : 0 < aop)
    (gain : lt * WL - dA * WA - over * (WLA - WA) - 2 * s ≤ s * (H' - H)) (h2 : dA ≤ fl + s) (ho : over ≤ max (fl - ma) 0 + s)
    (hma : (fl - ma) * aop ≤ lt) (x1 : lopa * iaw ≤ X * s + s) (x2 : lp * fft ≤ lopa * s + s)
    (w1 : WA * s ≤ iaw * aop) (w2 : WLA * s ≤ ilwa * aop) (f1 : fl * aop * s ≤ lt * lp * fft) :
    s * (lt * (WL - X)) - lt * (s + iaw + ilwa) - s * (s * WLA + 2 * s) ≤ s * s * (H' - H) := by
  have a1 : dA * WA ≤ (fl + s) * WA := Int.mul_le_mul_of_nonneg_right h2 hWA
  have hd : 0 ≤ WLA - WA := by omega
  have a2 : over * (WLA - WA) ≤ (max (fl - ma) 0 + s) * (WLA - WA) := Int.mul_le_mul_of_nonneg_right ho hd
  have hm : max (fl - ma) 0 * aop ≤ lt := by
    rcases Int.le_total (fl - ma) 0 with h | h
    · rw [Int.max_eq_right h]; simpa using hlt
    · rw [Int.max_eq_left h]; exact hma
  have hm0 : 0 ≤ max (fl - ma) 0 := by omega
  generalize max (fl - ma) 0 = m at *
  have a3 : m * (WLA - WA) ≤ m * WLA := Int.mul_le_mul_of_nonneg_left (by omega) hm0
  have a4 : m * (WLA * s) ≤ m * (ilwa * aop) := Int.mul_le_mul_of_nonneg_left w2 hm0
  have a5 : ilwa * (m * aop) ≤ ilwa * lt := Int.mul_le_mul_of_nonneg_left hm hilwa
  have a6 : s * (m * (WLA - WA)) ≤ lt * ilwa := by
    have := Int.mul_le_mul_of_nonneg_left a3 hs.le
    have t1 : s * (m * WLA) = m * (WLA * s) := by ring
    have t2 : m * (ilwa * aop) = ilwa * (m * aop) := by ring
    have t3 : ilwa * lt = lt * ilwa := by ring
    linarith
  -- payment against debt
  have b1 : fl * (WA * s) ≤ fl * (iaw * aop) := Int.mul_le_mul_of_nonneg_left w1 hfl
  have b2 : iaw * (fl * aop * s) ≤ iaw * (lt * lp * fft) := Int.mul_le_mul_of_nonneg_left f1 hiaw
  have b3 : lt * iaw * (lp * fft) ≤ lt * iaw * (lopa * s + s) := Int.mul_le_mul_of_nonneg_left x2 (Int.mul_nonneg hlt hiaw)
  have b4 : lt * s * (lopa * iaw) ≤ lt * s * (X * s + s) := Int.mul_le_mul_of_nonneg_left x1 (Int.mul_nonneg hlt hs.le)
  have b5 : s * (fl * WA) * s ≤ (lt * (X * s + s) + lt * iaw) * s := by
    have t0 := Int.mul_le_mul_of_nonneg_left b1 hs.le
    have t1 : s * (fl * WA) * s = s * (fl * (WA * s)) := by ring
    have t2 : s * (fl * (iaw * aop)) = iaw * (fl * aop * s) := by ring
    have t3 : iaw * (lt * lp * fft) = lt * iaw * (lp * fft) := by ring
    have t4 : lt * iaw * (lopa * s + s) = lt * s * (lopa * iaw) + lt * iaw * s := by ring
    have t5 : (lt * (X * s + s) + lt * iaw) * s = lt * s * (X * s + s) + lt * iaw * s := by ring
    linarith
  have b6 : s * (fl * WA) ≤ lt * (X * s + s) + lt * iaw := Int.le_of_mul_le_mul_right b5 hs
  have g := Int.mul_le_mul_of_nonneg_left gain hs.le
  have c1 := Int.mul_le_mul_of_nonneg_left a1 hs.le
  have c2 := Int.mul_le_mul_of_nonneg_left a2 hs.le
  have t1 : s * (lt * WL - dA * WA - over * (WLA - WA) - 2 * s) = s * (lt * WL) - s * (dA * WA) - s * (over * (WLA - WA)) - 2 * (s * s) := by ring
  have t2 : s * ((fl + s) * WA) = s * (fl * WA) + s * (s * WA) := by ring
  have t3 : s * ((m + s) * (WLA - WA)) = s * (m * (WLA - WA)) + s * (s * WLA) - s * (s * WA) := by ring
  have t4 : lt * (X * s + s) = s * (lt * X) + lt * s := by ring
  have t5 : s * (lt * (WL - X)) = s * (lt * WL) - s * (lt * X) := by ring
  have t6 : lt * (s + iaw + ilwa) = lt * s + lt * iaw + lt * ilwa := by ring
  have t7 : s * (s * WLA + 2 * s) = s * (s * WLA) + 2 * (s * s) := by ring
  have t8 : s * s * (H' - H) = s * (s * (H' - H)) := by ring
  linarith

/-! ## Balance changes -/

/-- repaying at most the debt: the liqee's balance grows by the amount, at most one index unit more -/
theorem repay_native {b b' bx : Bank} {p p' : TokenPosition} {amt n n' : I80F48} {now : Int} {r : Bool} (hb : b.Pos)
    (h : b.depositWithDusting p amt now = .ok (b', p', r)) (hx1 : bx.depositIndex = b.depositIndex) (hx2 : bx.borrowIndex = b.borrowIndex)
    (hn : p.native b = .ok n) (hn' : p'.native bx = .ok n') (hneg : n < 0) (hle : amt ≤ -n) :
    n + amt ≤ n' ∧ n' * S ≤ n * S + amt * S + S + (b.depositIndex + b.borrowIndex) := by
  have hS := S_pos
  have hp := (native_neg_iff hb hn).mp hneg
  have m0 := native_bounds hn
  have m1 := native_bounds hn'
  rw [hx1, hx2] at m1
  rw [exactValue_nonpos hp.le] at m0
  have en := native_ok hn
  rw [if_neg (by omega)] at en
  simp only [depositWithDusting, bind_ok, ok_inj, Prod.mk.injEq] at h
  obtain ⟨⟨b1, p1, r1⟩, h1, rfl, rfl, _⟩ := h
  obtain ⟨p2, h2, h3, _⟩ := depositWrapper_ok h1
  obtain ⟨ha, hc⟩ := depositInternal_ok hb h2
  rw [exactValue_congr h3] at m1
  have hdi := hb.1
  have hbi := hb.2
  have close : n * S + amt * S ≤ exactValue b.depositIndex b.borrowIndex p2 → exactValue b.depositIndex b.borrowIndex p2 ≤ n * S + amt * S + S + (b.depositIndex + b.borrowIndex) →
      n + amt ≤ n' ∧ n' * S ≤ n * S + amt * S + S + (b.depositIndex + b.borrowIndex) := by
    intro h1 h2
    refine ⟨?_, by omega⟩
    have : (n + amt) * S < (n' + 1) * S := by
      have e1 : (n + amt) * S = n * S + amt * S := by ring
      have e2 : (n' + 1) * S = n' * S + S := by ring
      omega
    have := Int.lt_of_mul_lt_mul_right this hS.le
    omega
  have hsum : n * S + amt * S ≤ 0 := by
    have : (n + amt) * S ≤ 0 := Int.mul_nonpos_of_nonpos_of_nonneg (by omega) hS.le
    have e1 : (n + amt) * S = n * S + amt * S := by ring
    omega
  cases hc with
  | add c hp0 hc => omega
  | repay c st nb hp0 hw hc hn0 =>
    have hc' := divRoundingUp_ok hc ha hbi
    have h4 := le_floor_iff.mp hc'.2.1
    apply close
    · rw [exactValue_nonpos (by dsimp only; omega)]
      dsimp only
      have e3 : (p.indexed + c) * b.borrowIndex = p.indexed * b.borrowIndex + c * b.borrowIndex := by ring
      omega
    · rw [exactValue_nonpos (by dsimp only; omega)]
      dsimp only
      have e3 : (p.indexed + c) * b.borrowIndex = p.indexed * b.borrowIndex + c * b.borrowIndex := by ring
      omega
  | dust c st nb hp0 hw hc hn0 hd hdust =>
    have hc' := divRoundingUp_ok hc ha hbi
    have h5 : 0 ≤ (p.indexed + c) * b.borrowIndex := Int.mul_nonneg hn0 hbi.le
    have e3 : (p.indexed + c) * b.borrowIndex = p.indexed * b.borrowIndex + c * b.borrowIndex := by ring
    apply close <;> (rw [exactValue_nonpos (by dsimp only; omega)]; dsimp only; simp only [Int.zero_mul]; omega)
  | cross c d st nb hp0 hw hc hn0 hd =>
    have hc' := divRoundingUp_ok hc ha hbi
    have h5 : 0 ≤ (p.indexed + c) * b.borrowIndex := Int.mul_nonneg hn0 hbi.le
    have e3 : (p.indexed + c) * b.borrowIndex = p.indexed * b.borrowIndex + c * b.borrowIndex := by ring
    have h6 : max (p.indexed * b.borrowIndex / S + amt) 0 = 0 := by omega
    have hd0 := (divRoundingUp_ok hd (by omega) hdi).2.2.2.2 h6
    subst hd0
    apply close <;> (rw [exactValue_nonpos (by dsimp only; omega)]; dsimp only; simp only [Int.zero_mul, Int.zero_add]; omega)

/-- the liqee's payment: the balance falls by the amount, up to one index unit less, and up to one native unit more if the rest is dusted -/
theorem pay_native {b b' bx : Bank} {p p' : TokenPosition} {amt n n' : I80F48} {now : Int} {r : Bool} (hb : b.Pos)
    (h : b.withdrawWithoutFeeWithDusting p amt now = .ok (b', p', r)) (hx1 : bx.depositIndex = b.depositIndex) (hx2 : bx.borrowIndex = b.borrowIndex)
    (hn : p.native b = .ok n) (hn' : p'.native bx = .ok n') (hpos : 0 < n) :
    amt * S - S - (b.depositIndex + b.borrowIndex) ≤ (n - n') * S ∧ n - n' ≤ amt + S := by
  have hS := S_pos
  have m0 := native_bounds hn
  have m1 := native_bounds hn'
  rw [hx1, hx2] at m1
  simp only [withdrawWithoutFeeWithDusting, bind_ok, ok_inj, Prod.mk.injEq] at h
  obtain ⟨⟨b1, p1, w⟩, h1, rfl, rfl, _⟩ := h
  obtain ⟨p2, h2, h3, _⟩ := withdrawWrapper_ok h1
  obtain ⟨ha, hc⟩ := withdrawInternal_ok hb h2
  rw [exactValue_congr h3] at m1
  have hdi := hb.1
  have hbi := hb.2
  have e0 : (n - n') * S = n * S - n' * S := by ring
  have up : ∀ y : Int, (n - y) * S < n' * S + S → n - n' ≤ y := by
    intro y hy
    have : (n - y) * S < (n' + 1) * S := by
      have e2 : (n' + 1) * S = n' * S + S := by ring
      omega
    have := Int.lt_of_mul_lt_mul_right this hS.le
    omega
  cases hc with
  | dust hp nn hn0 h0 h4 hd =>
    rw [hn, ok_inj] at hn0
    subst hn0
    rw [exactValue_nonpos (by dsimp only; omega)] at m1
    dsimp only at m1
    simp only [Int.zero_mul] at m1
    have hz : n' = 0 := by
      have a : n' * S ≤ 0 * S := by omega
      have a := Int.le_of_mul_le_mul_right a hS
      have b : (-1) * S < n' * S := by omega
      have b := Int.lt_of_mul_lt_mul_right b hS.le
      omega
    subst hz
    refine ⟨?_, by omega⟩
    have : amt * S ≤ n * S := Int.mul_le_mul_of_nonneg_right (by omega) hS.le
    omega
  | part hp nn hn0 h0 =>
    rw [hn, ok_inj] at hn0
    subst hn0
    have hpl := part_le hb ha hp hn h0
    have t := tdiv_bounds (a := amt * S) (b := b.depositIndex) (Int.mul_nonneg ha hS.le) hdi
    rw [exactValue_nonneg_pos hp] at m0
    rw [exactValue_nonneg_pos (by dsimp only; omega)] at m1
    dsimp only at m1
    generalize Int.tdiv (amt * S) b.depositIndex = q at *
    have e3 : (p.indexed - q) * b.depositIndex = p.indexed * b.depositIndex - q * b.depositIndex := by ring
    refine ⟨by omega, ?_⟩
    have : n - n' ≤ amt := by
      apply up
      have : (n - amt) * S = n * S - amt * S := by ring
      omega
    omega
  | borrow nn rest tot st nb hn0 hlt hw hrest htot =>
    rw [hn, ok_inj] at hn0
    subst hn0
    have hf : feeOf b false rest = 0 := by unfold feeOf; simp
    rw [hf] at htot
    have htot0 : 0 ≤ tot := by omega
    have t := tdiv_bounds (a := tot * S) (b := b.borrowIndex) (Int.mul_nonneg htot0 hS.le) hbi
    have hp : 0 ≤ p.indexed := by
      have := (native_neg_iff hb hn)
      omega
    have e7 : min p.indexed 0 = 0 := by omega
    rw [exactValue_nonpos (by dsimp only; omega)] at m1
    dsimp only at m1
    rw [e7] at m1
    generalize Int.tdiv (tot * S) b.borrowIndex = q at *
    have e3 : (0 - q) * b.borrowIndex = -(q * b.borrowIndex) := by ring
    have e4 : tot * S = amt * S - n * S := by
      have : tot = amt - n := by omega
      rw [this]; ring
    refine ⟨by omega, ?_⟩
    have : n - n' ≤ amt := by
      apply up
      have : (n - amt) * S = n * S - amt * S := by ring
      omega
    omega

end Liquidation
end Mango
