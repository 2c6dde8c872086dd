import Verif.Bank.System
import Verif.Bank.Interest
/-! What every single-position bank operation does to the totals and to the claims on the vault. -/
namespace Mango
namespace Bank
open Fx

/-- Exact (unrounded) value of a position, scaled by `S` relative to native I80F48 bits. -/
def exactValue (di bi : Int) (p : TokenPosition) : Int := posPart p.indexed * di - negPart p.indexed * bi

/-- What the group owes in fees and dust, scaled like `exactValue`. -/
def feesAndDust (b : Bank) : Int := (b.dust + b.collectedFeesNative - b.feesWithdrawn * S) * S

structure Effect (b : Bank) (p : TokenPosition) (inflow : Int) (b' : Bank) (p' : TokenPosition) (active : Bool) :
    Prop where
  deposits : b'.indexedDeposits - posPart p'.indexed = b.indexedDeposits - posPart p.indexed
  borrows : b'.indexedBorrows - negPart p'.indexed = b.indexedBorrows - negPart p.indexed
  depositIndex : b'.depositIndex = b.depositIndex
  borrowIndex : b'.borrowIndex = b.borrowIndex
  rates : b.RatesOk → b'.RatesOk
  closed : active = false → p'.indexed = 0
  inUse : p'.inUseCount = p.inUseCount
  /-- claims grow by at most the inflow plus one index unit of rounding -/
  upper : exactValue b.depositIndex b.borrowIndex p' + feesAndDust b' ≤
    exactValue b.depositIndex b.borrowIndex p + feesAndDust b + inflow * S + (b.depositIndex + b.borrowIndex)
  /-- claims grow by at least the inflow, up to less than one native unit of rounding -/
  lower : exactValue b.depositIndex b.borrowIndex p + feesAndDust b + inflow * S - S ≤
    exactValue b.depositIndex b.borrowIndex p' + feesAndDust b'

theorem native_bounds {p : TokenPosition} {b : Bank} {n : I80F48} (h : p.native b = .ok n) :
    n * S ≤ exactValue b.depositIndex b.borrowIndex p ∧ exactValue b.depositIndex b.borrowIndex p < n * S + S := by
  have := native_ok h
  subst this
  unfold exactValue posPart negPart
  split
  · have h1 : max p.indexed 0 = p.indexed := by omega
    have h2 : max (-p.indexed) 0 = 0 := by omega
    rw [h1, h2]
    have := mulFloor_bounds (p.indexed * b.depositIndex)
    omega
  · have h1 : max p.indexed 0 = 0 := by omega
    have h2 : max (-p.indexed) 0 = -p.indexed := by omega
    rw [h1, h2]
    have := mulFloor_bounds (p.indexed * b.borrowIndex)
    have e : 0 * b.depositIndex - -p.indexed * b.borrowIndex = p.indexed * b.borrowIndex := by ring
    omega

theorem exactValue_nonneg_pos {di bi : Int} {p : TokenPosition} (h : 0 ≤ p.indexed) :
    exactValue di bi p = p.indexed * di := by
  unfold exactValue posPart negPart
  have h1 : max p.indexed 0 = p.indexed := by omega
  have h2 : max (-p.indexed) 0 = 0 := by omega
  rw [h1, h2]; ring

theorem exactValue_nonpos {di bi : Int} {p : TokenPosition} (h : p.indexed ≤ 0) :
    exactValue di bi p = p.indexed * bi := by
  unfold exactValue posPart negPart
  have h1 : max p.indexed 0 = 0 := by omega
  have h2 : max (-p.indexed) 0 = -p.indexed := by omega
  rw [h1, h2]; ring

theorem DepositCase.effect {b b' : Bank} {p p' : TokenPosition} {amt : I80F48} {dusting r : Bool} {now : Int}
    (hb : b.Pos) (ha : 0 ≤ amt) (h : DepositCase b p amt dusting now b' p' r) : Effect b p amt b' p' r := by
  have hd := h.delta hb ha
  have hS := S_pos
  have hdi := hb.1
  have hbi := hb.2
  cases h with
  | add c hp hc =>
    have hc' := divRoundingUp_ok hc ha hdi
    have h2 := le_floor_iff.mp hc'.2.1
    have e1 := exactValue_nonneg_pos (di := b.depositIndex) (bi := b.borrowIndex) hp
    have e2 := exactValue_nonneg_pos (di := b.depositIndex) (bi := b.borrowIndex)
      (p := { p with indexed := p.indexed + c }) (by dsimp only; omega)
    have e3 : (p.indexed + c) * b.depositIndex = p.indexed * b.depositIndex + c * b.depositIndex := by ring
    refine ⟨hd.1, hd.2.1, rfl, rfl, id, by simp, rfl, ?_, ?_⟩
    · rw [e1, e2]; dsimp only; unfold feesAndDust; dsimp only; omega
    · rw [e1, e2]; dsimp only; unfold feesAndDust; dsimp only; omega
  | repay c st nb hp hw hc hn =>
    have hc' := divRoundingUp_ok hc ha hbi
    have h2 := le_floor_iff.mp hc'.2.1
    have e1 := exactValue_nonpos (di := b.depositIndex) (bi := b.borrowIndex) hp.le
    have e2 := exactValue_nonpos (di := b.depositIndex) (bi := b.borrowIndex)
      (p := { p with indexed := p.indexed + c }) (by dsimp only; omega)
    have e3 : (p.indexed + c) * b.borrowIndex = p.indexed * b.borrowIndex + c * b.borrowIndex := by ring
    refine ⟨hd.1, hd.2.1, rfl, rfl, id, by simp, rfl, ?_, ?_⟩
    · rw [e1, e2]; dsimp only; unfold feesAndDust; dsimp only; omega
    · rw [e1, e2]; dsimp only; unfold feesAndDust; dsimp only; omega
  | dust c st nb hp hw hc hn hd' hdust =>
    have m := mulFloor_bounds (p.indexed * b.borrowIndex)
    have e1 := exactValue_nonpos (di := b.depositIndex) (bi := b.borrowIndex) hp.le
    have e2 := exactValue_nonpos (di := b.depositIndex) (bi := b.borrowIndex)
      (p := { p with indexed := 0 }) (by dsimp only; omega)
    generalize p.indexed * b.borrowIndex / S = n at *
    have e3 : (b.dust + (n + amt) + b.collectedFeesNative - b.feesWithdrawn * S) * S =
      (b.dust + b.collectedFeesNative - b.feesWithdrawn * S) * S + n * S + amt * S := by ring
    refine ⟨hd.1, hd.2.1, rfl, rfl, id, by simp, rfl, ?_, ?_⟩
    · rw [e1, e2]; dsimp only; unfold feesAndDust; dsimp only; rw [e3]; omega
    · rw [e1, e2]; dsimp only; unfold feesAndDust; dsimp only; rw [e3]; omega
  | cross c d st nb hp hw hc hn hd' =>
    have m := mulFloor_bounds (p.indexed * b.borrowIndex)
    have hc' := divRoundingUp_ok hc ha hbi
    have hm : 0 ≤ max (p.indexed * b.borrowIndex / S + amt) 0 := by omega
    have hd'' := divRoundingUp_ok hd' hm hdi
    have h2 := le_floor_iff.mp hd''.2.1
    have e1 := exactValue_nonpos (di := b.depositIndex) (bi := b.borrowIndex) hp.le
    have e2 := exactValue_nonneg_pos (di := b.depositIndex) (bi := b.borrowIndex)
      (p := { p with indexed := 0 + d }) (by dsimp only; omega)
    generalize p.indexed * b.borrowIndex / S = n at *
    have e4 : (0 + d) * b.depositIndex = d * b.depositIndex := by ring
    have h5 : 0 ≤ (p.indexed + c) * b.borrowIndex := Int.mul_nonneg hn hbi.le
    have e5 : (p.indexed + c) * b.borrowIndex = p.indexed * b.borrowIndex + c * b.borrowIndex := by ring
    have e6 : (n + amt) * S = n * S + amt * S := by ring
    refine ⟨hd.1, hd.2.1, rfl, rfl, id, by simp, rfl, ?_, ?_⟩
    · rw [e1, e2, e4]; unfold feesAndDust; dsimp only
      by_cases hneg : n + amt < 0
      · have : max (n + amt) 0 = 0 := by omega
        have hd0 := hd''.2.2.2.2 this
        subst hd0
        simp only [Int.zero_mul]; omega
      · have e7 : max (n + amt) 0 = n + amt := by omega
        rw [e7] at hd'' h2
        omega
    · rw [e1, e2, e4]; unfold feesAndDust; dsimp only
      have h8 : (n + amt) * S ≤ max (n + amt) 0 * S := Int.mul_le_mul_of_nonneg_right (by omega) hS.le
      omega

theorem WithdrawCase.effect {b b' : Bank} {p p' : TokenPosition} {amt : I80F48} {wf dusting : Bool} {now : Int}
    {w : WithdrawResult} (hb : b.Pos) (hr : 0 ≤ b.loanOriginationFeeRate) (ha : 0 ≤ amt)
    (h : WithdrawCase b p amt wf dusting now b' p' w) : Effect b p (-amt) b' p' w.positionIsActive := by
  have hd := h.delta hb hr ha
  have hS := S_pos
  have hdi := hb.1
  have hbi := hb.2
  have en : -amt * S = -(amt * S) := by ring
  cases h with
  | dust hp n hn h0 h1 hd' =>
    have m := native_bounds hn
    have e2 := exactValue_nonpos (di := b.depositIndex) (bi := b.borrowIndex)
      (p := { p with indexed := 0 }) (by dsimp only; omega)
    have e3 : (b.dust + (n - amt) + b.collectedFeesNative - b.feesWithdrawn * S) * S =
      (b.dust + b.collectedFeesNative - b.feesWithdrawn * S) * S + n * S - amt * S := by ring
    refine ⟨hd.1, hd.2.1, rfl, rfl, id, by simp, rfl, ?_, ?_⟩
    · rw [e2]; dsimp only; unfold feesAndDust; dsimp only; rw [e3]; omega
    · rw [e2]; dsimp only; unfold feesAndDust; dsimp only; rw [e3]; omega
  | part hp n hn h0 =>
    have hpl := part_le hb ha hp hn h0
    have t := tdiv_bounds (a := amt * S) (b := b.depositIndex) (Int.mul_nonneg ha hS.le) hdi
    have e1 := exactValue_nonneg_pos (di := b.depositIndex) (bi := b.borrowIndex) hp
    have e2 := exactValue_nonneg_pos (di := b.depositIndex) (bi := b.borrowIndex)
      (p := { p with indexed := p.indexed - Int.tdiv (amt * S) b.depositIndex }) (by dsimp only; omega)
    generalize Int.tdiv (amt * S) b.depositIndex = q at *
    have e3 : (p.indexed - q) * b.depositIndex = p.indexed * b.depositIndex - q * b.depositIndex := by ring
    refine ⟨hd.1, hd.2.1, rfl, rfl, id, by simp, rfl, ?_, ?_⟩
    · rw [e1, e2]; dsimp only; unfold feesAndDust; dsimp only; omega
    · rw [e1, e2]; dsimp only; unfold feesAndDust; dsimp only; omega
  | borrow n rest tot st nb hn hlt hw hrest htot =>
    have hf := feeOf_nonneg (wf := wf) hr (amt := rest) (by omega)
    have hneg := native_neg_iff hb hn
    have m := native_bounds hn
    have htot0 : 0 ≤ tot := by omega
    have t := tdiv_bounds (a := tot * S) (b := b.borrowIndex) (Int.mul_nonneg htot0 hS.le) hbi
    have e2 := exactValue_nonpos (di := b.depositIndex) (bi := b.borrowIndex)
      (p := { p with indexed := min p.indexed 0 - Int.tdiv (tot * S) b.borrowIndex }) (by dsimp only; omega)
    generalize Int.tdiv (tot * S) b.borrowIndex = q at *
    generalize feeOf b wf rest = fee at *
    have e3 : (b.dust + (b.collectedFeesNative + fee) - b.feesWithdrawn * S) * S =
      (b.dust + b.collectedFeesNative - b.feesWithdrawn * S) * S + fee * S := by ring
    have e4 : (min p.indexed 0 - q) * b.borrowIndex = min p.indexed 0 * b.borrowIndex - q * b.borrowIndex := by ring
    have e5 : tot * S = rest * S + fee * S := by rw [htot]; ring
    have e6 : rest * S = amt * S - max n 0 * S := by rw [hrest]; ring
    refine ⟨hd.1, hd.2.1, rfl, rfl, id, by simp, rfl, ?_, ?_⟩
    · rw [e2, en]; dsimp only; unfold feesAndDust; dsimp only; rw [e3, e4]
      by_cases hpn : p.indexed < 0
      · have e1 := exactValue_nonpos (di := b.depositIndex) (bi := b.borrowIndex) hpn.le
        have e7 : min p.indexed 0 = p.indexed := by omega
        have e8 : max n 0 = 0 := by have := hneg.mpr hpn; omega
        rw [e8] at e6
        rw [e1, e7]; omega
      · have e7 : min p.indexed 0 = 0 := by omega
        have e8 : max n 0 = n := by have := mt hneg.mp hpn; omega
        rw [e8] at e6
        rw [e7]; omega
    · rw [e2, en]; dsimp only; unfold feesAndDust; dsimp only; rw [e3, e4]
      by_cases hpn : p.indexed < 0
      · have e1 := exactValue_nonpos (di := b.depositIndex) (bi := b.borrowIndex) hpn.le
        have e7 : min p.indexed 0 = p.indexed := by omega
        have e8 : max n 0 = 0 := by have := hneg.mpr hpn; omega
        rw [e8] at e6
        rw [e1, e7]; omega
      · have e7 : min p.indexed 0 = 0 := by omega
        have e8 : max n 0 = n := by have := mt hneg.mp hpn; omega
        rw [e8] at e6
        rw [e7]; omega

theorem exactValue_congr {di bi : Int} {p q : TokenPosition} (h : p.indexed = q.indexed) :
    exactValue di bi p = exactValue di bi q := by
  unfold exactValue; rw [h]

theorem Effect.congr {b b' : Bank} {p p' q : TokenPosition} {i : Int} {a : Bool} (h : Effect b p i b' p' a)
    (h1 : q.indexed = p'.indexed) (h2 : q.inUseCount = p'.inUseCount) : Effect b p i b' q a := by
  have e := exactValue_congr (di := b.depositIndex) (bi := b.borrowIndex) h1
  exact ⟨by rw [h1]; exact h.deposits, by rw [h1]; exact h.borrows, h.depositIndex, h.borrowIndex, h.rates,
    by rw [h1]; exact h.closed, by rw [h2]; exact h.inUse, by rw [e]; exact h.upper, by rw [e]; exact h.lower⟩

theorem Effect.active_or {b b' : Bank} {p p' : TokenPosition} {i : Int} {a c : Bool} (h : Effect b p i b' p' a) :
    Effect b p i b' p' (a || c) :=
  { h with closed := fun hc => h.closed (by cases a <;> simp_all) }

theorem depositWrapper_effect {b b' : Bank} {p p' : TokenPosition} {amt : I80F48} {d r : Bool} {now : Int}
    (hb : b.Pos) (h : depositWrapper b p amt d now = .ok (b', p', r)) : Effect b p amt b' p' r := by
  obtain ⟨p1, h1, h2, h3⟩ := depositWrapper_ok h
  obtain ⟨ha, hc⟩ := depositInternal_ok hb h1
  exact (hc.effect hb ha).congr h2 h3

theorem withdrawWrapper_effect {b b' : Bank} {p p' : TokenPosition} {amt : I80F48} {wf d : Bool} {now : Int}
    {w : WithdrawResult} (hb : b.Pos) (hr : 0 ≤ b.loanOriginationFeeRate)
    (h : withdrawWrapper b p amt wf d now = .ok (b', p', w)) : Effect b p (-amt) b' p' w.positionIsActive := by
  obtain ⟨p1, h1, h2, h3⟩ := withdrawWrapper_ok h
  obtain ⟨ha, hc⟩ := withdrawInternal_ok hb h1
  exact (hc.effect hb hr ha).congr h2 h3

theorem Effect.refl {b : Bank} {p : TokenPosition} (hb : b.Pos) : Effect b p 0 b p true := by
  have := hb.1
  have := hb.2
  have := S_pos
  refine ⟨rfl, rfl, rfl, rfl, id, by simp, rfl, ?_, ?_⟩ <;> simp only [Int.zero_mul] <;> omega

theorem withdrawWithoutFee_effect {b b' : Bank} {p p' : TokenPosition} {amt : I80F48} {now : Int} {r : Bool}
    (hb : b.Pos) (hr : 0 ≤ b.loanOriginationFeeRate)
    (h : withdrawWithoutFee b p amt now = .ok (b', p', r)) : Effect b p (-amt) b' p' r := by
  unfold withdrawWithoutFee at h
  simp only [bind_ok, ok_inj, Prod.mk.injEq] at h
  obtain ⟨⟨b1, p1, w⟩, h1, rfl, rfl, rfl⟩ := h
  exact withdrawWrapper_effect hb hr h1

theorem lof_effect {b b' : Bank} {p p' : TokenPosition} {fee : I80F48} {now : Int} {w : WithdrawResult} {d : Bool}
    (hb : b.Pos) (hr : 0 ≤ b.loanOriginationFeeRate)
    (h : withdrawWrapper { b with collectedFeesNative := b.collectedFeesNative + fee } p fee false d now
      = .ok (b', p', w)) : Effect b p 0 b' p' w.positionIsActive := by
  generalize hb0 : ({ b with collectedFeesNative := b.collectedFeesNative + fee } : Bank) = b0 at h
  have h1 : b0.depositIndex = b.depositIndex := by rw [← hb0]
  have h2 : b0.borrowIndex = b.borrowIndex := by rw [← hb0]
  have h3 : b0.indexedDeposits = b.indexedDeposits := by rw [← hb0]
  have h4 : b0.indexedBorrows = b.indexedBorrows := by rw [← hb0]
  have h5 : b.RatesOk → b0.RatesOk := by rw [← hb0]; exact id
  have h6 : 0 ≤ b0.loanOriginationFeeRate := by rw [← hb0]; exact hr
  have h7 : feesAndDust b0 = feesAndDust b + fee * S := by rw [← hb0]; unfold feesAndDust; ring
  have e := withdrawWrapper_effect (by unfold Pos; rw [h1, h2]; exact hb) h6 h
  have u := e.upper
  have l := e.lower
  rw [h1, h2, h7] at u l
  have en : -fee * S = -(fee * S) := by ring
  refine ⟨by rw [← h3]; exact e.deposits, by rw [← h4]; exact e.borrows, by rw [← h1]; exact e.depositIndex,
    by rw [← h2]; exact e.borrowIndex, fun h => e.rates (h5 h), e.closed, e.inUse, ?_, ?_⟩ <;>
    simp only [Int.zero_mul] <;> omega

theorem PosOp.effect {op : PosOp} {b b' : Bank} {p p' : TokenPosition} {now : Int} {a : Bool}
    (hb : b.Pos) (hr : 0 ≤ b.loanOriginationFeeRate)
    (h : op.run b p now = .ok (b', p', a)) : Effect b p op.inflow b' p' a := by
  cases op with
  | deposit amt => exact depositWrapper_effect hb h
  | depositWithDusting amt =>
    simp only [PosOp.run, Bank.depositWithDusting, bind_ok, ok_inj, Prod.mk.injEq] at h
    obtain ⟨⟨b1, p1, r⟩, h1, rfl, rfl, rfl⟩ := h
    exact (depositWrapper_effect hb h1).active_or
  | withdrawWithoutFee amt => exact withdrawWithoutFee_effect hb hr h
  | withdrawWithoutFeeWithDusting amt =>
    simp only [PosOp.run, Bank.withdrawWithoutFeeWithDusting, bind_ok, ok_inj, Prod.mk.injEq] at h
    obtain ⟨⟨b1, p1, w⟩, h1, rfl, rfl, rfl⟩ := h
    exact (withdrawWrapper_effect hb hr h1).active_or
  | withdrawWithFee amt =>
    simp only [PosOp.run, bind_ok, ok_inj, Prod.mk.injEq] at h
    obtain ⟨⟨b1, p1, w⟩, h1, rfl, rfl, rfl⟩ := h
    exact withdrawWrapper_effect hb hr h1
  | withdrawLoanOriginationFee already =>
    simp only [PosOp.run, Bank.withdrawLoanOriginationFee, bind_ok, mul_ok, add_ok, ok_inj, Prod.mk.injEq] at h
    obtain ⟨⟨b2, p2, w2⟩, ⟨fee, ⟨rfl, _⟩, cf, ⟨rfl, _⟩, ⟨b1, p1, w⟩, h1, rfl, rfl, rfl⟩, rfl, rfl, rfl⟩ := h
    have e := lof_effect hb hr h1
    exact e
  | dustIfPossible =>
    simp only [PosOp.run, Bank.dustIfPossible] at h
    split at h
    · simp only [ok_inj, Prod.mk.injEq] at h
      obtain ⟨rfl, rfl, rfl⟩ := h
      exact Effect.refl hb
    · simp only [bind_ok] at h
      obtain ⟨n, _, h⟩ := h
      split at h
      · have := withdrawWithoutFee_effect hb hr h
        simpa [PosOp.inflow] using this
      · simp only [ok_inj, Prod.mk.injEq] at h
        obtain ⟨rfl, rfl, rfl⟩ := h
        exact Effect.refl hb
  | changeWithoutFee amt =>
    simp only [PosOp.run, Bank.changeWithoutFee] at h
    split at h
    · exact depositWrapper_effect hb h
    · simp only [bind_ok, neg_ok] at h
      obtain ⟨n, ⟨rfl, _⟩, h⟩ := h
      have := withdrawWithoutFee_effect hb hr h
      simpa [PosOp.inflow] using this
  | changeWithFee amt =>
    simp only [PosOp.run, Bank.changeWithFee, bind_ok, ok_inj, Prod.mk.injEq] at h
    obtain ⟨⟨b1, p1, w⟩, h, rfl, rfl, rfl⟩ := h
    split at h
    · simp only [bind_ok, ok_inj, Prod.mk.injEq] at h
      obtain ⟨⟨b2, p2, r⟩, h, rfl, rfl, rfl⟩ := h
      exact depositWrapper_effect hb h
    · simp only [bind_ok, neg_ok] at h
      obtain ⟨n, ⟨rfl, _⟩, h⟩ := h
      have := withdrawWrapper_effect hb hr h
      simpa [PosOp.inflow] using this

end Bank
end Mango
