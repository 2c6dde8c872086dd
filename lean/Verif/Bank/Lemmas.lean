import Verif.Bank.Model
import Mathlib.Tactic.Linarith
import Mathlib.Tactic.Ring
/-! Helper lemmas about the bank model: what a successful call did. -/
namespace Mango
namespace Bank
open Fx

/-- A bank with positive indexes. -/
def Pos (b : Bank) : Prop := 0 < b.depositIndex ∧ 0 < b.borrowIndex

def posPart (x : Int) : Int := max x 0
def negPart (x : Int) : Int := max (-x) 0

theorem native_ok {p : TokenPosition} {b : Bank} {n : I80F48} (h : p.native b = .ok n) :
    n = (if p.indexed > 0 then p.indexed * b.depositIndex / S else p.indexed * b.borrowIndex / S) := by
  unfold TokenPosition.native at h
  split at h <;> (rw [mul_ok] at h; simp_all)

theorem native_neg_iff {p : TokenPosition} {b : Bank} {n : I80F48} (hb : b.Pos) (h : p.native b = .ok n) :
    n < 0 ↔ p.indexed < 0 := by
  have := native_ok h
  subst this
  split
  · next hp =>
    have : 0 ≤ p.indexed * b.depositIndex / S :=
      floor_nonneg (Int.mul_nonneg (by omega) (by have := hb.1; omega))
    omega
  · next hp =>
    constructor
    · intro h1
      rcases Int.lt_or_eq_of_le (Int.not_lt.mp hp) with h2 | h2
      · exact h2
      · rw [h2] at h1; simp at h1
    · intro h1
      exact floor_neg (Int.mul_neg_of_neg_of_pos h1 hb.2)

theorem divRoundingUp_ok {n i r : I80F48} (h : divRoundingUp n i = .ok r) (hn : 0 ≤ n) (hi : 0 < i) :
    0 ≤ r ∧ n ≤ r * i / S ∧ n * S ≤ r * i + (S - 1) ∧ r * i < n * S + i ∧ (n = 0 → r = 0) := by
  unfold divRoundingUp at h
  simp only [bind_ok, div_ok, mul_ok] at h
  obtain ⟨q, ⟨_, rfl, _⟩, back, ⟨rfl, _⟩, h⟩ := h
  have hb := tdiv_bounds (a := n * S) (b := i) (Int.mul_nonneg hn (by decide)) hi
  generalize hq : Int.tdiv (n * S) i = q at *
  have hS := S_pos
  split at h
  · next hlt =>
    rw [add_ok] at h
    obtain ⟨rfl, _⟩ := h
    unfold DELTA
    have e : (q + 1) * i = q * i + i := by ring
    refine ⟨by omega, ?_, by omega, ?_, ?_⟩
    · rw [le_floor_iff]; omega
    · have h1 : q * i < n * S := floor_le_iff.mp hlt
      omega
    · intro h0; subst h0
      rw [floor_le_iff] at hlt
      have : 0 ≤ q * i := Int.mul_nonneg hb.2.2 (by omega)
      omega
  · next hge =>
    rw [ok_inj] at h
    subst h
    have : n ≤ q * i / S := by omega
    have h2 := le_floor_iff.mp this
    refine ⟨hb.2.2, this, by omega, by omega, ?_⟩
    intro h0; subst h0
    subst hq; simp

/-- `updateNetBorrows` touches only the window fields. -/
theorem updateNetBorrows_ok {b b' : Bank} {a : I80F48} {now : Int} (h : b.updateNetBorrows a now = .ok b') :
    ∃ st nb, b' = { b with lastNetBorrowsWindowStartTs := st, netBorrowsInWindow := nb } := by
  unfold updateNetBorrows at h
  simp only [bind_ok, cku64_ok, ceil_ok, ite_ok, ck64_ok, ok_inj, err_ok] at h
  obtain ⟨w, ⟨rfl, _⟩, c, ⟨rfl, _⟩, h⟩ := h
  rcases h with ⟨_, h⟩ | ⟨_, h⟩
  · rcases h with ⟨_, h⟩ | ⟨_, h⟩
    · exact h.elim
    · exact ⟨_, _, h.symm⟩
  · obtain ⟨s, ⟨rfl, _⟩, h⟩ := h
    exact ⟨_, _, h.symm⟩

theorem addToDeposits_ok {b b' : Bank} {p p' : TokenPosition} {a : I80F48} {r : Bool}
    (h : addToDeposits b p a = .ok (b', p', r)) :
    ∃ c, divRoundingUp a b.depositIndex = .ok c ∧
      b' = { b with indexedDeposits := b.indexedDeposits + c } ∧ p' = { p with indexed := p.indexed + c } ∧
      r = true ∧ inRange (p.indexed + c) ∧ inRange (b.indexedDeposits + c) := by
  unfold addToDeposits at h
  simp only [bind_ok, add_ok, ok_inj, Prod.mk.injEq] at h
  obtain ⟨c, hc, d, ⟨rfl, h1⟩, i, ⟨rfl, h2⟩, rfl, rfl, rfl⟩ := h
  exact ⟨c, hc, rfl, rfl, rfl, h2, h1⟩

/-- The four ways a deposit can succeed. -/
inductive DepositCase (b : Bank) (p : TokenPosition) (amt : I80F48) (dusting : Bool) (now : Int) :
    Bank → TokenPosition → Bool → Prop
  /-- non-negative position: the amount is added to the deposits -/
  | add (c : I80F48) (hp : 0 ≤ p.indexed) (hc : divRoundingUp amt b.depositIndex = .ok c) :
      DepositCase b p amt dusting now { b with indexedDeposits := b.indexedDeposits + c }
        { p with indexed := p.indexed + c } true
  /-- part of a borrow is paid back -/
  | repay (c : I80F48) (st nb : Int) (hp : p.indexed < 0)
      (hw : b.updateNetBorrows (max (p.indexed * b.borrowIndex / S) (-amt)) now =
        .ok { b with lastNetBorrowsWindowStartTs := st, netBorrowsInWindow := nb })
      (hc : divRoundingUp amt b.borrowIndex = .ok c)
      (hn : p.indexed + c < 0) :
      DepositCase b p amt dusting now
        { b with lastNetBorrowsWindowStartTs := st, netBorrowsInWindow := nb,
                 indexedBorrows := b.indexedBorrows - c }
        { p with indexed := p.indexed + c } true
  /-- the borrow is fully repaid and the rest (less than one native unit) is dusted -/
  | dust (c : I80F48) (st nb : Int) (hp : p.indexed < 0)
      (hw : b.updateNetBorrows (max (p.indexed * b.borrowIndex / S) (-amt)) now =
        .ok { b with lastNetBorrowsWindowStartTs := st, netBorrowsInWindow := nb })
      (hc : divRoundingUp amt b.borrowIndex = .ok c)
      (hn : 0 ≤ p.indexed + c) (hd : p.indexed * b.borrowIndex / S + amt < S) (hdust : dusting = true) :
      DepositCase b p amt dusting now
        { b with lastNetBorrowsWindowStartTs := st, netBorrowsInWindow := nb,
                 dust := b.dust + (p.indexed * b.borrowIndex / S + amt),
                 indexedBorrows := b.indexedBorrows + p.indexed }
        { p with indexed := 0 } false
  /-- the borrow is fully repaid and the rest becomes a deposit -/
  | cross (c d : I80F48) (st nb : Int) (hp : p.indexed < 0)
      (hw : b.updateNetBorrows (max (p.indexed * b.borrowIndex / S) (-amt)) now =
        .ok { b with lastNetBorrowsWindowStartTs := st, netBorrowsInWindow := nb })
      (hc : divRoundingUp amt b.borrowIndex = .ok c)
      (hn : 0 ≤ p.indexed + c)
      (hd : divRoundingUp (max (p.indexed * b.borrowIndex / S + amt) 0) b.depositIndex = .ok d) :
      DepositCase b p amt dusting now
        { b with lastNetBorrowsWindowStartTs := st, netBorrowsInWindow := nb,
                 indexedBorrows := b.indexedBorrows + p.indexed,
                 indexedDeposits := b.indexedDeposits + d }
        { p with indexed := 0 + d } true

theorem depositInternal_ok {b b' : Bank} {p p' : TokenPosition} {amt : I80F48} {dusting r : Bool} {now : Int}
    (hb : b.Pos) (h : depositInternal b p amt dusting now = .ok (b', p', r)) :
    0 ≤ amt ∧ DepositCase b p amt dusting now b' p' r := by
  unfold depositInternal at h
  simp only [bind_ok, require_ok] at h
  obtain ⟨_, hamt, n, hn, h⟩ := h
  refine ⟨hamt, ?_⟩
  have hneg := native_neg_iff hb hn
  split at h
  · next hlt =>
    have hp := hneg.mp hlt
    have hn' : n = p.indexed * b.borrowIndex / S := by
      have := native_ok hn; rw [if_neg (by omega)] at this; exact this
    simp only [bind_ok, neg_ok, add_ok] at h
    obtain ⟨_, ⟨rfl, _⟩, b1, hb1, nn, ⟨rfl, _⟩, c, hc, ni, ⟨rfl, _⟩, h⟩ := h
    obtain ⟨st, nb, rfl⟩ := updateNetBorrows_ok hb1
    have hw := hb1
    rw [hn'] at hw
    split at h
    · next hneg =>
      simp only [bind_ok, sub_ok, ok_inj, Prod.mk.injEq] at h
      obtain ⟨br, ⟨rfl, _⟩, rfl, rfl, rfl⟩ := h
      exact DepositCase.repay c st nb hp hw hc hneg
    · next hnn =>
      split at h
      · next hd =>
        simp only [bind_ok, add_ok, ok_inj, Prod.mk.injEq] at h
        obtain ⟨du, ⟨rfl, _⟩, br, ⟨rfl, _⟩, rfl, rfl, rfl⟩ := h
        subst hn'
        exact DepositCase.dust c st nb hp hw hc (by omega) hd.1 hd.2
      · simp only [bind_ok, add_ok] at h
        obtain ⟨br, ⟨rfl, _⟩, h⟩ := h
        obtain ⟨d, hd, rfl, rfl, rfl, _, _⟩ := addToDeposits_ok h
        subst hn'
        exact DepositCase.cross c d st nb hp hw hc (by omega) hd
  · next hge =>
    obtain ⟨c, hc, rfl, rfl, rfl, _, _⟩ := addToDeposits_ok h
    exact DepositCase.add c (by have := mt hneg.mpr hge; omega) hc

/-- Deposits keep `total deposits - positive part` and `total borrows - negative part`. -/
theorem DepositCase.delta {b b' : Bank} {p p' : TokenPosition} {amt : I80F48} {dusting r : Bool} {now : Int}
    (hb : b.Pos) (ha : 0 ≤ amt) (h : DepositCase b p amt dusting now b' p' r) :
    b'.indexedDeposits - posPart p'.indexed = b.indexedDeposits - posPart p.indexed ∧
    b'.indexedBorrows - negPart p'.indexed = b.indexedBorrows - negPart p.indexed ∧
    b'.depositIndex = b.depositIndex ∧ b'.borrowIndex = b.borrowIndex := by
  unfold posPart negPart
  cases h with
  | add c hp hc =>
    have := (divRoundingUp_ok hc ha hb.1).1
    refine ⟨?_, ?_, rfl, rfl⟩ <;> dsimp only <;> omega
  | repay c st nb hp hw hc hn =>
    refine ⟨?_, ?_, rfl, rfl⟩ <;> dsimp only <;> omega
  | dust c st nb hp hw hc hn hd hdust =>
    refine ⟨?_, ?_, rfl, rfl⟩ <;> dsimp only <;> omega
  | cross c d st nb hp hw hc hn hd =>
    have := (divRoundingUp_ok hd (by omega) hb.1).1
    refine ⟨?_, ?_, rfl, rfl⟩ <;> dsimp only <;> omega

/-- What the borrowing tail of a withdrawal did. -/
theorem borrowRest_ok {b b' : Bank} {p p' : TokenPosition} {amt : I80F48} {wf : Bool} {now : Int}
    {w : WithdrawResult} (h : borrowRest b p amt wf now = .ok (b', p', w)) :
    ∃ st nb, (∃ b0 b1 : Bank, b0.updateNetBorrows w.loanAmount now = .ok b1 ∧
        b0.lastNetBorrowsWindowStartTs = b.lastNetBorrowsWindowStartTs ∧
        b0.netBorrowsInWindow = b.netBorrowsInWindow ∧
        b0.netBorrowLimitWindowSizeTs = b.netBorrowLimitWindowSizeTs ∧
        b1.lastNetBorrowsWindowStartTs = st ∧ b1.netBorrowsInWindow = nb) ∧ b.borrowIndex ≠ 0 ∧
      w = ⟨true, if wf then b.loanOriginationFeeRate * amt / S else 0,
            amt + (if wf then b.loanOriginationFeeRate * amt / S else 0)⟩ ∧
      p' = { p with indexed := p.indexed - Int.tdiv (w.loanAmount * S) b.borrowIndex } ∧
      b' = { b with
        lastNetBorrowsWindowStartTs := st, netBorrowsInWindow := nb,
        collectedFeesNative := b.collectedFeesNative + w.loanOriginationFee,
        indexedBorrows := b.indexedBorrows + Int.tdiv (w.loanAmount * S) b.borrowIndex } := by
  unfold borrowRest at h
  cases wf
  · simp only [bind_ok, Bool.false_eq_true, if_false, ok_inj, div_ok, add_ok, sub_ok, Prod.mk.injEq] at h
    obtain ⟨fee, rfl, cf, rfl, tot, rfl, c, ⟨hbi, rfl, _⟩, br, ⟨rfl, _⟩, i, ⟨rfl, _⟩, b1, hb1, rfl, rfl, rfl⟩ := h
    obtain ⟨st, nb, rfl⟩ := updateNetBorrows_ok hb1
    exact ⟨st, nb, ⟨_, _, hb1, rfl, rfl, rfl, rfl, rfl⟩, hbi, by simp, rfl, by simp⟩
  · simp only [bind_ok, if_true, ok_inj, div_ok, add_ok, sub_ok, mul_ok, Prod.mk.injEq] at h
    obtain ⟨fee, ⟨rfl, _⟩, cf, ⟨rfl, _⟩, tot, ⟨rfl, _⟩, c, ⟨hbi, rfl, _⟩, br, ⟨rfl, _⟩, i, ⟨rfl, _⟩, b1, hb1,
      rfl, rfl, rfl⟩ := h
    obtain ⟨st, nb, rfl⟩ := updateNetBorrows_ok hb1
    exact ⟨st, nb, ⟨_, _, hb1, rfl, rfl, rfl, rfl, rfl⟩, hbi, by simp, rfl, rfl⟩

/-- The origination fee booked on a borrow of `amt`. -/
def feeOf (b : Bank) (wf : Bool) (amt : I80F48) : I80F48 := if wf then b.loanOriginationFeeRate * amt / S else 0

/-- The three ways a withdrawal can succeed. -/
inductive WithdrawCase (b : Bank) (p : TokenPosition) (amt : I80F48) (wf dusting : Bool) (now : Int) :
    Bank → TokenPosition → WithdrawResult → Prop
  /-- the remaining deposit is below one native unit and dusted -/
  | dust (hp : 0 ≤ p.indexed) (n : I80F48) (hn : p.native b = .ok n) (h0 : 0 ≤ n - amt) (h1 : n - amt < S)
      (hd : dusting = true) :
      WithdrawCase b p amt wf dusting now
        { b with dust := b.dust + (n - amt), indexedDeposits := b.indexedDeposits - p.indexed }
        { p with indexed := 0 } ⟨false, 0, 0⟩
  /-- part of the deposit is withdrawn -/
  | part (hp : 0 ≤ p.indexed) (n : I80F48) (hn : p.native b = .ok n) (h0 : 0 ≤ n - amt) :
      WithdrawCase b p amt wf dusting now
        { b with indexedDeposits := b.indexedDeposits - Int.tdiv (amt * S) b.depositIndex }
        { p with indexed := p.indexed - Int.tdiv (amt * S) b.depositIndex } ⟨true, 0, 0⟩
  /-- the deposit (if any) is fully withdrawn and `rest` (plus fee) is borrowed -/
  | borrow (n rest tot : I80F48) (st nb : Int) (hn : p.native b = .ok n) (hlt : n - amt < 0)
      (hw : ∃ b0 b1 : Bank, b0.updateNetBorrows tot now = .ok b1 ∧
        b0.lastNetBorrowsWindowStartTs = b.lastNetBorrowsWindowStartTs ∧
        b0.netBorrowsInWindow = b.netBorrowsInWindow ∧
        b0.netBorrowLimitWindowSizeTs = b.netBorrowLimitWindowSizeTs ∧
        b1.lastNetBorrowsWindowStartTs = st ∧ b1.netBorrowsInWindow = nb)
      (hrest : rest = amt - max n 0)
      (htot : tot = rest + feeOf b wf rest) :
      WithdrawCase b p amt wf dusting now
        { b with
          lastNetBorrowsWindowStartTs := st, netBorrowsInWindow := nb,
          collectedFeesNative := b.collectedFeesNative + feeOf b wf rest,
          indexedDeposits := b.indexedDeposits - max p.indexed 0,
          indexedBorrows := b.indexedBorrows + Int.tdiv (tot * S) b.borrowIndex }
        { p with indexed := min p.indexed 0 - Int.tdiv (tot * S) b.borrowIndex }
        ⟨true, feeOf b wf rest, tot⟩

theorem withdrawInternal_ok {b b' : Bank} {p p' : TokenPosition} {amt : I80F48} {wf dusting : Bool} {now : Int}
    {w : WithdrawResult} (hb : b.Pos) (h : withdrawInternal b p amt wf dusting now = .ok (b', p', w)) :
    0 ≤ amt ∧ WithdrawCase b p amt wf dusting now b' p' w := by
  unfold withdrawInternal at h
  simp only [bind_ok, require_ok] at h
  obtain ⟨_, hamt, n, hn, h⟩ := h
  refine ⟨hamt, ?_⟩
  have hneg := native_neg_iff hb hn
  split at h
  · next hge =>
    have hp : 0 ≤ p.indexed := by have := mt hneg.mpr hge; omega
    simp only [bind_ok, sub_ok] at h
    obtain ⟨nn, ⟨rfl, _⟩, h⟩ := h
    split at h
    · next hnn =>
      split at h
      · next hd =>
        simp only [bind_ok, add_ok, sub_ok, ok_inj, Prod.mk.injEq] at h
        obtain ⟨du, ⟨rfl, _⟩, d, ⟨rfl, _⟩, rfl, rfl, rfl⟩ := h
        exact WithdrawCase.dust hp n hn (by omega) hd.1 hd.2
      · simp only [bind_ok, div_ok, sub_ok, ok_inj, Prod.mk.injEq] at h
        obtain ⟨c, ⟨_, rfl, _⟩, d, ⟨rfl, _⟩, i, ⟨rfl, _⟩, rfl, rfl, rfl⟩ := h
        exact WithdrawCase.part hp n hn (by omega)
    · next hlt =>
      simp only [bind_ok, sub_ok, neg_ok] at h
      obtain ⟨d, ⟨rfl, _⟩, rest, ⟨rfl, _⟩, h⟩ := h
      obtain ⟨st, nb, hw, hbi, rfl, rfl, rfl⟩ := borrowRest_ok h
      dsimp only at hbi ⊢
      have e1 : max p.indexed 0 = p.indexed := by omega
      have e2 : min p.indexed 0 = 0 := by omega
      have e3 : -(n - amt) = amt - max n 0 := by omega
      have := WithdrawCase.borrow (b := b) (p := p) (amt := amt) (wf := wf) (dusting := dusting) (now := now) n
        (-(n - amt)) (-(n - amt) + feeOf b wf (-(n - amt))) st nb hn (by omega) hw e3 rfl
      rw [e1, e2] at this
      exact this
  · next hlt =>
    have hp : p.indexed < 0 := hneg.mp (by omega)
    obtain ⟨st, nb, hw, hbi, rfl, rfl, rfl⟩ := borrowRest_ok h
    have e1 : max p.indexed 0 = 0 := by omega
    have e2 : min p.indexed 0 = p.indexed := by omega
    have := WithdrawCase.borrow (b := b) (p := p) (amt := amt) (wf := wf) (dusting := dusting) (now := now) n
      amt (amt + feeOf b wf amt) st nb hn (by omega) hw (by omega) rfl
    rw [e1, e2] at this
    simp only [Int.sub_zero] at this
    exact this

theorem tdiv_nonneg' {a b : Int} (ha : 0 ≤ a) (hb : 0 ≤ b) : 0 ≤ Int.tdiv (a * S) b :=
  Int.tdiv_nonneg (Int.mul_nonneg ha (by decide)) hb

theorem feeOf_nonneg {b : Bank} {wf : Bool} {amt : I80F48} (hr : 0 ≤ b.loanOriginationFeeRate) (ha : 0 ≤ amt) :
    0 ≤ feeOf b wf amt := by
  unfold feeOf; split
  · exact floor_nonneg (Int.mul_nonneg hr ha)
  · omega

/-- A partial withdrawal never takes more index units than the position has. -/
theorem part_le {b : Bank} {p : TokenPosition} {amt n : I80F48} (hb : b.Pos) (ha : 0 ≤ amt) (hp : 0 ≤ p.indexed)
    (hn : p.native b = .ok n) (h0 : 0 ≤ n - amt) :
    0 ≤ Int.tdiv (amt * S) b.depositIndex ∧ Int.tdiv (amt * S) b.depositIndex ≤ p.indexed := by
  have h1 := tdiv_bounds (a := amt * S) (b := b.depositIndex) (Int.mul_nonneg ha (by decide)) hb.1
  refine ⟨h1.2.2, ?_⟩
  have hn' := native_ok hn
  by_cases hpos : p.indexed > 0
  · rw [if_pos hpos] at hn'
    have h2 := mulFloor_bounds (p.indexed * b.depositIndex)
    rw [← hn'] at h2
    have h3 : amt * S ≤ n * S := Int.mul_le_mul_of_nonneg_right (by omega) (by decide)
    have h4 : Int.tdiv (amt * S) b.depositIndex * b.depositIndex ≤ p.indexed * b.depositIndex := by omega
    exact Int.le_of_mul_le_mul_right h4 hb.1
  · rw [if_neg hpos] at hn'
    have hz : p.indexed = 0 := by omega
    rw [hz] at hn'; simp at hn'
    have : amt = 0 := by omega
    subst this
    simp [hz]

theorem WithdrawCase.delta {b b' : Bank} {p p' : TokenPosition} {amt : I80F48} {wf dusting : Bool} {now : Int}
    {w : WithdrawResult} (hb : b.Pos) (hr : 0 ≤ b.loanOriginationFeeRate) (ha : 0 ≤ amt)
    (h : WithdrawCase b p amt wf dusting now b' p' w) :
    b'.indexedDeposits - posPart p'.indexed = b.indexedDeposits - posPart p.indexed ∧
    b'.indexedBorrows - negPart p'.indexed = b.indexedBorrows - negPart p.indexed ∧
    b'.depositIndex = b.depositIndex ∧ b'.borrowIndex = b.borrowIndex := by
  unfold posPart negPart
  cases h with
  | dust hp n hn h0 h1 hd =>
    refine ⟨?_, ?_, rfl, rfl⟩ <;> dsimp only <;> omega
  | part hp n hn h0 =>
    have := part_le hb ha hp hn h0
    refine ⟨?_, ?_, rfl, rfl⟩ <;> dsimp only <;> omega
  | borrow n rest tot st nb hn hlt hw hrest htot =>
    have hf := feeOf_nonneg (wf := wf) hr (amt := rest) (by omega)
    have := tdiv_nonneg' (a := tot) (b := b.borrowIndex) (by omega) (by have := hb.2; omega)
    refine ⟨?_, ?_, rfl, rfl⟩ <;> dsimp only <;> omega

/-- `updateCumulativeInterest` changes only `previousIndex`. -/
theorem updateCumulativeInterest_ok {b : Bank} {p p' : TokenPosition} {o : I80F48}
    (h : updateCumulativeInterest b p o = .ok p') : p'.indexed = p.indexed ∧ p'.inUseCount = p.inUseCount := by
  unfold updateCumulativeInterest at h
  simp only [bind_ok, ok_inj] at h
  obtain ⟨_, _, _, _, rfl⟩ := h
  exact ⟨rfl, rfl⟩

theorem depositWrapper_ok {b b' : Bank} {p p' : TokenPosition} {amt : I80F48} {dusting r : Bool} {now : Int}
    (h : depositWrapper b p amt dusting now = .ok (b', p', r)) :
    ∃ p1, depositInternal b p amt dusting now = .ok (b', p1, r) ∧ p'.indexed = p1.indexed ∧
      p'.inUseCount = p1.inUseCount := by
  unfold depositWrapper at h
  simp only [bind_ok, ok_inj, Prod.mk.injEq] at h
  obtain ⟨⟨b1, p1, r1⟩, h1, p2, h2, rfl, rfl, rfl⟩ := h
  exact ⟨p1, h1, updateCumulativeInterest_ok h2⟩

theorem withdrawWrapper_ok {b b' : Bank} {p p' : TokenPosition} {amt : I80F48} {wf dusting : Bool} {now : Int}
    {w : WithdrawResult} (h : withdrawWrapper b p amt wf dusting now = .ok (b', p', w)) :
    ∃ p1, withdrawInternal b p amt wf dusting now = .ok (b', p1, w) ∧ p'.indexed = p1.indexed ∧
      p'.inUseCount = p1.inUseCount := by
  unfold withdrawWrapper at h
  simp only [bind_ok, ok_inj, Prod.mk.injEq] at h
  obtain ⟨⟨b1, p1, r1⟩, h1, p2, h2, rfl, rfl, rfl⟩ := h
  exact ⟨p1, h1, updateCumulativeInterest_ok h2⟩

end Bank
end Mango
