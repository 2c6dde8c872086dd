import Verif.Serum.Model
import Verif.Props.Bank
import Mathlib.Tactic.Ring
/-!
# C58: loan origination fees on spot orders
-/
namespace Mango
namespace Serum
open Fx Bank

/-- what the position owes, in native units (I80F48 bits) -/
def debt (b : Bank) (p : TokenPosition) : Int := max 0 (-(Bank.nativeOf b p))

theorem nativeOf_congr {b b' : Bank} {p p' : TokenPosition} (h1 : b'.depositIndex = b.depositIndex) (h2 : b'.borrowIndex = b.borrowIndex) (h3 : p'.indexed = p.indexed) :
    Bank.nativeOf b' p' = Bank.nativeOf b p := by
  unfold Bank.nativeOf
  rw [h1, h2, h3]

theorem debt_nonneg (b : Bank) (p : TokenPosition) : 0 ≤ debt b p := by unfold debt; omega

theorem nativeOf_nonneg {b : Bank} {p : TokenPosition} (hb : b.Pos) (h : 0 ≤ p.indexed) : 0 ≤ Bank.nativeOf b p := by
  have h1 := hb.1
  unfold Bank.nativeOf
  split
  · exact floor_nonneg (Int.mul_nonneg h (by omega))
  · have : p.indexed = 0 := by omega
    rw [this]; simp

theorem nativeOf_nonpos {b : Bank} {p : TokenPosition} (hb : b.Pos) (h : p.indexed ≤ 0) : Bank.nativeOf b p ≤ 0 := by
  have h2 := hb.2
  have hS := S_pos
  unfold Bank.nativeOf
  rw [if_neg (by omega)]
  have : p.indexed * b.borrowIndex ≤ 0 := Int.mul_nonpos_of_nonpos_of_nonneg h (by omega)
  have := floor_mono this
  simpa using this

/-- paying in never raises the debt -/
theorem deposit_debt {b b' : Bank} {p p' : TokenPosition} {amt : I80F48} {now : Int} {r : Bool} (hb : b.Pos) (h : b.deposit p amt now = .ok (b', p', r)) :
    Bank.nativeOf b p ≤ Bank.nativeOf b p' ∨ (0 ≤ p'.indexed) := by
  obtain ⟨q1, h1, e1, _⟩ := depositWrapper_ok h
  obtain ⟨ha, hc⟩ := depositInternal_ok hb h1
  cases r with
  | true => left; have := (Bank.C03_deposit_rounding hb h).1; omega
  | false =>
    right
    rw [e1]
    cases hc with
    | dust c st nb hp hw hc hn hd hdust => simp

/-- paying in nothing leaves the debt -/
theorem deposit_zero_debt {b b' : Bank} {p p' : TokenPosition} {now : Int} {r : Bool} (hb : b.Pos) (h : b.deposit p 0 now = .ok (b', p', r)) : debt b p ≤ debt b p' := by
  obtain ⟨q1, h1, e1, _⟩ := depositWrapper_ok h
  obtain ⟨ha, hc⟩ := depositInternal_ok hb h1
  have hS := S_pos
  have zero : ∀ {c i : Int}, 0 < i → divRoundingUp 0 i = .ok c → c = 0 := by
    intro c i hi hc
    have := divRoundingUp_ok hc (by omega) hi
    simp at this
    nlinarith [this]
  have dn := debt_nonneg b p'
  cases hc with
  | add c hp hc =>
    have := nativeOf_nonneg hb hp
    unfold debt at *; omega
  | repay c st nb hp hw hc hn =>
    have := zero hb.2 hc
    subst this
    unfold debt
    rw [nativeOf_congr (b := b) (b' := b) (p := p) (p' := p') rfl rfl (by rw [e1]; simp)]
  | dust c st nb hp hw hc hn hd hdust =>
    have := zero hb.2 hc
    omega
  | cross c d st nb hp hw hc hn hd =>
    have := zero hb.2 hc
    omega

/-- taking out `amt` raises the debt by at most `amt` -/
theorem withdraw_debt {b b' : Bank} {p p' : TokenPosition} {amt : I80F48} {now : Int} {r : Bool} (hb : b.Pos) (h : b.withdrawWithoutFee p amt now = .ok (b', p', r)) :
    debt b p ≤ debt b p' ∧ debt b p' - debt b p ≤ amt := by
  unfold Bank.withdrawWithoutFee at h
  simp only [bind_ok, ok_inj, Prod.mk.injEq] at h
  obtain ⟨⟨b1, p1, w⟩, h1, rfl, rfl, rfl⟩ := h
  obtain ⟨q1, h2, e1, _⟩ := withdrawWrapper_ok h1
  obtain ⟨ha, hc⟩ := withdrawInternal_ok hb h2
  have hS := S_pos
  have nn : ∀ q : TokenPosition, 0 ≤ q.indexed → debt b q = 0 := by
    intro q hq
    have := nativeOf_nonneg hb hq
    unfold debt; omega
  cases hc with
  | dust hp n hn h0 h1 hd =>
    rw [nn p hp, nn p1 (by rw [e1])]
    omega
  | part hp n hn h0 =>
    have hle := part_le hb ha hp hn h0
    rw [nn p hp, nn p1 (by rw [e1]; dsimp only; omega)]
    omega
  | borrow n rest tot st nb hn hlt hw hrest htot =>
    have hn : n = Bank.nativeOf b p := native_ok hn
    have ht : tot = rest := by rw [htot]; unfold feeOf; simp
    have ht0 : 0 ≤ tot := by omega
    have tb := tdiv_bounds (a := tot * S) (b := b.borrowIndex) (Int.mul_nonneg ht0 hS.le) hb.2
    generalize Int.tdiv (tot * S) b.borrowIndex = k at *
    have hi : p1.indexed = min p.indexed 0 - k := e1
    have n1 : Bank.nativeOf b p1 = (min p.indexed 0 - k) * b.borrowIndex / S := by
      unfold Bank.nativeOf
      rw [hi, if_neg (by omega)]
    have e : (min p.indexed 0 - k) * b.borrowIndex = min p.indexed 0 * b.borrowIndex - k * b.borrowIndex := by ring
    rw [e] at n1
    have np1 := nativeOf_nonpos hb (p := p1) (by omega)
    by_cases hp : 0 ≤ p.indexed
    · rw [nn p hp]
      have h0 : min p.indexed 0 = 0 := by omega
      rw [h0] at n1
      simp only [Int.zero_mul, Int.zero_sub] at n1
      have m := mulFloor_bounds (-(k * b.borrowIndex))
      have : 0 ≤ n := by rw [hn]; exact nativeOf_nonneg hb hp
      have g : -amt ≤ -(k * b.borrowIndex) / S := by
        apply le_floor_iff.mpr
        have : (-amt) * S ≤ -(tot * S) := by
          have : tot ≤ amt := by omega
          have := Int.mul_le_mul_of_nonneg_right this hS.le
          have e : -amt * S = -(amt * S) := by ring
          omega
        omega
      unfold debt
      dsimp only at *
      omega
    · have h0 : min p.indexed 0 = p.indexed := by omega
      rw [h0] at n1
      have n0 : Bank.nativeOf b p = p.indexed * b.borrowIndex / S := by
        unfold Bank.nativeOf
        rw [if_neg (by omega)]
      have np := nativeOf_nonpos hb (p := p) (by omega)
      have e1 : tot = amt := by omega
      have g : p.indexed * b.borrowIndex / S - amt ≤ (p.indexed * b.borrowIndex - k * b.borrowIndex) / S := by
        apply le_floor_iff.mpr
        have m := mulFloor_bounds (p.indexed * b.borrowIndex)
        have e2 : (p.indexed * b.borrowIndex / S - amt) * S = p.indexed * b.borrowIndex / S * S - amt * S := by ring
        rw [e1] at tb
        omega
      have g2 : (p.indexed * b.borrowIndex - k * b.borrowIndex) / S ≤ p.indexed * b.borrowIndex / S := by
        apply floor_mono
        have := Int.mul_nonneg tb.2.2 hb.2.le
        omega
      unfold debt
      dsimp only at *
      omega

/-- what a change of the vault balance does to a position and to the counter of borrows without fee -/
theorem vaultDifference_ok {b b' : Bank} {p p' : TokenPosition} {c c' after before now : Int} {change : I80F48} (hb : b.Pos) (hr : 0 ≤ b.loanOriginationFeeRate)
    (h : vaultDifference b p c after before now = .ok (b', p', c', change)) :
    (∃ a, Effect b p ((after - before) * S) b' p' a) ∧ change = Bank.nativeOf b p' - Bank.nativeOf b p ∧
    (before ≤ after → debt b p' ≤ debt b p ∧ c' = max 0 (c - (after - before))) ∧
    (after < before → debt b p ≤ debt b p' ∧ debt b p' - debt b p ≤ (before - after) * S ∧ c' = c + (debt b p' - debt b p) / S) ∧ 0 ≤ c' ∧ (after = before → 0 ≤ c) := by
  have hS := S_pos
  simp only [vaultDifference, bind_ok, sub_ok] at h
  obtain ⟨needed, ⟨hn, _⟩, n0, h0, ⟨b1, p1, r⟩, hstep, n1, h1, ch, ⟨rfl, _⟩, a, ha, nb, hnb, br, hbr, h⟩ := h
  have hneed : needed = (after - before) * S := by
    rw [hn]; unfold ofInt; ring
  have n0e : n0 = Bank.nativeOf b p := native_ok h0
  simp only [Fx.abs, ck_ok] at ha
  have ha := ha.1
  dsimp only at h1
  simp only [toU64, cku64_ok] at hnb hbr
  obtain ⟨rfl, hnb⟩ := hnb
  obtain ⟨rfl, hbr⟩ := hbr
  have E : ∃ a, Effect b p ((after - before) * S) b1 p1 a := by
    by_cases hc : needed ≥ 0
    · rw [if_pos hc] at hstep
      rw [hneed] at hstep
      exact ⟨_, PosOp.effect (op := .deposit _) hb hr hstep⟩
    · rw [if_neg hc] at hstep
      simp only [bind_ok, neg_ok] at hstep
      obtain ⟨m, ⟨rfl, _⟩, hstep⟩ := hstep
      have := PosOp.effect (op := .withdrawWithoutFee (-needed)) hb hr hstep
      have e : (after - before) * S = PosOp.inflow (.withdrawWithoutFee (-needed)) := by simp [PosOp.inflow, hneed]
      exact ⟨r, by rw [e]; exact this⟩
  obtain ⟨act, E⟩ := E
  have n1e : n1 = Bank.nativeOf b p1 := by
    rw [show n1 = Bank.nativeOf b1 p1 from native_ok h1]
    exact nativeOf_congr E.depositIndex E.borrowIndex rfl
  have hgrow : a = max 0 (debt b p1 - debt b p) := by
    rw [ha]
    unfold debt
    rw [← n0e, ← n1e]
    split <;> omega
  have mono : before ≤ after → debt b p1 ≤ debt b p := by
    intro hle
    have : 0 ≤ (after - before) * S := Int.mul_nonneg (by omega) hS.le
    rw [if_pos (by omega)] at hstep
    rcases deposit_debt hb hstep with g | g
    · unfold debt; omega
    · have := nativeOf_nonneg hb g
      unfold debt; omega
  have grow : after < before → debt b p ≤ debt b p1 ∧ debt b p1 - debt b p ≤ (before - after) * S := by
    intro hlt
    have e : (before - after) * S = -((after - before) * S) := by ring
    have : 0 < (before - after) * S := Int.mul_pos (by omega) hS
    rw [if_neg (by omega)] at hstep
    simp only [bind_ok, neg_ok] at hstep
    obtain ⟨m, ⟨rfl, _⟩, hstep⟩ := hstep
    have := withdraw_debt hb hstep
    omega
  by_cases hc : needed > 0
  · rw [if_pos hc] at h
    simp only [bind_ok, toU64, cku64_ok, ok_inj, Prod.mk.injEq] at h
    obtain ⟨x, ⟨rfl, _⟩, rfl, rfl, rfl, rfl⟩ := h
    have hlt : before < after := by
      by_contra hh
      have : (after - before) * S ≤ 0 := Int.mul_nonpos_of_nonpos_of_nonneg (by omega) hS.le
      omega
    have m := mono (by omega)
    have a0 : a = 0 := by omega
    have e1 : needed / S = after - before := by rw [hneed]; exact Int.mul_ediv_cancel _ (by omega)
    rw [a0, e1]
    refine ⟨⟨_, E⟩, by rw [n0e, n1e], fun _ => ⟨m, by simp⟩, fun _ => by omega, by omega, fun _ => by omega⟩
  · rw [if_neg hc] at h
    simp only [ok_inj, Prod.mk.injEq] at h
    obtain ⟨rfl, rfl, rfl, rfl⟩ := h
    have hle : after ≤ before := by
      by_contra hh
      have : 0 < (after - before) * S := Int.mul_pos (by omega) hS
      omega
    refine ⟨⟨_, E⟩, by rw [n0e, n1e], fun hle2 => ?_, fun hlt => ?_, by omega, fun he => ?_⟩
    · have m := mono hle2
      have a0 : a = 0 := by omega
      rw [a0] at hbr ⊢
      simp only [Int.zero_ediv, Int.add_zero] at hbr ⊢
      have : after = before := by omega
      exact ⟨m, by omega⟩
    · have g := grow hlt
      refine ⟨g.1, g.2, ?_⟩
      rw [hgrow]
      congr 2
      omega
    · have m := mono (by omega)
      have a0 : a = 0 := by omega
      rw [a0] at hbr
      simp at hbr
      omega

/-- nothing paid: the debt does not fall -/
theorem vaultDifference_same {b b' : Bank} {p p' : TokenPosition} {c c' v now : Int} {change : I80F48} (hb : b.Pos) (hr : 0 ≤ b.loanOriginationFeeRate)
    (h : vaultDifference b p c v v now = .ok (b', p', c', change)) : debt b p ≤ debt b p' := by
  simp only [vaultDifference, bind_ok, sub_ok] at h
  obtain ⟨needed, ⟨hn, _⟩, n0, h0, ⟨b1, p1, r⟩, hstep, n1, h1, ch, _, a, ha, nb, hnb, br, hbr, h⟩ := h
  have hn : needed = 0 := by rw [hn]; unfold ofInt; omega
  subst hn
  simp only [ge_iff_le, le_refl, if_true] at hstep
  simp only [gt_iff_lt, lt_irrefl, if_false, ok_inj, Prod.mk.injEq] at h
  obtain ⟨rfl, rfl, rfl, rfl⟩ := h
  exact deposit_zero_debt hb hstep

/-- only totals, dust and the window of net borrows change: fees, configuration and potential tokens stay -/
def Keeps (b b' : Bank) : Prop :=
  ∃ st nb du d br, b' = { b with lastNetBorrowsWindowStartTs := st, netBorrowsInWindow := nb, dust := du, indexedDeposits := d, indexedBorrows := br }

theorem Keeps.refl (b : Bank) : Keeps b b := ⟨_, _, _, _, _, rfl⟩

theorem deposit_keeps {b b' : Bank} {p p' : TokenPosition} {amt : I80F48} {now : Int} {r : Bool} (hb : b.Pos) (h : b.deposit p amt now = .ok (b', p', r)) : Keeps b b' := by
  obtain ⟨q1, h1, e1, _⟩ := depositWrapper_ok h
  obtain ⟨ha, hc⟩ := depositInternal_ok hb h1
  cases hc <;> exact ⟨_, _, _, _, _, rfl⟩

theorem withdraw_keeps {b b' : Bank} {p p' : TokenPosition} {amt : I80F48} {now : Int} {d : Bool} {w : WithdrawResult} (hb : b.Pos)
    (h : b.withdrawWrapper p amt false d now = .ok (b', p', w)) : Keeps b b' := by
  obtain ⟨q1, h1, e1, _⟩ := withdrawWrapper_ok h
  obtain ⟨ha, hc⟩ := withdrawInternal_ok hb h1
  cases hc with
  | dust => exact ⟨_, _, _, _, _, rfl⟩
  | part => exact ⟨_, _, _, _, _, rfl⟩
  | borrow n rest tot st nb hn hlt hw hrest htot =>
    have e : b.collectedFeesNative + feeOf b false rest = b.collectedFeesNative := by simp [feeOf]
    rw [e]
    exact ⟨_, _, _, _, _, rfl⟩

theorem vaultDifference_keeps {b b' : Bank} {p p' : TokenPosition} {c c' after before now : Int} {change : I80F48} (hb : b.Pos)
    (h : vaultDifference b p c after before now = .ok (b', p', c', change)) : Keeps b b' := by
  simp only [vaultDifference, bind_ok] at h
  obtain ⟨needed, _, n0, h0, ⟨b1, p1, r⟩, hstep, n1, h1, ch, _, a, ha, nb, hnb, br, hbr, h⟩ := h
  have K : Keeps b b1 := by
    by_cases hc : needed ≥ 0
    · rw [if_pos hc] at hstep
      exact deposit_keeps hb hstep
    · rw [if_neg hc] at hstep
      simp only [bind_ok, Bank.withdrawWithoutFee, ok_inj, Prod.mk.injEq] at hstep
      obtain ⟨m, _, ⟨b2, p2, w⟩, hw, rfl, rfl, rfl⟩ := hstep
      exact withdraw_keeps hb hw
  by_cases hc : needed > 0
  · rw [if_pos hc] at h
    simp only [bind_ok, ok_inj, Prod.mk.injEq] at h
    obtain ⟨x, _, rfl, rfl, rfl, rfl⟩ := h
    exact K
  · rw [if_neg hc] at h
    simp only [ok_inj, Prod.mk.injEq] at h
    obtain ⟨rfl, rfl, rfl, rfl⟩ := h
    exact K

theorem updatePotentialSerumTokens_ok {b b' : Bank} {o n : Int} (h : b.updatePotentialSerumTokens o n = .ok b') : ∃ t, b' = { b with potentialSerumTokens := t } := by
  unfold Bank.updatePotentialSerumTokens at h
  split at h
  · simp only [bind_ok, ok_inj] at h
    obtain ⟨s, _, rfl⟩ := h
    exact ⟨_, rfl⟩
  · simp only [ok_inj] at h
    exact ⟨_, h.symm⟩

theorem updatePotential_ok {rnd : ℚ → ℚ} {s s' : Orders} {base quote base' quote' : Option Bank} {o : OO} (h : updatePotential rnd s base quote o = .ok (s', base', quote')) :
    s' = { s with potentialBase := s'.potentialBase, potentialQuote := s'.potentialQuote } ∧
    (∀ b, ∃ t, base'.getD b = { base.getD b with potentialSerumTokens := t }) ∧ (∀ b, ∃ t, quote'.getD b = { quote.getD b with potentialSerumTokens := t }) := by
  simp only [updatePotential, bind_ok] at h
  obtain ⟨nb, h1, nq, h2, b1, h3, q1, h4, h⟩ := h
  simp only [ok_inj, Prod.mk.injEq] at h
  obtain ⟨rfl, rfl, rfl⟩ := h
  refine ⟨rfl, ?_, ?_⟩
  · cases base with
    | none => simp only [ok_inj] at h3; subst h3; exact fun b => ⟨_, rfl⟩
    | some bb =>
      simp only [bind_ok, ok_inj] at h3
      obtain ⟨b2, h3, rfl⟩ := h3
      exact fun _ => updatePotentialSerumTokens_ok h3
  · cases quote with
    | none => simp only [ok_inj] at h4; subst h4; exact fun b => ⟨_, rfl⟩
    | some bb =>
      simp only [bind_ok, ok_inj] at h4
      obtain ⟨b2, h4, rfl⟩ := h4
      exact fun _ => updatePotentialSerumTokens_ok h4

/-- the two tokens of a market -/
inductive Tok where
  | base
  | quote
  deriving DecidableEq

def Acct.bank (a : Acct) : Tok → Bank
  | .base => a.baseBank.bank
  | .quote => a.quoteBank.bank
def Acct.pos (a : Acct) : Tok → TokenPosition
  | .base => a.basePos
  | .quote => a.quotePos
/-- borrows made when placing orders for which no fee was charged yet -/
def Acct.counter (a : Acct) : Tok → Int
  | .base => a.orders.baseBorrows
  | .quote => a.orders.quoteBorrows
/-- tokens in the open orders account -/
def Acct.total (a : Acct) : Tok → Int
  | .base => a.oo.baseTotal
  | .quote => a.oo.quoteTotal
def Acct.vault (a : Acct) : Tok → Int
  | .base => a.baseVault
  | .quote => a.quoteVault
/-- what the account owes of the token, I80F48 -/
def Acct.debt (a : Acct) (t : Tok) : Int := Serum.debt (a.bank t) (a.pos t)
/-- the token pays for orders of this side -/
def Side.payer : Side → Tok
  | .bid => .quote
  | .ask => .base

def BanksOk (a : Acct) : Prop := ∀ t, (a.bank t).Pos ∧ 0 ≤ (a.bank t).loanOriginationFeeRate

theorem Pos_congr {b b' : Bank} (hb : b.Pos) (h1 : b'.depositIndex = b.depositIndex) (h2 : b'.borrowIndex = b.borrowIndex) : b'.Pos := by
  unfold Bank.Pos at *
  rw [h1, h2]; exact hb

theorem debt_congr {b b' : Bank} (p : TokenPosition) (h1 : b'.depositIndex = b.depositIndex) (h2 : b'.borrowIndex = b.borrowIndex) : debt b' p = debt b p := by
  unfold debt
  rw [nativeOf_congr h1 h2 rfl]

/-- growth of the debt in whole native units -/
def growth (a a' : Acct) (t : Tok) : Int := max 0 ((a'.debt t - a.debt t) / S)

theorem trackPrices_counters (rnd : ℚ → ℚ) (s : Orders) (x y z : Bool) (side : Side) (price : ℚ) :
    (trackPrices rnd s x y z side price).baseBorrows = s.baseBorrows ∧ (trackPrices rnd s x y z side price).quoteBorrows = s.quoteBorrows := by
  cases x <;> cases y <;> cases z <;> cases side <;> exact ⟨rfl, rfl⟩

/-- what placing an order does to one token -/
structure PlaceTok (a a' : Acct) (t : Tok) : Prop where
  vault : a'.vault t ≤ a.vault t
  debt_le : a.debt t ≤ a'.debt t
  debt_grow : a'.debt t - a.debt t ≤ (a.vault t - a'.vault t) * S
  counter : 0 ≤ a.counter t → a'.counter t = a.counter t + growth a a' t
  effect : ∃ r, Effect (a.bank t) (a.pos t) ((a'.vault t - a.vault t) * S) (a'.bank t) (a'.pos t) r
  fees : (a'.bank t).collectedFeesNative = (a.bank t).collectedFeesNative
  rate : (a'.bank t).loanOriginationFeeRate = (a.bank t).loanOriginationFeeRate

theorem ediv_nonneg' {x : Int} (h : 0 ≤ x) : 0 ≤ x / S := floor_nonneg h

theorem effect_potential {b b1 b2 b3 : Bank} {p p' : TokenPosition} {i : Int} {r : Bool} {t : Int} (hb1 : b1 = { b with potentialSerumTokens := t }) (hb3 : b3 = b2)
    (E : Effect b1 p i b2 p' r) : Effect b p i b3 p' r := by
  subst hb1 hb3
  exact ⟨E.deposits, E.borrows, E.depositIndex, E.borrowIndex, fun h => E.rates h, E.closed, E.inUse, E.upper, E.lower⟩

theorem effect_refl_potential {b b' : Bank} {p : TokenPosition} {t : Int} (hb : b.Pos) (h : b' = { b with potentialSerumTokens := t }) : Effect b p 0 b' p true := by
  subst h
  have E := Effect.refl hb (p := p)
  exact ⟨E.deposits, E.borrows, E.depositIndex, E.borrowIndex, fun h => E.rates h, E.closed, E.inUse, E.upper, E.lower⟩

/-- the part of `placeTok` for the token that pays -/
theorem placeTok_payer {a a' : Acct} {t : Tok} {b1 : Bank} {pt after now : Int} {change : I80F48} (hb : BanksOk a) (e1 : b1 = { a.bank t with potentialSerumTokens := pt })
    (hle : after ≤ a.vault t) (ev : a'.vault t = after) (h : vaultDifference b1 (a.pos t) (a.counter t) after (a.vault t) now = .ok (a'.bank t, a'.pos t, a'.counter t, change)) : PlaceTok a a' t := by
  obtain ⟨hp, hr⟩ := hb t
  have hS := S_pos
  have hp1 : b1.Pos := by subst e1; exact hp
  have hr1 : 0 ≤ b1.loanOriginationFeeRate := by subst e1; exact hr
  obtain ⟨⟨r, E⟩, hch, hup, hdown, hc0, hc1⟩ := vaultDifference_ok hp1 hr1 h
  obtain ⟨st, nb, du, d, br, hk⟩ := vaultDifference_keeps hp1 h
  have d0 : debt b1 (a.pos t) = a.debt t := by subst e1; rfl
  have d1 : debt b1 (a'.pos t) = a'.debt t := (debt_congr _ E.depositIndex E.borrowIndex).symm
  rw [d0, d1] at hup hdown
  have key : a.debt t ≤ a'.debt t ∧ a'.debt t - a.debt t ≤ (a.vault t - after) * S := by
    by_cases he : after = a.vault t
    · -- nothing was paid
      have h2 := vaultDifference_same hp1 hr1 (he ▸ h)
      rw [d0, d1] at h2
      rw [he]
      have : (a.vault t - a.vault t) * S = 0 := by rw [Int.sub_self, Int.zero_mul]
      omega
    · exact ⟨(hdown (by omega)).1, (hdown (by omega)).2.1⟩
  refine ⟨by omega, key.1, by rw [ev]; exact key.2, fun h0 => ?_, ⟨r, by rw [ev]; exact effect_potential e1 rfl E⟩, ?_, ?_⟩
  · unfold growth
    by_cases he : after = a.vault t
    · have := (hup (by omega)).2
      have g : a'.debt t - a.debt t ≤ 0 := by
        have := key.2
        rw [he, Int.sub_self, Int.zero_mul] at this
        exact this
      have : a'.debt t - a.debt t = 0 := by omega
      rw [this]
      simp only [Int.zero_ediv]
      omega
    · have := (hdown (by omega)).2.2
      have g := floor_nonneg (x := a'.debt t - a.debt t) (by omega)
      omega
  · rw [hk, e1]
  · rw [hk, e1]

theorem placeTok_other {a a' : Acct} {t : Tok} {pt : Int} (hb : BanksOk a) (e1 : a'.bank t = { a.bank t with potentialSerumTokens := pt }) (e2 : a'.pos t = a.pos t) (e3 : a'.counter t = a.counter t)
    (e4 : a'.vault t = a.vault t) : PlaceTok a a' t := by
  obtain ⟨hp, hr⟩ := hb t
  have d : a'.debt t = a.debt t := by unfold Acct.debt; rw [e1, e2]; rfl
  refine ⟨by omega, by omega, by rw [d, e4]; omega, fun h0 => ?_, ⟨true, ?_⟩, by rw [e1], by rw [e1]⟩
  · unfold growth
    rw [d, Int.sub_self]
    simp only [Int.zero_ediv]
    omega
  · rw [e2, e4, Int.sub_self, Int.zero_mul]
    exact effect_refl_potential hp e1

theorem placeBook_tok {rnd : ℚ → ℚ} {a a' : Acct} {x : PlaceArgs} {d : PlaceDex} {before change : I80F48} (hb : BanksOk a) (h : placeBook rnd a x d = .ok (a', before, change)) (t : Tok) :
    PlaceTok a a' t := by
  unfold placeBook at h
  dsimp only at h
  have tr := trackPrices_counters rnd a.orders d.hadBids d.hadAsks d.onBook x.side (limitPrice rnd x.lots x.baseLot x.quoteLot)
  revert h
  generalize trackPrices rnd a.orders d.hadBids d.hadAsks d.onBook x.side (limitPrice rnd x.lots x.baseLot x.quoteLot) = s at *
  intro h
  cases hs : x.side with
  | bid =>
    simp only [hs, bind_ok, require_ok] at h
    obtain ⟨_, hv, ⟨s1, bb, qb⟩, hu, n, hn, ⟨qb', qp, br, ch⟩, hd, h⟩ := h
    simp only [ok_inj, Prod.mk.injEq] at h
    obtain ⟨rfl, rfl, rfl⟩ := h
    obtain ⟨es, eb, eq⟩ := updatePotential_ok hu
    have c1 : s1.baseBorrows = a.orders.baseBorrows := by rw [es]; exact tr.1
    have c2 : s1.quoteBorrows = a.orders.quoteBorrows := by rw [es]; exact tr.2
    cases t with
    | base =>
      obtain ⟨pt, e⟩ := eb a.baseBank.bank
      refine placeTok_other (pt := pt) hb ?_ rfl c1 rfl
      change bb.getD a.baseBank.bank = _
      rw [e]
      cases x.v2 <;> rfl
    | quote =>
      obtain ⟨pt, e⟩ := eq a.quoteBank.bank
      dsimp only at hd
      rw [c2] at hd
      exact placeTok_payer (t := .quote) hb e hv rfl hd
  | ask =>
    simp only [hs, bind_ok, require_ok] at h
    obtain ⟨_, hv, ⟨s1, bb, qb⟩, hu, n, hn, ⟨qb', qp, br, ch⟩, hd, h⟩ := h
    simp only [ok_inj, Prod.mk.injEq] at h
    obtain ⟨rfl, rfl, rfl⟩ := h
    obtain ⟨es, eb, eq⟩ := updatePotential_ok hu
    have c1 : s1.baseBorrows = a.orders.baseBorrows := by rw [es]; exact tr.1
    have c2 : s1.quoteBorrows = a.orders.quoteBorrows := by rw [es]; exact tr.2
    cases t with
    | quote =>
      obtain ⟨pt, e⟩ := eq a.quoteBank.bank
      refine placeTok_other (pt := pt) hb ?_ rfl c2 rfl
      change qb.getD a.quoteBank.bank = _
      rw [e]
      cases x.v2 <;> rfl
    | base =>
      obtain ⟨pt, e⟩ := eb a.baseBank.bank
      dsimp only at hd
      rw [c1] at hd
      exact placeTok_payer (t := .base) hb e hv rfl hd

theorem placeOrder_book {rnd : ℚ → ℚ} {fd : Health.FDiv} {reg : Bool} {c c' : Health.Cache} {f f' : Account.Liq} {a a' : Acct} {x : PlaceArgs} {d : PlaceDex}
    (h : placeOrder rnd fd reg c f a x d = .ok (a', f', c')) : ∃ before change, placeBook rnd a x d = .ok (a', before, change) := by
  simp only [placeOrder, bind_ok, require_ok] at h
  obtain ⟨_, _, _, _, _, _, ⟨fl, pre⟩, _, _, _, ⟨a1, before, change⟩, hb, _, _, c1, _, _, _, h⟩ := h
  cases pre with
  | none =>
    simp only [ok_inj, Prod.mk.injEq] at h
    obtain ⟨rfl, rfl, rfl⟩ := h
    exact ⟨_, _, hb⟩
  | some v =>
    simp only [bind_ok, ok_inj, Prod.mk.injEq] at h
    obtain ⟨_, _, _, _, rfl, rfl, rfl⟩ := h
    exact ⟨_, _, hb⟩

theorem chargeLoan_ok {b b' : Bank} {p p' : TokenPosition} {c c' total now loan : Int} (hb : b.Pos) (hr : 0 ≤ b.loanOriginationFeeRate)
    (h : chargeLoan b p c total now = .ok (b', p', c', loan)) :
    loan = max 0 (c - total) ∧ c' = c - loan ∧ (∃ r, Effect b p 0 b' p' r) ∧ b'.collectedFeesNative = b.collectedFeesNative + b.loanOriginationFeeRate * loan ∧
    b'.loanOriginationFeeRate = b.loanOriginationFeeRate ∧ b'.potentialSerumTokens = b.potentialSerumTokens := by
  have hS := S_pos
  unfold chargeLoan at h
  dsimp only at h
  by_cases hl : c - total > 0
  · have e : max 0 (c - total) = c - total := by omega
    rw [e] at h
    rw [if_pos (show ofInt (c - total) > 0 from Int.mul_pos hl hS)] at h
    simp only [bind_ok] at h
    obtain ⟨⟨b1, p1, w⟩, hw, h⟩ := h
    simp only [ok_inj, Prod.mk.injEq] at h
    obtain ⟨rfl, rfl, rfl, rfl⟩ := h
    have E := PosOp.effect (op := .withdrawLoanOriginationFee (ofInt (c - total))) (b := b) (p := p) (now := now) (b' := b1) (p' := p1) hb hr
      (show PosOp.run _ _ _ _ = .ok (b1, p1, w.positionIsActive) by simp only [PosOp.run, hw]; rfl)
    simp only [Bank.withdrawLoanOriginationFee, bind_ok, mul_ok, add_ok] at hw
    obtain ⟨fee, ⟨hfee, _⟩, cf, ⟨hcf, _⟩, ⟨b2, p2, w2⟩, hw, h⟩ := hw
    simp only [ok_inj, Prod.mk.injEq] at h
    obtain ⟨rfl, rfl, rfl⟩ := h
    have hb2 : ({ b with collectedFeesNative := cf } : Bank).Pos := hb
    obtain ⟨st, nb, du, dd, br, hk⟩ := withdraw_keeps hb2 hw
    have hfe : fee = b.loanOriginationFeeRate * (c - total) := by
      rw [hfee]
      unfold ofInt
      rw [← Int.mul_assoc]
      exact Int.mul_ediv_cancel _ (by omega)
    refine ⟨by omega, by omega, ⟨_, E⟩, ?_, ?_, ?_⟩
    · rw [hk]
      change cf = _
      rw [hcf, hfe]
    · rw [hk]
    · rw [hk]
  · have e : max 0 (c - total) = 0 := by omega
    rw [e] at h
    rw [if_neg (show ¬ ofInt 0 > 0 by unfold ofInt; simp)] at h
    simp only [ok_inj, Prod.mk.injEq] at h
    obtain ⟨rfl, rfl, rfl, rfl⟩ := h
    exact ⟨by omega, by omega, ⟨_, Effect.refl hb⟩, by simp, rfl, rfl⟩

/-- rebates that go to the DAO and not to the user -/
def daoFees (a : Acct) (feesToDao : Bool) (after : OO) : Tok → Int
  | .base => 0
  | .quote => if feesToDao then max 0 (a.oo.rebates - after.rebates) else 0

/-- borrows made when placing orders whose tokens are no longer in the open orders account -/
def Acct.actualized (a : Acct) (t : Tok) : Int := max 0 (a.counter t - a.total t)

/-- what settling does to one token -/
structure SettleTok (a a' : Acct) (dao : Int) (t : Tok) : Prop where
  vault : a.vault t ≤ a'.vault t - dao
  counter : a'.counter t = max 0 (a.counter t - a.actualized t - (a'.vault t - dao - a.vault t))
  fees : (a'.bank t).collectedFeesNative = (a.bank t).collectedFeesNative + (a.bank t).loanOriginationFeeRate * a.actualized t + dao * S
  rate : (a'.bank t).loanOriginationFeeRate = (a.bank t).loanOriginationFeeRate
  depositIndex : (a'.bank t).depositIndex = (a.bank t).depositIndex
  borrowIndex : (a'.bank t).borrowIndex = (a.bank t).borrowIndex
  /-- the loan fee is taken from the position, the settled tokens are credited -/
  effect : ∃ (b1 b2 : Bank) (p1 : TokenPosition) (r1 r2 : Bool), Effect (a.bank t) (a.pos t) 0 b1 p1 r1 ∧
    Effect { b1 with collectedFeesNative := b1.collectedFeesNative + dao * S } p1 ((a'.vault t - dao - a.vault t) * S) b2 (a'.pos t) r2 ∧ ∃ pt, a'.bank t = { b2 with potentialSerumTokens := pt }

theorem chargeFees_ok {a a1 : Acct} {now : Int} (hb : BanksOk a) (h : chargeFees a now = .ok a1) :
    (∀ t, a1.counter t = a.counter t - a.actualized t ∧ (∃ r, Effect (a.bank t) (a.pos t) 0 (a1.bank t) (a1.pos t) r) ∧
      (a1.bank t).collectedFeesNative = (a.bank t).collectedFeesNative + (a.bank t).loanOriginationFeeRate * a.actualized t ∧
      (a1.bank t).loanOriginationFeeRate = (a.bank t).loanOriginationFeeRate ∧ (a1.bank t).potentialSerumTokens = (a.bank t).potentialSerumTokens) ∧
    a1.oo = a.oo ∧ a1.baseVault = a.baseVault ∧ a1.quoteVault = a.quoteVault ∧ a1.orders = { a.orders with baseBorrows := a1.orders.baseBorrows, quoteBorrows := a1.orders.quoteBorrows } := by
  simp only [chargeFees, bind_ok] at h
  obtain ⟨⟨b1, p1, c1, l1⟩, h1, ⟨b2, p2, c2, l2⟩, h2, h⟩ := h
  simp only [ok_inj] at h
  subst h
  have k1 := chargeLoan_ok (hb .base).1 (hb .base).2 h1
  have k2 := chargeLoan_ok (hb .quote).1 (hb .quote).2 h2
  refine ⟨fun t => ?_, rfl, rfl, rfl, rfl⟩
  cases t with
  | base =>
    obtain ⟨e1, e2, e3, e4, e5, e6⟩ := k1
    subst e1
    exact ⟨e2, e3, e4, e5, e6⟩
  | quote =>
    obtain ⟨e1, e2, e3, e4, e5, e6⟩ := k2
    subst e1
    exact ⟨e2, e3, e4, e5, e6⟩

theorem applySettle_ok {rnd : ℚ → ℚ} {a a' : Acct} {bb bb' : Buyback.BB} {dao : Bool} {price : Option (I80F48 × Int)} {after : OO} {vb vq now : Int} {c1 c2 : I80F48} (hb : BanksOk a)
    (h : applySettle rnd a bb dao price after vb vq now = .ok (a', bb', c1, c2)) :
    (∀ t, a.vault t ≤ a'.vault t - daoFees a dao after t ∧ a'.counter t = max 0 (a.counter t - (a'.vault t - daoFees a dao after t - a.vault t)) ∧
      ∃ (b2 : Bank) (r : Bool), Effect { a.bank t with collectedFeesNative := (a.bank t).collectedFeesNative + daoFees a dao after t * S } (a.pos t)
        ((a'.vault t - daoFees a dao after t - a.vault t) * S) b2 (a'.pos t) r ∧
        Keeps { a.bank t with collectedFeesNative := (a.bank t).collectedFeesNative + daoFees a dao after t * S } b2 ∧ ∃ pt, a'.bank t = { b2 with potentialSerumTokens := pt }) ∧
    a'.oo = after ∧ a'.baseVault = vb ∧ a'.quoteVault = vq := by
  simp only [applySettle, bind_ok, require_ok] at h
  obtain ⟨cf, hcf, bb1, _, qa, hqa, _, hv1, _, hv2, ⟨b1, p1, br1, ch1⟩, h1, ⟨b2, p2, br2, ch2⟩, h2, ⟨s, b1', b2'⟩, hu, h⟩ := h
  simp only [ok_inj, Prod.mk.injEq] at h
  obtain ⟨rfl, rfl, rfl, rfl⟩ := h
  simp only [cku64_ok] at hqa
  obtain ⟨es, eb, eq⟩ := updatePotential_ok hu
  have hcf' : cf = a.quoteBank.bank.collectedFeesNative + daoFees a dao after .quote * S := by
    unfold daoFees
    cases dao with
    | false => simp only [Bool.false_eq_true, if_false, ok_inj] at hcf ⊢; omega
    | true => simp only [if_true, add_ok] at hcf ⊢; rw [hcf.1]; rfl
  refine ⟨fun t => ?_, rfl, rfl, rfl⟩
  cases t with
  | base =>
    obtain ⟨⟨r, E⟩, _, hup, _, _, _⟩ := vaultDifference_ok (hb .base).1 (hb .base).2 h1
    have hk := vaultDifference_keeps (hb .base).1 h1
    have cs : s.baseBorrows = br1 := by rw [es]
    have hc := (hup hv1).2
    have e0 : ({ a.bank .base with collectedFeesNative := (a.bank .base).collectedFeesNative + daoFees a dao after .base * S } : Bank) = a.baseBank.bank := by
      simp [daoFees, Acct.bank]
    rw [e0]
    refine ⟨?_, ?_, b1, r, ?_, hk, eb b1⟩
    · simp only [Acct.vault, daoFees]; omega
    · simp only [Acct.vault, daoFees, Acct.counter, cs]
      rw [hc]; congr 2; omega
    · simp only [Acct.vault, daoFees, Acct.pos]
      rw [Int.sub_zero]
      exact E
  | quote =>
    have e0 : ({ a.bank .quote with collectedFeesNative := (a.bank .quote).collectedFeesNative + daoFees a dao after .quote * S } : Bank) = { a.quoteBank.bank with collectedFeesNative := cf } := by
      rw [hcf']; rfl
    have hp : ({ a.quoteBank.bank with collectedFeesNative := cf } : Bank).Pos := (hb .quote).1
    obtain ⟨⟨r, E⟩, _, hup, _, _, _⟩ := vaultDifference_ok hp (hb .quote).2 h2
    have hk := vaultDifference_keeps hp h2
    have cs : s.quoteBorrows = br2 := by rw [es]
    have hc := (hup hv2).2
    have eqa : qa = vq - daoFees a dao after .quote := hqa.1
    rw [e0]
    refine ⟨?_, ?_, b2, r, ?_, hk, eq b2⟩
    · simp only [Acct.vault]; omega
    · simp only [Acct.vault, Acct.counter, cs]
      rw [hc, eqa]
    · simp only [Acct.vault, Acct.pos]
      rw [← eqa]
      exact E

/-- charging fees and settling -/
theorem settle_tok {rnd : ℚ → ℚ} {a a1 a' : Acct} {bb bb' : Buyback.BB} {dao : Bool} {price : Option (I80F48 × Int)} {after : OO} {vb vq now : Int} {c1 c2 : I80F48} (hb : BanksOk a)
    (h1 : chargeFees a now = .ok a1) (h2 : applySettle rnd a1 bb dao price after vb vq now = .ok (a', bb', c1, c2)) :
    (∀ t, SettleTok a a' (daoFees a dao after t) t) ∧ a'.oo = after ∧ a'.baseVault = vb ∧ a'.quoteVault = vq := by
  obtain ⟨k1, eo, ev1, ev2, _⟩ := chargeFees_ok hb h1
  have hb1 : BanksOk a1 := by
    intro t
    obtain ⟨_, ⟨r, E⟩, _, er, _⟩ := k1 t
    exact ⟨Pos_congr (hb t).1 E.depositIndex E.borrowIndex, by rw [er]; exact (hb t).2⟩
  obtain ⟨k2, eo2, ev3, ev4⟩ := applySettle_ok hb1 h2
  refine ⟨fun t => ?_, eo2, ev3, ev4⟩
  have ed : daoFees a1 dao after t = daoFees a dao after t := by cases t <;> simp [daoFees, eo]
  have ev : a1.vault t = a.vault t := by cases t <;> simp [Acct.vault, ev1, ev2]
  obtain ⟨ec, ⟨r1, E1⟩, ef, er, _⟩ := k1 t
  obtain ⟨g1, g2, b2, r2, E2, ⟨st, nb, du, d, br, hk⟩, pt, ept⟩ := k2 t
  rw [ed, ev] at g1 g2 E2
  rw [ed] at hk
  refine ⟨g1, by rw [g2, ec], ?_, ?_, ?_, ?_, ?_⟩
  · rw [ept, hk]
    change (a1.bank t).collectedFeesNative + _ = _
    rw [ef]
  · rw [ept, hk]
    exact er
  · rw [ept, hk]
    exact E1.depositIndex
  · rw [ept, hk]
    exact E1.borrowIndex
  · exact ⟨_, _, _, _, _, E1, E2, pt, ept⟩

/-- Ledger of one open orders account since it was opened, per token, in native units: borrowed by placing orders, loans a fee was charged on, tokens that came back by settling. -/
structure Ledger where
  borrowed : Tok → Int
  charged : Tok → Int
  returned : Tok → Int

/-- What can happen to an account in one market: orders are placed, funds are settled by the owner or a liquidator, and anything else (trades on the dex, deposits, withdrawals, interest, other
accounts, configuration) which leaves the two counters alone. `l` is the ledger kept beside the program. `dex`, `env`: assumptions on what the dex does when called and on the other events. -/
inductive History (rnd : ℚ → ℚ) (dex env : Acct → Acct → Prop) : Acct → Ledger → Prop
  /-- serum3_create_open_orders: counters start at 0 -/
  | opened (a : Acct) : BanksOk a → (∀ t, 0 ≤ a.total t) → (∀ t, a.counter t = 0) → History rnd dex env a ⟨fun _ => 0, fun _ => 0, fun _ => 0⟩
  | place {a a' : Acct} {l : Ledger} {fd : Health.FDiv} {reg : Bool} {c c' : Health.Cache} {f f' : Account.Liq} {x : PlaceArgs} {d : PlaceDex} :
      History rnd dex env a l → placeOrder rnd fd reg c f a x d = .ok (a', f', c') → (∀ t, 0 ≤ a'.total t) → dex a a' →
      History rnd dex env a' { l with borrowed := fun t => l.borrowed t + growth a a' t }
  | settle {a a' : Acct} {l : Ledger} {bb bb' : Buyback.BB} {dao : Bool} {price : Option (I80F48 × Int)} {after : OO} {vb vq now : Int} :
      History rnd dex env a l → settleFunds rnd a bb dao price after vb vq now = .ok (a', bb') → (∀ t, 0 ≤ a'.total t) → dex a a' →
      History rnd dex env a' { l with charged := fun t => l.charged t + a.actualized t, returned := fun t => l.returned t + (a'.vault t - a.vault t) }
  | cancel {a a' : Acct} {l : Ledger} {fd : Health.FDiv} {c c' : Health.Cache} {f f' : Account.Liq} {fr fc : Bool} {bb : Buyback.BB} {after : OO} {vb vq now : Int} :
      History rnd dex env a l → forceCancel rnd fd c f fr fc a bb after vb vq now = .ok (f', some (a', c')) → (∀ t, 0 ≤ a'.total t) → dex a a' →
      History rnd dex env a' { l with charged := fun t => l.charged t + a.actualized t, returned := fun t => l.returned t + (a'.vault t - a.vault t) }
  | other {a a' : Acct} {l : Ledger} : History rnd dex env a l → BanksOk a' → (∀ t, 0 ≤ a'.total t) → (∀ t, a'.counter t = a.counter t) → env a a' → History rnd dex env a' l

theorem settleFunds_tok {rnd : ℚ → ℚ} {a a' : Acct} {bb bb' : Buyback.BB} {dao : Bool} {price : Option (I80F48 × Int)} {after : OO} {vb vq now : Int} (hb : BanksOk a)
    (h : settleFunds rnd a bb dao price after vb vq now = .ok (a', bb')) : (∀ t, SettleTok a a' (daoFees a dao after t) t) ∧ a'.oo = after ∧ a'.baseVault = vb ∧ a'.quoteVault = vq := by
  simp only [settleFunds, bind_ok] at h
  obtain ⟨a1, h1, ⟨a2, bb2, c1, c2⟩, h2, h⟩ := h
  simp only [ok_inj, Prod.mk.injEq] at h
  obtain ⟨rfl, rfl⟩ := h
  exact settle_tok hb h1 h2

theorem forceCancel_tok {rnd : ℚ → ℚ} {fd : Health.FDiv} {c c' : Health.Cache} {f f' : Account.Liq} {fr fc : Bool} {a a' : Acct} {bb : Buyback.BB} {after : OO} {vb vq now : Int} (hb : BanksOk a)
    (h : forceCancel rnd fd c f fr fc a bb after vb vq now = .ok (f', some (a', c'))) : (∀ t, SettleTok a a' (daoFees a true after t) t) ∧ a'.oo = after ∧ a'.baseVault = vb ∧ a'.quoteVault = vq := by
  simp only [forceCancel, bind_ok] at h
  obtain ⟨⟨fl, st⟩, _, h⟩ := h
  dsimp only at h
  by_cases hc : ¬ (fr = true ∨ st = .liquidatable ∨ fc = true)
  · rw [if_pos hc] at h
    simp only [ok_inj, Prod.mk.injEq] at h
    exact absurd h.2 (by simp)
  · rw [if_neg hc] at h
    simp only [bind_ok] at h
    obtain ⟨a1, h1, ⟨a2, bb2, c1, c2⟩, h2, _, _, _, _, _, _, _, _, _, _, _, _, _, _, h⟩ := h
    simp only [ok_inj, Prod.mk.injEq, Option.some.injEq] at h
    obtain ⟨_, rfl, _⟩ := h
    exact settle_tok hb h1 h2

theorem daoFees_nonneg (a : Acct) (d : Bool) (o : OO) (t : Tok) : 0 ≤ daoFees a d o t := by
  cases t <;> cases d <;> simp [daoFees]

theorem SettleTok.ok {a a' : Acct} {dao : Tok → Int} (hb : BanksOk a) (h : ∀ t, SettleTok a a' (dao t) t) : BanksOk a' := fun t =>
  ⟨Pos_congr (hb t).1 (h t).depositIndex (h t).borrowIndex, by rw [(h t).rate]; exact (hb t).2⟩

theorem PlaceTok.ok {a a' : Acct} (hb : BanksOk a) (h : ∀ t, PlaceTok a a' t) : BanksOk a' := fun t => by
  obtain ⟨r, E⟩ := (h t).effect
  exact ⟨Pos_congr (hb t).1 E.depositIndex E.borrowIndex, by rw [(h t).rate]; exact (hb t).2⟩

theorem History.inv {rnd : ℚ → ℚ} {dex env : Acct → Acct → Prop} {a : Acct} {l : Ledger} (h : History rnd dex env a l) :
    BanksOk a ∧ ∀ t, 0 ≤ a.total t ∧ 0 ≤ a.counter t ∧ l.charged t + a.counter t ≤ l.borrowed t ∧ l.borrowed t ≤ l.charged t + a.counter t + l.returned t := by
  have step : ∀ {a a' : Acct} {l : Ledger} {dao : Tok → Int}, (∀ t, 0 ≤ dao t) → BanksOk a → (∀ t, SettleTok a a' (dao t) t) → (∀ t, 0 ≤ a'.total t) →
      (∀ t, 0 ≤ a.total t ∧ 0 ≤ a.counter t ∧ l.charged t + a.counter t ≤ l.borrowed t ∧ l.borrowed t ≤ l.charged t + a.counter t + l.returned t) →
      BanksOk a' ∧ ∀ t, 0 ≤ a'.total t ∧ 0 ≤ a'.counter t ∧ l.charged t + a.actualized t + a'.counter t ≤ l.borrowed t ∧
        l.borrowed t ≤ l.charged t + a.actualized t + a'.counter t + (l.returned t + (a'.vault t - a.vault t)) := by
    intro a a' l dao hd hb hs ht ih
    refine ⟨SettleTok.ok hb hs, fun t => ⟨ht t, ?_⟩⟩
    obtain ⟨i0, i1, i2, i3⟩ := ih t
    have e1 := (hs t).counter
    have e2 := (hs t).vault
    have := hd t
    have ea : 0 ≤ a.actualized t ∧ a.actualized t ≤ a.counter t := by unfold Acct.actualized; omega
    omega
  induction h with
  | opened a hb ht h0 => exact ⟨hb, fun t => by rw [h0 t]; simpa using ht t⟩
  | @place a a' l fd reg c c' f f' x d _ h ht _ ih =>
    obtain ⟨hb, ih⟩ := ih
    obtain ⟨_, _, h⟩ := placeOrder_book h
    have hp := placeBook_tok hb h
    refine ⟨PlaceTok.ok hb hp, fun t => ⟨ht t, ?_⟩⟩
    obtain ⟨i0, i1, i2, i3⟩ := ih t
    have e := (hp t).counter i1
    have : 0 ≤ growth a a' t := by unfold growth; omega
    dsimp only
    omega
  | settle _ h ht _ ih => exact step (fun t => daoFees_nonneg _ _ _ t) ih.1 (settleFunds_tok ih.1 h).1 ht ih.2
  | cancel _ h ht _ ih => exact step (fun t => daoFees_nonneg _ _ _ t) ih.1 (forceCancel_tok ih.1 h).1 ht ih.2
  | other _ hb ht he _ ih => exact ⟨hb, fun t => by rw [he t]; exact ⟨ht t, (ih.2 t).2⟩⟩

/-- **C58.** Every native unit borrowed by placing an order is charged at most once; what was neither charged nor is still waiting has come back by settling. -/
theorem C58_charged_once {rnd : ℚ → ℚ} {dex env : Acct → Acct → Prop} {a : Acct} {l : Ledger} (h : History rnd dex env a l) (t : Tok) :
    l.charged t + a.counter t ≤ l.borrowed t ∧ l.borrowed t ≤ l.charged t + a.counter t + l.returned t := (h.inv.2 t).2.2

/-- **C58.** Placing an order charges no fee: the payer's position pays exactly the tokens that left the vault, the other token is untouched, the debt grows by at most what was paid, and the growth is
remembered. -/
theorem C58_place {rnd : ℚ → ℚ} {dex env : Acct → Acct → Prop} {fd : Health.FDiv} {reg : Bool} {c c' : Health.Cache} {f f' : Account.Liq} {a a' : Acct} {l : Ledger} {x : PlaceArgs} {d : PlaceDex}
    (hh : History rnd dex env a l) (h : placeOrder rnd fd reg c f a x d = .ok (a', f', c')) (t : Tok) :
    (a'.bank t).collectedFeesNative = (a.bank t).collectedFeesNative ∧
    (∃ r, Effect (a.bank t) (a.pos t) ((a'.vault t - a.vault t) * S) (a'.bank t) (a'.pos t) r) ∧
    a.debt t ≤ a'.debt t ∧ a'.debt t - a.debt t ≤ (a.vault t - a'.vault t) * S ∧ a'.counter t = a.counter t + (a'.debt t - a.debt t) / S := by
  obtain ⟨_, _, h⟩ := placeOrder_book h
  have hp := placeBook_tok hh.inv.1 h t
  refine ⟨hp.fees, hp.effect, hp.debt_le, hp.debt_grow, ?_⟩
  rw [hp.counter (hh.inv.2 t).2.1]
  unfold growth
  have := floor_nonneg (x := a'.debt t - a.debt t) (by have := hp.debt_le; omega)
  omega

/-- **C58.** Settling charges the fee on exactly the loans whose tokens have left the open orders account, and credits the settled tokens. Afterwards every loan without fee is covered by tokens that
were in the open orders account. The same holds for a liquidator's cancelling. -/
theorem C58_settle {rnd : ℚ → ℚ} {dex env : Acct → Acct → Prop} {a a' : Acct} {l : Ledger} {bb bb' : Buyback.BB} {dao : Bool} {price : Option (I80F48 × Int)} {after : OO} {vb vq now : Int}
    (hh : History rnd dex env a l)
    (h : settleFunds rnd a bb dao price after vb vq now = .ok (a', bb') ∨
      dao = true ∧ ∃ fd c c' f f' fr fc, forceCancel rnd fd c f fr fc a bb after vb vq now = .ok (f', some (a', c'))) (t : Tok) :
    (a'.bank t).collectedFeesNative = (a.bank t).collectedFeesNative + (a.bank t).loanOriginationFeeRate * max 0 (a.counter t - a.total t) + daoFees a dao after t * S ∧
    (∃ (b1 b2 : Bank) (p1 : TokenPosition) (r1 r2 : Bool), Effect (a.bank t) (a.pos t) 0 b1 p1 r1 ∧
      Effect { b1 with collectedFeesNative := b1.collectedFeesNative + daoFees a dao after t * S } p1 ((a'.vault t - daoFees a dao after t - a.vault t) * S) b2 (a'.pos t) r2 ∧
      ∃ pt, a'.bank t = { b2 with potentialSerumTokens := pt }) ∧
    a'.counter t ≤ a.total t ∧ a'.counter t ≤ a.counter t := by
  have hs : SettleTok a a' (daoFees a dao after t) t := by
    rcases h with h | ⟨rfl, fd, c, c', f, f', fr, fc, h⟩
    · exact (settleFunds_tok hh.inv.1 h).1 t
    · exact (forceCancel_tok hh.inv.1 h).1 t
  have i := hh.inv.2 t
  have e := hs.counter
  have v := hs.vault
  refine ⟨hs.fees, hs.effect, ?_, ?_⟩ <;> (unfold Acct.actualized at e; omega)

/-- The dex only moves tokens between the vaults and the open orders account. -/
def Moves (a a' : Acct) : Prop :=
  a.oo.baseTotal + a.baseVault = a'.oo.baseTotal + a'.baseVault ∧ a.oo.quoteTotal + a.oo.rebates + a.quoteVault = a'.oo.quoteTotal + a'.oo.rebates + a'.quoteVault ∧ a'.oo.rebates ≤ a.oo.rebates

/-- **C58.** No trade, no fee: if no order of the account is ever matched (the dex only moves tokens back and forth), nothing is ever charged. -/
theorem C58_no_trade_no_fee {rnd : ℚ → ℚ} {a : Acct} {l : Ledger} (h : History rnd Moves (fun a a' => ∀ t, a.total t ≤ a'.total t) a l) (t : Tok) :
    l.charged t = 0 ∧ a.counter t ≤ a.total t := by
  have S0 := S_pos
  revert t
  induction h with
  | opened a hb ht h0 => exact fun t => ⟨rfl, by rw [h0 t]; exact ht t⟩
  | @place a a' l fd reg c c' f f' x d hh h ht hm ih =>
    intro t
    obtain ⟨_, _, h⟩ := placeOrder_book h
    have hp := placeBook_tok hh.inv.1 h t
    have i := hh.inv.2 t
    have e := hp.counter i.2.1
    refine ⟨(ih t).1, ?_⟩
    have i2 := (ih t).2
    have g : growth a a' t ≤ a.vault t - a'.vault t := by
      have := hp.debt_grow
      have v := hp.vault
      unfold growth
      have : (a'.debt t - a.debt t) / S ≤ (a.vault t - a'.vault t) * S / S := floor_mono this
      rw [Int.mul_ediv_cancel _ (by omega)] at this
      omega
    obtain ⟨m1, m2, m3⟩ := hm
    cases t <;> simp only [Acct.total, Acct.vault, Acct.counter] at * <;> omega
  | @settle a a' l bb bb' dao price after vb vq now hh h ht hm ih =>
    intro t
    have hs := settleFunds_tok hh.inv.1 h
    have i := hh.inv.2 t
    have i2 := (ih t).2
    have e := (hs.1 t).counter
    have a0 : a.actualized t = 0 := by unfold Acct.actualized; omega
    refine ⟨by simp only; rw [(ih t).1, a0]; rfl, ?_⟩
    have eo := hs.2.1
    obtain ⟨m1, m2, m3⟩ := hm
    have := ht t
    rw [← eo] at e
    cases t
    · simp only [Acct.total, Acct.vault, Acct.counter, daoFees] at *; omega
    · simp only [Acct.total, Acct.vault, Acct.counter, daoFees] at *
      split at e <;> omega
  | @cancel a a' l fd c c' f f' fr fc bb after vb vq now hh h ht hm ih =>
    intro t
    have hs := forceCancel_tok hh.inv.1 h
    have i := hh.inv.2 t
    have i2 := (ih t).2
    have e := (hs.1 t).counter
    have a0 : a.actualized t = 0 := by unfold Acct.actualized; omega
    refine ⟨by simp only; rw [(ih t).1, a0]; rfl, ?_⟩
    have eo := hs.2.1
    obtain ⟨m1, m2, m3⟩ := hm
    have := ht t
    rw [← eo] at e
    cases t
    · simp only [Acct.total, Acct.vault, Acct.counter, daoFees] at *; omega
    · simp only [Acct.total, Acct.vault, Acct.counter, daoFees] at *
      split at e <;> omega
  | other _ hb ht he hen ih => exact fun t => ⟨(ih t).1, by rw [he t]; have := hen t; have := (ih t).2; omega⟩

end Serum
end Mango
