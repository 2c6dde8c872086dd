import Verif.Props.SettlementFees
import Verif.Props.WalletEx
import Verif.Props.SettleEx
/-!
# Concrete cases for C72, and a settlement that lowers the health of the losing account
-/
namespace Mango
namespace Settlement
open Fx Health
open Serum (got isOk got_eq)

/-- settles in token 0; weights 7/10, 8/10 and 12/10, 11/10; positive health of the market counts 9/10 (initial: 1/2); pnl may be settled up to 20% of the position's value per hour -/
def exM : Perp.Market :=
  { idx := 3, maintBaseAssetWeight := S / 10 * 8, initBaseAssetWeight := S / 10 * 7, maintBaseLiabWeight := S / 10 * 11, initBaseLiabWeight := S / 10 * 12, stablePrice := 100 * S,
    settlePnlLimitFactor := S / 5, settlePnlLimitWindowSizeTs := 3600, settleFeeFlat := 3 * S, settleFeeAmountThreshold := 50 * S, settleFeeFractionLowHealth := S / 50,
    maintOverallAssetWeight := S / 10 * 9, initOverallAssetWeight := S / 2, feesAccrued := 10 * S, feesSettled := 5 * S, longFunding := S, shortFunding := S / 2 }
def exE : Env := { rnd := id, fd := Fx.div, now := 90000, lim := Perp.sxLim, oracle := fun _ => 150 * S }
/-- 0 holds 20 tokens and is long 4 lots bought at 100; 1 holds 900 tokens, 5 of token 1, and is short 4; 2, the settler, has no position in token 0 -/
def ex0 : Sys :=
  { banks := Wallet.exBanks, markets := fun _ => exM,
    accts :=
      [{ toks := [(0, ⟨20 * S, 1, 0⟩)], slots := 8, perps := [⟨3, { base := 4, quote := -400 * S }, 7⟩] },
       { toks := [(1, ⟨5 * S, 0, 0⟩), (0, ⟨900 * S, 1, 0⟩)], slots := 8, perps := [⟨2, {}, 0⟩, ⟨3, { base := -4, quote := 400 * S }, 0⟩] },
       { toks := [(1, ⟨5 * S, 0, 0⟩)], slots := 8, perps := [] }] }
/-- third account as settler; the profiting account as its own settler; fees of the losing account -/
def exOut : Res (Sys × I80F48 × I80F48) := settlePnl exE ex0 3 0 1 2
def exSelf : Res (Sys × I80F48 × I80F48) := settlePnl exE ex0 3 0 1 0
def exFees : Res (Sys × I80F48) := settleFees exE ex0 3 1 8
def ex1 : Sys := (got (ex0, 0, 0) exOut).1
def ex2 : Sys := (got (ex0, 0, 0) exSelf).1
def ex3 : Sys := (got (ex0, 0) exFees).1

/-- 80 settled, 3 of them the settler's fee -/
theorem exOut_ok : settlePnl exE ex0 3 0 1 2 = .ok (ex1, 80 * S, 3 * S) := by
  have h := got_eq (d := (ex0, 0, 0)) (r := exOut) (by decide +kernel)
  have h1 : (got (ex0, 0, 0) exOut).2 = (80 * S, 3 * S) := by decide +kernel
  refine h.trans ?_
  rw [← Prod.eta (got (ex0, 0, 0) exOut), h1]; rfl
theorem exSelf_ok : settlePnl exE ex0 3 0 1 0 = .ok (ex2, 80 * S, 3 * S) := by
  have h := got_eq (d := (ex0, 0, 0)) (r := exSelf) (by decide +kernel)
  have h1 : (got (ex0, 0, 0) exSelf).2 = (80 * S, 3 * S) := by decide +kernel
  refine h.trans ?_
  rw [← Prod.eta (got (ex0, 0, 0) exSelf), h1]; rfl
theorem exFees_ok : settleFees exE ex0 3 1 8 = .ok (ex3, 8 * S) := by
  have h := got_eq (d := (ex0, 0)) (r := exFees) (by decide +kernel)
  have h1 : (got (ex0, 0) exFees).2 = 8 * S := by decide +kernel
  refine h.trans ?_
  rw [← Prod.eta (got (ex0, 0) exFees), h1]; rfl

theorem ex0_ok : ex0.Ok := by
  intro a ha
  simp only [ex0, List.mem_cons, List.not_mem_nil, or_false] at ha
  rcases ha with rfl | rfl | rfl <;> exact ⟨by decide, by decide⟩
theorem exPos : (ex0.banks (ex0.markets 3).settleTokenIndex).bank.Pos := by unfold Bank.Pos; decide
theorem exUse (i : Nat) (hi : i < 2) : TokInUse ex0 i 0 := by
  intro t ht
  have : ∀ i < 2, (ex0.tokAt i 0).all (fun t => decide (0 < t.inUseCount)) = true := by decide
  have := this i hi
  rw [ht] at this
  simpa using this
theorem exFd : ∀ p x, exE.fd 0 p = .ok x → x = 0 := by
  intro p x h
  simp only [exE, Fx.div] at h
  split at h
  · exact absurd h (by simp)
  · rw [ck_ok] at h
    rw [h.1]; simp

-- C72_settle_pnl, C72_tokens
example : PnlSettled exE ex0 ex1 3 0 1 2 (80 * S) (3 * S) := C72_settle_pnl ex0_ok (by decide) exOut_ok
-- position, tokens and statistics afterwards; the settler has a new position in token 0; funding was paid
example : (ex1.perpAt 0 3).map (fun p => p.pos) = some { base := 4, quote := -484 * S, longSettled := S, shortSettled := S / 2, oneshot := -4 * S, window := 25, settledInWindow := 80 } ∧
    (ex1.perpAt 0 3).map (fun p => p.transfers) = some 84 ∧ (ex1.tokAt 0 0).map (fun t => t.indexed / S) = some 97 ∧ (ex1.tokAt 1 0).map (fun t => t.indexed / S) = some 820 ∧
    (ex0.tokAt 2 0) = none ∧ (ex1.tokAt 2 0).map (fun t => t.indexed / S) = some 3 := by decide +kernel

/-- caches and maintenance health -/
def cacheAt (s : Sys) (i : Nat) : Res Cache := do
  let a ← s.acct i
  a.cache exE s
def cch (s : Sys) (i : Nat) : Cache := got ⟨[], [], []⟩ (cacheAt s i)
def dft : TokenInfo := ⟨0, 0, 0, 0, 0, 0, 0, ⟨0, 0⟩, 0, true⟩
def hl (s : Sys) (i : Nat) : I80F48 := got 0 ((cch s i).health Fx.div .maint)
def hs (s : Sys) (i : Nat) : I80F48 := got 0 ((cch s i).healthI Fx.div .maint true)

theorem cch_ok {s : Sys} {i : Nat} (h : isOk (cacheAt s i) = true) {a : Acct} (ha : s.accts[i]? = some a) : a.cache exE s = .ok (cch s i) := by
  have e : cacheAt s i = a.cache exE s := by unfold cacheAt Sys.acct; rw [ha]; rfl
  rw [← e]
  exact got_eq h

def ac (s : Sys) (i : Nat) : Acct := s.accts.getD i ⟨[], 0, [], [], 0⟩
theorem ac_ok {s : Sys} {i : Nat} (h : i < s.accts.length) : s.accts[i]? = some (ac s i) := by
  unfold ac; rw [List.getD_eq_getElem?_getD, List.getElem?_eq_getElem h]; rfl

theorem exWeights : PerpForce.WeightsOk (ex0.markets 3) := ⟨by decide, by decide, by decide, by decide, by decide, by decide, by decide⟩
theorem exPrices : ∀ i < 2, ∀ tk ∈ (cch ex0 i).tokens, tk.tokenIndex = (ex0.markets 3).settleTokenIndex → PricesOk tk .maint := by
  unfold PricesOk; decide +kernel
theorem exPerp1 : ∀ p, ex0.perpAt 1 3 = some p → 0 ≤ p.pos.bids ∧ p.pos.takerBase = 0 ∧ p.pos.takerQuote = 0 := by
  intro p hp
  have h : ex0.perpAt 1 3 = some ⟨3, { base := -4, quote := 400 * S }, 0⟩ := rfl
  rw [h, Option.some.injEq] at hp
  subst hp
  decide

-- C72_profit_health: with a third account as settler; with itself as settler health rises
example : (hl ex0 0 - hl ex1 0) * S ≤ 3 * S * debtPrice ((cch ex0 0).tokens.getD 0 dft) .maint + S :=
  (C72_profit_health (ht := .maint) exFd ex0_ok (by decide) exPos (exUse 0 (by decide)) (exUse 1 (by decide)) exOut_ok (ac_ok (by decide)) (ac_ok (by decide +kernel)) (by intro o ho; exact absurd ho (by rw [show (ac ex0 0).os = [] from rfl]; simp))
    (cch_ok (by decide +kernel) (ac_ok (by decide))) (cch_ok (by decide +kernel) (ac_ok (by decide +kernel))) (by decide) (by decide +kernel) (tk := (cch ex0 0).tokens.getD 0 dft) (by decide +kernel) (by decide +kernel)
    (exPrices 0 (by decide) _ (by decide +kernel) (by decide +kernel)) (got_eq (by decide +kernel)) (got_eq (by decide +kernel))).1
example : hl ex0 0 ≤ hl ex2 0 :=
  (C72_profit_health (ht := .maint) exFd ex0_ok (by decide) exPos (exUse 0 (by decide)) (exUse 1 (by decide)) exSelf_ok (ac_ok (by decide)) (ac_ok (by decide +kernel)) (by intro o ho; exact absurd ho (by rw [show (ac ex0 0).os = [] from rfl]; simp))
    (cch_ok (by decide +kernel) (ac_ok (by decide))) (cch_ok (by decide +kernel) (ac_ok (by decide +kernel))) (by decide) (by decide +kernel) (tk := (cch ex0 0).tokens.getD 0 dft) (by decide +kernel) (by decide +kernel)
    (exPrices 0 (by decide) _ (by decide +kernel) (by decide +kernel)) (got_eq (by decide +kernel)) (got_eq (by decide +kernel))).2 (Or.inl rfl)
-- C72_loss_health, C72_settle_health
example : hl ex0 1 ≤ hl ex1 1 :=
  C72_loss_health (ht := .maint) exFd ex0_ok (by decide) exPos (exUse 0 (by decide)) (exUse 1 (by decide)) exOut_ok (ac_ok (by decide)) (ac_ok (by decide +kernel)) (by intro o ho; exact absurd ho (by rw [show (ac ex0 1).os = [] from rfl]; simp))
    (cch_ok (by decide +kernel) (ac_ok (by decide))) (cch_ok (by decide +kernel) (ac_ok (by decide +kernel))) (by decide) exWeights (by decide) exPerp1 (exPrices 1 (by decide)) (got_eq (by decide +kernel)) (got_eq (by decide +kernel))
example : 0 < hs ex0 1 ∧ -2 < hs ex1 1 :=
  C72_settle_health exFd ex0_ok (by decide) exPos (exUse 0 (by decide)) (exUse 1 (by decide)) exOut_ok (ac_ok (by decide)) (ac_ok (by decide +kernel)) (by intro o ho; exact absurd ho (by rw [show (ac ex0 1).os = [] from rfl]; simp))
    (cch_ok (by decide +kernel) (ac_ok (by decide))) (cch_ok (by decide +kernel) (ac_ok (by decide +kernel))) exWeights (by decide) exPerp1 (exPrices 1 (by decide)) (got_eq (by decide +kernel)) (got_eq (by decide +kernel))
example : (hl ex0 0 / S, hl ex1 0 / S, hl ex2 0 / S) = (88, 92, 95) ∧ (hl ex0 1 / S, hl ex1 1 / S) = (674, 674) ∧ (hs ex0 1 / S, hs ex1 1 / S) = (932, 852) := by decide +kernel

-- fees: 8 of 10 settled
example : FeesSettled exE ex0 ex3 3 1 8 (8 * S) := C72_settle_fees ex0_ok exFees_ok
example : hl ex0 1 ≤ hl ex3 1 :=
  C72_fee_health (ht := .maint) exFd ex0_ok (by decide) exPos (exUse 1 (by decide)) exFees_ok (ac_ok (by decide)) (ac_ok (by decide +kernel)) (by intro o ho; exact absurd ho (by rw [show (ac ex0 1).os = [] from rfl]; simp))
    (cch_ok (by decide +kernel) (ac_ok (by decide))) (cch_ok (by decide +kernel) (ac_ok (by decide +kernel))) (by decide) exWeights (by decide) exPerp1 (exPrices 1 (by decide)) (got_eq (by decide +kernel)) (got_eq (by decide +kernel))
example : (ex3.markets 3).feesAccrued = 2 * S ∧ (ex3.markets 3).feesSettled = 13 * S ∧ (ex3.tokAt 1 0).map (fun t => t.indexed / S) = some 892 ∧ (ex3.perpAt 1 3).map (fun p => p.transfers) = some (-8) := by decide +kernel

-- fee history: 7.5 settled, all 3 tokens of the vault taken, 10 come in, another 4 taken
def exFh : FeeState := ⟨0, 0, 3, 3 * S⟩
def exFhOps : List FeeOp := [.settle (15 * S / 2), .withdraw, .flow 10, .withdraw]
example : feeRun exFh exFhOps = .ok ⟨15 * S / 2, 7, 6, 13 * S - 15 * S / 2⟩ := by decide +kernel
example : 0 ≤ exFh.vault ∧ exFh.withdrawn * S ≤ exFh.settled ∧ exFh.vault * S = exFh.inflow + exFh.settled - exFh.withdrawn * S := by decide

/-! ## Finding 33 -/

/-- 1 is long 10 lots bought at 100 and has sold them at 200, but the fill is not processed yet; the oracle price is 50 -/
def pend0 : Sys :=
  { banks := Wallet.exBanks, markets := fun _ => { exM with longFunding := 0, shortFunding := 0 },
    accts :=
      [{ toks := [(0, ⟨20 * S, 1, 0⟩)], slots := 8, perps := [⟨3, { base := -10, quote := 1000 * S }, 0⟩] },
       { toks := [(0, ⟨900 * S, 1, 0⟩)], slots := 8, perps := [⟨3, { base := 10, quote := -1000 * S, takerBase := -10, takerQuote := 2000 }, 0⟩] },
       { toks := [], slots := 8, perps := [] }] }
def pendE : Env := { exE with oracle := fun _ => 50 * S }
def pendOut : Res (Sys × I80F48 × I80F48) := settlePnl pendE pend0 3 0 1 2
def pend1 : Sys := (got (pend0, 0, 0) pendOut).1
def pendHealth (s : Sys) : I80F48 := got 0 (do
  let a ← s.acct 1
  let c ← a.cache pendE s
  c.health Fx.div .maint)
/-- **Finding 33.** The settled loss does not count fills that wait in the event queue, health does: paying the "loss" of an account whose position has been closed at a profit lowers its health, here by 20. -/
theorem pending_settlement_lowers_health : isOk pendOut = true ∧ (pendHealth pend0 / S, pendHealth pend1 / S) = (1799, 1779) := by decide +kernel

end Settlement
end Mango
