import Verif.Perp.System
/-!
# Perp settlement, funding, fees, bankruptcy

Models the settle-limit functions of mango_account_components.rs, `update_funding_and_stable_price`, `socialize_loss` and
`compute_settle_fee` of perp_market.rs and the perp part of instructions perp_settle_pnl.rs, perp_settle_fees.rs,
perp_liq_negative_pnl_or_bankruptcy.rs, perp_update_funding.rs.  The token transfers of these instructions are the returned
amounts (bank deposits and withdrawals are modelled in `Verif.Bank`); health values enter as parameters.

`lim` stands for the f64 computation `(settle_pnl_limit_factor as f64 * position_value_abs).clamp_to_i64()` as a function of
the position value: the theorems hold for every such function with non-negative i64 values.
-/
namespace Mango
namespace Perp
open Book

/-- `i64::saturating_add` / `saturating_sub` -/
def sat64 (x : Int) : Int := max I64MIN (min I64MAX x)

namespace Pos

/-- mango_account_components.rs:642-654 `update_settle_limit` -/
def updateSettleLimit (p : Pos) (m : Market) (now : Int) : Res Pos := do
  let start ← cku64 (p.window * m.settlePnlLimitWindowSizeTs)
  let stop ← cku64 (start + m.settlePnlLimitWindowSizeTs)
  (if now ≥ stop ∨ now < start then
    (if m.settlePnlLimitWindowSizeTs = 0 then .error .panic
     else if now / m.settlePnlLimitWindowSizeTs > 4294967295 then .error .panic
     else .ok { p with window := now / m.settlePnlLimitWindowSizeTs, settledInWindow := 0 })
   else .ok p)

/-- mango_account_components.rs:663-696 `settle_limit` -/
def settleLimit (lim : I80F48 → Int) (p : Pos) (m : Market) : Res (Int × Int) :=
  if m.settlePnlLimitFactor < 0 then .ok (I64MIN, I64MAX)
  else do
    let bn ← p.baseNative m
    let pv ← Fx.mul m.stablePrice bn
    let pva ← Fx.abs pv
    let u ← Fx.add p.quote pv
    let ua ← Fx.abs u
    let uc ← Fx.ceil ua
    let upnlAbs ← toI64 uc
    let ra ← abs64 p.recurring
    let maxP ← ck64 (lim pva + min ra upnlAbs)
    let minP ← ck64 (-maxP)
    (if p.oneshot ≥ 0 then do
      let c ← Fx.ceil p.oneshot
      .ok (min minP 0, max (sat64 (maxP + Fx.clampToI64 c)) 0)
    else do
      let f ← Fx.floor p.oneshot
      .ok (min (sat64 (minP + Fx.clampToI64 f)) 0, max maxP 0))

/-- mango_account_components.rs:703-716 `available_settle_limit` -/
def availableSettleLimit (lim : I80F48 → Int) (p : Pos) (m : Market) : Res (Int × Int) :=
  if m.settlePnlLimitFactor < 0 then .ok (I64MIN, I64MAX)
  else do
    let (lo, hi) ← p.settleLimit lim m
    .ok (min (sat64 (lo - p.settledInWindow)) 0, max (sat64 (hi - p.settledInWindow)) 0)

/-- mango_account_components.rs:719-730 `apply_pnl_settle_limit` -/
def applyPnlSettleLimit (lim : I80F48 → Int) (p : Pos) (m : Market) (pnl : I80F48) : Res I80F48 :=
  if m.settlePnlLimitFactor < 0 then .ok pnl
  else do
    let (lo, hi) ← p.availableSettleLimit lim m
    .ok (if pnl < 0 then max pnl (Fx.ofInt lo) else min pnl (Fx.ofInt hi))

/-- mango_account_components.rs:735-775 `record_settle` -/
def recordSettle (p : Pos) (m : Market) (settled : I80F48) : Res Pos := do
  let n ← Fx.neg settled
  let p ← p.changeQuote n
  let red := if settled > 0 then max (min settled p.oneshot) 0 else min (max settled p.oneshot) 0
  let os ← Fx.sub p.oneshot red
  let d ← Fx.sub settled red
  let used := Fx.clampToI64 (Fx.roundToZero d)
  let (p, rc) ← ({ p with oneshot := os } : Pos).applyRecurringConstraint m
  let used ← (if rc < 0 then
      (if used > 0 then do
         let x ← ck64 (used + rc)
         .ok (max x 0)
       else do
         let x ← ck64 (used - rc)
         .ok (min x 0))
    else .ok used)
  let w ← ck64 (p.settledInWindow + used)
  .ok { p with settledInWindow := w }

end Pos

namespace Market

/-- perp_market.rs:422-478 `compute_settle_fee` -/
def computeSettleFee (m : Market) (settlement srcPnlValue srcPositionValue liqEnd maint : I80F48) : Res I80F48 := do
  let h ← Fx.mul (Fx.ofInt 100) srcPnlValue
  (if h > srcPositionValue then do
    require (maint ≥ liqEnd) .panic
    let low ← (if liqEnd < 0 then
        (if maint < 0 then Fx.mul settlement m.settleFeeFractionLowHealth
         else do
           let a ← Fx.mul settlement m.settleFeeFractionLowHealth
           let n ← Fx.neg liqEnd
           let d ← Fx.sub maint liqEnd
           let q ← Fx.div n d
           Fx.mul a q)
      else .ok 0)
    let fee ← (if settlement ≥ m.settleFeeAmountThreshold then .ok m.settleFeeFlat
      else do
        let two ← Fx.mul m.settleFeeFlat (Fx.ofInt 2)
        .ok (min low two))
    let fee := min fee settlement
    require (fee ≥ 0) .settlementAmountMustBePositive
    .ok fee
  else .ok 0)

/-- perp_market.rs:297-355 `update_funding_and_stable_price` without the stable price update: the funding rate -/
def fundingRate (m : Market) (bid ask : Option Int) (oracle : I80F48) : Res I80F48 :=
  match bid, ask with
  | some b, some a => do
      let s ← ck64 (b + a)
      let bp ← m.lotToNativePrice (Int.tdiv s 2)
      let q ← Fx.div bp oracle
      let d ← Fx.sub q Fx.ONE
      -- `Ord::clamp` asserts min <= max
      require (m.minFunding ≤ m.maxFunding) .panic
      .ok (max m.minFunding (min m.maxFunding d))
  | some _, none => .ok m.maxFunding
  | none, some _ => .ok m.minFunding
  | none, none => .ok 0

/-- perp_market.rs:297-355: both funding indexes and the timestamp; `stable` is the stable price after its update
(`StablePriceModel::update`, modelled in `Verif.Oracle`) -/
def updateFunding (m : Market) (b : OBook) (oracle : I80F48) (now : Nat) (stable : I80F48) : Res Market :=
  if now ≤ m.fundingLastUpdated then .ok m
  else do
    let lots ← m.nativePriceToLot oracle
    let bid ← (b.get .bid).impactPrice m.impactQuantity now lots
    let ask ← (b.get .ask).impactPrice m.impactQuantity now lots
    let rate ← m.fundingRate bid ask oracle
    let dt := Fx.ofInt (min ((now : Int) - m.fundingLastUpdated) 3600)
    let tf ← Fx.div dt (Fx.ofInt 86400)
    let x ← Fx.mul oracle (Fx.ofInt m.baseLotSize)
    let y ← Fx.mul x rate
    let d ← Fx.mul y tf
    let l ← Fx.add m.longFunding d
    let s ← Fx.add m.shortFunding d
    .ok { m with longFunding := l, shortFunding := s, fundingLastUpdated := now, stablePrice := stable }

end Market

/-- perp_settle_pnl.rs:76-151 (perp part): returns both positions, the settlement, the fee.  Tokens: account a is credited
`settlement - fee`, account b debited `settlement`, the settler credited `fee` (177-183, 213). -/
def settlePnl (lim : I80F48 → Int) (m : Market) (a b : Pos) (oracle settlePrice : I80F48) (now : Int) (bMaxSettle aLiqEnd aMaint : I80F48) :
    Res (Pos × Pos × I80F48 × I80F48) := do
  let a ← a.settleFunding m
  let b ← b.settleFunding m
  let aPnl ← a.unsettledPnl m oracle
  let bPnl ← b.unsettledPnl m oracle
  require (aPnl > 0) .profitabilityMismatch
  require (bPnl < 0) .profitabilityMismatch
  let a ← a.updateSettleLimit m now
  let aS ← a.applyPnlSettleLimit lim m aPnl
  let b ← b.updateSettleLimit m now
  let bS ← b.applyPnlSettleLimit lim m bPnl
  require (aS > 0) .profitabilityMismatch
  require (bS < 0) .profitabilityMismatch
  require (bMaxSettle > 0) .healthMustBePositive
  let nb ← Fx.neg bS
  let settlement := max (min (min aS nb) bMaxSettle) 0
  require (settlement ≥ 0) .settlementAmountMustBePositive
  let a ← a.recordSettle m settlement
  let ns ← Fx.neg settlement
  let b ← b.recordSettle m ns
  let bn ← a.baseNative m
  let bna ← Fx.abs bn
  let pv ← Fx.mul bna oracle
  let v ← Fx.mul aPnl settlePrice
  let fee ← m.computeSettleFee settlement v pv aLiqEnd aMaint
  .ok (a, b, settlement, fee)

/-- perp_settle_fees.rs:44-105 (perp part): position, market, amount withdrawn from the account's tokens -/
def settleFees (lim : I80F48 → Int) (m : Market) (p : Pos) (oracle : I80F48) (maxAmount : Int) : Res (Pos × Market × I80F48) := do
  let p ← p.settleFunding m
  let pnl ← p.unsettledPnl m oracle
  let s ← p.applyPnlSettleLimit lim m pnl
  (if ¬ s < 0 ∨ ¬ m.feesAccrued > 0 then .ok (p, m, 0)
   else do
    let sa ← Fx.abs s
    let fa ← Fx.abs m.feesAccrued
    let settlement := min (min sa fa) (Fx.ofInt maxAmount)
    require (settlement ≥ 0) .settlementAmountMustBePositive
    let ns ← Fx.neg settlement
    let p ← p.recordSettle m ns
    let fees ← Fx.sub m.feesAccrued settlement
    let settled ← Fx.add m.feesSettled settlement
    .ok (p, { m with feesAccrued := fees, feesSettled := settled }, settlement))

/-- Result of the perp part of a bankruptcy: positions, market, amount settled against the liqor's tokens, insurance paid
(native insurance tokens), pnl taken over by the liqor for insurance, socialized loss -/
structure Bankrupt where
  liqee : Pos
  liqor : Pos
  market : Market
  settlement : I80F48
  insurance : Int
  insuranceLiab : I80F48
  socialized : I80F48
  deriving DecidableEq, Repr

/-- perp_liq_negative_pnl_or_bankruptcy.rs:213-420 `liquidation_action` (perp part).  `liqeeMaxSettle` is `perp_max_settle`,
`maxForHealth` the computation with `spot_amount_given_for_health_zero` (321-335; modelled in `Verif.Liq.PerpNegative`), `feeFactor` is `1 + base_liquidation_fee`, `vault` the
insurance vault amount (0 if the market is not eligible). -/
def bankruptcy (lim : I80F48 → Int) (m : Market) (e r : Pos) (oracle settlePrice insurancePrice feeFactor : I80F48) (now : Int)
    (liqeeMaxSettle : I80F48) (maxForHealth : Res I80F48) (maxTransfer vault : Int) : Res Bankrupt := do
  let e ← e.settleFunding m
  let r ← r.settleFunding m
  let pnl ← e.unsettledPnl m oracle
  require (0 > pnl) .profitabilityMismatch
  let e ← e.updateSettleLimit m now
  let s ← e.applyPnlSettleLimit lim m pnl
  let ns ← Fx.neg s
  let maxSettlement := max (min liqeeMaxSettle ns) 0
  let settlement := max (min maxSettlement (Fx.ofInt maxTransfer)) 0
  let nset ← Fx.neg settlement
  let (e, r, pnl) ← (if settlement > 0 then do
      let r ← r.recordLiquidationQuoteChange nset
      let e ← e.recordSettle m nset
      let pnl ← Fx.add pnl settlement
      .ok (e, r, pnl)
    else .ok (e, r, pnl))
  let left ← Fx.sub (Fx.ofInt maxTransfer) settlement
  (if settlement = maxSettlement ∧ pnl < 0 then do
    let pnl ← e.unsettledPnl m oracle
    let np ← Fx.neg pnl
    let maxForHealth ← maxForHealth
    let fromLiqee := max (min np maxForHealth) 0
    let toLiqor := max (min fromLiqee left) 0
    let price ← Fx.mul settlePrice feeFactor
    let x ← Fx.mul toLiqor price
    let y ← Fx.div x insurancePrice
    let c ← Fx.ceil y
    let u ← toU64 c
    let insurance := min u vault
    let z ← Fx.mul (Fx.ofInt insurance) insurancePrice
    let w ← Fx.div z price
    let liab := min w toLiqor
    let nl ← Fx.neg liab
    let (e, r) ← (if insurance > 0 then do
        let e ← e.recordSettle m nl
        let r ← r.recordLiquidationQuoteChange nl
        .ok (e, r)
      else .ok (e, r))
    let rem ← Fx.sub fromLiqee liab
    (if insurance = vault ∧ rem > 0 then do
      let nr ← Fx.neg rem
      let (_, m') ← m.socializeLoss nr
      let e ← e.recordSettle m' nr
      .ok ⟨e, r, m', settlement, insurance, if insurance > 0 then liab else 0, rem⟩
    else .ok ⟨e, r, m, settlement, insurance, if insurance > 0 then liab else 0, 0⟩)
  else .ok ⟨e, r, m, settlement, 0, 0, 0⟩)

end Perp
end Mango
