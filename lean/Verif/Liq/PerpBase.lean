import Verif.Liq.Token
import Verif.Health.Update
import Verif.Perp.Settle
/-!
# Liquidation of perp base positions and positive pnl

Models instructions/perp_liq_base_or_positive_pnl.rs:23-668. Account slots (`ensure_perp_position`, deactivation) are in `Verif.Account.Slots`; logs and the display statistics `perp_spot_transfers` are left out.
The f64 computation of the settle limit is the parameter `lim` (as in `Verif.Perp.Settle`), scaled init weights of the settle bank come from `scaled`.
-/
namespace Mango
namespace Liquidation
open Fx Health

/-- the liquidation fees of the perp market (perp_market.rs: `base_liquidation_fee`, `platform_liquidation_fee`, `positive_pnl_liquidation_fee`), which `Perp.Market` does not have -/
structure PerpFees where
  base : I80F48
  platform : I80F48
  positivePnl : I80F48

/-- what the instruction reads and writes -/
structure PerpLiq where
  market : Perp.Market
  fees : PerpFees
  /-- `accrued_liquidation_fees` of the market -/
  accruedLiqFees : I80F48
  /-- bank of the settle token -/
  bank : Bank
  liqee : Perp.Pos
  liqor : Perp.Pos
  liqeeTok : TokenPosition
  liqorTok : TokenPosition
  liqeeFlag : Account.Liq
  liqorFlag : Account.Liq
  /-- health cache of the liqee -/
  cache : Cache

/-- what other accounts determine -/
structure PerpLiqEnv where
  fd : FDiv
  now : Int
  lim : I80F48 → Int
  scaled : Bank → Res (I80F48 × I80F48)
  liqorHealth : PerpLiq → Option (Res I80F48)

/-- amounts of the instruction -/
structure PerpReport where
  /-- base lots the liqee receives (negative: gives) -/
  base : Int
  quoteLiqee : I80F48
  quoteLiqor : I80F48
  platformFee : I80F48
  pnl : I80F48
  token : I80F48
  limitRecurring : Int
  limitOneshot : Int
  deriving DecidableEq, Repr

/-- 268-320: direction, fee factors, gain of "unweighted health unsettled pnl" per lot -/
structure Sides where
  direction : Int
  feeLiqor : I80F48
  feeAll : I80F48
  uhupnlPerLot : I80F48

/-- 282-320 -/
def sidesOf (m : Perp.Market) (f : PerpFees) (pricePerLot : I80F48) (baseLots maxBase : Int) : Res Sides := do
  let s ← (if baseLots > 0 then do
      require (maxBase ≥ 0) .someError
      let fl ← Fx.sub ONE f.base
      let fa ← Fx.sub fl f.platform
      let n ← Fx.neg m.initBaseAssetWeight
      let d ← Fx.add n fa
      let u ← Fx.mul pricePerLot d
      .ok ⟨-1, fl, fa, u⟩
    else do
      require (maxBase ≤ 0) .someError
      let fl ← Fx.add ONE f.base
      let fa ← Fx.add fl f.platform
      let d ← Fx.sub m.initBaseLiabWeight fa
      let u ← Fx.mul pricePerLot d
      .ok ⟨1, fl, fa, u⟩ : Res Sides)
  require (s.uhupnlPerLot > 0) .panic
  .ok s

/-- 330-335: the variables the steps update -/
structure Plan where
  /-- base lots to reduce -/
  base : Int
  pnl : I80F48
  uhupnl : I80F48
  settleToken : I80F48
  health : I80F48
  deriving DecidableEq, Repr

/-- health after the effective settle token balance changed (386-388, 394-396, 432-434) -/
def projected (t : TokenInfo) (health old new : I80F48) : Res I80F48 := do
  let a ← t.contribution .liqEnd old
  let b ← t.contribution .liqEnd new
  let x ← Fx.sub health a
  Fx.add x b

/-- 362-369, 416-422: settle tokens that would bring health to zero -/
def tokensForHealth (t : TokenInfo) (p : Plan) : Res I80F48 := do
  let aw ← t.assetWeightedPrice .liqEnd
  let lw ← t.liabWeightedPrice .liqEnd
  spotGiven p.health p.settleToken aw lw

/-- 349-414 `reduce_base` -/
def reduceBase (t : TokenInfo) (baseLots maxBase : Int) (limit expectedPerLot actualPerLot uhupnlPerLot : I80F48) (p : Plan) : Res Plan := do
  let mx ← tokensForHealth t p
  let mx := min mx limit
  let q ← Fx.div mx expectedPerLot
  let c ← Fx.ceil q
  let n ← Perp.toI64 c
  let a ← Perp.abs64 baseLots
  let a ← ck64 (a - p.base)
  let b ← Perp.abs64 maxBase
  let b ← ck64 (b - p.base)
  let lots := max (min (min n a) b) 0
  -- 383-388: only for the log
  let eg ← Fx.mul expectedPerLot (Fx.ofInt lots)
  let et ← Fx.add p.settleToken eg
  let _ ← projected t p.health p.settleToken et
  let ug ← Fx.mul uhupnlPerLot (Fx.ofInt lots)
  let u ← Fx.add p.uhupnl ug
  let g ← Fx.mul actualPerLot (Fx.ofInt lots)
  let tok ← Fx.add p.settleToken g
  let h ← projected t p.health p.settleToken tok
  let br ← ck64 (p.base + lots)
  .ok { p with base := br, uhupnl := u, settleToken := tok, health := h }

/-- 416-451 `settle_pnl` -/
def settleStep (t : TokenInfo) (maxPnl perSettle : I80F48) (p : Plan) : Res Plan := do
  let mx ← tokensForHealth t p
  let q ← Fx.div mx perSettle
  let left ← Fx.sub maxPnl p.pnl
  let settle := max (min (min q left) p.uhupnl) 0
  let g ← Fx.mul settle perSettle
  let tok ← Fx.add p.settleToken g
  let u ← Fx.sub p.uhupnl settle
  let h ← projected t p.health p.settleToken tok
  let pnl ← Fx.add p.pnl settle
  .ok { p with pnl := pnl, uhupnl := u, settleToken := tok, health := h }

/-- 474-487, 508-521: settlement if it helps -/
def maybeSettle (t : TokenInfo) (maxPnl gain weight : I80F48) (p : Plan) : Res Plan :=
  if p.uhupnl ≥ 0 ∧ gain > weight then do
    let per ← Fx.sub gain weight
    settleStep t maxPnl per p
  else .ok p

/-- 453-545: the five steps -/
def planOf (t : TokenInfo) (baseLots maxBase : Int) (uPerLot gain weight maxPnl : I80F48) (p : Plan) : Res Plan := do
  let p ← (if p.uhupnl < 0 then do
      let lim ← Fx.neg p.uhupnl
      reduceBase t baseLots maxBase lim uPerLot uPerLot uPerLot p
    else .ok p)
  let p ← maybeSettle t maxPnl gain weight p
  let p ← (if p.uhupnl ≥ 0 ∧ p.pnl < maxPnl then do
      let lim ← Fx.sub maxPnl p.pnl
      let e ← Fx.mul uPerLot gain
      let a ← Fx.mul uPerLot weight
      reduceBase t baseLots maxBase lim e a uPerLot p
    else .ok p)
  let p ← maybeSettle t maxPnl gain weight p
  (if p.health < -(S / 2) ∧ weight > 0 then do
    let a ← Fx.mul uPerLot weight
    reduceBase t baseLots maxBase Fx.MAX a a uPerLot p
  else .ok p)

/-- 590-624: the part of the liqee's settle limit that goes with the pnl; `limit` is the liqee's positive settle limit before the trade -/
def limitTransfer (m : Perp.Market) (liqee : Perp.Pos) (limit : Int) (price pnl : I80F48) : Res (Int × Int) := do
  let oc ← Fx.ceil liqee.oneshot
  let oneshot := max (Fx.toInt oc) 0
  let recurring := max (limit - oneshot) 0
  let up ← liqee.unsettledPnl m price
  let uc ← Fx.ceil up
  let lp := max (Fx.toInt uc) 1
  let sf ← Fx.floor pnl
  let settle := Fx.toInt sf
  let total := max lp settle
  let r1 ← Fx.ck (recurring * settle)
  let r ← ck64 (Int.tdiv r1 total)
  let o1 ← Fx.ck (oneshot * settle)
  let o ← ck64 (Int.tdiv o1 total)
  let pc ← Fx.ceil pnl
  let mx ← Perp.toI64 pc
  let lr := max (min r mx) 1
  let d ← ck64 (mx - lr)
  .ok (lr, max (min o d) 0)

/-- the perp info of the market in the cache (cache.rs:838-845) -/
def perpLookup (c : Cache) (mi : Nat) : Res PerpInfo :=
  match c.perps.find? (fun i => i.perpMarketIndex == mi) with
  | some i => .ok i
  | none => .error .someError

/-- 548-582: the trade and its fee. Returns the state and the two quote changes, the fee -/
def liqTrade (s : PerpLiq) (sd : Sides) (pricePerLot : I80F48) (base : Int) : Res (PerpLiq × I80F48 × I80F48 × I80F48) := do
  let nb ← Fx.neg (Fx.ofInt base)
  let q ← Fx.mul nb pricePerLot
  let qe ← Fx.mul q sd.feeAll
  let nq ← Fx.neg q
  let qr ← Fx.mul nq sd.feeLiqor
  let (m, e, r) ← (if base ≠ 0 then do
      let (e, m) ← s.liqee.recordTrade s.market base qe
      let nb ← ck64 (-base)
      let (r, m) ← s.liqor.recordTrade m nb qr
      .ok (m, e, r)
    else .ok (s.market, s.liqee, s.liqor) : Res (Perp.Market × Perp.Pos × Perp.Pos))
  let nr ← Fx.neg qr
  let d ← Fx.sub nr qe
  let fee := max d 0
  let fa ← Fx.add m.feesAccrued fee
  let la ← Fx.add s.accruedLiqFees fee
  .ok ({ s with market := { m with feesAccrued := fa }, accruedLiqFees := la, liqee := e, liqor := r }, qe, qr, fee)

/-- 584-668: the pnl takeover. Returns the state and tokens, limits transferred -/
def liqTakeover (env : PerpLiqEnv) (s : PerpLiq) (limit : Int) (price gain pnl : I80F48) : Res (PerpLiq × I80F48 × Int × Int) :=
  if pnl > 0 then do
    let (lr, lo) ← limitTransfer s.market s.liqee limit price pnl
    let token ← Fx.mul pnl gain
    let r ← s.liqor.recordLiquidationPnlTakeover pnl lr lo
    let e ← s.liqee.recordSettle s.market pnl
    let (b, et, _) ← s.bank.deposit s.liqeeTok token env.now
    let (b, rt, _) ← b.withdrawWithoutFee s.liqorTok token env.now
    let w ← env.scaled b
    let c ← s.cache.adjustTokenBalance s.market.settleTokenIndex w token
    .ok ({ s with liqor := r, liqee := e, bank := b, liqeeTok := et, liqorTok := rt, cache := c }, token, lr, lo)
  else .ok (s, 0, 0, 0)

/-- 205-668 `liquidation_action` -/
def perpLiquidationAction (env : PerpLiqEnv) (s : PerpLiq) (health : I80F48) (maxBase maxPnl : Int) : Res (PerpLiq × PerpReport) := do
  let bs ← s.cache.balances .liqEnd
  let (i, t) ← lookup s.cache s.market.settleTokenIndex
  let tok ← Serum3Info.at_ bs i
  let pi ← perpLookup s.cache s.market.idx
  let price := pi.basePrices.oracle
  let pricePerLot ← Fx.mul (Fx.ofInt s.market.baseLotSize) price
  let (_, limit) ← s.liqee.settleLimit env.lim s.market
  let sd ← sidesOf s.market s.fees pricePerLot s.liqee.base maxBase
  let gain ← Fx.sub ONE s.fees.positivePnl
  let u ← pi.uhupnl .liqEnd
  let p ← planOf t s.liqee.base maxBase sd.uhupnlPerLot gain s.market.initOverallAssetWeight (Fx.ofInt maxPnl) ⟨0, 0, u, tok, health⟩
  let ab ← Perp.abs64 s.liqee.base
  require (p.base ≤ ab) .panic
  let base ← ck64 (sd.direction * p.base)
  let (s1, qe, qr, fee) ← liqTrade s sd pricePerLot base
  let (s2, token, lr, lo) ← liqTakeover env s1 limit price gain p.pnl
  let c ← s2.cache.recomputePerp s2.market s2.liqee
  .ok ({ s2 with cache := c }, ⟨base, qe, qr, fee, p.pnl, token, lr, lo⟩)

/-- 23-203 `perp_liq_base_or_positive_pnl`; no report: the liqee was not liquidatable and (apart from its flag) nothing changed. Requires distinct accounts (33). -/
def perpLiqBaseOrPositivePnl (env : PerpLiqEnv) (s : PerpLiq) (maxBase maxPnl : Int) : Res (PerpLiq × Option PerpReport) := do
  let maxBase := max maxBase (I64MIN + 1)
  require (s.liqorFlag.being = false) .beingLiquidated
  let h ← s.cache.health env.fd .liqEnd
  s.cache.requireAfterPhase1
  let (flag, r) ← s.liqeeFlag.checkLiquidatable (s.cache.health env.fd .maint) (.ok h)
  if r ≠ .liquidatable then .ok ({ s with liqeeFlag := flag }, none)
  else do
    require (s.liqee.hasOpenTakerFills = false) .hasOpenPerpTakerFills
    let e ← s.liqee.settleFunding s.market
    let r ← s.liqor.settleFunding s.market
    let e ← e.updateSettleLimit s.market env.now
    let (s, rep) ← perpLiquidationAction env { s with liqeeFlag := flag, liqee := e, liqor := r } h maxBase maxPnl
    let h' ← s.cache.health env.fd .liqEnd
    let s := { s with liqeeFlag := (s.liqeeFlag.maybeRecover h').1 }
    require (h' ≥ h) .requireFailed
    let _ ← (match env.liqorHealth s with
      | some h => do
        let h ← h
        require (h ≥ 0) .healthMustBePositive
      | none => .ok ())
    .ok (s, some rep)

end Liquidation
end Mango
