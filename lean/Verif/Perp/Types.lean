import Verif.Fixed
import Verif.Book.Side
import Verif.Book.Queue
/-!
# Perp markets, perp positions, open-order slots, events

Models /repo/programs/mango-v4/src/state/perp_market.rs, the `PerpPosition` and `PerpOpenOrder` parts of
mango_account_components.rs, and the event structs of orderbook/queue.rs.  Unless stated otherwise line numbers of
`Pos` functions refer to mango_account_components.rs and those of `Market` functions to perp_market.rs.
Simplifications:
* f32/f64 configuration values (`fee_penalty`, settle fees, `settle_pnl_limit_factor`, the stable price) are given as their
  `I80F48::from_num` conversion;
* display-only position fields (volumes, cumulative funding, average entry price, `quote_running_native`,
  `realized_pnl_for_position_native`, `perp_spot_transfers`) and the float computations feeding only them are omitted;
* `deprecated_realized_trade_pnl_native` is omitted (only ever set to zero).
-/
namespace Mango
namespace Perp
open Book

/-- mango_account_components.rs:18 `FREE_ORDER_SLOT` and the inactive `market_index` (PerpMarketIndex::MAX) -/
def FREE : Nat := 65535

/-- perp_market.rs:23-202 -/
structure Market where
  idx : Nat := 0                         -- perp_market_index
  baseLotSize : Int := 1
  quoteLotSize : Int := 1
  maintBaseAssetWeight : I80F48 := S
  initBaseAssetWeight : I80F48 := S
  maintBaseLiabWeight : I80F48 := S
  initBaseLiabWeight : I80F48 := S
  openInterest : Int := 0                -- i64
  seqNum : Nat := 0                      -- u64
  minFunding : I80F48 := 0
  maxFunding : I80F48 := 0
  impactQuantity : Int := 0
  longFunding : I80F48 := 0
  shortFunding : I80F48 := 0
  fundingLastUpdated : Nat := 0          -- u64
  makerFee : I80F48 := 0
  takerFee : I80F48 := 0
  makerFeeF32 : I80F48 := 0              -- `I80F48::from_num(maker_fee.to_num::<f32>())`, see FillEvent::new
  feesAccrued : I80F48 := 0
  feesSettled : I80F48 := 0
  feePenalty : I80F48 := 0
  settleFeeFlat : I80F48 := 0
  settleFeeAmountThreshold : I80F48 := 0
  settleFeeFractionLowHealth : I80F48 := 0
  settlePnlLimitFactor : I80F48 := 0
  settlePnlLimitWindowSizeTs : Int := 86400
  reduceOnly : Bool := false
  forceClose : Bool := false
  stablePrice : I80F48 := 0              -- `stable_price()`, perp_market.rs:292-294
  settleTokenIndex : Nat := 0
  maintOverallAssetWeight : I80F48 := S
  initOverallAssetWeight : I80F48 := S
  deriving DecidableEq, Repr

/-- mango_account_components.rs:193-320 `PerpPosition` of an active slot (inactive: `none` in the account). -/
structure Pos where
  base : Int := 0                        -- base_position_lots
  quote : I80F48 := 0                    -- quote_position_native
  bids : Int := 0                        -- bids_base_lots
  asks : Int := 0                        -- asks_base_lots
  takerBase : Int := 0                   -- taker_base_lots
  takerQuote : Int := 0                  -- taker_quote_lots
  longSettled : I80F48 := 0              -- long_settled_funding
  shortSettled : I80F48 := 0
  oneshot : I80F48 := 0                  -- oneshot_settle_pnl_allowance
  recurring : Int := 0                   -- recurring_settle_pnl_allowance
  window : Int := 0                      -- settle_pnl_limit_window
  settledInWindow : Int := 0             -- settle_pnl_limit_settled_in_current_window_native
  deriving DecidableEq, Repr

/-- mango_account_components.rs:794-815 `PerpOpenOrder` (side_and_tree split in two) -/
structure OO where
  market : Nat := FREE
  side : Side := .bid
  tree : Comp := .fixed
  clientId : Nat := 0
  id : Nat := 0
  quantity : Int := 0
  deriving DecidableEq, Repr

/-- 845-848 `is_active_for_market` -/
def OO.isActiveForMarket (o : OO) (m : Nat) : Bool := o.market == m
/-- 853-859 `clear` -/
def OO.clear (_ : OO) : OO := {}

/-- The part of a mango account that perp trading in one market touches: its perp position in that market (none if it
has no active slot for it), the open-order slots (shared by all perp markets), and the buyback fee counter
`buyback_fees_accrued_current`. -/
structure PAcct where
  pos : Option Pos := none
  oos : List OO := []
  buybackCurrent : Int := 0
  deriving DecidableEq, Repr

/-- queue.rs:182-209 `FillEvent`; `maker_fee` as the I80F48 of the stored f32; `taker_fee` (log only) omitted. -/
structure FillEv where
  takerSide : Side
  makerOut : Bool
  makerSlot : Nat
  timestamp : Nat
  seqNum : Int
  maker : Nat
  makerOrderId : Nat
  makerClientOrderId : Nat
  makerFee : I80F48
  makerTimestamp : Nat
  taker : Nat
  takerClientOrderId : Nat
  price : Int
  quantity : Int
  deriving DecidableEq, Repr

/-- queue.rs:297-308 `OutEvent` -/
structure OutEv where
  side : Side
  ownerSlot : Nat
  timestamp : Nat
  seqNum : Int
  owner : Nat
  quantity : Int
  orderId : Nat
  deriving DecidableEq, Repr

/-- queue.rs:160-179 `AnyEvent` (Liquidate events are never pushed) -/
inductive Event where
  | fill (f : FillEv)
  | out (o : OutEv)
  deriving DecidableEq, Repr

abbrev Queue := EventQueue Event

/-- queue.rs:250-255 `base_quote_change` -/
def FillEv.baseQuoteChange (f : FillEv) (side : Side) : Res (Int × Int) := do
  match side with
  | .bid => do
      let np ← ck64 (-f.price)
      let q ← ck64 (np * f.quantity)
      .ok (f.quantity, q)
  | .ask => do
      let b ← ck64 (-f.quantity)
      let q ← ck64 (f.price * f.quantity)
      .ok (b, q)

/-- absolute value on i64 (i64::MIN panics) -/
def abs64 (x : Int) : Res Int := ck64 (if x < 0 then -x else x)

/-- `to_num::<i64>()` with its range check -/
def toI64 (x : I80F48) : Res Int := ck64 (Fx.toInt x)
/-- `to_num::<u64>()` with its range check -/
def toU64 (x : I80F48) : Res Int := cku64 (Fx.toInt x)

namespace Market
/-- 425-429 `lot_to_native_price` -/
def lotToNativePrice (m : Market) (p : Int) : Res I80F48 := do
  let a ← Fx.mul (Fx.ofInt p) (Fx.ofInt m.quoteLotSize)
  Fx.div a (Fx.ofInt m.baseLotSize)

/-- 431-434 `native_price_to_lot` -/
def nativePriceToLot (m : Market) (p : I80F48) : Res Int := do
  let a ← Fx.mul p (Fx.ofInt m.baseLotSize)
  let b ← Fx.div a (Fx.ofInt m.quoteLotSize)
  toI64 b

/-- 436-447 `inside_price_limit` -/
def insidePriceLimit (m : Market) (side : Side) (nativePrice oraclePrice : I80F48) : Res Bool :=
  match side with
  | .bid => do
      let l ← Fx.mul m.maintBaseLiabWeight oraclePrice
      .ok (decide (nativePrice ≤ l))
  | .ask => do
      let l ← Fx.mul m.maintBaseAssetWeight oraclePrice
      .ok (decide (nativePrice ≥ l))

/-- 268-271 `gen_order_id` (u64 counter, overflow aborts) -/
def genOrderId (m : Market) (side : Side) (priceData : Nat) : Res (Nat × Market) :=
  if m.seqNum + 1 ≤ U64MAXN then .ok (newNodeKey side priceData (m.seqNum + 1), { m with seqNum := m.seqNum + 1 })
  else .error .panic

/-- 452-472 `socialize_loss` -/
def socializeLoss (m : Market) (loss : I80F48) : Res (I80F48 × Market) := do
  require (0 ≥ loss) .requireFailed
  let s ← (if m.openInterest = 0 then .ok 0 else Fx.div loss (Fx.ofInt m.openInterest))
  let l ← Fx.sub m.longFunding s
  let sh ← Fx.add m.shortFunding s
  .ok (s, { m with longFunding := l, shortFunding := sh })
end Market

namespace Pos

/-- 367-378 `add_taker_trade` -/
def addTakerTrade (p : Pos) (side : Side) (base quote : Int) : Res Pos :=
  match side with
  | .bid => do
      let b ← ck64 (p.takerBase + base)
      let q ← ck64 (p.takerQuote - quote)
      .ok { p with takerBase := b, takerQuote := q }
  | .ask => do
      let b ← ck64 (p.takerBase - base)
      let q ← ck64 (p.takerQuote + quote)
      .ok { p with takerBase := b, takerQuote := q }

/-- 380-383 `remove_taker_trade` -/
def removeTakerTrade (p : Pos) (base quote : Int) : Res Pos := do
  let b ← ck64 (p.takerBase - base)
  let q ← ck64 (p.takerQuote - quote)
  .ok { p with takerBase := b, takerQuote := q }

/-- 385-394 `adjust_maker_lots` -/
def adjustMakerLots (p : Pos) (side : Side) (lots : Int) : Res Pos :=
  match side with
  | .bid => do
      let b ← ck64 (p.bids + lots)
      .ok { p with bids := b }
  | .ask => do
      let a ← ck64 (p.asks + lots)
      .ok { p with asks := a }

/-- 405-407 `base_position_native` -/
def baseNative (p : Pos) (m : Market) : Res I80F48 := do
  let x ← ck64 (p.base * m.baseLotSize)
  .ok (Fx.ofInt x)

/-- 414-416 `effective_base_position_lots` -/
def effectiveBase (p : Pos) : Res Int := ck64 (p.base + p.takerBase)

/-- 423-427 `change_base_position` -/
def changeBase (p : Pos) (m : Market) (change : Int) : Res (Pos × Market) := do
  let b ← ck64 (p.base + change)
  let a1 ← abs64 b
  let a0 ← abs64 p.base
  let d ← ck64 (a1 - a0)
  let oi ← ck64 (m.openInterest + d)
  .ok ({ p with base := b }, { m with openInterest := oi })

/-- 430-442 `unsettled_funding` -/
def unsettledFunding (p : Pos) (m : Market) : Res I80F48 :=
  if p.base > 0 then do
    let d ← Fx.sub m.longFunding p.longSettled
    Fx.mul d (Fx.ofInt p.base)
  else if p.base < 0 then do
    let d ← Fx.sub m.shortFunding p.shortSettled
    Fx.mul d (Fx.ofInt p.base)
  else .ok 0

/-- 445-459 `settle_funding` -/
def settleFunding (p : Pos) (m : Market) : Res Pos := do
  let f ← p.unsettledFunding m
  let q ← Fx.sub p.quote f
  let o ← Fx.sub p.oneshot f
  .ok { p with quote := q, oneshot := o, longSettled := m.longFunding, shortSettled := m.shortFunding }

/-- 615-620 `unsettled_pnl` -/
def unsettledPnl (p : Pos) (m : Market) (price : I80F48) : Res I80F48 := do
  let bn ← p.baseNative m
  let v ← Fx.mul bn price
  Fx.add p.quote v

/-- 485-546: (reduced_lots, increased_lots) of `update_trade_stats` -/
def lotChange (old new change : Int) : Int × Int :=
  if new = 0 then (old.natAbs, 0)
  else if old.sign ≠ new.sign then (old.natAbs, new.natAbs)
  else if old.sign = change.sign then (0, change.natAbs)
  else (change.natAbs, 0)

/-- 464-558 `update_trade_stats`: only the `recurring_settle_pnl_allowance` update (548-555) affects modelled fields. -/
def updateTradeStats (p : Pos) (m : Market) (change : Int) : Res Pos :=
  if change = 0 then .ok p else do
    let new ← ck64 (p.base + change)
    let r := lotChange p.base new change
    let net ← ck64 (r.2 - r.1)
    let rec0 ← abs64 p.recurring
    let nl ← ck64 (net * m.baseLotSize)
    let v ← Fx.mul (Fx.ofInt nl) m.stablePrice
    let w ← Fx.mul v m.settlePnlLimitFactor
    let rec1 ← ck64 (rec0 - Fx.clampToI64 w)
    .ok { p with recurring := max rec1 0 }

/-- 561-578 `apply_recurring_settle_pnl_allowance_constraint` -/
def applyRecurringConstraint (p : Pos) (m : Market) : Res (Pos × Int) := do
  let before ← abs64 p.recurring
  let upnl ← p.unsettledPnl m m.stablePrice
  let a ← Fx.abs upnl
  let c ← Fx.ceil a
  let upnlAbs ← toI64 c
  let r := max (min before upnlAbs) 0
  let d ← ck64 (r - before)
  .ok ({ p with recurring := r }, d)

/-- 600-602 `change_quote_position` -/
def changeQuote (p : Pos) (c : I80F48) : Res Pos := do
  let q ← Fx.add p.quote c
  .ok { p with quote := q }

/-- 583-597 `record_trade` -/
def recordTrade (p : Pos) (m : Market) (baseChange : Int) (quoteChange : I80F48) : Res (Pos × Market) := do
  let p1 ← p.updateTradeStats m baseChange
  let (p2, m') ← p1.changeBase m baseChange
  let p3 ← p2.changeQuote quoteChange
  let (p4, _) ← p3.applyRecurringConstraint m'
  .ok (p4, m')

/-- 765-769 `record_trading_fee` -/
def recordTradingFee (p : Pos) (fee : I80F48) : Res Pos := do
  let nf ← Fx.neg fee
  let p1 ← p.changeQuote nf
  let o ← Fx.sub p1.oneshot fee
  .ok { p1 with oneshot := o }

/-- 772-775 `record_liquidation_quote_change` -/
def recordLiquidationQuoteChange (p : Pos) (c : I80F48) : Res Pos := do
  let p1 ← p.changeQuote c
  let o ← Fx.add p1.oneshot c
  .ok { p1 with oneshot := o }

/-- 778-787 `record_liquidation_pnl_takeover` -/
def recordLiquidationPnlTakeover (p : Pos) (c : I80F48) (recurringLimit oneshotLimit : Int) : Res Pos := do
  let p1 ← p.changeQuote c
  let r ← ck64 (p1.recurring + recurringLimit)
  let o ← Fx.add p1.oneshot (Fx.ofInt oneshotLimit)
  .ok { p1 with recurring := r, oneshot := o }

/-- 608-611, 604-606 `has_open_taker_fills` -/
def hasOpenTakerFills (p : Pos) : Bool := p.takerBase != 0 || p.takerQuote != 0
/-- 599-601 `has_open_orders` -/
def hasOpenOrders (p : Pos) : Bool := p.asks != 0 || p.bids != 0

end Pos

namespace PAcct

/-- mango_account.rs:1135-1146 `perp_position_mut` -/
def getPos (a : PAcct) : Res Pos :=
  match a.pos with
  | some p => .ok p
  | none => .error .perpPositionDoesNotExist

def setPos (a : PAcct) (p : Pos) : PAcct := { a with pos := some p }

/-- mango_account.rs:1130-1133 `perp_order_mut_by_raw_index` (an index beyond the slots is modelled as a panic; the code
would read the bytes of the following section or panic) -/
def getOO (a : PAcct) (slot : Nat) : Res OO :=
  match a.oos[slot]? with
  | some o => .ok o
  | none => .error .panic

def setOO (a : PAcct) (slot : Nat) (o : OO) : PAcct := { a with oos := a.oos.set slot o }

/-- mango_account.rs:858-862 `perp_next_order_slot` -/
def nextOrderSlot (a : PAcct) : Res Nat :=
  match a.oos.findIdx? (fun o => o.market == FREE) with
  | some i => .ok i
  | none => .error .noFreePerpOpenOrderSlot

/-- mango_account.rs:418-421 `accrue_buyback_fees` (u64, saturating) -/
def accrueBuyback (a : PAcct) (x : Int) : PAcct := { a with buybackCurrent := min (a.buybackCurrent + x) U64MAX }

/-- mango_account.rs:1229-1246 `add_perp_order` -/
def addPerpOrder (a : PAcct) (m : Nat) (side : Side) (tree : Comp) (l : Leaf) : Res PAcct := do
  let p ← a.getPos
  let p' ← p.adjustMakerLots side l.quantity
  let a := a.setPos p'
  let _ ← a.getOO l.ownerSlot
  .ok (a.setOO l.ownerSlot { market := m, side, tree, clientId := l.clientOrderId, id := l.key, quantity := l.quantity })

/-- mango_account.rs:1254-1267 `remove_perp_order`.  (The order's market is the market of this model in all callers.) -/
def removePerpOrder (a : PAcct) (slot : Nat) (quantity : Int) : Res PAcct := do
  let oo ← a.getOO slot
  require (oo.market ≠ FREE) .requireFailed
  let p ← a.getPos
  let nq ← ck64 (-quantity)
  let p' ← p.adjustMakerLots oo.side nq
  .ok ((a.setPos p').setOO slot oo.clear)

/-- mango_account.rs:1270-1324 `execute_perp_maker`; the buyback expiry (1284) is modelled separately. -/
def executeMaker (a : PAcct) (m : Market) (f : FillEv) : Res (PAcct × Market) := do
  let side := f.takerSide.invert
  let (bc, qc) ← f.baseQuoteChange side
  let quote ← Fx.mul (Fx.ofInt m.quoteLotSize) (Fx.ofInt qc)
  let qa ← Fx.abs quote
  let fees ← Fx.mul qa f.makerFee
  let a ← (if fees > 0 then do
      let fl ← Fx.floor fees
      let u ← toU64 fl
      .ok (a.accrueBuyback u)
    else .ok a)
  let p ← a.getPos
  let p1 ← p.settleFunding m
  let p2 ← p1.recordTradingFee fees
  let (p3, m') ← p2.recordTrade m bc quote
  let filled ← abs64 bc
  let nf ← ck64 (-filled)
  let p4 ← p3.adjustMakerLots side nf
  let a := a.setPos p4
  let oo ← a.getOO f.makerSlot
  if oo.isActiveForMarket m.idx = true ∧ (f.makerOrderId = 0 ∨ oo.id = f.makerOrderId) then do
    let q ← ck64 (oo.quantity - filled)
    if f.makerOut = true then .ok (a.setOO f.makerSlot oo.clear, m')
    else .ok (a.setOO f.makerSlot { oo with quantity := max q 0 }, m')
  else .ok (a, m')

/-- mango_account.rs:1327-1348 `execute_perp_taker` -/
def executeTaker (a : PAcct) (m : Market) (f : FillEv) : Res (PAcct × Market) := do
  let p ← a.getPos
  let p1 ← p.settleFunding m
  let (bc, qc) ← f.baseQuoteChange f.takerSide
  let p2 ← p1.removeTakerTrade bc qc
  let quote ← Fx.mul (Fx.ofInt m.quoteLotSize) (Fx.ofInt qc)
  let (p3, m') ← p2.recordTrade m bc quote
  .ok (a.setPos p3, m')

/-- mango_account.rs:1350-1380 `execute_perp_out_event` -/
def executeOut (a : PAcct) (mIdx : Nat) (e : OutEv) : Res PAcct := do
  let p ← a.getPos
  let nq ← ck64 (-e.quantity)
  let p' ← p.adjustMakerLots e.side nq
  let a := a.setPos p'
  let oo ← a.getOO e.ownerSlot
  if oo.isActiveForMarket mIdx = true ∧ (e.orderId = 0 ∨ oo.id = e.orderId) then .ok (a.setOO e.ownerSlot oo.clear)
  else .ok a

end PAcct
end Perp
end Mango
