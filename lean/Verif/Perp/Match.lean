import Verif.Perp.Types
/-!
# Orders and matching

Models /repo/programs/mango-v4/src/state/orderbook/order.rs and book.rs.
-/
namespace Mango
namespace Perp
open Book

/-- order_type.rs:20-35 `SelfTradeBehavior` -/
inductive SelfTrade where
  | decrementTake | cancelProvide | abortTransaction
  deriving DecidableEq, Repr

/-- order_type.rs:77-92 `PostOrderType` -/
inductive PostType where
  | limit | postOnly | postOnlySlide
  deriving DecidableEq, Repr

/-- order.rs:33-48 `OrderParams` (`max_oracle_staleness_slots` is not used after instruction parsing) -/
inductive Params where
  | market
  | ioc (price : Int)
  | fixed (price : Int) (ty : PostType)
  | pegged (offset : Int) (ty : PostType) (pegLimit : Int)
  deriving DecidableEq, Repr

/-- order.rs:6-31 `Order` -/
structure Order where
  side : Side
  maxBase : Int
  maxQuote : Int
  clientId : Nat := 0
  reduceOnly : Bool := false
  tif : Nat := 0
  selfTrade : SelfTrade := .decrementTake
  params : Params
  deriving DecidableEq, Repr

/-- book.rs:17-20 -/
structure OBook where
  bids : BookSide
  asks : BookSide
  deriving DecidableEq, Repr

/-- book.rs:35-40 `bookside` -/
def OBook.get (b : OBook) : Side → BookSide
  | .bid => b.bids
  | .ask => b.asks
/-- book.rs:28-33 `bookside_mut` -/
def OBook.set (b : OBook) (s : Side) (x : BookSide) : OBook :=
  match s with
  | .bid => { b with bids := x }
  | .ask => { b with asks := x }

/-- order.rs:160-165 `market_order_limit_for_side` -/
def marketLimit : Side → Int
  | .bid => I64MAX
  | .ask => 1

/-- order.rs:169-174 `post_only_slide_limit` -/
def slideLimit (side : Side) (best limit : Int) : Res Int :=
  match side with
  | .bid => do
      let b ← ck64 (best - 1)
      .ok (min limit b)
  | .ask => do
      let b ← ck64 (best + 1)
      .ok (max limit b)

namespace Order
/-- order.rs:74-76 `needs_penalty_fee` -/
def needsPenalty (o : Order) : Bool :=
  match o.params with
  | .ioc _ => true
  | _ => false

/-- order.rs:79-86 `is_post_only` -/
def isPostOnly (o : Order) : Bool :=
  match o.params with
  | .fixed _ ty => ty == .postOnly || ty == .postOnlySlide
  | .pegged _ ty _ => ty == .postOnly || ty == .postOnlySlide
  | _ => false

/-- order.rs:89-95 `post_target` -/
def postTarget (o : Order) : Option Comp :=
  match o.params with
  | .fixed _ _ => some .fixed
  | .pegged _ _ _ => some .pegged
  | _ => none

/-- order.rs:98-118 `price_for_order_type` -/
def priceForType (o : Order) (now : Nat) (oracle price : Int) (ty : PostType) (b : OBook) : Res Int :=
  if ty = .postOnlySlide then do
    let best ← (b.get o.side.invert).bestPrice now oracle
    match best with
    | some p => slideLimit o.side p price
    | none => .ok price
  else .ok price

/-- order.rs:122-155 `price`: (price_lots, price_data) -/
def price (o : Order) (now : Nat) (oracle : Int) (b : OBook) : Res (Int × Nat) := do
  let p ← (match o.params with
    | .market => .ok (marketLimit o.side)
    | .ioc p => .ok p
    | .fixed p ty => o.priceForType now oracle p ty b
    | .pegged off ty _ => do
        let p ← ck64 (oracle + off)
        o.priceForType now oracle p ty b)
  let d ← (match o.params with
    | .pegged _ _ _ => do
        let off ← ck64 (p - oracle)
        .ok (oraclePeggedPriceData off)
    | _ => fixedPriceData p)
  require (p ≥ 1) .requireFailed
  .ok (p, d)

/-- order.rs:158-163 `peg_limit` -/
def pegLimit (o : Order) : Int :=
  match o.params with
  | .pegged _ _ l => l
  | _ => -1
end Order

/-- book.rs:15 `DROP_EXPIRED_ORDER_LIMIT` -/
def DROP_EXPIRED_ORDER_LIMIT : Nat := 5

/-- queue.rs:342-352 `OutEvent::from_leaf_node` -/
def outEvent (side : Side) (now : Nat) (seq : Int) (l : Leaf) : Event :=
  .out { side, ownerSlot := l.ownerSlot, timestamp := now, seqNum := seq, owner := l.owner, quantity := l.quantity, orderId := l.key }

/-- The fixed inputs of the matching loop. -/
structure MCtx where
  order : Order
  price : Int          -- price_lots
  taker : Nat          -- mango_account_pk
  now : Nat
  makerFee : I80F48    -- market.maker_fee as stored (f32) in fill events
  deriving DecidableEq, Repr

/-- book.rs:73-82: the loop's local variables -/
structure MState where
  remBase : Int
  remQuote : Int
  decBase : Int := 0
  decQuote : Int := 0
  changes : List (Nat × Int) := []
  deletes : List (Comp × Nat) := []
  dropped : Nat := 0
  post : Option Comp
  limit : Nat
  queue : Queue
  deriving DecidableEq, Repr

/-- book.rs:173-204: the fill event of one match -/
def fillEvent (c : MCtx) (i : Item) (seq : Int) (base : Int) : Event :=
  .fill { takerSide := c.order.side, makerOut := decide (i.leaf.quantity - base = 0), makerSlot := i.leaf.ownerSlot,
          timestamp := c.now, seqNum := seq, maker := i.leaf.owner, makerOrderId := i.leaf.key,
          makerClientOrderId := i.leaf.clientOrderId, makerFee := if c.taker = i.leaf.owner then 0 else c.makerFee,
          makerTimestamp := i.leaf.timestamp, taker := c.taker, takerClientOrderId := c.order.clientId,
          price := i.price, quantity := base }

/-- book.rs:84-212: the matching loop, over the opposing side's iteration `items` -/
def matchLoop (c : MCtx) : List Item → MState → Res MState
  | [], s => .ok s
  | i :: rest, s =>
    if s.remBase = 0 ∨ s.remQuote = 0 then .ok s
    else if i.isValid = false then
      if s.dropped < DROP_EXPIRED_ORDER_LIMIT then do
        let q ← s.queue.pushBack (outEvent c.order.side.invert c.now s.queue.seqNum i.leaf)
        matchLoop c rest { s with dropped := s.dropped + 1, queue := q, deletes := s.deletes ++ [(i.comp, i.leaf.key)] }
      else matchLoop c rest s
    else if c.order.side.isPriceWithinLimit i.price c.price = false then .ok s
    else if c.order.isPostOnly = true then .ok { s with post := none }
    else if s.limit = 0 then .ok { s with post := none }
    else do
      let maxByQuote ← (if i.price = 0 then .error .panic else .ok (s.remQuote.tdiv i.price))
      (if maxByQuote = 0 then .ok s else do
        let base := min (min s.remBase i.leaf.quantity) maxByQuote
        let quote ← ck64 (base * i.price)
        (if c.taker = i.leaf.owner ∧ c.order.selfTrade = .abortTransaction then .error .wouldSelfTrade
         else if c.taker = i.leaf.owner ∧ c.order.selfTrade = .cancelProvide then do
            let q ← s.queue.pushBack (outEvent c.order.side.invert c.now s.queue.seqNum i.leaf)
            matchLoop c rest { s with queue := q, deletes := s.deletes ++ [(i.comp, i.leaf.key)] }
         else do
            let decQ ← ck64 (if c.taker = i.leaf.owner then s.decQuote + quote else s.decQuote)
            let decB ← ck64 (if c.taker = i.leaf.owner then s.decBase + base else s.decBase)
            let rb ← ck64 (s.remBase - base)
            let rq ← ck64 (s.remQuote - quote)
            require (rq ≥ 0) .panic
            let nq ← ck64 (i.leaf.quantity - base)
            let q ← s.queue.pushBack (fillEvent c i s.queue.seqNum base)
            matchLoop c rest { s with remBase := rb, remQuote := rq, decBase := decB, decQuote := decQ, queue := q,
                                      limit := s.limit - 1,
                                      changes := if nq = 0 then s.changes else s.changes ++ [(i.handle, nq)],
                                      deletes := if nq = 0 then s.deletes ++ [(i.comp, i.leaf.key)] else s.deletes }))

/-- book.rs:217-224 -/
def applyChanges : BookSide → List (Nat × Int) → Res BookSide
  | b, [] => .ok b
  | b, (h, q) :: rest => do
      let b' ← b.setQuantity h q
      applyChanges b' rest

/-- book.rs:225-227 -/
def applyDeletes : BookSide → List (Comp × Nat) → Res BookSide
  | b, [] => .ok b
  | b, (c, k) :: rest => do
      let (x, b') ← b.removeByKey c k
      match x with
      | none => .error .panic
      | some _ => applyDeletes b' rest

/-- book.rs:463-504 `apply_fees` -/
def applyFees (m : Market) (a : PAcct) (quoteLots : Int) : Res (I80F48 × Market × PAcct) := do
  require (quoteLots ≥ 0) .panic
  let n ← ck64 (m.quoteLotSize * quoteLots)
  let quote := Fx.ofInt n
  let makerFees ← Fx.mul quote m.makerFee
  let takerFees ← Fx.mul quote m.takerFee
  require (takerFees ≥ 0) .requireFailed
  let t ← Fx.add takerFees (min makerFees 0)
  let dao := max t 0
  let fl ← Fx.floor dao
  let u ← toU64 fl
  let a := a.accrueBuyback u
  let p ← a.getPos
  let p' ← p.recordTradingFee takerFees
  let tot ← Fx.add takerFees makerFees
  let fa ← Fx.add m.feesAccrued tot
  .ok (takerFees, { m with feesAccrued := fa }, a.setPos p')

/-- book.rs:507-517 `apply_penalty` -/
def applyPenalty (m : Market) (a : PAcct) : Res (I80F48 × Market × PAcct) := do
  let fl ← Fx.floor m.feePenalty
  let u ← toU64 fl
  let a := a.accrueBuyback u
  let p ← a.getPos
  let p' ← p.recordTradingFee m.feePenalty
  let fa ← Fx.add m.feesAccrued m.feePenalty
  .ok (m.feePenalty, { m with feesAccrued := fa }, a.setPos p')

/-- What new_order changes: the market, the account, the book, the event queue. -/
structure NOState where
  market : Market
  acct : PAcct
  book : OBook
  queue : Queue
  deriving DecidableEq, Repr

/-- book.rs:249-258: `remove_one_expired` and its OutEvent -/
def dropExpired (side : Side) (c : Comp) (now : Nat) (b : BookSide) (q : Queue) : Res (BookSide × Queue) := do
  let (x, b) ← b.removeOneExpired c now
  match x with
  | none => .ok (b, q)
  | some l => do
      let q ← q.pushBack (outEvent side now q.seqNum l)
      .ok (b, q)

/-- book.rs:260-277: make room by evicting the worst order -/
def evictWorst (side : Side) (price : Int) (now : Nat) (oracle : Int) (b : BookSide) (q : Queue) : Res (BookSide × Queue) :=
  if b.isFull = true then do
    let (x, b) ← b.removeWorst now oracle
    match x with
    | none => .error .panic
    | some (l, wp) => do
        require (side.isPriceBetter price wp) .someError
        let q ← q.pushBack (outEvent side now q.seqNum l)
        .ok (b, q)
  else .ok (b, q)

/-- book.rs:246-318: post the remainder -/
def postOrder (c : MCtx) (target : Comp) (oracle : Int) (orderId : Nat) (qty : Int) (s : NOState) : Res NOState := do
  let side := c.order.side
  let (b, q) ← dropExpired side target c.now (s.book.get side) s.queue
  let (b, q) ← evictWorst side c.price c.now oracle b q
  let slot ← s.acct.nextOrderSlot
  let leaf : Leaf := { ownerSlot := slot, orderType := 0, timeInForce := c.order.tif, key := orderId, owner := c.taker,
                       quantity := qty, timestamp := c.now, pegLimit := c.order.pegLimit, clientOrderId := c.order.clientId }
  let (_, _, b) ← b.insertLeaf target leaf
  let a ← s.acct.addPerpOrder s.market.idx side target leaf
  .ok { s with acct := a, book := s.book.set side b, queue := q }

/-- book.rs:62-69: the IOC penalty, before matching -/
def penaltyStep (o : Order) (m : Market) (a : PAcct) : Res (Market × PAcct) :=
  if o.needsPenalty = true then do
    let (_, m, a) ← applyPenalty m a
    .ok (m, a)
  else .ok (m, a)

/-- book.rs:213-245: record the taker trade and charge fees -/
def takerStep (o : Order) (m : Market) (a : PAcct) (base quote decQuote : Int) : Res (Market × PAcct) := do
  require (quote ≥ 0) .panic
  require (base ≥ 0) .panic
  (if quote > 0 ∨ base > 0 then do
      let p ← a.getPos
      let p ← p.addTakerTrade o.side base quote
      let d ← ck64 (quote - decQuote)
      let (_, m, a) ← applyFees m (a.setPos p) d
      .ok (m, a)
    else .ok (m, a))

/-- book.rs:230-246: whether and where to post the remainder -/
def postDecision (c : MCtx) (m : Market) (oracleNative : I80F48) (qty : Int) (post : Option Comp) : Res (Option Comp) :=
  if qty ≤ 0 then .ok none
  else
    match post with
    | none => .ok none
    | some t => do
      let np ← m.lotToNativePrice c.price
      let ins ← m.insidePriceLimit c.order.side np oracleNative
      .ok (if ins = true then some t else none)

/-- book.rs:43-340 `new_order`.  The per-order slot is a u8 and the account has at most 64 slots. -/
def newOrder (o : Order) (oracleNative : I80F48) (taker now limit : Nat) (s : NOState) : Res (Option Nat × NOState) := do
  let oracle ← s.market.nativePriceToLot oracleNative
  let (price, priceData) ← o.price now oracle s.book
  let (orderId, m) ← s.market.genOrderId o.side priceData
  let (m, a) ← penaltyStep o m s.acct
  let _ ← a.getPos
  let items ← (s.book.get o.side.invert).items now oracle
  let c : MCtx := { order := o, price, taker, now, makerFee := m.makerFeeF32 }
  let st ← matchLoop c items { remBase := o.maxBase, remQuote := o.maxQuote, post := o.postTarget, limit, queue := s.queue }
  let tq ← ck64 (o.maxQuote - st.remQuote)
  let tb ← ck64 (o.maxBase - st.remBase)
  let (m, a) ← takerStep o m a tb tq st.decQuote
  let b ← applyChanges (s.book.get o.side.invert) st.changes
  let b ← applyDeletes b st.deletes
  let s' : NOState := { market := m, acct := a, book := s.book.set o.side.invert b, queue := st.queue }
  let qty := min st.remBase (st.remQuote.tdiv price)
  let post ← postDecision c m oracleNative qty st.post
  match post with
  | none => .ok (none, s')
  | some t => do
      let s'' ← postOrder c t oracle orderId qty s'
      .ok (some orderId, s'')

/-- book.rs:396-439 `cancel_order_by_slot` -/
def cancelBySlot (m : Nat) (owner slot : Nat) (a : PAcct) (b : OBook) : Res (PAcct × OBook) := do
  let oo ← a.getOO slot
  require (oo.isActiveForMarket m) .someError
  let (x, bs) ← (b.get oo.side).removeByKey oo.tree oo.id
  let qty ← (match x with
    | some l => do
        require (l.ownerSlot = slot) .requireFailed
        require (l.owner = owner) .requireFailed
        .ok l.quantity
    | none => if oo.quantity = 0 then .error .perpOrderIdNotFound else .ok 0)
  let a ← a.removePerpOrder slot qty
  .ok (a, b.set oo.side bs)

/-- book.rs:345-391 `cancel_all_orders`: the loop from slot `i` on (`n` slots to go).  A failing cancel with
PerpOrderIdNotFound is tolerated; such a cancel has changed nothing (the removal found nothing). -/
def cancelAllFrom (m owner : Nat) (sideOpt : Option Side) : (n i limit : Nat) → PAcct → OBook → Res (PAcct × OBook)
  | 0, _, _, a, b => .ok (a, b)
  | n + 1, i, limit, a, b => do
      let oo ← a.getOO i
      (if oo.isActiveForMarket m = false then cancelAllFrom m owner sideOpt n (i + 1) limit a b
       else if sideOpt ≠ none ∧ sideOpt ≠ some oo.side then cancelAllFrom m owner sideOpt n (i + 1) limit a b
       else do
         let (a', b') ← (match cancelBySlot m owner i a b with
            | .error .perpOrderIdNotFound => .ok (a, b)
            | r => r)
         (if limit = 0 then .error .panic
          else if limit = 1 then .ok (a', b')
          else cancelAllFrom m owner sideOpt n (i + 1) (limit - 1) a' b'))

def cancelAll (m owner limit : Nat) (sideOpt : Option Side) (a : PAcct) (b : OBook) : Res (PAcct × OBook) :=
  cancelAllFrom m owner sideOpt a.oos.length 0 limit a b

/-- mango_account.rs:869-877 `perp_find_order_with_order_id`, as used by perp_cancel_order.rs:27-37 -/
def cancelById (m owner id : Nat) (a : PAcct) (b : OBook) : Res (PAcct × OBook) :=
  match a.oos.findIdx? (fun o => o.isActiveForMarket m && o.id == id) with
  | none => .error .perpOrderIdNotFound
  | some slot => cancelBySlot m owner slot a b

/-- mango_account.rs:880-890 `perp_find_order_with_client_order_id`, as used by perp_cancel_order_by_client_order_id.rs -/
def cancelByClientId (m owner cid : Nat) (a : PAcct) (b : OBook) : Res (PAcct × OBook) :=
  match a.oos.findIdx? (fun o => o.isActiveForMarket m && o.clientId == cid) with
  | none => .error .perpOrderIdNotFound
  | some slot => cancelBySlot m owner slot a b

/-- perp_place_order.rs:139-180 `reduce_only_max_base_lots` -/
def reduceOnlyMax (p : Pos) (o : Order) (marketReduceOnly : Bool) : Res Int := do
  let eff ← p.effectiveBase
  let allowed ← (if (o.side = .bid ∧ eff ≥ 0) ∨ (o.side = .ask ∧ eff ≤ 0) then .ok 0
    else if marketReduceOnly = true then
      (match o.side with
       | .bid => do
          let x ← ck64 (eff + p.bids)
          abs64 (min x 0)
       | .ask => do
          let x ← ck64 (eff - p.asks)
          .ok (max x 0))
    else abs64 eff)
  .ok (min allowed o.maxBase)

/-- perp_place_order.rs:100-117: the reduce-only adjustment of an order -/
def reduceOrder (o : Order) (p : Pos) (m : Market) : Res Order := do
  let _ ← p.effectiveBase
  let mb ← (if o.reduceOnly = true ∨ m.reduceOnly = true then reduceOnlyMax p o m.reduceOnly else .ok o.maxBase)
  require (m.reduceOnly = true → (o.reduceOnly = true ∨ mb = o.maxBase)) .marketInReduceOnlyMode
  .ok { o with maxBase := mb }

end Perp
end Mango
