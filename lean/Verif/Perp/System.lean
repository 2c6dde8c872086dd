import Verif.Perp.Match
/-!
# A perp market with all its accounts

State: one perp market, its order book and event queue, and the perp part of every mango account (an account's key is its
index).  Operations: the instructions that touch these, plus three environment steps that over-approximate the remaining
instructions by letting them write anything they may write:

* `quotes`: perp_settle_pnl, perp_settle_fees, perp_liq_negative_pnl_or_bankruptcy, the pnl part of
  perp_liq_base_or_positive_pnl and settle_funding write quote position, settle limits, funding settlement of a position
  (never base position, open-order lots, taker lots);
* `market`: perp_update_funding, perp_edit_market, perp_settle_fees, socialize_loss, admin_perp_withdraw_fees write market
  parameters, funding, fees (never the market index, lot sizes, order counter, open interest);
* `otherSlot`: trading in other perp markets uses and frees open-order slots not used by this market.

A failing instruction changes nothing.
-/
namespace Mango
namespace Perp
open Book

structure PSys where
  market : Market
  accts : List PAcct
  book : OBook
  queue : Queue
  deriving DecidableEq, Repr

inductive POp where
  /-- perp_place_order; `room`: the account has a free perp position slot -/
  | place (u : Nat) (o : Order) (oracleNative : I80F48) (now limit : Nat) (room : Bool)
  | cancelId (u id : Nat)
  | cancelClient (u cid : Nat)
  /-- perp_cancel_all_orders(_by_side), perp_liq_force_cancel_orders -/
  | cancelAll (u limit : Nat) (sideOpt : Option Side)
  /-- perp_consume_events with the accounts `avail` passed -/
  | consume (limit : Nat) (avail : List Nat)
  | deactivate (u : Nat)
  | forceClose (a b : Nat) (price : I80F48)
  /-- the base transfer of perp_liq_base_or_positive_pnl, any sizes -/
  | liqBase (liqee liqor : Nat) (base : Int) (quoteLiqee quoteLiqor : I80F48)
  | resize (u n : Nat)
  | create (slots : Nat)
  /-- account_close (force_close is for testing groups only) -/
  | close (u : Nat)
  /-- `ensure_perp_position` by perp_liq_negative_pnl_or_bankruptcy.rs, perp_create_position paths -/
  | ensure (u : Nat)
  | quotes (u : Nat) (quote longSettled shortSettled oneshot : I80F48) (recurring window settled : Int)
  | market (m : Market)
  | otherSlot (u i : Nat) (oo : OO)
  deriving Repr

/-- mango_account.rs:1157-1180 `ensure_perp_position` -/
def ensurePos (a : PAcct) (room : Bool) : Res PAcct :=
  match a.pos with
  | some _ => .ok a
  | none => if room = true then .ok { a with pos := some {} } else .error .noFreePerpPositionIndex

/-- perp_place_order.rs:12-137.  The funding update at its start is a `market` step.  Health checks are not modelled here:
they only make the instruction fail. -/
def placeOp (s : PSys) (u : Nat) (o : Order) (oracleNative : I80F48) (now limit : Nat) (room : Bool) : Res PSys := do
  require (o.maxBase ≥ 0) .requireFailed
  require (o.maxQuote ≥ 0) .requireFailed
  match s.accts[u]? with
  | none => .error .panic
  | some a => do
    let a ← ensurePos a room
    let p ← a.getPos
    let o' ← reduceOrder o p s.market
    let (_, n) ← newOrder o' oracleNative u now limit { market := s.market, acct := a, book := s.book, queue := s.queue }
    .ok { market := n.market, accts := s.accts.set u n.acct, book := n.book, queue := n.queue }

/-- the cancel instructions: perp_cancel_order.rs, perp_cancel_order_by_client_order_id.rs, perp_cancel_all_orders.rs,
perp_liq_force_cancel_orders.rs -/
def cancelOp (s : PSys) (u : Nat) (f : PAcct → OBook → Res (PAcct × OBook)) : Res PSys :=
  match s.accts[u]? with
  | none => .error .panic
  | some a => do
    let (a', b') ← f a s.book
    .ok { s with accts := s.accts.set u a', book := b' }

/-- perp_consume_events.rs:56-174: one event; `none` when processing stops successfully (empty queue or missing account) -/
def consumeOne (s : PSys) (avail : List Nat) : Res (Option PSys) :=
  match s.queue.peekFront with
  | none => .ok none
  | some (.fill f) =>
    if f.maker = f.taker then
      if f.maker ∈ avail then
        match s.accts[f.maker]? with
        | none => .error .panic
        | some a => do
          let (a1, m1) ← a.executeMaker s.market f
          let (a2, m2) ← a1.executeTaker m1 f
          let (_, q) ← s.queue.popFront
          .ok (some { s with market := m2, accts := s.accts.set f.maker a2, queue := q })
      else .ok none
    else if f.maker ∈ avail then
      if f.taker ∈ avail then
        match s.accts[f.maker]?, s.accts[f.taker]? with
        | some a, some b => do
          let (a1, m1) ← a.executeMaker s.market f
          let (b1, m2) ← b.executeTaker m1 f
          let (_, q) ← s.queue.popFront
          .ok (some { s with market := m2, accts := (s.accts.set f.maker a1).set f.taker b1, queue := q })
        | _, _ => .error .panic
      else .ok none
    else .ok none
  | some (.out e) =>
    if e.owner ∈ avail then
      match s.accts[e.owner]? with
      | none => .error .panic
      | some a => do
        let a1 ← a.executeOut s.market.idx e
        let (_, q) ← s.queue.popFront
        .ok (some { s with accts := s.accts.set e.owner a1, queue := q })
    else .ok none

/-- the loop of perp_consume_events.rs:55-177 -/
def consumeLoop : Nat → PSys → List Nat → Res PSys
  | 0, s, _ => .ok s
  | n + 1, s, avail => do
      let r ← consumeOne s avail
      match r with
      | none => .ok s
      | some s' => consumeLoop n s' avail

/-- perp_deactivate_position.rs -/
def deactivateOp (s : PSys) (u : Nat) : Res PSys :=
  match s.accts[u]? with
  | none => .error .panic
  | some a => do
    let p ← a.getPos
    let p ← p.settleFunding s.market
    require (p.base = 0) .requireFailed
    require (p.quote = 0) .requireFailed
    require (p.bids = 0 ∧ p.asks = 0) .requireFailed
    require (p.takerBase = 0 ∧ p.takerQuote = 0) .requireFailed
    .ok { s with accts := s.accts.set u { a with pos := none } }

/-- perp_force_close_position.rs:9-69 (the two accounts are distinct writable accounts) -/
def forceCloseOp (s : PSys) (i j : Nat) (price : I80F48) : Res PSys := do
  require (i ≠ j) .requireFailed
  require (s.market.forceClose = true) .requireFailed
  match s.accts[i]?, s.accts[j]? with
  | some a, some b => do
    let p ← a.getPos
    let q ← b.getPos
    require (p.base > 0) .someError
    require (q.base < 0) .someError
    let qa ← abs64 q.base
    let t := max (min p.base qa) 0
    let nat ← ck64 (t * s.market.baseLotSize)
    let quote ← Fx.mul (Fx.ofInt nat) price
    let nt ← ck64 (-t)
    let nq ← Fx.neg quote
    let (p', m1) ← p.recordTrade s.market nt quote
    let (q', m2) ← q.recordTrade m1 t nq
    .ok { s with market := m2, accts := (s.accts.set i (a.setPos p')).set j (b.setPos q') }
  | _, _ => .error .panic

/-- perp_liq_base_or_positive_pnl.rs:79-91 (settle funding), 118-127 (no open taker fills or orders on the liqee), 555-563
(`record_trade` on both).  The sizes are computed by `liquidation_action` (modelled separately); here they are arbitrary. -/
def liqBaseOp (s : PSys) (liqee liqor : Nat) (base : Int) (ql qr : I80F48) : Res PSys := do
  require (liqee ≠ liqor) .requireFailed
  match s.accts[liqee]?, s.accts[liqor]? with
  | some a, some b => do
    let p ← a.getPos
    let b ← ensurePos b true
    let q ← b.getPos
    let p ← p.settleFunding s.market
    let q ← q.settleFunding s.market
    require (p.hasOpenTakerFills = false) .hasOpenPerpTakerFills
    let (p', m1) ← p.recordTrade s.market base ql
    let nb ← ck64 (-base)
    let (q', m2) ← q.recordTrade m1 nb qr
    .ok { s with market := m2, accts := (s.accts.set liqee (a.setPos p')).set liqor (b.setPos q') }
  | _, _ => .error .panic

/-- mango_account.rs:1635-1670, 1800-1802: the open-order section of `resize_dynamic_content` -/
def resizeOO (oos : List OO) (n : Nat) : Res (List OO) := do
  require ((oos.drop n).all (fun o => o.market == FREE)) .requireFailed
  .ok (oos.take n ++ List.replicate (n - oos.length) ({} : OO))

/-- one instruction -/
def pstep (s : PSys) : POp → Res PSys
  | .place u o oracle now limit room => placeOp s u o oracle now limit room
  | .cancelId u id => cancelOp s u (cancelById s.market.idx u id)
  | .cancelClient u cid => cancelOp s u (cancelByClientId s.market.idx u cid)
  | .cancelAll u limit sideOpt => cancelOp s u (cancelAll s.market.idx u limit sideOpt)
  | .consume limit avail => consumeLoop (min limit 8) s avail
  | .deactivate u => deactivateOp s u
  | .forceClose a b price => forceCloseOp s a b price
  | .liqBase a b base ql qr => liqBaseOp s a b base ql qr
  | .resize u n =>
    match s.accts[u]? with
    | none => .error .panic
    | some a => do
      let oos ← resizeOO a.oos n
      .ok { s with accts := s.accts.set u { a with oos } }
  | .create n => .ok { s with accts := s.accts ++ [{ oos := List.replicate n ({} : OO) }] }
  | .close u =>
    -- account_close.rs:16-27: no active perp position; afterwards the address holds no account (no slots), until one is
    -- created there again (`resize`)
    match s.accts[u]? with
    | none => .error .panic
    | some a => do
      require (a.pos = none) .requireFailed
      .ok { s with accts := s.accts.set u {} }
  | .ensure u =>
    match s.accts[u]? with
    | none => .error .panic
    | some a => do
      let a' ← ensurePos a true
      .ok { s with accts := s.accts.set u a' }
  | .quotes u quote longSettled shortSettled oneshot recurring window settled =>
    match s.accts[u]? with
    | none => .error .panic
    | some a => do
      let p ← a.getPos
      .ok { s with accts := s.accts.set u (a.setPos { p with
              quote, longSettled, shortSettled, oneshot, recurring, window, settledInWindow := settled }) }
  | .market m =>
    .ok { s with market := { m with
            idx := s.market.idx, seqNum := s.market.seqNum, openInterest := s.market.openInterest,
            baseLotSize := s.market.baseLotSize, quoteLotSize := s.market.quoteLotSize } }
  | .otherSlot u i oo =>
    match s.accts[u]? with
    | none => .error .panic
    | some a => do
      let old ← a.getOO i
      require (old.market ≠ s.market.idx ∧ oo.market ≠ s.market.idx) .requireFailed
      .ok { s with accts := s.accts.set u (a.setOO i oo) }

/-- a history: failing instructions change nothing -/
def prun (s : PSys) : List POp → PSys
  | [] => s
  | op :: ops => match pstep s op with
    | .ok s' => prun s' ops
    | .error _ => prun s ops

/-- argument types (i64 fields of orders) -/
structure Order.TypedArgs (o : Order) : Prop where
  base : o.maxBase ≤ I64MAX
  quote : o.maxQuote ≤ I64MAX
  price : match o.params with
    | .market => True
    | .ioc p => I64MIN ≤ p ∧ p ≤ I64MAX
    | .fixed p _ => I64MIN ≤ p ∧ p ≤ I64MAX
    | .pegged off _ l => (I64MIN ≤ off ∧ off ≤ I64MAX) ∧ (I64MIN ≤ l ∧ l ≤ I64MAX)

def POp.Typed : POp → Prop
  | .place _ o _ _ _ _ => o.TypedArgs
  | _ => True

/-- orders placed by an instruction -/
def POp.orders : POp → Nat
  | .place .. => 1
  | _ => 0

/-- orders placed by a history -/
def ordersPlaced (ops : List POp) : Nat := (ops.map POp.orders).sum

/-- a new market: empty book and queue, no positions -/
def PSys.init (m : Market) (bookNodes queueLen : Nat) (fill : Event) : PSys :=
  { market := { m with seqNum := 0, openInterest := 0 }, accts := [], book := ⟨BookSide.init true bookNodes, BookSide.init false bookNodes⟩,
    queue := EventQueue.init fill queueLen }

end Perp
end Mango
