import Verif.Perp.System
/-!
# The instructions that place perp orders

Models the entry points of lib.rs:1019-1290 in front of perp_place_order (Perp/System `placeOp`, Perp/OrderIx `place`): the checks
of their arguments, the expiry timestamp and the conversion of the order type.
-/
namespace Mango
namespace Perp
open Book Fx

/-- order_type.rs:18-44 `PlaceOrderType` -/
inductive PlaceType where
  | limit | immediateOrCancel | postOnly | market | postOnlySlide
  deriving DecidableEq, Repr

/-- order_type.rs:46-55 `to_post_order_type` -/
def PlaceType.toPost : PlaceType → Res PostType
  | .market => .error .someError
  | .immediateOrCancel => .error .someError
  | .limit => .ok .limit
  | .postOnly => .ok .postOnly
  | .postOnlySlide => .ok .postOnlySlide

/-- order.rs:50-64 `tif_from_expiry`; the clock is not negative (line 53 panics) -/
def tifFromExpiry (expiry now : Nat) : Option Nat :=
  if expiry ≠ 0 then
    let tif := min (expiry - now) 65535
    if tif = 0 then none else some tif
  else some 0

/-- the arguments common to the four instructions; `price` is `price_lots` or `price_offset_lots` -/
structure PlaceArgs where
  side : Side
  price : Int
  maxBase : Int
  maxQuote : Int
  clientId : Nat
  type : PlaceType
  reduceOnly : Bool
  expiry : Nat

/-- which instruction, with its other arguments -/
inductive Entry where
  /-- `perp_place_order`, lib.rs:1019-1087 -/
  | v1 (a : PlaceArgs)
  /-- `perp_place_order_v2`, lib.rs:1089-1159 -/
  | v2 (a : PlaceArgs) (selfTrade : SelfTrade)
  /-- `perp_place_order_pegged`, lib.rs:1161-1224 -/
  | pegged (a : PlaceArgs) (pegLimit staleness : Int)
  /-- `perp_place_order_pegged_v2`, lib.rs:1226-1290 -/
  | peggedV2 (a : PlaceArgs) (pegLimit staleness : Int) (selfTrade : SelfTrade)

/-- lib.rs:1047-1085, 1118-1157: the order of the fixed-price instructions; `none`: already expired -/
def fixedOrder (a : PlaceArgs) (st : SelfTrade) (now : Nat) : Res (Option Order) := do
  require (a.price ≥ 0) .requireFailed
  match tifFromExpiry a.expiry now with
  | none => .ok none
  | some tif => do
    let params ← (match a.type with
      | .market => .ok Params.market
      | .immediateOrCancel => .ok (Params.ioc a.price)
      | ty => do
        let t ← ty.toPost
        .ok (Params.fixed a.price t))
    .ok (some { side := a.side, maxBase := a.maxBase, maxQuote := a.maxQuote, clientId := a.clientId, reduceOnly := a.reduceOnly,
                tif, selfTrade := st, params })

/-- lib.rs:1195-1222, 1262-1288: the order of the pegged instructions -/
def peggedOrder (a : PlaceArgs) (pegLimit staleness : Int) (st : SelfTrade) (now : Nat) : Res (Option Order) := do
  require (pegLimit ≥ -1) .requireFailed
  require (staleness = -1) .requireFailed
  match tifFromExpiry a.expiry now with
  | none => .ok none
  | some tif => do
    let t ← a.type.toPost
    .ok (some { side := a.side, maxBase := a.maxBase, maxQuote := a.maxQuote, clientId := a.clientId, reduceOnly := a.reduceOnly,
                tif, selfTrade := st, params := .pegged a.price t pegLimit })

/-- the order of an instruction -/
def Entry.order (now : Nat) : Entry → Res (Option Order)
  | .v1 a => fixedOrder a .decrementTake now
  | .v2 a st => fixedOrder a st now
  | .pegged a l n => peggedOrder a l n .decrementTake now
  | .peggedV2 a l n st => peggedOrder a l n st now

/-- the whole instruction; an expired order is skipped before anything is read or written -/
def enter (s : PSys) (u : Nat) (e : Entry) (oracle : I80F48) (now limit : Nat) (room : Bool) : Res PSys := do
  let r ← e.order now
  match r with
  | none => .ok s
  | some o => pstep s (.place u o oracle now limit room)

/-- an instruction of a perp market, orders being placed only through the entry points -/
inductive EOp where
  | enter (u : Nat) (e : Entry) (oracle : I80F48) (now limit : Nat) (room : Bool)
  | other (op : POp)

def estep (s : PSys) : EOp → Res PSys
  | .enter u e oracle now limit room => enter s u e oracle now limit room
  | .other op =>
    match op with
    | .place .. => .error .someError
    | op => pstep s op

/-- a history: failing instructions change nothing -/
def erun (s : PSys) : List EOp → PSys
  | [] => s
  | op :: ops => match estep s op with
    | .ok s' => erun s' ops
    | .error _ => erun s ops

end Perp
end Mango
