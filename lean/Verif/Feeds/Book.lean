import Verif.Basic
import Mathlib.Data.Rat.Defs
import Mathlib.Algebra.Order.Field.Rat
/-!
# The order book feed

Models bin/service-mango-orderbook/src/orderbook_filter.rs (`publish_changes` 64-229, the loop over perp markets 318-450) and the part of src/main.rs that keeps checkpoints and forwards updates to
subscribers (170-290, 445-508), for one perp market. Spot markets (452-530) use the same `publish_changes`, with books that do not depend on an oracle; their loop is not modelled.

Prices and quantities are f64 in the code; here they are rational numbers, and `rnd` rounds the sum of two quantities to an f64: any function. Which states of the book and oracle accounts the
service knows, with which versions, is up to the outside (`ChainData` of another repository). How orders are read from a book account with an oracle price at a time (378-409) is a parameter
`view`; `none` if the oracle account cannot be read. Only what the messages contain is kept: market, slot and write version are left out.
-/
namespace Mango
namespace BookFeed

/-- orderbook/src/lib.rs:7-13 -/
structure Order where
  price : ℚ
  quantity : ℚ
  owner : Nat
  deriving DecidableEq, Repr

/-- OrderbookLevel: price and quantity -/
abbrev Level := ℚ × ℚ

inductive Side | bid | ask
  deriving DecidableEq, Repr

def Side.other : Side → Side
  | .bid => .ask
  | .ask => .bid

/-- `group_by(|order| order.price)` (80-84): runs of adjacent orders with the same price, with their quantities -/
def groups : List Order → List (ℚ × List ℚ)
  | [] => []
  | o :: rest =>
    match groups rest with
    | [] => [(o.price, [o.quantity])]
    | (p, qs) :: gs => if p = o.price then (p, o.quantity :: qs) :: gs else (o.price, [o.quantity]) :: (p, qs) :: gs

/-- `group.map(|o| o.quantity).sum()` -/
def total (rnd : ℚ → ℚ) (qs : List ℚ) : ℚ := qs.foldl (fun a x => rnd (a + x)) 0

/-- 79-91: the levels of a book side -/
def levels (rnd : ℚ → ℚ) (orders : List Order) : List Level := (groups orders).map (fun g => (g.1, total rnd g.2))

/-- 114-148: the changes of levels -/
def levelUpdate (rnd : ℚ → ℚ) (cur prev : List Order) : List Level :=
  let c := levels rnd cur
  let p := levels rnd prev
  (p.filter (fun l => (c.find? (fun x => decide (l.1 = x.1))).isNone)).map (fun l => ((l.1, 0) : Level)) ++
  c.filter (fun l => match p.find? (fun x => decide (x.1 = l.1)) with
    | some l' => decide (l'.2 ≠ l.2)
    | none => true)

/-- 101-112 -/
def removals (cur prev : List Order) : List Order := prev.filter (fun o => (cur.find? (fun x => decide (o = x))).isNone)
/-- 150-163 -/
def additions (cur prev : List Order) : List Order := cur.filter (fun o => (prev.find? (fun x => decide (o = x))).isNone)

/-- orderbook/src/lib.rs:117-122 -/
inductive BookMsg
  | bookCheckpoint (bids asks : List Order)
  | levelCheckpoint (bids asks : List Level)
  | levelUpdate (side : Side) (update : List Level)
  | bookUpdate (side : Side) (additions removals : List Order)
  deriving DecidableEq, Repr

/-- `publish_changes` (64-229) -/
def publishBook (rnd : ℚ → ℚ) (side : Side) (cur prev : List Order) (other : Option (List Order)) : List BookMsg :=
  (match other with
   | some o =>
     let bids := match side with | .bid => cur | .ask => o
     let asks := match side with | .bid => o | .ask => cur
     [.bookCheckpoint bids asks, .levelCheckpoint (levels rnd bids) (levels rnd asks)]
   | none => []) ++
  (if levelUpdate rnd cur prev ≠ [] then [.levelUpdate side (levelUpdate rnd cur prev)] else []) ++
  (if additions cur prev ≠ [] ∧ removals cur prev ≠ [] then [.bookUpdate side (additions cur prev) (removals cur prev)] else [])

/-- slot and write version -/
abbrev Version := Nat × Nat

/-- `AccountData::is_newer_than` of the feeds connector: newer slot, or same slot and newer write version -/
def isNewer (v last : Version) : Bool := decide (v.1 > last.1) || (decide (v.1 = last.1) && decide (v.2 > last.2))

/-- the accounts of the market in `chain_cache`, with their versions; `β` and `ω`: contents of book and oracle accounts -/
structure World (β ω : Type) where
  book : Side → Option (Version × β)
  oracle : Option (Version × ω)

/-- the service's memory for the market (258-260): last orders and last versions -/
structure BookService where
  cache : Side → Option (List Order) := fun _ => none
  bookVersion : Side → Version := fun _ => (0, 0)
  oracleVersion : Version := (0, 0)

/-- one round of the loop (321-449) for one side: new memory and messages -/
def BookService.side {β ω : Type} (s : BookService) (rnd : ℚ → ℚ) (view : Side → β → ω → Nat → Option (List Order)) (w : World β ω) (now : Nat) (sd : Side) :
    BookService × List BookMsg :=
  match w.book sd, w.oracle with
  | some (bv, b), some (ov, o) =>
    if isNewer bv (s.bookVersion sd) = false ∧ isNewer ov s.oracleVersion = false then (s, [])
    else
      let s' := { s with bookVersion := fun x => if x = sd then bv else s.bookVersion x, oracleVersion := ov }
      match view sd b o now with
      | none => (s', [])
      | some orders =>
        let ms := match s.cache sd with
          | some old => publishBook rnd sd orders old (s.cache sd.other)
          | none => []
        ({ s' with cache := fun x => if x = sd then some orders else s.cache x }, ms)
  | _, _ => (s, [])

/-- 318-320: both sides, bids first -/
def BookService.round {β ω : Type} (s : BookService) (rnd : ℚ → ℚ) (view : Side → β → ω → Nat → Option (List Order)) (w : World β ω) (now : Nat) : BookService × List BookMsg :=
  let r1 := s.side rnd view w now .bid
  let r2 := r1.1.side rnd view w now .ask
  (r2.1, r1.2 ++ r2.2)

/-- a subscriber of levels keeps a quantity for each side and price (0: no level) -/
abbrev Depth := Side → ℚ → ℚ

/-- a subscriber applies a level update -/
def applyLevels (d : Depth) (sd : Side) : List Level → Depth
  | [] => d
  | (p, q) :: rest => applyLevels (fun x y => if x = sd ∧ y = p then q else d x y) sd rest

/-- a subscriber starts from a checkpoint -/
def fromCheckpoint (bids asks : List Level) : Depth := applyLevels (applyLevels (fun _ _ => 0) .bid bids) .ask asks

/-- the whole service with one subscriber: the filter task, the channel to the receiver task, the last checkpoint, and the subscriber: whether subscribed, and what it has seen since it got a checkpoint -/
structure Hub where
  filter : BookService := {}
  channel : List BookMsg := []
  checkpoint : Option (List Level × List Level) := none
  subscribed : Bool := false
  view : Option Depth := none

inductive HubOp (β ω : Type)
  /-- the filter task runs after an update -/
  | round (w : World β ω) (now : Nat)
  /-- the receiver task handles the next message (main.rs:462-505) -/
  | receive
  /-- the subscriber subscribes to levels (main.rs:190-239) -/
  | subscribe
  /-- main.rs:241-256 -/
  | unsubscribe

/-- one step; the tasks take turns in any order -/
def Hub.step {β ω : Type} (rnd : ℚ → ℚ) (viewOf : Side → β → ω → Nat → Option (List Order)) (h : Hub) : HubOp β ω → Hub
  | .round w now =>
    let r := h.filter.round rnd viewOf w now
    { h with filter := r.1, channel := h.channel ++ r.2 }
  | .receive =>
    match h.channel with
    | [] => h
    | .levelCheckpoint b a :: rest => { h with channel := rest, checkpoint := some (b, a) }
    | .levelUpdate sd u :: rest =>
      { h with channel := rest, view := if h.subscribed then h.view.map (fun d => applyLevels d sd u) else h.view }
    | _ :: rest => { h with channel := rest }
  | .subscribe =>
    if h.subscribed then h
    else { h with subscribed := true, view := h.checkpoint.map (fun c => fromCheckpoint c.1 c.2) }
  | .unsubscribe => { h with subscribed := false, view := none }

def Hub.run {β ω : Type} (rnd : ℚ → ℚ) (viewOf : Side → β → ω → Nat → Option (List Order)) (h : Hub) : List (HubOp β ω) → Hub
  | [] => h
  | op :: ops => Hub.run rnd viewOf (h.step rnd viewOf op) ops

end BookFeed
end Mango
