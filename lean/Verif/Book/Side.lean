import Verif.Book.Tree
/-!
# Keys, sides and book sides

Models nodes.rs:22-70 (keys), order_type.rs (Side), bookside.rs and bookside_iterator.rs in
/repo/programs/mango-v4/src/state/orderbook/.
-/
namespace Mango
namespace Book

/-- order_type.rs:124-127 -/
inductive Side where
  | bid | ask
  deriving DecidableEq, Repr

namespace Side
/-- order_type.rs:130-135 `invert_side` -/
def invert : Side → Side
  | bid => ask
  | ask => bid
/-- order_type.rs:146-151 `is_price_better` -/
def isPriceBetter : Side → Int → Int → Bool
  | bid, lhs, rhs => decide (lhs > rhs)
  | ask, lhs, rhs => decide (lhs < rhs)
/-- order_type.rs:154-159 `is_price_within_limit` -/
def isPriceWithinLimit : Side → Int → Int → Bool
  | bid, price, limit => decide (price ≤ limit)
  | ask, price, limit => decide (price ≥ limit)
end Side

/-- nodes.rs:31-36 `new_node_key`; `!seq_num` is bitwise not on u64.  `upper | seq` has disjoint bits: a sum. -/
def newNodeKey (side : Side) (priceData seqNum : Nat) : Nat :=
  (priceData <<< 64) ||| (if side = .bid then U64MAXN - seqNum else seqNum)

/-- `x as u64` for an i64 -/
def i64AsU64 (x : Int) : Nat := (x % 18446744073709551616).toNat
/-- `x as i64` for a u64 -/
def u64AsI64 (x : Nat) : Int := if x < 9223372036854775808 then (x : Int) else (x : Int) - 18446744073709551616

/-- nodes.rs:41-47 `oracle_pegged_price_data` (wrapping u64 addition) -/
def oraclePeggedPriceData (off : Int) : Nat := (i64AsU64 off + (U64MAXN / 2 + 1)) % 18446744073709551616
/-- nodes.rs:52-54 `oracle_pegged_price_offset` (wrapping u64 subtraction) -/
def oraclePeggedPriceOffset (pd : Nat) : Int :=
  u64AsI64 ((pd + 18446744073709551616 - (U64MAXN / 2 + 1)) % 18446744073709551616)
/-- nodes.rs:59-62 `fixed_price_data` -/
def fixedPriceData (p : Int) : Res Nat := if p ≥ 1 then .ok p.toNat else .error .requireFailed
/-- nodes.rs:67-70 `fixed_price_lots` -/
def fixedPriceLots (pd : Nat) : Res Int := if (pd : Int) ≤ I64MAX then .ok (pd : Int) else .error .panic

/-- bookside.rs:19-22 `BookSideOrderTree` -/
inductive Comp where
  | fixed | pegged
  deriving DecidableEq, Repr

def Comp.other : Comp → Comp
  | fixed => pegged
  | pegged => fixed

/-- bookside.rs:30-36 `BookSide` -/
structure BookSide where
  rootF : Root
  rootP : Root
  nodes : Arena
  deriving DecidableEq, Repr

/-- bookside_iterator.rs:47-51 `OrderState` -/
inductive OState where
  | valid | invalid | skipped
  deriving DecidableEq, Repr

/-- bookside_iterator.rs:3-8 `BookSideIterItem` with the handle's two fields -/
structure Item where
  comp : Comp
  handle : Nat
  leaf : Leaf
  price : Int
  state : OState
  deriving DecidableEq, Repr

/-- bookside_iterator.rs:11-13 `is_valid` -/
def Item.isValid (i : Item) : Bool := i.state == .valid

/-- i64 `saturating_add` -/
def satAdd64 (a b : Int) : Int :=
  if a + b < I64MIN then I64MIN else if a + b > I64MAX then I64MAX else a + b

/-- bookside_iterator.rs:59-71 `oracle_pegged_price` -/
def oraclePeggedPrice (oracle : Int) (l : Leaf) (side : Side) : OState × Int :=
  let price := satAdd64 oracle (oraclePeggedPriceOffset l.priceData)
  if 1 ≤ price ∧ price < I64MAX then
    if l.pegLimit ≠ -1 ∧ side.isPriceBetter price l.pegLimit = true then (.invalid, price) else (.valid, price)
  else (.skipped, max price 1)

/-- bookside_iterator.rs:76-83 `key_for_fixed_price` -/
def keyForFixedPrice (key : Nat) (price : Int) : Res Nat :=
  if price ≥ 1 then .ok ((price.toNat <<< 64) ||| (key % 18446744073709551616)) else .error .panic

/-- bookside_iterator.rs:86-102 `fixed_to_result` -/
def fixedToResult (f : Nat × Leaf) (now : Nat) : Res Item := do
  let p ← fixedPriceLots f.2.priceData
  .ok { comp := .fixed, handle := f.1, leaf := f.2, price := p, state := if f.2.isExpired now = true then .invalid else .valid }

/-- bookside_iterator.rs:105-120 `oracle_pegged_to_result` -/
def peggedToResult (o : Nat × Leaf) (price : Int) (st : OState) (now : Nat) : Item :=
  { comp := .pegged, handle := o.1, leaf := o.2, price, state := if o.2.isExpired now = true then .invalid else st }

/-- bookside_iterator.rs:125-162 `rank_orders` -/
def rankOrders (side : Side) (f o : Option (Nat × Leaf)) (returnWorse : Bool) (now : Nat) (oracle : Int) : Res (Option Item) :=
  match f, o with
  | some f, some o => do
      let k ← keyForFixedPrice o.2.key (oraclePeggedPrice oracle o.2 side).2
      let better := if side = .bid then decide (f.2.key > k) else decide (f.2.key < k)
      (if (better ^^ returnWorse) = true then do
        let i ← fixedToResult f now
        .ok (some i)
      else .ok (some (peggedToResult o (oraclePeggedPrice oracle o.2 side).2 (oraclePeggedPrice oracle o.2 side).1 now)))
  | none, some o => .ok (some (peggedToResult o (oraclePeggedPrice oracle o.2 side).2 (oraclePeggedPrice oracle o.2 side).1 now))
  | some f, none => do
      let i ← fixedToResult f now
      .ok (some i)
  | none, none => .ok none

namespace BookSide

/-- a fresh book side with `cap` nodes -/
def init (isBids : Bool) (cap : Nat) : BookSide := { rootF := ⟨0, 0⟩, rootP := ⟨0, 0⟩, nodes := Arena.init isBids cap }

/-- ordertree.rs:30-35, bookside.rs:139-141 `side` -/
def side (b : BookSide) : Side := if b.nodes.isBids = true then .bid else .ask

/-- bookside.rs:67-73 `root` -/
def root (b : BookSide) : Comp → Root
  | .fixed => b.rootF
  | .pegged => b.rootP
def setRoot (b : BookSide) (c : Comp) (n : Arena) (r : Root) : BookSide :=
  match c with
  | .fixed => { b with nodes := n, rootF := r }
  | .pegged => { b with nodes := n, rootP := r }

/-- bookside.rs:75-77 -/
def isFull (b : BookSide) : Bool := b.nodes.isFull

/-- bookside.rs:79-86 `insert_leaf` -/
def insertLeaf (b : BookSide) (c : Comp) (l : Leaf) : Res (Nat × Option Leaf × BookSide) := do
  let (h, old, n, r) ← b.nodes.insertLeaf (b.root c) l
  .ok (h, old, b.setRoot c n r)

/-- bookside.rs:130-137 `remove_by_key` -/
def removeByKey (b : BookSide) (c : Comp) (key : Nat) : Res (Option Leaf × BookSide) := do
  let (x, n, r) ← b.nodes.removeByKey (b.root c) key
  .ok (x, b.setRoot c n r)

/-- bookside.rs:110-128 `remove_one_expired` -/
def removeOneExpired (b : BookSide) (c : Comp) (now : Nat) : Res (Option Leaf × BookSide) := do
  let (x, n, r) ← b.nodes.removeOneExpired (b.root c) now
  let b := b.setRoot c n r
  match x with
  | some l => .ok (some l, b)
  | none => do
      let (y, n, r) ← b.nodes.removeOneExpired (b.root c.other) now
      .ok (y, b.setRoot c.other n r)

/-- bookside.rs:88-106 `remove_worst` -/
def removeWorst (b : BookSide) (now : Nat) (oracle : Int) : Res (Option (Leaf × Int) × BookSide) := do
  let wf ← b.nodes.findWorst b.rootF
  let wp ← b.nodes.findWorst b.rootP
  let worse ← rankOrders b.side wf wp true now oracle
  match worse with
  | none => .ok (none, b)
  | some it => do
      let (x, b') ← b.removeByKey it.comp it.leaf.key
      match x with
      | none => .ok (none, b')
      | some l => .ok (some (l, it.price), b')

/-- Write a leaf's quantity through its handle, as matching does (book.rs:217-224: `node_mut(handle).as_leaf_mut()`). -/
def setQuantity (b : BookSide) (h : Nat) (q : Int) : Res BookSide :=
  match b.nodes.node h with
  | some (.leaf l) => .ok { b with nodes := b.nodes.setNode h (.leaf { l with quantity := q }) }
  | _ => .error .panic

/-- bookside_iterator.rs:23-45 `BookSideIter` -/
structure BIter where
  fixedIt : Arena.Iter
  peggedIt : Arena.Iter

/-- bookside_iterator.rs:31-44 `BookSideIter::new` -/
def iterNew (b : BookSide) : Res BIter := do
  let f ← b.nodes.iterNew b.rootF
  let p ← b.nodes.iterNew b.rootP
  .ok ⟨f, p⟩

/-- bookside_iterator.rs:170-180: skip pegged orders whose price is not representable -/
def skipPegged (b : BookSide) (oracle : Int) : Nat → Arena.Iter → Res Arena.Iter
  | 0, _ => .error .panic
  | fuel + 1, it =>
    match it.next with
    | none => .ok it
    | some x =>
      if (oraclePeggedPrice oracle x.2 b.side).1 ≠ .skipped then .ok it
      else do
        let (_, it') ← b.nodes.iterNext it
        skipPegged b oracle fuel it'

/-- bookside_iterator.rs:164-193 `BookSideIter::next` -/
def iterNext (b : BookSide) (now : Nat) (oracle : Int) (it : BIter) : Res (Option Item × BIter) := do
  let p ← skipPegged b oracle b.nodes.fuel it.peggedIt
  let better ← rankOrders b.side it.fixedIt.next p.next false now oracle
  match better with
  | none => .ok (none, ⟨it.fixedIt, p⟩)
  | some x =>
    match x.comp with
    | .fixed => do
        let (_, f') ← b.nodes.iterNext it.fixedIt
        .ok (some x, ⟨f', p⟩)
    | .pegged => do
        let (_, p') ← b.nodes.iterNext p
        .ok (some x, ⟨it.fixedIt, p'⟩)

def iterCollect (b : BookSide) (now : Nat) (oracle : Int) : Nat → BIter → Res (List Item)
  | 0, _ => .error .panic
  | fuel + 1, it => do
      let (x, it') ← iterNext b now oracle it
      match x with
      | none => .ok []
      | some v => do
          let rest ← iterCollect b now oracle fuel it'
          .ok (v :: rest)

/-- bookside.rs:57-60 `iter_all_including_invalid`, collected.  (The code is lazy: it evaluates `next` only as far as the
consumer asks; in reachable states no evaluation fails, see `Props`.) -/
def items (b : BookSide) (now : Nat) (oracle : Int) : Res (List Item) := do
  let it ← b.iterNew
  iterCollect b now oracle (2 * b.nodes.fuel) it

/-- bookside.rs:48-55 `iter_valid`, collected -/
def validItems (b : BookSide) (now : Nat) (oracle : Int) : Res (List Item) := do
  let xs ← b.items now oracle
  .ok (xs.filter Item.isValid)

/-- bookside.rs:162-168 `best_price` -/
def bestPrice (b : BookSide) (now : Nat) (oracle : Int) : Res (Option Int) := do
  let xs ← b.validItems now oracle
  .ok (xs.head?.map Item.price)

/-- bookside.rs:143-160 `quantity_at_price` -/
def quantityAtPriceAux (side : Side) (limit : Int) : List Item → Int → Res Int
  | [], sum => .ok sum
  | i :: rest, sum =>
    if side.isPriceBetter limit i.price = true then .ok sum
    else do
      let s ← ck64 (sum + i.leaf.quantity)
      quantityAtPriceAux side limit rest s
def quantityAtPrice (b : BookSide) (limit : Int) (now : Nat) (oracle : Int) : Res Int := do
  let xs ← b.validItems now oracle
  quantityAtPriceAux b.side limit xs 0

/-- bookside.rs:170-181 `impact_price` -/
def impactPriceAux (quantity : Int) : List Item → Int → Res (Option Int)
  | [], _ => .ok none
  | i :: rest, sum => do
    let s ← ck64 (sum + i.leaf.quantity)
    (if s ≥ quantity then .ok (some i.price) else impactPriceAux quantity rest s)
def impactPrice (b : BookSide) (quantity : Int) (now : Nat) (oracle : Int) : Res (Option Int) := do
  let xs ← b.validItems now oracle
  impactPriceAux quantity xs 0

/-- bookside.rs:186-208 `matched_amount` -/
def matchedAmountAux (quantity : Int) : List Item → Int → Int → Res (Option Int)
  | [], _, _ => .ok none
  | i :: rest, sumQty, sumAmt => do
    let q ← ck64 (sumQty + i.leaf.quantity)
    let v ← ck64 (i.leaf.quantity * i.price)
    let a ← ck64 (sumAmt + v)
    let extra ← ck64 (q - quantity)
    (if extra ≥ 0 then do
       let x ← ck64 (extra * i.price)
       let r ← ck64 (a - x)
       .ok (some r)
     else matchedAmountAux quantity rest q a)
def matchedAmount (b : BookSide) (quantity : Int) (now : Nat) (oracle : Int) : Res (Option Int) :=
  if quantity ≤ 0 then .ok none
  else do
    let xs ← b.validItems now oracle
    matchedAmountAux quantity xs 0 0

/-- bookside.rs:212-236 `matched_quantity` -/
def matchedQuantityAux (amount : Int) : List Item → Int → Int → Res (Option Int)
  | [], _, _ => .ok none
  | i :: rest, sumQty, sumAmt => do
    let q ← ck64 (sumQty + i.leaf.quantity)
    let v ← ck64 (i.leaf.quantity * i.price)
    let a ← ck64 (sumAmt + v)
    let extra ← ck64 (a - amount)
    (if extra ≥ 0 then do
       let t ← ck64 (extra + i.price)
       let t ← ck64 (t - 1)
       let d ← (if i.price = 0 then .error .panic else .ok (t.tdiv i.price))
       let r ← ck64 (q - d)
       .ok (some r)
     else matchedQuantityAux amount rest q a)
def matchedQuantity (b : BookSide) (amount : Int) (now : Nat) (oracle : Int) : Res (Option Int) :=
  if amount ≤ 0 then .ok none
  else do
    let xs ← b.validItems now oracle
    matchedQuantityAux amount xs 0 0

end BookSide
end Book
end Mango
