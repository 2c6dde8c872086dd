import Verif.Basic
/-!
# The order tree: a crit-bit tree in a node arena

Models /repo/programs/mango-v4/src/state/orderbook/nodes.rs, ordertree.rs and ordertree_iterator.rs.

* Keys are `u128`, handles `u32`, timestamps `u64`: natural numbers here.
* The arena is a list of tagged nodes; its length is the capacity (`MAX_ORDERTREE_NODES` = 1024 in the code).
* Rust's `loop`s become recursions on fuel; running out of fuel is the error value `panic` (an endless loop exhausts
  the transaction's compute budget).  The theorems show it never happens in reachable states.
* Simplification: `timestamp + time_in_force` (nodes.rs:236, 243) is computed without the u64 overflow abort.
-/
namespace Mango
namespace Book

/-- nodes.rs:145-189 `LeafNode` (tag, padding, reserved bytes omitted). -/
structure Leaf where
  ownerSlot : Nat
  orderType : Nat
  timeInForce : Nat
  key : Nat
  owner : Nat
  quantity : Int
  timestamp : Nat
  pegLimit : Int
  clientOrderId : Nat
  deriving DecidableEq, Repr

def U64MAXN : Nat := 18446744073709551615
def U32MAX : Nat := 4294967295

/-- nodes.rs:230-238 `LeafNode::expiry` -/
def Leaf.expiry (l : Leaf) : Nat := if l.timeInForce = 0 then U64MAXN else l.timestamp + l.timeInForce

/-- nodes.rs:240-244 `LeafNode::is_expired` -/
def Leaf.isExpired (l : Leaf) (now : Nat) : Bool := decide (l.timeInForce > 0) && decide (now ≥ l.timestamp + l.timeInForce)

/-- nodes.rs:224-228 `LeafNode::price_data` -/
def Leaf.priceData (l : Leaf) : Nat := l.key / 2 ^ 64

/-- nodes.rs:76-99 `InnerNode`; the two-element arrays are two fields each. -/
structure Inner where
  prefixLen : Nat
  key : Nat
  child0 : Nat
  child1 : Nat
  exp0 : Nat
  exp1 : Nat
  deriving DecidableEq, Repr

/-- array indexing `children[b as usize]` -/
def Inner.child (i : Inner) (b : Bool) : Nat := if b = true then i.child1 else i.child0
/-- array indexing `child_earliest_expiry[b as usize]` -/
def Inner.exp (i : Inner) (b : Bool) : Nat := if b = true then i.exp1 else i.exp0
def Inner.setChild (i : Inner) (b : Bool) (h : Nat) : Inner :=
  if b = true then { i with child1 := h } else { i with child0 := h }
def Inner.setExp (i : Inner) (b : Bool) (e : Nat) : Inner :=
  if b = true then { i with exp1 := e } else { i with exp0 := e }

/-- nodes.rs:105-115 `InnerNode::new` -/
def Inner.new (prefixLen key : Nat) : Inner :=
  { prefixLen, key, child0 := 0, child1 := 0, exp0 := U64MAXN, exp1 := U64MAXN }

/-- nodes.rs:117-123 `walk_down`; `127 - prefix_len` underflow panics. -/
def Inner.walkDown (i : Inner) (k : Nat) : Res (Nat × Bool) :=
  if i.prefixLen ≤ 127 then .ok (i.child (k.testBit (127 - i.prefixLen)), k.testBit (127 - i.prefixLen))
  else .error .panic

/-- nodes.rs:125-129 `InnerNode::earliest_expiry` -/
def Inner.earliest (i : Inner) : Nat := min i.exp0 i.exp1

/-- nodes.rs:12-20, 260-267: `AnyNode` by tag (Uninitialized, InnerNode, LeafNode, FreeNode / LastFreeNode). -/
inductive Node where
  | uninit
  | inner (i : Inner)
  | leaf (l : Leaf)
  | free (last : Bool) (next : Nat)
  deriving DecidableEq, Repr

/-- nodes.rs:292-297 `AnyNode::key` -/
def Node.key? : Node → Option Nat
  | .inner i => some i.key
  | .leaf l => some l.key
  | _ => none

/-- nodes.rs:354-359 `AnyNode::earliest_expiry` (for non-live nodes the code panics; value unused) -/
def Node.earliest : Node → Nat
  | .inner i => i.earliest
  | .leaf l => l.expiry
  | _ => U64MAXN

def Node.live : Node → Bool
  | .inner _ => true
  | .leaf _ => true
  | _ => false

/-- ordertree.rs:38-52 `OrderTreeRoot` -/
structure Root where
  maybeNode : Nat
  leafCount : Nat
  deriving DecidableEq, Repr

/-- ordertree.rs:45-51 `OrderTreeRoot::node` -/
def Root.node (r : Root) : Option Nat := if r.leafCount = 0 then none else some r.maybeNode

/-- ordertree.rs:57-66 `OrderTreeNodes` -/
structure Arena where
  isBids : Bool            -- order_tree_type
  bumpIndex : Nat
  freeListLen : Nat
  freeListHead : Nat
  nodes : List Node
  deriving DecidableEq, Repr

/-- ordertree.rs:10 -/
def MAX_ORDERTREE_NODES : Nat := 1024

/-- a zeroed arena (perp_create_market.rs `load_init`) with `cap` nodes -/
def Arena.init (isBids : Bool) (cap : Nat) : Arena :=
  { isBids, bumpIndex := 0, freeListLen := 0, freeListHead := 0, nodes := List.replicate cap .uninit }

namespace Arena

/-- ordertree.rs:85-100 `node` / `node_mut`: the node if its tag is Inner or Leaf.  (An out-of-range handle panics in
the code; here it is `none`.) -/
def node (n : Arena) (h : Nat) : Option Node :=
  match n.nodes[h]? with
  | some (.inner i) => some (.inner i)
  | some (.leaf l) => some (.leaf l)
  | _ => none

/-- write through `node_mut` -/
def setNode (n : Arena) (h : Nat) (v : Node) : Arena := { n with nodes := n.nodes.set h v }

/-- ordertree.rs:252-272 `remove`: put the node on the free list. -/
def remove (n : Arena) (h : Nat) : Res (Node × Arena) :=
  match n.node h with
  | none => .error .panic
  | some v => .ok (v, { n with
      nodes := n.nodes.set h (.free (n.freeListLen == 0) n.freeListHead)
      freeListLen := n.freeListLen + 1
      freeListHead := h })

/-- ordertree.rs:274-308 `insert`: allocate a node from the free list or the bump region. -/
def insert (n : Arena) (v : Node) : Res (Nat × Arena) :=
  if n.freeListLen = 0 then
    if n.bumpIndex < n.nodes.length ∧ n.bumpIndex < U32MAX then
      .ok (n.bumpIndex, { n with nodes := n.nodes.set n.bumpIndex v, bumpIndex := n.bumpIndex + 1 })
    else .error .someError
  else
    match n.nodes[n.freeListHead]? with
    | some (.free last next) =>
      if (last = false ∧ n.freeListLen > 1) ∨ (last = true ∧ n.freeListLen = 1) then
        .ok (n.freeListHead, { n with
          nodes := n.nodes.set n.freeListHead v
          freeListHead := next
          freeListLen := n.freeListLen - 1 })
      else .error .panic
    | _ => .error .panic

/-- ordertree.rs:392-394 `is_full` -/
def isFull (n : Arena) : Bool := decide (n.freeListLen ≤ 1) && decide (n.bumpIndex ≥ n.nodes.length - 1)

/-- ordertree.rs:396-426 `update_parent_earliest_expiry`; the stack's top is the head of the list. -/
def updateParentEarliestExpiry (n : Arena) : List (Nat × Bool) → Nat → Nat → Res Arena
  | [], _, _ => .ok n
  | (h, b) :: st, outdated, newE =>
    match n.node h with
    | some (.inner i) =>
      if i.exp b ≠ outdated then .ok n
      else updateParentEarliestExpiry (n.setNode h (.inner (i.setExp b newE))) st i.earliest (i.setExp b newE).earliest
    | _ => .error .panic

/-- ordertree.rs:209-226: the walk-down loop of `remove_by_key`.  `none`: the leaf found has another key. -/
def removeWalk (n : Arena) (key : Nat) : Nat → Nat → Nat → Bool → List (Nat × Bool) →
    Res (Option (Nat × Nat × Bool × List (Nat × Bool)))
  | 0, _, _, _, _ => .error .panic
  | fuel + 1, parent, child, crit, stack =>
    match n.node child with
    | some (.inner i) => do
        let (c, b) ← i.walkDown key
        removeWalk n key fuel child c b ((child, b) :: stack)
    | some (.leaf l) => if l.key ≠ key then .ok none else .ok (some (parent, child, crit, stack))
    | _ => .error .panic

/-- the number of loop iterations granted to each walk -/
def fuel (n : Arena) : Nat := n.nodes.length + 1

/-- ordertree.rs:184-249 `remove_by_key`.  The result is the removed leaf (if any) and the new state. -/
def removeByKey (n : Arena) (root : Root) (key : Nat) : Res (Option Leaf × Arena × Root) :=
  match root.node with
  | none => .ok (none, n, root)
  | some parentH =>
    match n.node parentH with
    | some (.leaf l) =>
      if l.key = key then do
        require (root.leafCount = 1) .panic
        let (_, n') ← n.remove parentH
        .ok (some l, n', { maybeNode := 0, leafCount := 0 })
      else .ok (none, n, root)
    | some (.inner i) => do
        let (child, crit) ← i.walkDown key
        let found ← removeWalk n key n.fuel parentH child crit [(parentH, crit)]
        match found with
        | none => .ok (none, n, root)
        | some (parent, child, crit, stack) =>
          match n.node parent with
          | some (.inner p) => do
              let (otherContents, n1) ← n.remove (p.child (!crit))
              let newExpiry := otherContents.earliest
              let n2 := n1.setNode parent otherContents
              let (removed, n3) ← n2.remove child
              match removed with
              | .leaf removedLeaf => do
                  let n4 ← n3.updateParentEarliestExpiry stack.tail removedLeaf.expiry newExpiry
                  .ok (some removedLeaf, n4, { root with leafCount := root.leafCount - 1 })
              | _ => .error .panic
          | _ => .error .panic
    | _ => .error .panic

/-- `u128::leading_zeros` -/
def clz128 (x : Nat) : Nat := if x = 0 then 128 else 127 - x.log2

/-- Where `insert_leaf`'s walk ends. -/
inductive InsertPos where
  | clobber (h : Nat) (old : Leaf) (stack : List (Nat × Bool))
  | split (h : Nat) (contents : Node) (shared : Nat) (stack : List (Nat × Bool))
  deriving DecidableEq, Repr

/-- ordertree.rs:330-361: the walk-down loop of `insert_leaf`. -/
def insertWalk (n : Arena) (key : Nat) : Nat → Nat → List (Nat × Bool) → Res InsertPos
  | 0, _, _ => .error .panic
  | fuel + 1, parent, stack =>
    match n.node parent with
    | some (.leaf old) =>
      if old.key = key then .ok (.clobber parent old stack)
      else .ok (.split parent (.leaf old) (clz128 (old.key ^^^ key)) stack)
    | some (.inner i) =>
      if clz128 (i.key ^^^ key) ≥ i.prefixLen then do
        let (c, b) ← i.walkDown key
        insertWalk n key fuel c ((parent, b) :: stack)
      else .ok (.split parent (.inner i) (clz128 (i.key ^^^ key)) stack)
    | _ => .error .panic

/-- ordertree.rs:310-390 `insert_leaf`.  Result: handle, replaced leaf, new state. -/
def insertLeaf (n : Arena) (root : Root) (l : Leaf) : Res (Nat × Option Leaf × Arena × Root) :=
  match root.node with
  | none => do
      let (h, n') ← n.insert (.leaf l)
      .ok (h, none, n', { maybeNode := h, leafCount := 1 })
  | some rootH => do
      let pos ← insertWalk n l.key n.fuel rootH []
      match pos with
      | .clobber h old stack => do
          let n1 := n.setNode h (.leaf l)
          let n2 ← n1.updateParentEarliestExpiry stack old.expiry l.expiry
          .ok (h, some old, n2, root)
      | .split h contents shared stack =>
        if shared ≤ 127 then do
          let newBit := l.key.testBit (127 - shared)
          let (newH, n1) ← n.insert (.leaf l)
          let (movedH, n2) ← n1.insert contents
          let p := (((Inner.new shared l.key).setChild newBit newH).setChild (!newBit) movedH)
          let p := (p.setExp newBit l.expiry).setExp (!newBit) contents.earliest
          let n3 := n2.setNode h (.inner p)
          let n4 ← (if l.expiry < contents.earliest
                    then n3.updateParentEarliestExpiry stack contents.earliest l.expiry
                    else .ok n3)
          .ok (newH, none, n4, { root with leafCount := root.leafCount + 1 })
        else .error .panic

/-- ordertree.rs:163-182 `leaf_min_max` -/
def leafMinMaxAux (n : Arena) (findMax : Bool) : Nat → Nat → Res (Option (Nat × Leaf))
  | 0, _ => .error .panic
  | fuel + 1, h =>
    match n.node h with
    | some (.inner i) => leafMinMaxAux n findMax fuel (i.child findMax)
    | some (.leaf l) => .ok (some (h, l))
    | _ => .ok none

def leafMinMax (n : Arena) (findMax : Bool) (root : Root) : Res (Option (Nat × Leaf)) :=
  match root.node with
  | none => .ok none
  | some h => leafMinMaxAux n findMax n.fuel h

/-- ordertree.rs:156-162 -/
def minLeaf (n : Arena) (root : Root) := n.leafMinMax false root
def maxLeaf (n : Arena) (root : Root) := n.leafMinMax true root

/-- ordertree.rs:107-112 `find_worst` -/
def findWorst (n : Arena) (root : Root) : Res (Option (Nat × Leaf)) :=
  if n.isBids = true then n.minLeaf root else n.maxLeaf root

/-- ordertree.rs:428-450 `find_earliest_expiry` -/
def findEarliestAux (n : Arena) : Nat → Nat → Res (Nat × Nat)
  | 0, _ => .error .panic
  | fuel + 1, h =>
    match n.node h with
    | some (.inner i) => findEarliestAux n fuel (i.child (decide (i.exp0 > i.exp1)))
    | some (.leaf l) => .ok (h, l.expiry)
    | _ => .error .panic

def findEarliestExpiry (n : Arena) (root : Root) : Res (Option (Nat × Nat)) :=
  match root.node with
  | none => .ok none
  | some h => do
      let r ← findEarliestAux n n.fuel h
      .ok (some r)

/-- ordertree.rs:114-126 `remove_one_expired` -/
def removeOneExpired (n : Arena) (root : Root) (now : Nat) : Res (Option Leaf × Arena × Root) := do
  let r ← n.findEarliestExpiry root
  match r with
  | none => .ok (none, n, root)
  | some (h, e) =>
    if e < now then
      match n.node h with
      | none => .ok (none, n, root)
      | some v => match v.key? with
        | none => .ok (none, n, root)
        | some k => n.removeByKey root k
    else .ok (none, n, root)

/-- ordertree.rs:102-105 `remove_worst` -/
def removeWorst (n : Arena) (root : Root) : Res (Option Leaf × Arena × Root) := do
  let r ← n.findWorst root
  match r with
  | none => .ok (none, n, root)
  | some (_, l) => n.removeByKey root l.key

/-! ## Iteration (ordertree_iterator.rs) -/

/-- ordertree_iterator.rs:3-14 `OrderTreeIter`: inner nodes whose right side is pending (top first), next leaf. -/
structure Iter where
  stack : List Inner
  next : Option (Nat × Leaf)

/-- ordertree_iterator.rs:50-63 `find_leftmost_leaf`; `left` is the index (as a Bool) of the first child. -/
def findLeftmost (n : Arena) (left : Bool) : Nat → Nat → List Inner → Res (List Inner × (Nat × Leaf))
  | 0, _, _ => .error .panic
  | fuel + 1, h, stack =>
    match n.node h with
    | some (.inner i) => findLeftmost n left fuel (i.child left) (i :: stack)
    | some (.leaf l) => .ok (stack, (h, l))
    | _ => .error .panic

/-- ordertree_iterator.rs:17-38 `OrderTreeIter::new` -/
def iterNew (n : Arena) (root : Root) : Res Iter :=
  match root.node with
  | none => .ok { stack := [], next := none }
  | some h => do
      let (st, x) ← findLeftmost n n.isBids n.fuel h []
      .ok { stack := st, next := some x }

/-- ordertree_iterator.rs:66-85 `next` -/
def iterNext (n : Arena) (it : Iter) : Res (Option (Nat × Leaf) × Iter) :=
  match it.next with
  | none => .ok (none, it)
  | some x =>
    match it.stack with
    | [] => .ok (some x, { stack := [], next := none })
    | i :: st => do
        let (st', y) ← findLeftmost n n.isBids n.fuel (i.child (!n.isBids)) st
        .ok (some x, { stack := st', next := some y })

/-- collect an iterator into a list -/
def iterCollect (n : Arena) : Nat → Iter → Res (List (Nat × Leaf))
  | 0, _ => .error .panic
  | fuel + 1, it => do
      let (x, it') ← iterNext n it
      match x with
      | none => .ok []
      | some v => do
          let rest ← iterCollect n fuel it'
          .ok (v :: rest)

/-- ordertree.rs:77-83 `iter`, collected: descending for bids, ascending for asks. -/
def toList (n : Arena) (root : Root) : Res (List (Nat × Leaf)) := do
  let it ← n.iterNew root
  iterCollect n n.fuel it

end Arena
end Book
end Mango
