import Verif.Basic
import Mathlib.Data.List.Sort
/-!
# The settler: pairing gains with losses, and packing instructions into transactions

Models bin/settler/src/settle.rs:146-150, 203-257 (which pairs of accounts are settled in one perp market) and 259-361 (`SettleBatchProcessor`). The settleable amounts and fees of the accounts are inputs;
amounts are raw fixed point integers and the market's threshold and flat fee, floats in the code, are taken to be exact fixed point numbers. The failures of fetching an account, building an instruction or
serializing a transaction, which end the run, are left out.
-/
namespace Mango
namespace Settler

/-- settle.rs:179-182: an entry of `positive_settleable` -/
structure Pos where
  key : Nat
  amount : Int
  fee : Int
  deriving DecidableEq, Repr

/-- settle.rs:184-187: an item of the priority queue `negative_settleable`, with its priority -/
structure Neg where
  key : Nat
  amount : Int
  deriving DecidableEq, Repr

/-- the two fields of the perp market that are used -/
structure Market where
  threshold : Int
  flat : Int
  deriving DecidableEq, Repr

/-- an instruction `perp_settle_pnl` for two accounts, with the amount that the settler expects it to move -/
structure Pair where
  a : Nat
  b : Nat
  amount : Int
  deriving DecidableEq, Repr

/-- settle.rs:146-150: what can be settled of an account's limited pnl -/
def settleable (limited maxSettle : Int) : Int :=
  if 0 ≤ limited then limited else min (max limited (-maxSettle)) 0

/-- settle.rs:225-227: the condition of the `while` loop -/
def wants (m : Market) (fee left : Int) : Bool :=
  decide (m.threshold < left) || (decide (0 < left) && decide (fee ≠ m.flat))

/-- settle.rs:235-237: the pair is not interesting -/
def tooSmall (m : Market) (fee s : Int) : Bool :=
  decide (s ≤ 0) || (decide (s < m.threshold) && decide (fee = m.flat))

/-- `PriorityQueue::change_priority` (settle.rs:249) -/
def lower (q : List Neg) (b : Nat) (s : Int) : List Neg :=
  q.map (fun n => if n.key = b then { n with amount := n.amount - s } else n)

/-- settle.rs:225-250: the `while` loop for the account `a`. `peek` is the priority queue's; the loop makes at most `fuel` rounds. -/
def pairUp (peek : List Neg → Option Neg) (m : Market) (a : Nat) (fee : Int) : Nat → Int → List Neg → List Pair × List Neg
  | 0, _, q => ([], q)
  | fuel + 1, left, q =>
    if wants m fee left then
      match peek q with
      | none => ([], q)
      | some n =>
        if tooSmall m fee (min left n.amount) then ([], q)
        else
          let r := pairUp peek m a fee fuel (left - min left n.amount) (lower q n.key (min left n.amount))
          (⟨a, n.key, min left n.amount⟩ :: r.1, r.2)
    else ([], q)

structure Plan where
  pairs : List Pair
  /-- the accounts put into `recently_settled` -/
  recent : List Nat
  left : List Neg
  deriving DecidableEq, Repr

/-- settle.rs:220-257: the `for` loop over the accounts with gains -/
def plan (peek : List Neg → Option Neg) (m : Market) : List Pos → List Neg → Plan
  | [], q => ⟨[], [], q⟩
  | p :: ps, q =>
    let r := pairUp peek m p.key p.fee (q.length + 1) p.amount q
    if r.1 = [] then ⟨[], [], r.2⟩
    else
      let rest := plan peek m ps r.2
      ⟨r.1 ++ rest.pairs, p.key :: rest.recent, rest.left⟩

/-- settle.rs:203-257: sorted by fee first -/
def planMarket (peek : List Neg → Option Neg) (m : Market) (ps : List Pos) (q : List Neg) : Plan :=
  plan peek m (ps.insertionSort (fun x y => y.fee ≤ x.fee)) q

/-! ## Batches -/

/-- what `add_and_maybe_send` checks: the number of instructions (settle.rs:210, 334), the compute units (333, 335) and the size of the transaction with these instructions (339-341) -/
structure Limits (α : Type) where
  maxBatch : Nat
  cu : α → Nat
  maxCu : Nat
  size : List α → Nat
  maxSize : Nat

structure Batcher (α : Type) where
  /-- `instructions` -/
  current : List α
  /-- the transactions handed to `send_transaction` so far; whether sending succeeds is only logged (settle.rs:302-311) -/
  sent : List (List α)

/-- settle.rs:292-312 `send` -/
def Batcher.send (s : Batcher α) : Batcher α :=
  if s.current = [] then s else ⟨[], s.sent ++ [s.current]⟩

/-- settle.rs:314-360 `add_and_maybe_send` -/
def Batcher.add (l : Limits α) (s : Batcher α) (x : α) : Res (Batcher α) :=
  let next := s.current ++ [x]
  if l.maxBatch < next.length ∨ l.maxCu ≤ (next.map l.cu).sum then
    let s' := s.send
    .ok { s' with current := s'.current ++ [x] }
  else if l.maxSize ≤ l.size next then
    if next.length = 1 then .error .someError
    else
      let s' := s.send
      .ok { s' with current := s'.current ++ [x] }
  else .ok { s with current := next }

/-- settle.rs:220-260: adding the instructions one after another, and the final send; nothing is sent after a failure -/
def Batcher.run (l : Limits α) (s : Batcher α) (xs : List α) : Res (Batcher α) := do
  let s ← xs.foldlM (Batcher.add l) s
  .ok s.send

end Settler
end Mango
