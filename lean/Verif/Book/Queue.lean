import Verif.Basic
/-!
# The event queue ring buffer

Models /repo/programs/mango-v4/src/state/orderbook/queue.rs:26-150 (`EventQueue`, `EventQueueHeader`).  The element
type is a parameter (the code stores 208-byte `AnyEvent`s).  The capacity is the length of `buf`
(`MAX_NUM_EVENTS` = 488 in the code, queue.rs:11).
-/
namespace Mango

/-- queue.rs:26-31, 125-130 -/
structure EventQueue (α : Type) where
  head : Nat
  count : Nat
  seqNum : Int      -- u64
  buf : List α
  deriving DecidableEq, Repr

namespace EventQueue
variable {α : Type}

/-- queue.rs:11 `MAX_NUM_EVENTS` -/
def MAX_NUM_EVENTS : Nat := 488

/-- queue.rs:36-38 `len` -/
def len (q : EventQueue α) : Nat := q.count
/-- queue.rs:40-42 `is_empty` -/
def isEmpty (q : EventQueue α) : Bool := q.len == 0
/-- queue.rs:44-46 `full` -/
def full (q : EventQueue α) : Bool := q.count == q.buf.length

/-- queue.rs:48-61 `push_back`; `Err(value)` is `queueFull`.  Index arithmetic is on usize. -/
def pushBack (q : EventQueue α) (v : α) : Res (EventQueue α) :=
  if q.full = true then .error .queueFull else do
    let slot := (q.head + q.count) % q.buf.length
    let seq ← cku64 (q.seqNum + 1)
    .ok { q with buf := q.buf.set slot v, count := q.count + 1, seqNum := seq }

/-- queue.rs:63-75 `peek_front` -/
def peekFront (q : EventQueue α) : Option α :=
  if q.isEmpty = true then none else q.buf[q.head]?

/-- queue.rs:77-90 `pop_front` -/
def popFront (q : EventQueue α) : Res (α × EventQueue α) :=
  if q.isEmpty = true then .error .someError else
    match q.buf[q.head]? with
    | none => .error .panic
    | some v => .ok (v, { q with count := q.count - 1, head := (q.head + 1) % q.buf.length })

/-- queue.rs:92-98 `revert_pushes` -/
def revertPushes (q : EventQueue α) (desired : Nat) : Res (EventQueue α) :=
  if desired ≤ q.count then do
    let seq ← cku64 (q.seqNum - (q.count - desired : Nat))
    .ok { q with count := desired, seqNum := seq }
  else .error .someError

/-- queue.rs:100-122 `iter`, collected -/
def toList (q : EventQueue α) : List α :=
  (List.range q.count).filterMap (fun i => q.buf[(q.head + i) % q.buf.length]?)

/-- A zeroed queue, as created by perp_create_market (`load_init`). -/
def init (fill : α) (cap : Nat) : EventQueue α := { head := 0, count := 0, seqNum := 0, buf := List.replicate cap fill }

/-- operations for histories -/
inductive Op (α : Type) where
  | push (v : α)
  | pop
  | revert (desired : Nat)
  deriving Repr, DecidableEq

/-- Run one operation; pops report their value. -/
def step (q : EventQueue α) : Op α → Res (Option α × EventQueue α)
  | .push v => do
      let q' ← q.pushBack v
      .ok (none, q')
  | .pop => do
      let (v, q') ← q.popFront
      .ok (some v, q')
  | .revert n => do
      let q' ← q.revertPushes n
      .ok (none, q')

/-- A history: failing operations leave the queue unchanged and report `none`/the error. -/
def run (q : EventQueue α) : List (Op α) → List (Res (Option α)) × EventQueue α
  | [] => ([], q)
  | op :: ops =>
    match q.step op with
    | .ok (o, q') => let (os, q'') := run q' ops; (.ok o :: os, q'')
    | .error e => let (os, q'') := run q ops; (.error e :: os, q'')

end EventQueue
end Mango
