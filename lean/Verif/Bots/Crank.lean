import Verif.Bots.Keeper
/-!
# The crank service

Models bin/service-mango-crank: mango_v4_perp_crank_sink.rs, openbook_crank_sink.rs and, from main.rs, how the event queues of spot markets are found. Keys of accounts are numbers. Not modelled: receiving account updates, decoding,
blockhashes and sending.
-/
namespace Mango
namespace Crank
open Perp

def isFill : Event → Bool
  | .fill _ => true
  | .out _ => false

/-- mango_v4_perp_crank_sink.rs:48-77: the accounts passed with the instruction (limit 10); `none`: throttled. The set is sorted by address, which does not matter to the program -/
def perpSink (q : Queue) : Option (List Nat) :=
  let es := q.toList
  if es.any isFill = false ∧ ¬ es.length > 2 then none else some (((es.take 10).flatMap Keeper.accountsOf).dedup)

/-- `BTreeMap::get` on a map collected from pairs: a later pair replaces an earlier one -/
def lookup (pks : List (Nat × Nat)) (k : Nat) : Option Nat := (pks.reverse.find? (fun p => p.1 == k)).map (·.2)

/-- mango_v4_perp_crank_sink.rs:27-37, 79-107 and openbook_crank_sink.rs:27-32, 85-88: `process` for the queue account `key`: the market and the accounts that are sent -/
def process (pks : List (Nat × Nat)) (key : Nat) (sink : Option (List Nat)) : Res (Option (Nat × List Nat)) :=
  match sink with
  | none => .ok none
  | some avail => match lookup pks key with
    | none => .error .panic
    | some market => .ok (some (market, avail))

/-! ## OpenBook -/

/-- an event of a spot market: is it a fill, the open orders account -/
structure SpotEvent where
  fill : Bool
  owner : Nat
  deriving DecidableEq, Repr

/-- the event queue of a spot market; the ring buffer is the DEX's (`serum_dex::state::Queue`) -/
structure Ring where
  head : Nat := 0
  count : Nat := 0
  seq : Nat := 0
  buf : List SpotEvent
  deriving DecidableEq, Repr

/-- what the DEX does to the queue -/
inductive RingOp where
  | push (e : SpotEvent)
  | pop

/-- `push_back` and `pop_front` of the DEX's queue; they fail if it is full or empty -/
def Ring.step (r : Ring) : RingOp → Ring
  | .push e => if r.count = r.buf.length then r else { r with buf := r.buf.set ((r.head + r.count) % r.buf.length) e, count := r.count + 1, seq := r.seq + 1 }
  | .pop => if r.count = 0 then r else { r with head := (r.head + 1) % r.buf.length, count := r.count - 1 }

/-- openbook_crank_sink.rs:40-60: the events as the crank reads them; a panic if the subtraction is below zero or there is no room for events -/
def readRing (r : Ring) : Res (List SpotEvent) :=
  (List.range r.count).mapM (fun i => do
    require (r.count ≤ r.seq) .panic
    match r.buf[(r.seq - r.count + i) % r.buf.length]? with
    | some e => .ok e
    | none => .error .panic)

/-- openbook_crank_sink.rs:62-98: the open orders accounts and the limit; `none`: throttled. The set is sorted by address -/
def spotSink (es : List SpotEvent) : Option (List Nat × Nat) :=
  if es.any (·.fill) = false ∧ ¬ es.length > 2 then none else some ((es.map (·.owner)).dedup.mergeSort (· ≤ ·), es.length % 65536)

/-- main.rs:91-125: pairs of market and event queue; `queues`: of each market, in order, or `none` if its account does not exist -/
def spotPairs (markets : List Nat) (queues : List (Option Nat)) : List (Nat × Nat) :=
  markets.zip (queues.filterMap id)

end Crank
end Mango
