import Verif.Book.Queue
import Verif.Perp.Types
/-!
# The fills feed

Models bin/service-mango-fills/src/fill_event_filter.rs for perp markets: `publish_changes_perp` (34-216) and the loop that calls it (456-612), for one market. The messages to subscribers are
modelled as the list that is sent to the channel. A fill is published as a `FillEvent` (src/lib.rs:93-121), which is computed from the queue's event field by field; here the event itself is
published. Metrics, logging, market keys and names, slot and write version in the messages are left out. Spot markets publish nothing (the code is commented out, 219-397).

Which accounts' states reach the service, in which order, with which slots and write versions, is up to the outside (`ChainData` of another repository): any sequence.
-/
namespace Mango
namespace Feeds
open Perp

/-- service-mango-fills/src/lib.rs:12-16 -/
inductive Status | new | revoke
  deriving DecidableEq, Repr

/-- service-mango-fills/src/lib.rs:307-311 -/
inductive Msg
  | update (status : Status) (fill : FillEv)
  | headUpdate (head prevHead : Nat) (headSeq prevHeadSeq : Int)
  | checkpoint (events : List FillEv)
  deriving DecidableEq, Repr

/-- `if event_type == Fill` and the cast (fill_event_filter.rs:74-75 and others) -/
def fillOf : Option Event → List FillEv
  | some (.fill f) => [f]
  | _ => []

/-- the seq num of an event plus one (164-182), 0 for other events -/
def nextSeq : Option Event → Int
  | some (.fill f) => f.seqNum + 1
  | some (.out o) => o.seqNum + 1
  | none => 0

/-- 57-141: the updates for one sequence number of the current queue; `cap` is MAX_NUM_EVENTS -/
def updatesAt (cap : Nat) (prev cur : Queue) (n : Nat) : List Msg :=
  let e := cur.buf[n % cap]?
  let p := prev.buf[n % cap]?
  if prev.seqNum ≤ n then (fillOf e).map (.update .new)
  else if p ≠ e then (fillOf p).map (.update .revoke) ++ (fillOf e).map (.update .new)
  else []

/-- 52-53 -/
def startSeq (cap : Nat) (prev cur : Queue) : Nat := (max prev.seqNum cur.seqNum).toNat - cap

/-- 57-141, all sequence numbers -/
def updates (cap : Nat) (prev cur : Queue) : List Msg :=
  (List.range' (startSeq cap prev cur) (cur.seqNum.toNat - startSeq cap prev cur)).flatMap (updatesAt cap prev cur)

/-- 143-166 -/
def drops (cap : Nat) (prev cur : Queue) : List Msg :=
  (List.range' cur.seqNum.toNat (prev.seqNum.toNat - cur.seqNum.toNat)).flatMap
    (fun n => (fillOf prev.buf[n % cap]?).map (.update .revoke))

/-- the events collected for the checkpoint in the three cases (86, 129, 137): the fills of the window -/
def window (cap : Nat) (prev cur : Queue) : List FillEv :=
  (List.range' (startSeq cap prev cur) (cur.seqNum.toNat - startSeq cap prev cur)).flatMap (fun n => fillOf cur.buf[n % cap]?)

/-- `publish_changes_perp` (34-216). `false`: the task panicked (`events[head - 1]` with head 0, 170 and 180), after the updates were sent. -/
def publish (cap : Nat) (prev cur : Queue) : List Msg × Bool :=
  let ms := updates cap prev cur ++ drops cap prev cur
  if cur.head = 0 ∨ prev.head = 0 then (ms, false)
  else
    let h := if cur.head ≠ prev.head then
        [.headUpdate cur.head prev.head (nextSeq cur.buf[cur.head - 1]?) (nextSeq prev.buf[prev.head - 1]?)] else []
    (ms ++ h ++ [.checkpoint (window cap prev cur)], true)

/-- the service's memory for one market (441-446): the last queue, its version; `alive`: the task has not panicked -/
structure Service where
  alive : Bool := true
  version : Nat × Nat := (0, 0)
  cache : Option Queue := none
  deriving Repr

/-- 513-526: the queue's version is newer than the last one -/
def newer (v last : Nat × Nat) : Bool :=
  !(decide (v = last)) && !(decide (v.1 < last.1)) && !(decide (v.1 = last.1) && decide (v.2 < last.2))

/-- 506-573: the service looks at the queue account after an update -/
def Service.see (s : Service) (cap : Nat) (v : Nat × Nat) (q : Queue) : Service × List Msg :=
  if s.alive = false then (s, [])
  else if newer v s.version then
    match s.cache with
    | none => ({ s with version := v, cache := some q }, [])
    | some prev =>
      let r := publish cap prev q
      ({ s with version := v, cache := some q, alive := r.2 }, r.1)
  else (s, [])

/-- a run of the service over the queue states it sees -/
def Service.run (s : Service) (cap : Nat) : List ((Nat × Nat) × Queue) → Service × List Msg
  | [] => (s, [])
  | (v, q) :: rest =>
    let r := s.see cap v q
    let r' := r.1.run cap rest
    (r'.1, r.2 ++ r'.2)

end Feeds
end Mango
