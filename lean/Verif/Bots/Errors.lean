import Verif.Basic
/-!
# The bots' error tracking

Models lib/client/src/error_tracking.rs. Types, keys and messages are numbers; the two hash maps are a function of type and key. Times are numbers; `Instant::duration_since` gives zero if the other
time is later, as the subtraction of natural numbers. Logging is left out, except that `update` only wipes when it logs.
-/
namespace Mango
namespace Errors

/-- error_tracking.rs:7-12 -/
structure ErrorState where
  errors : List Nat
  count : Nat
  last : Nat
  deriving DecidableEq, Repr

/-- error_tracking.rs:14-57. The overrides for a type are set with the builder (59-72) and never change. -/
structure Tracking where
  state : Nat → Nat → Option ErrorState
  typeThreshold : Nat → Option Nat
  typeDuration : Nat → Option Nat
  threshold : Nat
  duration : Nat
  keepMessages : Nat
  keepDuration : Nat
  lastLog : Nat
  logInterval : Nat

/-- error_tracking.rs:83-94 `should_skip` -/
def shouldSkip (t : Tracking) (ty : Nat) (s : ErrorState) (now : Nat) : Bool :=
  decide ((t.typeThreshold ty).getD t.threshold ≤ s.count) && decide (now - s.last < (t.typeDuration ty).getD t.duration)

/-- error_tracking.rs:96-106 `had_too_many_errors` -/
def hadTooMany (t : Tracking) (ty key now : Nat) : Option ErrorState :=
  match t.state ty key with
  | none => none
  | some s => if shouldSkip t ty s now then some s else none

def setState (t : Tracking) (ty key : Nat) (s : Option ErrorState) : Tracking :=
  { t with state := fun ty' key' => if ty' = ty ∧ key' = key then s else t.state ty' key' }

/-- error_tracking.rs:123-129: the messages, in order of their last appearance -/
def addMessage (keep : Nat) (l : List Nat) (m : Nat) : List Nat :=
  let l := l.erase m ++ [m]
  if keep < l.length then l.tail else l

/-- error_tracking.rs:108-135 `record` -/
def record (t : Tracking) (ty key m now : Nat) : Tracking :=
  let s := (t.state ty key).getD ⟨[], 0, now⟩
  setState t ty key (some ⟨addMessage t.keepMessages s.errors m, s.count + 1, now⟩)

/-- error_tracking.rs:137-141 `clear` -/
def clear (t : Tracking) (ty key : Nat) : Tracking := setState t ty key none

/-- error_tracking.rs:143-150 `wipe_old` -/
def wipeOld (t : Tracking) (now : Nat) : Tracking :=
  { t with state := fun ty key => (t.state ty key).filter (fun s => decide (now - s.last < t.keepDuration)) }

/-- error_tracking.rs:153-161 `update` -/
def update (t : Tracking) (now : Nat) : Tracking :=
  if now - t.lastLog < t.logInterval then t
  else wipeOld { t with lastLog := now } now

/-- the calls that change it -/
inductive Ev
  | record (ty key m : Nat)
  | clear (ty key : Nat)
  | wipe
  | update
  deriving DecidableEq, Repr

def step (t : Tracking) (now : Nat) : Ev → Tracking
  | .record ty key m => record t ty key m now
  | .clear ty key => clear t ty key
  | .wipe => wipeOld t now
  | .update => update t now

/-- a history: calls with their times -/
def run (t : Tracking) (l : List (Nat × Ev)) : Tracking := l.foldl (fun t e => step t e.1 e.2) t

end Errors
end Mango
