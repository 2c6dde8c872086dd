import Verif.Basic
import Mathlib.Order.Basic
import Mathlib.Data.Nat.Notation
/-!
# Sending and confirming transactions

Models lib/client/src/confirm_transaction.rs:63-113 (`wait_for_transaction_confirmation`), lib/client/src/client.rs:239-266 (`send_transaction`) and 2567-2581 (`send_and_confirm`), and
lib/services-mango-lib/src/retry_counter.rs.  What the RPC node answers is an input; `World` is what it would answer truthfully.  Times are in milliseconds since the start of waiting.  Left out: contents of
errors, the client's own waiting between iterations (only that times do not go back).
-/
namespace Mango
namespace Confirm

/-- `CommitmentLevel` -/
inductive Level where
  | processed | confirmed | finalized
  deriving DecidableEq, Repr

def Level.rank : Level → Nat
  | .processed => 0
  | .confirmed => 1
  | .finalized => 2

/-- solana's `TransactionStatus`: what has become of a transaction seen by the node; `err` is its error, if it failed -/
structure Status where
  level : Level
  err : Option Nat
  deriving DecidableEq, Repr

/-- solana's `TransactionStatus::satisfies_commitment` -/
def Status.satisfies (s : Status) (wanted : Level) : Bool := wanted.rank ≤ s.level.rank

/-- 44-56 `RpcConfirmTransactionConfig`, `commitment` with its default -/
structure Cfg where
  commitment : Level
  initialTimeout : Nat
  timeout : Option Nat

/-- 9-17 `WaitForTransactionConfirmationError` -/
inductive Err where
  | blockhashExpired | timeout | client
  deriving DecidableEq, Repr

/-- what one turn of the loop sees, in order: the time at the check of the timeout, the answer to the status query (`none`: an
error), the time after it, and the answer to the query for the blockhash (`none`: an error) -/
structure Turn where
  time1 : Nat
  statuses : Option (List (Option Status))
  time2 : Nat
  valid : Option Bool

/-- 72: `is_timed_out` -/
def Cfg.timedOut (c : Cfg) (time : Nat) : Bool :=
  match c.timeout with
  | some d => time > d
  | none => false

/-- 73-111: one turn of the loop; `none` is another turn -/
def turn (c : Cfg) (t : Turn) : Option (Except Err Status) :=
  if c.timedOut t.time1 = true then some (.error .timeout) else
  match t.statuses with
  | none => some (.error .client)
  | some [] => some (.error .client)
  | some (none :: _) =>
    if t.time2 > c.initialTimeout then
      match t.valid with
      | none => some (.error .client)
      | some true => none
      | some false => some (.error .blockhashExpired)
    else none
  | some (some st :: _) => if st.satisfies c.commitment = true then some (.ok st) else none

/-- 63-113: the loop over what it sees; `none` if it is still waiting after that -/
def wait (c : Cfg) : List Turn → Option (Except Err Status)
  | [] => none
  | t :: ts => match turn c t with
    | some r => some r
    | none => wait c ts

/-- client.rs:239-266: the transaction goes to all nodes, `true` for those that take it; the first error if none does -/
def send (results : List Bool) : Except Err Unit :=
  if results.filter (fun r => r) = [] then .error .client else .ok ()

/-- client.rs:2567-2581: returns the signature, a constant here -/
def sendAndConfirm (c : Cfg) (results : List Bool) (ts : List Turn) : Option (Except Err Unit) :=
  match send results with
  | .error e => some (.error e)
  | .ok _ => match wait c ts with
    | none => none
    | some (.error e) => some (.error e)
    | some (.ok _) => some (.ok ())

end Confirm

namespace Retry

/-- retry_counter.rs:1-4 -/
structure Counter where
  errors : Nat
  max : Nat
  deriving DecidableEq, Repr

/-- 7-12 -/
def Counter.new (max : Nat) : Counter := { errors := 0, max }

/-- 23-36 with 14-21: `fail_or_ignore`; errors are numbers -/
def Counter.failOrIgnore {α : Type} (c : Counter) (r : Except Nat α) : Counter × Except Nat (Option α) :=
  match r with
  | .error e =>
    let c := { c with errors := c.errors + 1 }
    if c.errors ≤ c.max then (c, .ok none) else ({ c with errors := 0 }, .error e)
  | .ok v => ({ c with errors := 0 }, .ok (some v))

/-- 41-57 `fail_or_retry!`: `rs` are the results the expression has when it is evaluated again and again; returns what the macro
gives with the evaluations that are left, `none` if `rs` is not long enough -/
def failOrRetry {α : Type} (c : Counter) : List (Except Nat α) → Counter × Option (Except Nat α × List (Except Nat α))
  | [] => (c, none)
  | r :: rs =>
    match c.failOrIgnore r with
    | (c', .ok (some v)) => (c', some (.ok v, rs))
    | (c', .ok none) => failOrRetry c' rs
    | (c', .error e) => (c', some (.error e, rs))

/-- a counter used for one result after the other (persister.rs:88-96) -/
def run {α : Type} (c : Counter) : List (Except Nat α) → Counter × List (Except Nat (Option α))
  | [] => (c, [])
  | r :: rs =>
    let (c', x) := c.failOrIgnore r
    let (c'', xs) := run c' rs
    (c'', x :: xs)

end Retry
end Mango
