import Mathlib.Order.Basic
import Mathlib.Data.Nat.Notation
import Mathlib.Data.List.Basic
/-!
# Refreshing accounts after a transaction

Models lib/client/src/chain_data_fetcher.rs:128-214: `refresh_account_via_rpc`, `transaction_max_slot` and `refresh_accounts_via_rpc_until_slot`, with which the liquidator waits, after it sent a transaction, until its view of accounts is newer than the transaction.  The chain data itself
(crate `mango-feeds-connector`) is outside this repository: it is the list of what it was told and its best slot, which a slot told with the best one as its parent extends.  What the node answers is an input.  Times are milliseconds since the
start.
-/
namespace Mango
namespace Refresh

/-- what the chain data is told: an account's data as of a slot -/
structure Upd (A D : Type) where
  address : A
  slot : Nat
  data : D
  deriving DecidableEq

/-- the chain data: its best slot, and the account updates it was given, newest first -/
structure Chain (A D : Type) where
  best : Nat
  upds : List (Upd A D)

/-- what the node answers for an account: an error or an account that does not exist (`none`), or the slot of the answer and the data -/
abbrev Answer (D : Type) := Option (Nat × D)

variable {A D : Type}

/-- 128-163 `refresh_account_via_rpc`: `none` is an error; otherwise the slot and the chain data.  146-153: a newer slot is told first, as a child of the best one -/
def refresh (c : Chain A D) (address : A) (ans : Answer D) : Option (Nat × Chain A D) :=
  match ans with
  | none => none
  | some (slot, data) =>
    let best := if c.best < slot then slot else c.best
    some (slot, { best := best, upds := { address := address, slot := slot, data := data } :: c.upds })

/-- 166-173 `transaction_max_slot`: the statuses' slots, `none` for a signature that the node does not know -/
def maxSlot (statuses : List (Option Nat)) : Nat :=
  (statuses.map fun s => s.getD 0).foldr max 0

/-- how waiting ends; `pending` when the given turns do not suffice -/
inductive Outcome where
  | done | timeout | failed | pending
  deriving DecidableEq

/-- a turn of the loop: the time at its start, and what the node would then answer for each account -/
structure Turn (A D : Type) where
  elapsed : Nat
  answer : A → Answer D

/-- 176-203 `refresh_accounts_via_rpc_until_slot` -/
def refreshUntil (min timeout : Nat) : List A → List (Turn A D) → Chain A D → Outcome × Chain A D
  | [], _, c => (.done, c)
  | _ :: _, [], c => (.pending, c)
  | a :: as, t :: ts, c =>
    if t.elapsed > timeout then (.timeout, c) else
    match refresh c a (t.answer a) with
    | none => (.failed, c)
    | some (slot, c') => if slot ≥ min then refreshUntil min timeout as ts c' else refreshUntil min timeout (a :: as) ts c'

/-- bin/liquidator/src/liquidate.rs:742-753, tcs_state.rs:195-212, rebalance.rs:100-114: after sending, the accounts are refreshed up to the slot of the transactions -/
def afterSending (statuses : List (Option Nat)) (timeout : Nat) (addresses : List A) (ts : List (Turn A D)) (c : Chain A D) :
    Outcome × Chain A D :=
  refreshUntil (maxSlot statuses) timeout addresses ts c

end Refresh
end Mango
