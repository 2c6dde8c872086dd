import Verif.Perp.System
import Verif.Misc.Collateral
/-!
# The keeper

Models bin/keeper/src/crank.rs: which accounts are passed to the instruction that consumes a perp market's events (loop_consume_events), which accounts are charged collateral fees (charge_collateral_fees_inner) and how the
instructions are put into transactions (send_batched_log_errors_no_confirm), and how the tokens are divided among the loops that update them (runner). Line numbers refer to that file. Not modelled: requests, sending,
waiting, logs and metrics, taker.rs.
-/
namespace Mango
namespace Keeper
open Perp

/-- 270-281: the accounts an event names; an event of any other kind is not pushed by the program -/
def accountsOf : Event → List Nat
  | .fill f => [f.maker, f.taker]
  | .out e => [e.owner]

/-- `HashSet::insert` -/
def insertAll (set : List Nat) (us : List Nat) : List Nat := us.foldl (fun s u => if u ∈ s then s else s ++ [u]) set

/-- 265-283: at most `k` more events are looked at -/
def look : Nat → Queue → List Nat → Nat → Res (List Nat × Nat)
  | 0, _, set, n => .ok (set, n)
  | k + 1, q, set, n =>
    match q.peekFront with
    | none => .ok (set, n)
    | some e => do
      let (_, q) ← q.popFront
      look k q (insertAll set (accountsOf e)) (n + 1)

/-- 253-290 `find_accounts`: the set of accounts and the number of events; `none`: no event, nothing is sent -/
def findAccounts (q : Queue) : Res (Option (List Nat × Nat)) := do
  let (set, n) ← look 10 q [] 0
  if n = 0 then .ok none else .ok (some (set, n))

/-- 330-333: the instruction that is sent: limit 10, with these accounts (as an operation of the market, Perp/System) -/
def crankOp (avail : List Nat) : POp := .consume 10 avail

/-- 523-530: is the account sent to be charged? The sum is on u64 -/
def selects (interval last now : Int) : Res Bool :=
  if interval = 0 ∧ last > 0 then .ok true
  else if interval > 0 then do
    let next ← cku64 (last + interval)
    .ok (decide (now > next))
  else .ok false

/-- 558-607 `send_batched_log_errors_no_confirm`: the transactions handed to `send`, each a list of the instructions in it; whether sending succeeds is only logged. `fits`: the transaction's size is known and within the limit,
`cu`: compute units, `cur`: `current_batch` -/
def batches {α : Type} (fits : List α → Bool) (cu : α → Nat) (maxCu : Nat) : List α → List α → List (List α)
  | cur, [] => if cur = [] then [] else [cur]
  | cur, x :: xs =>
    if fits (cur ++ [x]) = false ∨ maxCu < ((cur ++ [x]).map cu).sum then cur :: batches fits cu maxCu [x] xs
    else batches fits cu maxCu (cur ++ [x]) xs

/-- itertools `chunks(n)` -/
def chunks {α : Type} (n : Nat) : Nat → List α → List (List α)
  | 0, _ => []
  | _, [] => []
  | fuel + 1, xs => xs.take n :: chunks n fuel (xs.drop n)

/-- 104-124: the tokens each `loop_update_index_and_rate` updates -/
def tokenLoops {α : Type} (closed : α → Bool) (tokens : List α) : List (List α) :=
  let live := tokens.filter (fun t => !closed t)
  chunks 8 live.length live

end Keeper
end Mango
