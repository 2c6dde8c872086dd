import Verif.Tcs.Model
import Verif.Bots.Keeper
/-!
# The settler: starting token conditional swaps

Models bin/settler/src/tcs_start.rs (line numbers refer to it). Not modelled: the random order of the accounts, fetching, building the instructions' accounts, sending, the bookkeeping of errors (Bots/Errors) and logs.
-/
namespace Mango
namespace TcsStart
open Swap Bank

/-- 193-240 `is_tcs_startable`: is the incentive for starting the swap to be had at these prices? An f64 price divided by zero is infinite or NaN and in no range -/
def check (now : Int) (rnd : ℚ → ℚ) (buyPrice sellPrice : I80F48) (t : Tcs) (bank : Bank) (pos : TokenPosition) : Res Bool :=
  if t.kind ≠ .premiumAuction ∨ t.isExpired now ∨ t.passedStart now then .ok false
  else if toF rnd sellPrice = 0 then .ok false
  else match t.checkStartable (rnd (toF rnd buyPrice / toF rnd sellPrice)) now with
    | .error _ => .ok false
    | .ok _ => do
      let q ← Fx.div (Fx.ofInt 1000) sellPrice
      let r ← t.remainingSell
      let inc := min q (Fx.ofInt r)
      let n ← pos.native bank
      if n < inc then
        if t.allowBorrows = false ∨ bank.areBorrowsReduceOnly = true then .ok false
        else do
          let (b, _, _) ← bank.withdrawWithFee pos inc now
          match b.checkNetBorrows sellPrice with
          | .error .bankNetBorrowsLimitReached => .ok false
          | .error e => .error e
          | .ok _ => .ok true
      else .ok true

/-- a swap to be started: its owner's account, its id, its sell token -/
structure Item where
  account : Nat
  id : Nat
  token : Nat
  deriving DecidableEq, Repr

/-- a swap of an account and what the check says; `none`: it returned an error -/
structure Seen where
  id : Nat
  token : Nat
  verdict : Option Bool
  deriving DecidableEq, Repr

/-- an account as the bot sees it: it could be fetched and is in the group, it had too many errors -/
structure Acct where
  key : Nat
  usable : Bool
  blocked : Bool
  swaps : List Seen
  deriving DecidableEq, Repr

/-- 58-98: an error is recorded, and the swap is kept -/
def startable (accts : List Acct) : List Item :=
  (accts.filter (fun a => a.usable && !a.blocked)).flatMap (fun a =>
    (a.swaps.filter (fun t => t.verdict ≠ some false)).map (fun t => ⟨a.key, t.id, t.token⟩))

/-- 100-123: the swaps of a chunk that are started in one transaction. `free`: free token positions in the bot's account, `held`: tokens with a position; `make`: the instruction could be prepared -/
def pick (make : Item → Bool) : Nat → List Nat → List Item → List Item
  | _, _, [] => []
  | free, held, x :: xs =>
    if x.token ∈ held then (if make x then [x] else []) ++ pick make free held xs
    else match free with
      | 0 => []
      | free + 1 => (if make x then [x] else []) ++ pick make free (x.token :: held) xs

/-- 126-142: the tokens withdrawn at the end of the transaction -/
def withdrawn (chunk : List Item) : List Nat := (chunk.map Item.token).dedup

/-- 100 -/
def groups (items : List Item) : List (List Item) := Keeper.chunks 8 items.length items

end TcsStart
end Mango
