import Verif.Account.Slots
import Verif.Fixed
/-!
# Making room for a spot market in an account

Models what lib/client/src/client.rs:934-1131 plans so that an order can be placed in a spot market the account has no open orders account for, and what the program makes of that plan. `pos` of a token position is its balance (raw fixed point, at the
bank's index), `data` of a spot market slot whatever `oo`, the content of the open orders accounts, depends on. Not modelled: failures to fetch accounts that exist.
-/
namespace Mango
namespace SlotPlan
open Slots

/-- an instruction of the plan: withdrawing all of a token without borrowing, with `banks` banks listed for the health check; closing the open orders account of a market; creating one -/
inductive Ix where
  | withdraw (t banks : Nat)
  | close (m : Nat)
  | create (m : Nat)
  deriving DecidableEq, Repr

/-- the positions in use -/
def active (ts : List TokenSlot) : Nat := (ts.filter (fun p => p.index ≠ FREE)).length

/-- client.rs:1091-1112: active, not in use, with a balance from zero to one native unit -/
def closable (p : TokenSlot) : Bool := p.index ≠ FREE ∧ p.inUse = 0 ∧ 0 ≤ p.pos ∧ p.pos ≤ S

/-- client.rs:1087-1131: `deactivate_first_active_unused_token`; the banks listed are those of the account as the client has it (context.rs:437-451) -/
def freeOne (ts : List TokenSlot) : Res (Ix × List TokenSlot) :=
  match ts.findIdx? closable with
  | none => .error .noFreeTokenPositionIndex
  | some raw =>
    match ts[raw]? with
    | none => .error .panic
    | some p => do
      let ts' ← deactivateToken ts raw
      .ok (.withdraw p.index (active ts), ts')

/-- client.rs:1068-1085: `find_existing_or_try_to_replace_token_position` -/
def ensureOne (ts : List TokenSlot) (t : Nat) : Res (List Ix × List TokenSlot) :=
  match ensureToken ts t with
  | .ok (ts', _, _) => .ok ([], ts')
  | .error .noFreeTokenPositionIndex => do
    let (ix, ts1) ← freeOne ts
    let (ts2, _, _) ← ensureToken ts1 t
    .ok ([ix], ts2)
  | .error _ => .ok ([], ts)

/-- client.rs:1049-1066: for the payer's token and the receiver's; without instructions if it fails, but then the account may have changed -/
def ensureBoth (ts : List TokenSlot) (payer receiver : Nat) : Option (List Ix) × List TokenSlot :=
  match ensureOne ts payer with
  | .error _ => (none, ts)
  | .ok (i1, ts1) =>
    match ensureOne ts1 receiver with
    | .error _ => (none, ts1)
    | .ok (i2, ts2) => (some (i1 ++ i2), ts2)

/-- client.rs:1006-1032: the first spot market slot whose open orders account (`oo`) can be closed. The account of a free slot is inspected too: it is the default key (the system program, too short, a panic) or that of a closed account (not found) -/
def firstClosable (oo : SerumSlot → Bool) : List SerumSlot → Res Nat
  | [] => .error .panic
  | s :: q => if s.market = FREE then .error .someError else if oo s then .ok s.market else firstClosable oo q

/-- client.rs:934-1004: `serum3_create_or_replace_account_instruction` for market `m` -/
def plan (mk : Markets) (oo : SerumSlot → Bool) (a : Acc) (m payer receiver : Nat) : Res (List Ix) :=
  let first := ensureBoth a.tokens payer receiver
  let a1 : Acc := { a with tokens := first.2 }
  if a.serums.any (fun p => p.market == m) then .ok (first.1.getD [])
  else do
    let (i2, a2) ← (if a.serums.any (fun p => p.market == FREE) = false ∨ first.1.isNone = true then do
        let k ← firstClosable oo a1.serums
        let a2 ← closeSerum mk a1 k
        .ok ([Ix.close k], a2)
      else .ok ([], a1) : Res (List Ix × Acc))
    let i3 ← (match first.1 with
      | some _ => .ok []
      | none => match (ensureBoth a2.tokens payer receiver).1 with
        | some i => .ok i
        | none => .error .noFreeTokenPositionIndex : Res (List Ix))
    -- `create_serum3_orders` in the client's account
    if a2.serums.any (fun p => p.market == FREE) then .ok (first.1.getD [] ++ i2 ++ i3 ++ [.create m])
    else .error .noFreeSerum3OpenOrdersIndex

/-- an instruction on chain. Withdrawing (instructions/token_withdraw.rs:25-73): the position is made if it does not exist, no more banks may be listed than there are positions (health/account_retriever.rs:110-111), all whole units are withdrawn and
the position is closed if it is not in use (C04, C32); of a borrow nothing -/
def exec (mk : Markets) (a : Acc) : Ix → Res Acc
  | .withdraw t banks => do
    let (ts, raw, _) ← ensureToken a.tokens t
    require (banks ≤ active ts) .requireFailed
    match ts[raw]? with
    | none => .error .panic
    | some p => if p.pos < 0 then changeToken a t p.pos false else changeToken a t (p.pos % S) true
  | .close m => closeSerum mk a m
  | .create m => createSerum mk a m 0

/-- a transaction -/
def run (mk : Markets) : Acc → List Ix → Res Acc
  | a, [] => .ok a
  | a, i :: q => do
    let a ← exec mk a i
    run mk a q

end SlotPlan
end Mango
