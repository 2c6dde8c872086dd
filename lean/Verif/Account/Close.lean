import Verif.Account.Slots
/-!
# Closing an account

Models /repo/programs/mango-v4/src/instructions/account_close.rs and accounts_ix/account_close.rs over the slots of an account.
-/
namespace Mango
namespace AccountClose
open Slots

/-- What the instruction sees besides the slots of the account: the group (`testing`, `is_ix_enabled(AccountClose)`), the other
fields of the account (mango_account.rs:300-360: `being_liquidated`, `frozen_until`, `group`, `owner`), the accounts passed and
the clock. -/
structure Env where
  testing : Bool
  enabled : Bool
  group : Nat
  accountGroup : Nat
  accountOwner : Nat
  owner : Nat
  ownerSigned : Bool
  frozenUntil : Nat
  now : Nat
  beingLiquidated : Bool

/-- account_close.rs:10-12: `force_close` is for test groups -/
def checkForce (testing force : Bool) : Res Unit := if testing = false then require (force = false) .someError else .ok ()

/-- account_close.rs:14-25; conditional swaps are not looked at, as in the code -/
def checkEmpty (e : Env) (a : Acc) : Res Unit := do
  require (e.beingLiquidated = false) .someError
  require (a.tokens.all (fun p => p.index == FREE)) .requireFailed
  require (a.serums.all (fun p => p.market == FREE)) .requireFailed
  require (a.perps.all (fun p => p.market == FREE)) .requireFailed

/-- account_close.rs:7-28 with the constraints of accounts_ix/account_close.rs:8-24 (`is_operational` is
mango_account.rs:355-358). The account is then removed by Anchor's `close = sol_destination` (accounts_ix/account_close.rs:21). The
order of the constraints, which only decides which error is reported, is that of the fields. -/
def closeAccount (e : Env) (force : Bool) (a : Acc) : Res Unit := do
  require (e.enabled = true) .requireFailed
  require (e.accountGroup = e.group) .requireFailed
  require (e.accountOwner = e.owner) .requireFailed
  require (e.frozenUntil < e.now) .requireFailed
  require (e.ownerSigned = true) .requireFailed
  checkForce e.testing force
  if force = false then checkEmpty e a else .ok ()

/-- a transaction sequence: one instruction after the other (Account/Slots `step`) -/
def runOps (mk : Markets) : Acc → List Op → Res Acc
  | a, [] => .ok a
  | a, o :: os => do
    let a ← step mk a o
    runOps mk a os

end AccountClose
end Mango
