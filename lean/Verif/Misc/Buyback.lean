import Verif.Fixed
/-!
# Fees usable for buyback

Models state/mango_account.rs:404-445 (`expire_buyback_fees`, `buyback_fees_accrued`, `accrue_buyback_fees`, `reduce_buyback_fees_accrued`)
and the amounts computed in instructions/account_buyback_fees_with_mngo.rs:56-159. u64 values are integers with range checks.
-/
namespace Mango
namespace Buyback
open Fx

/-- state/mango_account.rs:147-160: the three fields -/
structure BB where
  current : Int := 0
  previous : Int := 0
  expiry : Int := 0
  deriving DecidableEq, Repr

/-- mango_account.rs:405-415 `expire_buyback_fees` -/
def expire (b : BB) (now interval : Int) : Res BB :=
  if interval = 0 ∨ now < b.expiry then .ok b
  else do
    let e ← cku64 (b.expiry + interval)
    let e' ← cku64 ((now / interval + 1) * interval)
    .ok { current := 0, previous := if now < e then b.current else 0, expiry := e' }

/-- mango_account.rs:418-421 `buyback_fees_accrued` (saturating) -/
def accrued (b : BB) : Int := min (b.current + b.previous) U64MAX

/-- mango_account.rs:427-430 `accrue_buyback_fees` (saturating) -/
def accrue (b : BB) (amount : Int) : BB := { b with current := min (b.current + amount) U64MAX }

/-- mango_account.rs:435-445 `reduce_buyback_fees_accrued` -/
def reduce (b : BB) (amount : Int) : Res BB :=
  if amount > b.previous then do
    let r := amount - b.previous
    require (r ≤ b.current) .panic
    .ok { b with current := b.current - r, previous := 0 }
  else .ok { b with previous := b.previous - amount }

/-- One instruction: expiry runs first in the same instruction (perp_place_order.rs:101-103, serum3_place_order.rs:616-622,
account_buyback_fees_with_mngo.rs:57-59), then fees are added or used. -/
inductive Op where
  | accrue (now amount : Int)
  | use (now amount : Int)
  deriving DecidableEq, Repr

def Op.now : Op → Int
  | .accrue t _ => t
  | .use t _ => t

def step (interval : Int) (b : BB) : Op → Res BB
  | .accrue now a => do
      let b ← expire b now interval
      .ok (accrue b a)
  | .use now a => do
      let b ← expire b now interval
      reduce b a

/-- a failing instruction changes nothing -/
def stepT (interval : Int) (b : BB) (o : Op) : BB :=
  match step interval b o with
  | .ok b' => b'
  | .error _ => b

def run (interval : Int) : BB → List Op → BB
  | b, [] => b
  | b, o :: os => run interval (stepT interval b o) os

/-- amounts exchanged: usd value, MNGO paid by the account, fee tokens received -/
structure Exchange where
  usd : I80F48
  mngo : I80F48
  fees : I80F48
  deriving DecidableEq, Repr

/-- account_buyback_fees_with_mngo.rs:56-159 after `expire`: `none` is one of the two early returns.
`daoFees` is the DAO account's native fee-token balance, `feesPrice` the liability price of the fee token, `accountMngo` the account's native
MNGO balance, `mngoPrice` the asset price of MNGO, `bonus` the bonus factor. Bank bookkeeping is the subject of C01-C12. -/
def buyback (b : BB) (maxUsd : Int) (daoFees feesPrice accountMngo mngoPrice bonus : I80F48) : Res (Option (Exchange × BB)) := do
  let dao ← Fx.mul daoFees feesPrice
  let usd := min (Fx.ofInt (min maxUsd (accrued b))) dao
  if usd ≤ 0 then .ok none
  else if accountMngo ≤ 0 then .ok none
  else do
    let price ← Fx.mul mngoPrice bonus
    let m ← Fx.div usd price
    let m := min m accountMngo
    let x ← Fx.mul m price
    let usd := min usd x
    let fees ← Fx.div usd feesPrice
    require (daoFees ≥ fees) .panic
    let c ← Fx.ceil usd
    let b' ← reduce b (Fx.toInt c)
    .ok (some (⟨usd, m, fees⟩, b'))

end Buyback
end Mango
