import Verif.Health.Model
/-!
# Liquidation flag and health checks

Models state/mango_account.rs:393-402, 1393-1494 and instructions/health_region.rs:85-121. Healths are the values computed from the account at
the time of the check; in the histories they are arbitrary inputs (prices move between instructions).
-/
namespace Mango
namespace Account
open Fx

/-- the part of the account the checks read and write: `being_liquidated` -/
structure Liq where
  being : Bool
  deriving DecidableEq, Repr

/-- mango_account.rs:393-402 `maybe_recover_from_being_liquidated`; returns whether it recovered -/
def Liq.maybeRecover (a : Liq) (health : I80F48) : Liq × Bool :=
  if a.being = true ∧ health > -ONE then (⟨false⟩, true) else (a, false)

/-- mango_account.rs:39-43 `CheckLiquidatable` -/
inductive CheckLiquidatable where
  | notLiquidatable
  | liquidatable
  | becameNotLiquidatable
  deriving DecidableEq, Repr

/-- mango_account.rs:1401-1419 `check_health_pre_checks`; `liqEnd` is the liquidation-end health, computed only when needed -/
def Liq.checkPre (a : Liq) (preInit : I80F48) (liqEnd : Res I80F48) : Res Liq := do
  let a := (a.maybeRecover preInit).1
  let a ← (if a.being = true then do
      let h ← liqEnd
      .ok (a.maybeRecover h).1
    else .ok a)
  require (a.being = false) .beingLiquidated
  .ok a

/-- mango_account.rs:1432-1458 `check_health_post_checks` -/
def checkPost (preInit postInit : I80F48) : Res Unit := do
  let ok ← (if postInit < ofInt (-1000) then do
      let a ← Fx.ceil postInit
      let b ← Fx.ceil preInit
      .ok (decide (a ≥ b))
    else .ok (decide (postInit ≥ preInit)))
  require (postInit ≥ 0 ∨ ok = true) .healthMustBePositiveOrIncrease

/-- mango_account.rs:1462-1465 `check_health_post_checks_strict` -/
def checkPostStrict (postInit : I80F48) : Res Unit := require (postInit ≥ 0) .healthMustBePositive

/-- mango_account.rs:1467-1494 `check_liquidatable` -/
def Liq.checkLiquidatable (a : Liq) (maint liqEnd : Res I80F48) : Res (Liq × CheckLiquidatable) :=
  if a.being = true then do
    let h ← liqEnd
    let (a, r) := a.maybeRecover h
    (if r = true then .ok (a, .becameNotLiquidatable) else .ok (a, .liquidatable))
  else do
    let m ← maint
    (if m ≥ 0 then .ok (a, .notLiquidatable) else .ok (⟨true⟩, .liquidatable))

/-- health_region.rs:85-95: the begin stores the rounded-up init health (i64) on the account; returns it -/
def Liq.regionBegin (a : Liq) (preInit : I80F48) (liqEnd : Res I80F48) : Res (Liq × Int) := do
  let a ← a.checkPre preInit liqEnd
  let c ← Fx.ceil preInit
  let n ← ck64 (Fx.toInt c)
  .ok (a, n)

/-- health_region.rs:98-121: the end checks against the stored value -/
def regionEnd (stored : Int) (postInit : I80F48) : Res Unit := checkPost (ofInt stored) postInit

/-- What instructions do to the flag. Each carries the healths computed while it runs. -/
inductive HOp where
  /-- user action: pre check, action, post check (place order, withdraw, flash loan, conditional swaps) -/
  | guarded (pre liqEnd post : I80F48)
  /-- a health region around any number of actions -/
  | region (pre liqEnd post : I80F48)
  /-- withdrawal of a token the health cache does not know (token_withdraw.rs:157-172): strict post check on the unchanged lower bound -/
  | strict (pre liqEnd : I80F48)
  /-- token_deposit.rs:138-151: a deposit into an account being liquidated must make it recover -/
  | deposit (liqEnd : I80F48)
  /-- liquidation: check, and if liquidatable act and check for recovery afterwards -/
  | liquidate (maint liqEnd liqEndAfter : I80F48)
  deriving DecidableEq, Repr

/-- one instruction: the new flag and whether a liquidation action took place -/
def Liq.step (a : Liq) : HOp → Res (Liq × Bool)
  | .guarded pre liqEnd post => do
      let a ← a.checkPre pre (.ok liqEnd)
      checkPost pre post
      .ok (a, false)
  | .region pre liqEnd post => do
      let (a, n) ← a.regionBegin pre (.ok liqEnd)
      regionEnd n post
      .ok (a, false)
  | .strict pre liqEnd => do
      let a ← a.checkPre pre (.ok liqEnd)
      checkPostStrict pre
      .ok (a, false)
  | .deposit liqEnd =>
      if a.being = true then do
        let (a, r) := a.maybeRecover liqEnd
        require (r = true) .depositsIntoLiquidatingMustRecover
        .ok (a, false)
      else .ok (a, false)
  | .liquidate maint liqEnd after => do
      let (a, r) ← a.checkLiquidatable (.ok maint) (.ok liqEnd)
      (if r = .liquidatable then .ok ((a.maybeRecover after).1, true) else .ok (a, false))

/-- a history; failing instructions leave the account unchanged. The second component collects whether each was a liquidation action. -/
def Liq.run (a : Liq) : List HOp → Liq × List Bool
  | [] => (a, [])
  | op :: ops =>
    match a.step op with
    | .ok (a', b) => let r := a'.run ops; (r.1, b :: r.2)
    | .error _ => let r := a.run ops; (r.1, false :: r.2)

end Account
end Mango
