import Verif.Account.HealthCheck
/-!
# Health regions in transactions

Models instructions/health_region.rs and accounts_ix/health_region.rs in a transaction: a list of top-level instructions of mango and of other programs, which may call mango. The runtime forbids
mango to be called again while it is running, so mango's instructions have no calls of mango inside.

What the other instructions do is a function on the state; `world` is everything except the fields of accounts named here, and healths are functions of it (`ScanningAccountRetriever`, C52; C55).
-/
namespace Mango
namespace Region
open Fx Account

/-- the fields of an account that health regions use (state/mango_account.rs:315-330) -/
structure Acct where
  inRegion : Bool
  beginHealth : Int
  being : Bool
  deriving DecidableEq, Repr

structure State (ω : Type) where
  acct : Nat → Option Acct
  world : ω

structure Env (ω : Type) where
  /-- `is_ix_enabled(IxGate::HealthRegion)` of the account's group -/
  enabled : ω → Nat → Bool
  /-- `is_operational` -/
  operational : ω → Nat → Bool
  /-- health of the account, from the health accounts passed to the instruction -/
  init : ω → Nat → Res I80F48
  liqEnd : ω → Nat → Res I80F48

/-- the instructions of mango, by discriminator; `other`: all those not named -/
inductive Disc
  | perpCancelAllOrders | perpCancelAllOrdersBySide | perpCancelOrder | perpCancelOrderByClientOrderId
  | perpPlaceOrder | perpPlaceOrderV2 | perpPlaceOrderPegged | perpPlaceOrderPeggedV2
  | serum3CancelAllOrders | serum3CancelOrder | serum3PlaceOrder | serum3PlaceOrderV2 | serum3SettleFunds | serum3SettleFundsV2
  | other (n : Nat)
  deriving DecidableEq, Repr

/-- health_region.rs:14-29 `allowed_inner_ix` -/
def allowedInner : List Disc :=
  [.perpCancelAllOrders, .perpCancelAllOrdersBySide, .perpCancelOrder, .perpCancelOrderByClientOrderId, .perpPlaceOrder, .perpPlaceOrderV2, .perpPlaceOrderPegged,
   .perpPlaceOrderPeggedV2, .serum3CancelAllOrders, .serum3CancelOrder, .serum3PlaceOrder, .serum3PlaceOrderV2, .serum3SettleFunds, .serum3SettleFundsV2]

/-- a call of mango -/
inductive Call (ω : Type)
  | regionBegin (a : Nat)
  | regionEnd (a : Nat)
  | ix (d : Disc) (f : State ω → Res (State ω))

/-- what another program does: call mango, or change what is not mango's -/
inductive Act (ω : Type)
  | cpi (c : Call ω)
  | touch (g : ω → ω)

/-- a top-level instruction -/
inductive Ix (ω : Type)
  | mango (c : Call ω)
  | foreign (acts : List (Act ω))

/-- health_region.rs:44-76: the rest of the transaction is looked through for the end -/
def scan {ω : Type} (a : Nat) : List (Ix ω) → Res Unit
  | [] => .error .someError
  | .foreign _ :: _ => .error .someError
  | .mango (.regionEnd b) :: _ => require (b = a) .someError
  | .mango (.regionBegin _) :: _ => .error .someError
  | .mango (.ix d _) :: rest => do
      require (d ∈ allowedInner) .someError
      scan a rest

def State.setAcct {ω : Type} (s : State ω) (k : Nat) (x : Acct) : State ω := { s with acct := fun i => if i = k then some x else s.acct i }

/-- `health_region_begin` (10-96); `rest`: the instructions after the current one; `top`: whether the current top-level instruction is mango's -/
def begin_ {ω : Type} (env : Env ω) (s : State ω) (top : Bool) (rest : List (Ix ω)) (a : Nat) : Res (State ω) :=
  match s.acct a with
  | none => .error .someError
  | some x => do
      require (env.enabled s.world a = true) .someError
      require (env.operational s.world a = true) .someError
      require (top = true) .someError
      scan a rest
      require (x.inRegion = false) .someError
      let pre ← env.init s.world a
      let (l, n) ← (Liq.mk x.being).regionBegin pre (env.liqEnd s.world a)
      .ok (s.setAcct a { inRegion := true, beginHealth := n, being := l.being })

/-- `health_region_end` (98-121) -/
def end_ {ω : Type} (env : Env ω) (s : State ω) (a : Nat) : Res (State ω) :=
  match s.acct a with
  | none => .error .someError
  | some x => do
      require (env.operational s.world a = true) .someError
      require (x.inRegion = true) .someError
      let post ← env.init s.world a
      Account.regionEnd x.beginHealth post
      .ok (s.setAcct a { inRegion := false, beginHealth := 0, being := x.being })

def runCall {ω : Type} (env : Env ω) (s : State ω) (top : Bool) (rest : List (Ix ω)) : Call ω → Res (State ω)
  | .regionBegin a => begin_ env s top rest a
  | .regionEnd a => end_ env s a
  | .ix _ f => f s

/-- another program's instruction -/
def runActs {ω : Type} (env : Env ω) (rest : List (Ix ω)) : List (Act ω) → State ω → Res (State ω)
  | [], s => .ok s
  | .cpi c :: acts, s => do
      let s ← runCall env s false rest c
      runActs env rest acts s
  | .touch g :: acts, s => runActs env rest acts { s with world := g s.world }

def runIx {ω : Type} (env : Env ω) (s : State ω) (rest : List (Ix ω)) : Ix ω → Res (State ω)
  | .mango c => runCall env s true rest c
  | .foreign acts => runActs env rest acts s

/-- a transaction: all of it, or nothing -/
def runTx {ω : Type} (env : Env ω) (s : State ω) : List (Ix ω) → Res (State ω)
  | [] => .ok s
  | ix :: rest => do
      let s ← runIx env s rest ix
      runTx env s rest

end Region
end Mango
