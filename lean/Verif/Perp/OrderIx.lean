import Verif.Perp.System
import Verif.Perp.Settle
import Verif.Props.HealthUsed
import Verif.Account.HealthCheck
/-!
# Placing a perp order, as a whole instruction

Models instructions/perp_place_order.rs: the funding update at the start, the health check around the order, the reduce-only rules and the order itself. Left out: logs, account loading and the
constraints of the accounts struct, the expiry of buyback fees (lines 93-96, C34's model). The oracle price and the stable price after the update are inputs, as is whether the oracle
passes the staleness check that health makes.
-/
namespace Mango
namespace PerpOrder
open Fx Health Perp

/-- what the instruction reads besides market and accounts -/
structure Env where
  rnd : ℚ → ℚ
  fd : FDiv
  now : Nat
  /-- the account is inside a health region -/
  inRegion : Bool := false
  /-- `oracle_state(.., None).price` of the market's oracle -/
  price : I80F48
  /-- whether the oracle passes the confidence and staleness check -/
  priceOk : Bool := true
  /-- the stable price after its update -/
  stable : I80F48

/-- the rest of the account: token positions and their banks, open spot orders, perp positions before and after the one traded in, liquidation flag -/
structure Rest where
  banks : Nat → BankIn
  ps : List Health.Pos
  os : List OpenOrd
  above : List (Market × Perp.Pos × I80F48) := []
  below : List (Market × Perp.Pos × I80F48) := []
  flag : Account.Liq

/-- everything health is computed from, given the market and the position traded in -/
def Rest.st (t : Rest) (e : Env) (m : Market) (p : Perp.Pos) : AcctState :=
  { banks := t.banks, ps := t.ps, os := t.os, perps := t.above ++ (m, p, e.price) :: t.below }

/-- perp_place_order.rs:64-86: health before the order, in a cache that leaves out missing banks but not the settle token -/
def before (e : Env) (t : Rest) (m : Market) (p : Perp.Pos) : Res (Account.Liq × Option (Cache × I80F48)) :=
  if e.inRegion then .ok (t.flag, none) else do
    require (e.priceOk = true) .oracleStale
    let st := t.st e m p
    let c ← accountCacheSkipping e.rnd e.now st.banks st.ps st.os st.perps
    require ((c.tokenIdx m.settleTokenIndex).isSome = true) .tokenPositionDoesNotExist
    let h ← c.health e.fd .init
    let f ← t.flag.checkPre h (c.health e.fd .liqEnd)
    .ok (f, some (c, h))

/-- perp_place_order.rs:131-135: health after the order -/
def after (e : Env) (pre : Option (Cache × I80F48)) (m : Market) (p : Perp.Pos) : Res Unit :=
  match pre with
  | none => .ok ()
  | some (c, h) => do
    let c' ← c.recomputePerp m p
    let post ← c'.health e.fd .init
    Account.checkPost h post

/-- perp_place_order.rs:12-138 by account number `u`; returns the order id if a remainder was posted -/
def place (e : Env) (s : PSys) (u : Nat) (t : Rest) (o : Order) (limit : Nat) (room : Bool) : Res (PSys × Rest × Option Nat) := do
  require (o.maxBase ≥ 0) .requireFailed
  require (o.maxQuote ≥ 0) .requireFailed
  let m ← s.market.updateFunding s.book e.price e.now e.stable
  match s.accts[u]? with
  | none => .error .panic
  | some a => do
    let a ← ensurePos a room
    let p ← a.getPos
    let (flag, pre) ← before e t m p
    let o' ← reduceOrder o p m
    let (r, n) ← newOrder o' e.price u e.now limit { market := m, acct := a, book := s.book, queue := s.queue }
    let p' ← n.acct.getPos
    after e pre n.market p'
    .ok ({ market := n.market, accts := s.accts.set u n.acct, book := n.book, queue := n.queue }, { t with flag := flag }, r)

end PerpOrder
end Mango
