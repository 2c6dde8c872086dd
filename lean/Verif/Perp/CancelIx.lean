import Verif.Perp.OrderIx
/-!
# Cancelling another account's perp orders, as a whole instruction

Models instructions/perp_liq_force_cancel_orders.rs. Left out: logs, account loading and the constraints of the accounts struct. The oracle price of the market is an input.
-/
namespace Mango
namespace PerpCancel
open Fx Health Perp

/-- what the instruction reads besides market and accounts -/
structure Env where
  rnd : ℚ → ℚ
  fd : FDiv
  now : Nat
  /-- oracle price of the market, as health reads it -/
  price : I80F48
  /-- the account is frozen: `!is_operational()` -/
  frozen : Bool := false

/-- everything health is computed from; the account may have no position in the market -/
def state (e : Env) (t : PerpOrder.Rest) (m : Market) (p : Option Perp.Pos) : AcctState :=
  { banks := t.banks, ps := t.ps, os := t.os, perps := t.above ++ p.toList.map (fun p => (m, p, e.price)) ++ t.below }

/-- perp_liq_force_cancel_orders.rs:8-68 against account number `u`; the returned flag says whether orders were cancelled -/
def forceCancel (e : Env) (s : PSys) (u : Nat) (t : PerpOrder.Rest) (limit : Nat) : Res (PSys × PerpOrder.Rest × Bool) :=
  match s.accts[u]? with
  | none => .error .panic
  | some a => do
    let st := state e t s.market a.pos
    let c ← accountCache e.rnd e.now st.banks st.ps st.os st.perps
    let (f, r) ← t.flag.checkLiquidatable (c.health e.fd .maint) (c.health e.fd .liqEnd)
    (if e.frozen = true ∨ r = .liquidatable ∨ s.market.forceClose = true then do
      let (a', b') ← cancelAll s.market.idx u limit none a s.book
      let p' ← a'.getPos
      let c' ← c.recomputePerp s.market p'
      let h ← c'.health e.fd .liqEnd
      .ok ({ s with accts := s.accts.set u a', book := b' }, { t with flag := (f.maybeRecover h).1 }, true)
    else .ok (s, { t with flag := f }, false))

end PerpCancel
end Mango
