import Verif.Perp.Settle
/-!
# Settlement instructions on a perp market with all its accounts

Each instruction of `Verif.Perp.Settle` on the accounts and the market of `Verif.Perp.System`.  The two accounts of an
instruction are distinct (an account can only be loaded mutably once: `AccountLoader::load_full_mut` fails on the second).
-/
namespace Mango
namespace Perp
open Book

inductive SOp where
  /-- perp_update_funding.rs -/
  | funding (oracle : I80F48) (now : Nat) (stable : I80F48)
  /-- perp_settle_pnl.rs: `a` gains -/
  | settlePnl (a b : Nat) (oracle settlePrice : I80F48) (now : Int) (bMaxSettle aLiqEnd aMaint : I80F48)
  /-- perp_settle_fees.rs -/
  | settleFees (u : Nat) (oracle : I80F48) (maxAmount : Int)
  /-- perp_liq_negative_pnl_or_bankruptcy.rs -/
  | bankrupt (liqee liqor : Nat) (oracle settlePrice insurancePrice feeFactor : I80F48) (now : Int) (liqeeMaxSettle maxForHealth : I80F48) (maxTransfer vault : Int)
  /-- the pnl takeover of perp_liq_base_or_positive_pnl.rs:615-622 with the allowances computed there -/
  | takeover (liqee liqor : Nat) (pnl : I80F48) (recurringLimit oneshotLimit : Int)

/-- two accounts of an instruction -/
def onTwo (s : PSys) (i j : Nat) (f : Pos → Pos → Res (Pos × Pos × Market)) : Res PSys := do
  require (i ≠ j) .requireFailed
  match s.accts[i]?, s.accts[j]? with
  | some a, some b => do
    let p ← a.getPos
    let q ← b.getPos
    let (p', q', m') ← f p q
    .ok { s with market := m', accts := (s.accts.set i (a.setPos p')).set j (b.setPos q') }
  | _, _ => .error .panic

/-- one settlement instruction -/
def sstep (lim : I80F48 → Int) (s : PSys) : SOp → Res PSys
  | .funding oracle now stable => do
    let m' ← s.market.updateFunding s.book oracle now stable
    .ok { s with market := m' }
  | .settlePnl i j oracle price now bMax liqEnd maint =>
    onTwo s i j (fun p q => do
      let (p', q', _, _) ← settlePnl lim s.market p q oracle price now bMax liqEnd maint
      .ok (p', q', s.market))
  | .settleFees u oracle maxAmount =>
    match s.accts[u]? with
    | none => .error .panic
    | some a => do
      let p ← a.getPos
      let (p', m', _) ← settleFees lim s.market p oracle maxAmount
      .ok { s with market := m', accts := s.accts.set u (a.setPos p') }
  | .bankrupt i j oracle price iprice ff now emax hmax mt vault =>
    onTwo s i j (fun p q => do
      let r ← bankruptcy lim s.market p q oracle price iprice ff now emax (.ok hmax) mt vault
      .ok (r.liqee, r.liqor, r.market))
  | .takeover i j pnl r o =>
    onTwo s i j (fun p q => do
      let q' ← q.recordLiquidationPnlTakeover pnl r o
      let p' ← p.recordSettle s.market pnl
      .ok (p', q', s.market))

end Perp
end Mango
