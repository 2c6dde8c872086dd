import Verif.Perp.Settle
import Verif.Health.Update
/-!
# Settling perp profits, losses and fees, as whole instructions

Models instructions/perp_settle_pnl.rs, perp_settle_fees.rs and admin_perp_withdraw_fees.rs on accounts with token and perp positions: finding the positions, the health values that
decide how much is settled and what the settler is paid, the perp part (`Verif.Perp.Settle`), the statistics, the transfers through the settle token's bank, and the health check.

Left out: logs; who may sign (C71); the key checks of the accounts structs. One bank per token. Oracles are read once: the price of a perp market and of a token is the same in the health
computation and outside of it. An account is the list of its active token positions and how many it may have (C32 covers the array of slots).
-/
namespace Mango
namespace Settlement
open Fx Health

/-- what the instructions read besides accounts: float rounding and the division used in health, the clock, the settle limit's f64 computation (see `Verif.Perp.Settle`), oracle prices of perp markets -/
structure Env where
  rnd : ℚ → ℚ
  fd : FDiv
  now : Int
  lim : I80F48 → Int
  oracle : Nat → I80F48

/-- a perp position of an account: market, position, `perp_spot_transfers` (i64) -/
structure PerpSlot where
  market : Nat
  pos : Perp.Pos
  transfers : Int := 0

/-- a mango account: token positions (token index, position), how many fit, open orders accounts as health sees them, perp positions, `perp_spot_transfers` (i64) -/
structure Acct where
  toks : List (Nat × TokenPosition)
  slots : Nat
  os : List OpenOrd := []
  perps : List PerpSlot
  transfers : Int := 0

structure Sys where
  banks : Nat → BankIn
  markets : Nat → Perp.Market
  accts : List Acct

/-- the account's data that health reads -/
def Acct.state (e : Env) (s : Sys) (a : Acct) : AcctState :=
  { banks := s.banks, ps := a.toks.map (fun x => ⟨x.1, x.2.indexed⟩), os := a.os,
    perps := a.perps.map (fun x => (s.markets x.market, x.pos, e.oracle x.market)) }

/-- `new_health_cache` of the account -/
def Acct.cache (e : Env) (s : Sys) (a : Acct) : Res Cache :=
  accountCache e.rnd e.now (a.state e s).banks (a.state e s).ps (a.state e s).os (a.state e s).perps

/-- `token_position_mut`: position number and position -/
def Acct.tok (a : Acct) (ti : Nat) : Res (Nat × TokenPosition) :=
  match (a.toks.zipIdx).find? (fun x => x.1.1 == ti) with
  | some x => .ok (x.2, x.1.2)
  | none => .error .tokenPositionDoesNotExist

/-- `perp_position_mut` -/
def Acct.perp (a : Acct) (mi : Nat) : Res (Nat × PerpSlot) :=
  match (a.perps.zipIdx).find? (fun x => x.1.market == mi) with
  | some x => .ok (x.2, x.1)
  | none => .error .perpPositionDoesNotExist

/-- `ensure_token_position` -/
def Acct.ensureTok (a : Acct) (ti : Nat) : Res Acct :=
  if a.toks.any (fun x => x.1 == ti) then .ok a
  else do
    require (a.toks.length < a.slots) .noFreeTokenPositionIndex
    .ok { a with toks := a.toks ++ [(ti, {})] }

/-- write a token position -/
def Acct.setTok (a : Acct) (k ti : Nat) (p : TokenPosition) : Acct := { a with toks := a.toks.set k (ti, p) }

/-- write a perp position -/
def Acct.setPerp (a : Acct) (j : Nat) (p : PerpSlot) : Acct := { a with perps := a.perps.set j p }

/-- load an account -/
def Sys.acct (s : Sys) (i : Nat) : Res Acct :=
  match s.accts[i]? with
  | some a => .ok a
  | none => .error .panic

/-- write the bank of a token -/
def Sys.setBank (s : Sys) (ti : Nat) (b : Bank) : Sys :=
  { s with banks := fun t => if t = ti then { s.banks ti with bank := b } else s.banks t }

/-- `deactivate_token_position_and_log` (mango_account.rs:1033-1049) if the position is not active any more -/
def Acct.store (a : Acct) (k ti : Nat) (p : TokenPosition) (active : Bool) : Res Acct :=
  if active then .ok (a.setTok k ti p)
  else do
    require (p.inUseCount = 0) .panic
    .ok { a with toks := a.toks.eraseIdx k }

/-- perp_settle_pnl.rs:184-227: the settler (possibly one of the two accounts) gets the fee -/
def paySettler (e : Env) (s : Sys) (ti ir : Nat) (fee : I80F48) : Res Sys := do
  let r ← s.acct ir
  let r ← r.ensureTok ti
  let (k, t) ← r.tok ti
  let (b, t, active) ← (s.banks ti).bank.deposit t fee e.now
  let r ← r.store k ti t active
  .ok { s.setBank ti b with accts := s.accts.set ir r }

/-- perp_settle_pnl.rs:12-231 for accounts `ia` (profit), `ib` (loss) and settler `ir`. Returns the amount settled and the fee. -/
def settlePnl (e : Env) (s : Sys) (mi ia ib ir : Nat) : Res (Sys × I80F48 × I80F48) := do
  require (ia ≠ ib) .cannotSettleWithSelf
  let m := s.markets mi
  let ti := m.settleTokenIndex
  let a ← s.acct ia
  let b ← s.acct ib
  let (ja, pa) ← a.perp mi
  let (ka, ta) ← a.tok ti
  let (jb, pb) ← b.perp mi
  let (kb, tb) ← b.tok ti
  let cb ← b.cache e s
  let bMax ← cb.perpMaxSettle e.fd ti
  let ca ← a.cache e s
  let liqEnd ← ca.health e.fd .liqEnd
  let maint ← ca.health e.fd .maint
  let (pa', pb', amt, fee) ← Perp.settlePnl e.lim m pa.pos pb.pos (e.oracle mi) (s.banks ti).oracle e.now bMax liqEnd maint
  let n ← Perp.toI64 (roundToZero amt)
  let f ← Perp.toI64 (roundToZero fee)
  let d ← ck64 (n - f)
  let ta1 ← ck64 (pa.transfers + d)
  let tb1 ← ck64 (pb.transfers - n)
  let ta2 ← ck64 (a.transfers + d)
  let tb2 ← ck64 (b.transfers - n)
  let x ← Fx.sub amt fee
  let (b1, ta', _) ← (s.banks ti).bank.deposit ta x e.now
  let (b2, tb', _) ← b1.withdrawWithoutFee tb amt e.now
  let a' := { (a.setPerp ja ⟨mi, pa', ta1⟩).setTok ka ti ta' with transfers := ta2 }
  let b' := { (b.setPerp jb ⟨mi, pb', tb1⟩).setTok kb ti tb' with transfers := tb2 }
  let s1 := { s.setBank ti b2 with accts := (s.accts.set ia a').set ib b' }
  let s2 ← paySettler e s1 ti ir fee
  .ok (s2, amt, fee)

/-- `round()`: to the nearest integer, halves away from zero -/
def roundNearest (x : I80F48) : Int := if x ≥ 0 then (x + S / 2) / S else -((-x + S / 2) / S)

/-- perp_settle_fees.rs:14-133. Returns the amount settled (0: the early return at 55-63, which keeps the settled funding). -/
def settleFees (e : Env) (s : Sys) (mi i : Nat) (maxAmount : Int) : Res (Sys × I80F48) := do
  require (maxAmount > 0) .maxSettleAmountMustBeGreaterThanZero
  let m := s.markets mi
  let ti := m.settleTokenIndex
  let a ← s.acct i
  let (j, p) ← a.perp mi
  let (p', m', amt) ← Perp.settleFees e.lim m p.pos (e.oracle mi) maxAmount
  (if amt = 0 then .ok ({ s with accts := s.accts.set i (a.setPerp j { p with pos := p' }) }, 0)
   else do
    let n ← ck64 (roundNearest amt)
    require (n ≥ 0) .settlementAmountMustBePositive
    let t1 ← ck64 (p.transfers - n)
    let t2 ← ck64 (a.transfers - n)
    let (k, t) ← a.tok ti
    let (b', t', _) ← (s.banks ti).bank.withdrawWithoutFee t amt e.now
    let a' := { (a.setPerp j ⟨mi, p', t1⟩).setTok k ti t' with transfers := t2 }
    let s1 := { s.setBank ti b' with markets := fun x => if x = mi then m' else s.markets x, accts := s.accts.set i a' }
    let c ← a'.cache e s1
    let h ← c.health e.fd .init
    require (h ≥ 0) .healthMustBePositive
    .ok (s1, amt))

/-- admin_perp_withdraw_fees.rs:6-21: the amount taken out of the settle token's vault (u64) and the new `fees_withdrawn` (u64) -/
def withdrawFees (feesSettled : I80F48) (feesWithdrawn vault : Int) : Res (Int × Int) := do
  let fl ← Fx.floor feesSettled
  let u ← Perp.toU64 fl
  let fees ← cku64 (u - feesWithdrawn)
  let amount := min fees vault
  let w ← cku64 (feesWithdrawn + amount)
  .ok (amount, w)

end Settlement
end Mango
