import Verif.Liq.PerpBase
/-!
# Liquidation of negative perp pnl, and perp bankruptcy

Models instructions/perp_liq_negative_pnl_or_bankruptcy.rs:18-425; the perp positions and the amounts are `Perp.bankruptcy` (`Verif.Perp.Settle`). Left out: account slots (`Verif.Account.Slots`), logs, the display
statistics `perp_spot_transfers`, who may sign (C71), and the key checks of the accounts struct. Oracles are read once: the perp price of the instruction is that of the cache.
-/
namespace Mango
namespace Liquidation
open Fx Health

/-- what the instruction reads and writes -/
structure NegLiq where
  market : Perp.Market
  /-- `base_liquidation_fee` of the market -/
  fee : I80F48
  /-- `elligible_for_group_insurance_fund` of the market -/
  eligible : Bool
  /-- oracle price of the market -/
  oracle : I80F48
  /-- bank and oracle price of the settle token -/
  bank : Bank
  price : I80F48
  /-- bank of the insurance token and the liqor's position in it, if it is not the settle token's bank; its oracle price -/
  ins : Option (Bank × TokenPosition)
  insPrice : I80F48
  /-- tokens in the insurance vault (u64) -/
  vault : Int
  liqee : Perp.Pos
  liqor : Perp.Pos
  liqeeTok : TokenPosition
  liqorTok : TokenPosition
  liqeeFlag : Account.Liq
  liqorFlag : Account.Liq
  /-- health cache of the liqee -/
  cache : Cache

/-- what other accounts determine; no `liqorHealth`: the liqor is in a health region, where it is checked at the end -/
structure NegEnv where
  fd : FDiv
  now : Int
  lim : I80F48 → Int
  scaled : Bank → Res (I80F48 × I80F48)
  liqorHealth : NegLiq → Option (Res I80F48)

/-- amounts of the instruction: pnl settled against the liqor's tokens, insurance tokens paid to the liqor, pnl taken over by the liqor for them, socialized loss -/
structure NegReport where
  settlement : I80F48
  insurance : Int
  liab : I80F48
  socialized : I80F48
  deriving DecidableEq, Repr

/-- 233-234, 314-317, 327-335: pnl that would bring liquidation-end health to zero -/
def pnlForHealth (s : NegLiq) (health : I80F48) : Res I80F48 := do
  let bs ← s.cache.balances .liqEnd
  let (i, _) ← lookup s.cache s.market.settleTokenIndex
  let b ← Serum3Info.at_ bs i
  let lw ← Fx.mul s.price s.bank.initLiabWeight
  let aw ← Fx.mul s.price s.bank.initAssetWeight
  spotGiven health b aw lw

/-- 272-278: the settled pnl is paid in tokens -/
def negSettle (env : NegEnv) (s : NegLiq) (x : I80F48) : Res NegLiq :=
  if x > 0 then do
    let (b, rt, _) ← s.bank.deposit s.liqorTok x env.now
    let (b, et, _) ← b.withdrawWithoutFee s.liqeeTok x env.now
    let w ← env.scaled b
    let nx ← Fx.neg x
    let c ← s.cache.adjustTokenBalance s.market.settleTokenIndex w nx
    .ok { s with bank := b, liqorTok := rt, liqeeTok := et, cache := c }
  else .ok s

/-- 372-381 and the transfer at 126-134: the insurance fund pays the liqor -/
def negInsure (env : NegEnv) (s : NegLiq) (n : Int) : Res NegLiq :=
  if n > 0 then
    match s.ins with
    | some (b, p) => do
      let (b, p, _) ← b.deposit p (Fx.ofInt n) env.now
      .ok { s with ins := some (b, p), vault := s.vault - n }
    | none => do
      let (b, p, _) ← s.bank.deposit s.liqorTok (Fx.ofInt n) env.now
      .ok { s with bank := b, liqorTok := p, vault := s.vault - n }
  else .ok s

/-- 213-425 `liquidation_action` with the transfer of insurance tokens and the new perp info (126-134, 193) -/
def negAction (env : NegEnv) (s : NegLiq) (health : I80F48) (maxTransfer : Int) : Res (NegLiq × NegReport) := do
  let maxSettle ← s.cache.perpMaxSettle env.fd s.market.settleTokenIndex
  let ff ← Fx.add ONE s.fee
  let B ← Perp.bankruptcy env.lim s.market s.liqee s.liqor s.oracle s.price s.insPrice ff env.now maxSettle (pnlForHealth s health) maxTransfer (if s.eligible then s.vault else 0)
  let s ← negSettle env s B.settlement
  let s ← negInsure env s B.insurance
  let c ← s.cache.recomputePerp B.market B.liqee
  .ok ({ s with market := B.market, liqee := B.liqee, liqor := B.liqor, cache := c }, ⟨B.settlement, B.insurance, B.insuranceLiab, B.socialized⟩)

/-- 18-211 `perp_liq_negative_pnl_or_bankruptcy`; no report: the liqee was not liquidatable and (apart from its flag) nothing changed. Requires distinct accounts (60). -/
def perpLiqNegative (env : NegEnv) (s : NegLiq) (maxTransfer : Int) : Res (NegLiq × Option NegReport) := do
  require (s.liqorFlag.being = false) .beingLiquidated
  let h ← s.cache.health env.fd .liqEnd
  s.cache.requireAfterPhase2
  let (flag, r) ← s.liqeeFlag.checkLiquidatable (s.cache.health env.fd .maint) (.ok h)
  if r ≠ .liquidatable then .ok ({ s with liqeeFlag := flag }, none)
  else do
    let (s, rep) ← negAction env { s with liqeeFlag := flag } h maxTransfer
    let h' ← s.cache.health env.fd .liqEnd
    let s := { s with liqeeFlag := (s.liqeeFlag.maybeRecover h').1 }
    let _ ← (match env.liqorHealth s with
      | some h => do
        let h ← h
        require (h ≥ 0) .healthMustBePositive
      | none => .ok ())
    .ok (s, some rep)

end Liquidation
end Mango
