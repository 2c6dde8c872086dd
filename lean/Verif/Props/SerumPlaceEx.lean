import Verif.Props.SerumPlace
import Verif.Props.SerumEx
/-!
# Concrete cases for C61
-/
namespace Mango
namespace Serum
open Fx Health

/-- a token whose oracle cannot be read -/
def exBad : BankIn := { exB with bad := true }
/-- the account of `ex0` with a position in token 2, whose oracle cannot be read -/
def exSt : AcctState :=
  { banks := fun t => if t = 0 then ex0.quoteBank else if t = 1 then ex0.baseBank else exBad
    ps := [⟨0, ex0.quotePos.indexed⟩, ⟨1, ex0.basePos.indexed⟩, ⟨2, 40 * S⟩]
    os := [got ⟨0, 0, 0, 0, 0, 0, 0, 0, 0, false⟩ (view ex0.orders ex0.oo)]
    perps := [] }
def exStC : Res Cache := accountCacheSkipping id 0 exSt.banks exSt.ps exSt.os exSt.perps
def exStR : Res (Acct × Account.Liq × Cache) := placeOrder id Fx.div false (got ⟨[], [], []⟩ exStC) ⟨false⟩ ex0 exBid exBidDex

/-- **C61, a case.** An account with a position in an unusable bank places an order that borrows: the hypotheses of `C61_health` hold, the unusable position is left out. -/
theorem exPlace_hyps : exStC = .ok (got ⟨[], [], []⟩ exStC) ∧ InState exSt ex0 ∧ BanksOk ex0 ∧ exStR = .ok (got (ex0, ⟨false⟩, ⟨[], [], []⟩) exStR) ∧ (exSt.ps.map (·.tokenIndex)).Nodup ∧
    (exSt.os.map (·.marketIndex)).Nodup ∧ exSt.used.ps.length = 2 := by
  refine ⟨got_eq (by decide +kernel), ⟨?_, ?_, rfl, rfl, _, List.mem_singleton.mpr rfl, got_eq (by decide +kernel)⟩, exBanks _ (by decide), got_eq (by decide +kernel), by decide, by decide +kernel⟩
  · decide
  · decide

/-- C61_recovers: it can do so while still flagged as being liquidated -/
example : Serum.isOk (placeOrder id Fx.div false (got ⟨[], [], []⟩ exStC) ⟨true⟩ ex0 exBid exBidDex) = true := by decide +kernel

/-- the same account owing 50 base tokens; the base token may only be reduced -/
def ro0 : Acct := { ex0 with baseBank := { exB with bank := { exB.bank with reduceOnly := 1 } }, basePos := ⟨-(50 * S), 1, 0⟩, quotePos := ⟨500 * S, 1, 0⟩ }
def roSt : AcctState :=
  { banks := fun t => if t = 0 then ro0.quoteBank else if t = 1 then ro0.baseBank else exBad
    ps := [⟨0, ro0.quotePos.indexed⟩, ⟨1, ro0.basePos.indexed⟩]
    os := [got ⟨0, 0, 0, 0, 0, 0, 0, 0, 0, false⟩ (view ro0.orders ro0.oo)]
    perps := [] }
def roC : Res Cache := accountCacheSkipping id 0 roSt.banks roSt.ps roSt.os roSt.perps
/-- a bid for `n` base tokens at price 5 -/
def roPlace (n : Int) : Res (Acct × Account.Liq × Cache) :=
  placeOrder id Fx.div false (got ⟨[], [], []⟩ roC) ⟨false⟩ ro0 { exBid with maxBase := n, maxQuote := 5 * n } { exBidDex with oo := { quoteTotal := 5 * n }, vault := 9900 - 5 * n }

/-- **C61, a case.** Buying back the 50 owed tokens is accepted, buying 52 is not (51 is: the bound is exclusive and the reciprocal of the price is rounded down). -/
theorem exReduceOnly : roC = .ok (got ⟨[], [], []⟩ roC) ∧ InState roSt ro0 ∧ BanksOk ro0 ∧ (ro0.bank Side.bid.receiver).reduceOnly = 1 ∧ isOk (roPlace 50) = true ∧ isOk (roPlace 52) = false := by
  refine ⟨got_eq (by decide +kernel), ⟨by decide, by decide, rfl, rfl, _, List.mem_singleton.mpr rfl, got_eq (by decide +kernel)⟩, exBanks _ (by decide), rfl, by decide +kernel, by decide +kernel⟩

end Serum
end Mango
