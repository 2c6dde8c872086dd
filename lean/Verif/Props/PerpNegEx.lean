import Verif.Props.PerpNegHealth
import Verif.Props.PerpLiqEx
/-!
# Concrete cases for C73, and two that show who can be paid by the insurance fund
-/
namespace Mango
namespace Liquidation
open Fx Health Bank

def exNegPi (p : Perp.Pos) : PerpInfo :=
  match perpInfoOf (exPerpMarket S) p (10 * S) with
  | .ok i => i
  | .error _ => exPi (exPerpLiq S 0 0 0)
/-- no settle tokens, `sol` of a token of price 1 with weights 0.85/0.8, and the perp position `p` -/
def exNeg (p : Perp.Pos) (sol vault : Int) : NegLiq where
  market := exPerpMarket S
  fee := S / 50
  eligible := true
  oracle := 10 * S
  bank := { exLiqBank (S / 100 * 101) (S / 100 * 102) with initAssetWeight := S, maintAssetWeight := S, maintLiabWeight := S, initLiabWeight := S }
  price := S
  ins := none
  insPrice := S
  vault := vault
  liqee := p
  liqor := { base := 20, quote := -100 * S, longSettled := 2 * S, shortSettled := S }
  liqeeTok := { indexed := 0 }
  liqorTok := { indexed := 1000 * S }
  liqeeFlag := ⟨false⟩
  liqorFlag := ⟨false⟩
  cache := { tokens := [exSettleTok 0, exLiqTok 2 S (sol * S)], serums := [], perps := [exNegPi p] }
def exNegEnv (now : Int) : NegEnv where
  fd := exPerpEnv.fd
  now := now
  lim := fun x => x / S
  scaled := fun _ => .ok (S, S)
  liqorHealth := fun _ => some (.ok 5)

/-- a closed position that lost 40 -/
def exLost : Perp.Pos := { quote := -40 * S, longSettled := 2 * S, shortSettled := 2 * S, recurring := 40 }
/-- the same, after losses of 60 were settled in the current window -/
def exUsed : Perp.Pos := { exLost with window := 1, settledInWindow := -60 }

/-- `exUsed` is what is left after opening a position of 1000 lots for 10000, settling 60 of the unrealized loss, and closing it for 9900 -/
theorem exUsed_history : (do
    let (p, m) ← Perp.Pos.recordTrade { longSettled := 2 * S, shortSettled := 2 * S } (exPerpMarket S) 1000 (-10000 * S)
    let p ← p.updateSettleLimit m 90000
    let p ← p.recordSettle m (-60 * S)
    let (p, _) ← p.recordTrade m (-1000) (9900 * S)
    (.ok p : Res Perp.Pos)) = .ok exUsed := by decide +kernel

/-- the hypotheses of `C73_amounts` and `C73_health` -/
theorem exNeg_hyps (s : NegLiq) (h : s = exNeg exLost 20 3 ∨ s = exNeg exLost 47 3 ∨ s = exNeg exUsed 47 3) :
    NegReflects s (exNegPi s.liqee) (exSettleTok 0) ∧ 0 ≤ s.vault ∧ 0 < s.price * (S + s.fee) / S ∧ 0 < s.insPrice := by
  rcases h with rfl | rfl | rfl <;>
    exact ⟨⟨by decide +kernel, by decide +kernel, by decide +kernel, by decide +kernel, by decide +kernel, by decide +kernel, by decide +kernel, by decide +kernel, by decide +kernel⟩,
      by decide +kernel, by decide +kernel, by decide +kernel⟩

/-- an account with assets of 20 (17 for maintenance) and a loss of 40: 17 are settled, the insurance fund pays its 3 tokens, the rest of the loss is socialized -/
theorem exNeg_bankrupt : (match perpLiqNegative (exNegEnv 90000) (exNeg exLost 20 3) 1000 with
    | .ok (s', some r) => decide (r.settlement / S = 16 ∧ 17 * S - 1000 < r.settlement ∧ r.insurance = 3 ∧ 2 * S < r.liab ∧ r.liab < 3 * S ∧ 20 * S < r.socialized ∧ r.socialized < 21 * S ∧ s'.vault = 0 ∧
        s'.liqee.quote = 0 ∧ s'.market.longFunding ≠ 2 * S ∧ s'.liqorTok.indexed > 1000 * S ∧ s'.liqeeTok.indexed < 0)
    | _ => false) = true := by decide +kernel

/-- **C73, exception** What the insurance fund and the other traders cover is not limited to what the account cannot pay: the account here has assets worth 47 and a loss of 40, nothing else. Its maintenance health is about
-0.05 and its liquidation-end health -2.4. "Cannot be settled further" is judged by what maintenance health lets settle (39.95), so the insurance fund pays for the rest of the loss: here a whole token for 0.05 of loss. And
if the settle limit of the window is used up (see `exUsed_history`), nothing can be settled, and the insurance fund pays 3 tokens for a loss of 2.4 that the account could pay with its assets and, in the
next window, would. -/
theorem C73_solvent_paid :
    (match perpLiqNegative (exNegEnv 90000) (exNeg exLost 47 3) 1000, perpLiqNegative (exNegEnv 90000) (exNeg exUsed 47 3) 1000, perpLiqNegative (exNegEnv 180000) (exNeg exUsed 47 3) 1000 with
    | .ok (_, some r), .ok (_, some r'), .ok (_, some r'') =>
      decide (39 * S < r.settlement ∧ r.insurance = 1 ∧ 0 < r.liab ∧ r'.settlement = 0 ∧ r'.insurance = 3 ∧ 2 * S < r'.liab ∧ r''.settlement = r.settlement ∧ r''.insurance = 1 ∧
        0 < 47 * S + exLost.quote ∧ exUsed.quote = exLost.quote)
    | _, _, _ => false) = true := by decide +kernel

end Liquidation
end Mango
