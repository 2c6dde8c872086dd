import Verif.Props.HealthState
/-!
# A concrete account for C55
-/
namespace Mango
namespace Health
open Fx Swap

/-- token 0: quote token, price 1; token 1: price 5 (stable 4), 1000 deposited and 800 borrowed in total: deposits beyond the scale start 2500, borrows beyond 2000 -/
def exBank (ti : Nat) : BankIn :=
  if ti = 0 then
    { bank := { depositIndex := 2 * S, borrowIndex := 3 * S, indexedDeposits := 500 * S, indexedBorrows := 100 * S, stablePrice := S,
                maintAssetWeight := S, initAssetWeight := S, maintLiabWeight := S, initLiabWeight := S },
      oracle := S }
  else
    { bank := { depositIndex := 2 * S, borrowIndex := 4 * S, indexedDeposits := 500 * S, indexedBorrows := 200 * S, stablePrice := 4 * S,
                maintAssetWeight := S / 8 * 7, initAssetWeight := S / 4 * 3, maintLiabWeight := S / 8 * 9, initLiabWeight := S / 4 * 5,
                maintWeightShiftStart := 100, maintWeightShiftEnd := 200, maintWeightShiftDurationInv := S / 128, maintWeightShiftAssetTarget := S / 8 * 6,
                maintWeightShiftLiabTarget := S / 4 * 5 },
      depositScaleStart := 2500, borrowScaleStart := 2000, oracle := 5 * S }

theorem exBank_verified (ti : Nat) : (exBank ti).Verified := by
  unfold exBank
  split <;> exact ⟨by decide, by decide +kernel, by decide +kernel⟩

def exPs : List Health.Pos := [⟨0, -100 * S⟩, ⟨1, 50 * S⟩]
def exOs : List OpenOrd := [{ base := 1, quote := 0, baseFree := 3, quoteFree := 20, baseReserved := 10, quoteReserved := 50, lowestAsk := 0, highestBidInv := S / 5 }]
def exPerps : List (Perp.Market × Perp.Pos × I80F48) :=
  [({ baseLotSize := 10, maintBaseAssetWeight := S / 8 * 7, initBaseAssetWeight := S / 4 * 3, maintBaseLiabWeight := S / 8 * 9, initBaseLiabWeight := S / 4 * 5,
      initOverallAssetWeight := S / 2, stablePrice := 22 * S, shortFunding := S }, { base := -3, quote := 900 * S, bids := 2, asks := 4, takerBase := 1 }, 20 * S)]

/-- the hypotheses of C55 are met: distinct tokens, and all three healths are defined -/
theorem exAccount : (exPs.map (·.tokenIndex)).Nodup ∧
    (accountHealth (fun x => x) Fx.div 164 exBank exPs exOs exPerps .init, accountHealth (fun x => x) Fx.div 164 exBank exPs exOs exPerps .maint,
      accountHealth (fun x => x) Fx.div 164 exBank exPs exOs exPerps .liqEnd) = ((.ok (-19421773393035280), .ok 161197200724983763, .ok 79587049664937944) : Res Int × Res Int × Res Int) := by
  decide +kernel

end Health
end Mango
