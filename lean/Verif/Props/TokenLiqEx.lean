import Verif.Props.TokenLiqGain
/-!
# Concrete cases for C56
-/
namespace Mango
namespace Liquidation
open Fx Health Bank

def exLiqBank (di bi : Int) : Bank :=
  { depositIndex := di, borrowIndex := bi, indexedDeposits := 500000 * S, indexedBorrows := 90000 * S, loanOriginationFeeRate := S / 2000, stablePrice := S,
    netBorrowLimitPerWindowQuote := -1, netBorrowLimitWindowSizeTs := 86400, depositLimit := 10000000,
    util0 := 4 * S / 10, rate0 := 7 * S / 100, util1 := 8 * S / 10, rate1 := 9 * S / 10, maxRate := 3 * S / 2,
    initAssetWeight := S / 10 * 8, maintAssetWeight := S / 100 * 85, maintLiabWeight := S / 10 * 11, initLiabWeight := S / 10 * 12 }
def exLiqTok (ti : Nat) (price nat : Int) : TokenInfo :=
  ⟨ti, S / 100 * 85, S / 10 * 8, S / 10 * 8, S / 10 * 11, S / 10 * 12, S / 10 * 12, ⟨price, price⟩, nat, true⟩
/-- the liqee holds 1010 of token 1 (price 1.5, weight 0.8) and owes 3060 of token 2 (price 0.4, weight 1.2) -/
def exLiq : TokLiq where
  asset := { bank := exLiqBank (S / 100 * 101) (S / 100 * 103), index := 1, price := S / 10 * 15, fee := S / 50, platformFee := S / 200 }
  liab := { bank := exLiqBank (S / 100 * 101) (S / 100 * 102), index := 2, price := S / 10 * 4, fee := S / 50, platformFee := S / 200 }
  liqeeAsset := { indexed := 1000 * S }
  liqeeLiab := { indexed := -3000 * S }
  liqeeFlag := ⟨false⟩
  cache := { tokens := [exLiqTok 1 (S / 10 * 15) (1000 * (S / 100 * 101)), exLiqTok 2 (S / 10 * 4) (-3000 * (S / 100 * 102))], serums := [], perps := [] }
  liqorFlag := ⟨false⟩
  liqorAsset := { indexed := 0 }
  liqorLiab := { indexed := 100 * S }
def exLiqEnv : TokLiqEnv where
  fd := fun a b => if b = 0 then .error .panic else .ok (Int.tdiv (a * S) b)
  now := 90000
  scaledAsset := fun _ => .ok (S / 10 * 8, S / 10 * 12)
  scaledLiab := fun _ => .ok (S / 10 * 8, S / 10 * 12)
  liqorHealth := fun _ => some (.ok 0)

theorem exLiq_sane : Sane exLiq := ⟨by decide, by decide, by decide, by decide, by decide, by decide⟩

theorem exLiq_reflects : Reflects exLiq := by
  refine ⟨by decide, by decide, by decide, by decide, by decide, ?_, ?_, ⟨by decide, by decide⟩, ⟨by decide, by decide⟩⟩
  · unfold Bank.Pos; decide
  · unfold Bank.Pos; decide

/-- about 1786 of the debt change hands for about 500 of the asset: health goes from about -256.8 to zero, up to the last places -/
theorem exLiq_run : (match tokenLiqWithToken exLiqEnv exLiq (1000000 * S) with
    | .ok (s', some r) => decide (r.liabTransfer / S = 1785 ∧ r.assetFromLiqee / S = 500 ∧ r.assetToLiqor / S = 495 ∧ s'.liqeeLiab.indexed / S = -1250
        ∧ s'.cache.health exLiqEnv.fd .liqEnd = .ok (-1752))
    | _ => false) = true := by decide +kernel

/-- the hypotheses of the theorems are met, also the sizes of `C56_stops_at_zero` -/
example : (∀ p x, exLiqEnv.fd 0 p = .ok x → x = 0) ∧ exLiq.cache.health exLiqEnv.fd .liqEnd = .ok (-72282774019279440) ∧ 0 < gainPerDebt exLiq ∧
    Sizes exLiq ⟨0, 501 * S, 0, 0⟩ := by
  refine ⟨?_, by decide +kernel, by decide +kernel, ⟨by decide, by decide, by decide, by decide, by decide, by decide, by decide +kernel, by decide⟩⟩
  intro p x h
  unfold exLiqEnv at h
  dsimp only at h
  split at h
  · simp at h
  · simpa using h.symm

/-- a liab token with a price of 3 units of the last place, and a small asset position -/
def exTiny : TokLiq :=
  { exLiq with liab := { exLiq.liab with price := 3 }, liqeeAsset := { indexed := 100000 }, liqeeLiab := { indexed := -90000 * S }
               cache := { tokens := [exLiqTok 1 (S / 10 * 15) (100000 * (S/100*101) / S), exLiqTok 2 3 (-90000 * (S / 100 * 102))], serums := [], perps := [] } }

/-- **C56, exception** The amount of debt is limited by the asset balance at a price that is rounded down; the payment is not. With a liab token of very low price the liqee pays more than it holds
and ends with a new debt in the asset token (`C56_amounts` bounds its value). -/
theorem C56_payment_can_exceed_balance : (match tokenLiqWithToken exLiqEnv exTiny (1000000 * S), exTiny.liqeeAsset.native exTiny.asset.bank with
    | .ok (s', some r), .ok na => decide (0 < na ∧ na < r.assetFromLiqee ∧ s'.liqeeAsset.indexed < 0)
    | _, _ => false) = true := by decide +kernel

end Liquidation
end Mango
