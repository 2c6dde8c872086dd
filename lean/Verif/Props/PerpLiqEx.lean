import Verif.Props.PerpLiqEnough
import Verif.Props.TokenLiqEx
/-!
# Concrete cases for C63
-/
namespace Mango
namespace Liquidation
open Fx Health Bank

def exPerpMarket (w : Int) : Perp.Market :=
  { idx := 3, baseLotSize := 1, quoteLotSize := 1, maintBaseAssetWeight := S / 10 * 9, initBaseAssetWeight := S / 10 * 8, maintBaseLiabWeight := S / 10 * 11, initBaseLiabWeight := S / 10 * 12,
    longFunding := 2 * S, shortFunding := 2 * S, settlePnlLimitFactor := S, stablePrice := 10 * S, settleTokenIndex := 0, maintOverallAssetWeight := w, initOverallAssetWeight := w, openInterest := 500 }
def exSettleTok (nat : Int) : TokenInfo := ⟨0, S, S, S, S, S, S, ⟨S, S⟩, nat, true⟩
/-- a long (or short) position of 100 lots at price 10, 10 of the settle token and a debt worth 12 * `debt` -/
def exPerpLiq (w base quote debt : Int) : PerpLiq :=
  let m := exPerpMarket w
  let p : Perp.Pos := { base := base, quote := quote * S + base * S, longSettled := S, shortSettled := S, oneshot := 5 * S, recurring := 7 }
  { market := m
    fees := ⟨S / 50, S / 200, S / 20⟩
    accruedLiqFees := 3 * S
    bank := exLiqBank (S / 100 * 101) (S / 100 * 102)
    liqee := p
    liqor := { base := 20, quote := -100 * S, longSettled := 2 * S, shortSettled := S }
    liqeeTok := { indexed := 10 * S }
    liqorTok := { indexed := 1000 * S }
    liqeeFlag := ⟨false⟩
    liqorFlag := ⟨false⟩
    cache := { tokens := [exSettleTok (10 * (S / 100 * 101)), exLiqTok 2 (10 * S) (-debt * S)], serums := [],
               perps := match perpInfoOf m p (10 * S) with | .ok i => [i] | .error _ => [] } }
def exPerpEnv : PerpLiqEnv where
  fd := fun a b => if b = 0 then .error .panic else .ok (Int.tdiv (a * S) b)
  now := 90000
  lim := fun x => x / S
  scaled := fun _ => .ok (S, S)
  liqorHealth := fun _ => some (.ok 5)

theorem exPerpEnv_fd0 : ∀ p x, exPerpEnv.fd 0 p = .ok x → x = 0 := by
  intro p x h
  unfold exPerpEnv at h
  dsimp only at h
  split at h
  · simp at h
  · simpa using h.symm

/-- the perp info of the cache -/
def exPi (s : PerpLiq) : PerpInfo := (s.cache.perps.head?).getD
  { perpMarketIndex := 0, settleTokenIndex := 0, maintBaseAssetWeight := 0, initBaseAssetWeight := 0, maintBaseLiabWeight := 0, initBaseLiabWeight := 0, maintOverallAssetWeight := 0,
    initOverallAssetWeight := 0, baseLotSize := 0, baseLots := 0, bidsBaseLots := 0, asksBaseLots := 0, quote := 0, basePrices := ⟨0, 0⟩ }

theorem exPerp_reflects (s : PerpLiq) (h : s = exPerpLiq (S / 2) (-1000) 11000 15 ∨ s = exPerpLiq (S / 2) 1000 (-9100) 15 ∨ s = exPerpLiq S 200 (-1500) 29) : PerpReflects s (exPi s) := by
  rcases h with rfl | rfl | rfl <;>
    exact ⟨by decide +kernel, by decide +kernel, by decide +kernel, by decide +kernel, by decide +kernel, by decide +kernel, by decide +kernel⟩

/-- the other hypotheses of `C63_trade` and `C63_not_more_than_needed` -/
theorem exPerp_hyps (s : PerpLiq) (h : s = exPerpLiq (S / 2) (-1000) 11000 15 ∨ s = exPerpLiq (S / 2) 1000 (-9100) 15) :
    PerpSane s (exPi s).basePrices.oracle ∧ s.cache.perps.find? (fun i => i.perpMarketIndex == s.market.idx) = some (exPi s) ∧
    (∃ t ∈ s.cache.tokens, t.tokenIndex = s.market.settleTokenIndex ∧
      (gainPerLot s.market s.fees (exPi s).basePrices.oracle s.liqee.base + 4 * S) * (t.initLiabWeight * t.prices.oracle / S) ≤ S * S * (S / 4)) ∧
    s.market.initOverallAssetWeight ≤ S - s.fees.positivePnl := by
  rcases h with rfl | rfl <;>
    exact ⟨⟨by decide +kernel, by decide +kernel, by decide +kernel⟩, by decide +kernel, ⟨exSettleTok (10 * (S / 100 * 101)), by decide +kernel, by decide +kernel, by decide +kernel⟩, by decide +kernel⟩

/-- a short position: all five steps; health goes from about -1170 to about -0.15 -/
theorem exPerp_short : (match perpLiqBaseOrPositivePnl exPerpEnv (exPerpLiq (S / 2) (-1000) 11000 15) (-1000) 30 with
    | .ok (s', some r) => decide (r.base = 750 ∧ 29 * S < r.pnl ∧ r.pnl ≤ 30 * S ∧ r.token / S = 28 ∧ r.limitRecurring = 30 ∧ s'.liqee.base = -250 ∧ s'.liqor.base = -730 ∧
        0 < r.platformFee ∧ s'.cache.health exPerpEnv.fd .liqEnd = .ok (-42221246495560))
    | _ => false) = true := by decide +kernel

/-- a long position -/
theorem exPerp_long : (match perpLiqBaseOrPositivePnl exPerpEnv (exPerpLiq (S / 2) 1000 (-9100) 15) 1000 2000 with
    | .ok (s', some r) => decide (r.base = -731 ∧ r.pnl / S = 177 ∧ r.token / S = 168 ∧ s'.liqee.base = 269 ∧ s'.liqor.base = 751 ∧ 0 < r.platformFee ∧
        s'.cache.health exPerpEnv.fd .liqEnd = .ok (-105553116258850))
    | _ => false) = true := by decide +kernel

/-- `C63_enough` applies to both; neither reaches a limit (750 of 1000 and 731 of 1000 lots), so health must be near zero -/
example : 0 < (exPerpLiq (S / 2) (-1000) 11000 15).market.initOverallAssetWeight ∧ (750 : Int) ≠ |max (-1000) (I64MIN + 1)| ∧
    gainPerLot (exPerpMarket (S / 2)) ⟨S / 50, S / 200, S / 20⟩ (10 * S) (-1000) ≤ 2 * S := by
  refine ⟨?_, ?_, ?_⟩ <;> decide +kernel

/-- **C63, exception** With `init_overall_asset_weight` above `1 - positive_pnl_liquidation_fee` (here 1 and 0.95), the third step expects a later settlement that never comes and reduces more base than needed:
a liqor that allows pnl takeover (here up to 1000) takes 144 lots, leaving health at about 14, where 136 lots (what the same liqor gets without pnl takeover) suffice to bring health above zero. -/
theorem C63_overliquidation :
    (match perpLiqBaseOrPositivePnl exPerpEnv (exPerpLiq S 200 (-1500) 29) 1000 1000, perpLiqBaseOrPositivePnl exPerpEnv (exPerpLiq S 200 (-1500) 29) 1000 0 with
    | .ok (s', some r), .ok (s'', some r') => decide (r.base = -144 ∧ r.pnl = 0 ∧ r'.base = -136) &&
      (match s'.cache.health exPerpEnv.fd .liqEnd, s''.cache.health exPerpEnv.fd .liqEnd with
      | .ok h, .ok h' => decide (14 * S < h ∧ 0 ≤ h' ∧ h' ≤ S / 10 ∧
          (gainPerLot (exPerpMarket S) ⟨S / 50, S / 200, S / 20⟩ (10 * S) 200 + (2 * 144 + 2 + 7)) * S + 2 * S < h * S)
      | _, _ => false)
    | _, _ => false) = true := by decide +kernel

end Liquidation
end Mango
