import Verif.Props.SettleLedger
import Verif.Props.TradingEx
/-! # Concrete cases for C28–C31, C50 -/
namespace Mango
namespace Perp
open Book Fx

def sxM : Market :=
  { txMk with settlePnlLimitFactor := S / 5, settlePnlLimitWindowSizeTs := 3600, stablePrice := 100 * S, settleFeeFlat := 3 * S, settleFeeAmountThreshold := 50 * S,
              settleFeeFractionLowHealth := S / 50, minFunding := -S / 20, maxFunding := S / 20, feesAccrued := 10 * S }
def sxOps : List POp := txOps2 ++ [.consume 8 [0, 1], .market sxM]
/-- account 0 is long 4, account 1 short 4 at 100 -/
def sxS : PSys := txRun sxOps
def sxLim (v : I80F48) : Int := min (v / S / 5) I64MAX

theorem sxReach : Reachable sxS := by
  apply txReach
  · intro op hop
    simp only [sxOps, txOps2, txOps, List.cons_append, List.nil_append, List.mem_cons, List.not_mem_nil, or_false] at hop
    rcases hop with rfl | rfl | rfl | rfl | rfl | rfl | rfl | rfl | rfl
    · exact True.intro
    · exact True.intro
    · exact txPlace_typed _ _ _ _ _ (by omega)
    · exact txPlace_typed _ _ _ _ _ (by omega)
    · exact True.intro
    · exact txPlace_typed _ _ _ _ _ (by omega)
    · exact txPlace_typed _ _ _ _ _ (by omega)
    · exact True.intro
    · exact True.intro
  · decide

theorem sxLim_ok : ∀ v, 0 ≤ v → 0 ≤ sxLim v ∧ sxLim v ≤ I64MAX := by
  intro v hv; unfold sxLim I64MAX S; omega

-- hypotheses of C50_market
example : sxS.market.minFunding ≤ sxS.market.maxFunding ∧ 0 ≤ sxS.market.settleFeeFlat ∧ 0 ≤ sxS.market.settlePnlLimitFactor ∧ sxS.market.openInterest = 8 := by decide +kernel

def okAnd (r : Res PSys) (f : PSys → Bool) : Bool := match r with | .ok s => f s | .error _ => false

-- C29, C50: at an oracle price of 150 account 0 could settle 200 but is limited to 80 = 20% of the stable value of its position
example : okAnd (sstep sxLim sxS (.settlePnl 0 1 (150 * S) S 10 (1000 * S) (5 * S) (6 * S)))
    (fun s => s.accts.map (fun a => (posD a).settledInWindow) == [80, -79] && netQuote s == netQuote sxS &&
      (posD (s.accts.getD 0 {})).quote == (posD (sxS.accts.getD 0 {})).quote - 80 * S) = true := by decide +kernel

-- a second settlement in the same window finds the limit used up
example : okAnd (sstep sxLim sxS (.settlePnl 0 1 (150 * S) S 10 (1000 * S) (5 * S) (6 * S)))
    (fun s => !okAnd (sstep sxLim s (.settlePnl 0 1 (150 * S) S 20 (1000 * S) (5 * S) (6 * S))) (fun _ => true)
      && okAnd (sstep sxLim s (.settlePnl 0 1 (150 * S) S 3700 (1000 * S) (5 * S) (6 * S))) (fun _ => true)) = true := by decide +kernel

-- fee settlement, funding update
example : okAnd (sstep sxLim sxS (.settleFees 1 (150 * S) 1000)) (fun s => s.market.feesAccrued == 0 && netQuote s == netQuote sxS &&
    (posD (s.accts.getD 1 {})).quote == (posD (sxS.accts.getD 1 {})).quote + 10 * S) = true := by decide +kernel
example : okAnd (sstep sxLim sxS (.funding (150 * S) 100 (100 * S))) (fun s => s.market.longFunding != 0 && netQuote s == netQuote sxS) = true := by decide +kernel

-- bankruptcy: 20 settled, 7 insurance tokens paid, the rest socialized; the rounding leaves 3 units of 2^-48
example : okAnd (sstep sxLim sxS (.bankrupt 1 0 (150 * S) S S (S + S / 100) 10 (20 * S) (100 * S) 500 7))
    (fun s => netQuote s - netQuote sxS == 3 && s.market.longFunding == -s.market.shortFunding && decide (s.market.longFunding > 10 * S)) = true := by decide +kernel

-- pnl takeover
example : okAnd (sstep sxLim sxS (.takeover 0 1 (30 * S) 10 5)) (fun s => netQuote s == netQuote sxS &&
    (posD (s.accts.getD 1 {})).recurring == 10) = true := by decide +kernel

-- C30: settlement below the threshold at low health: half the low-health fraction of the settlement
example : sxM.computeSettleFee (40 * S) (100 * S) (400 * S) (-5 * S) (5 * S) = .ok (40 * S * (S / 50) / S * (S / 2) / S) := by decide +kernel
example : sxM.computeSettleFee (60 * S) (100 * S) (400 * S) (-5 * S) (5 * S) = .ok (3 * S) := by decide +kernel

/-! ## C29: a history inside a window -/

/-- settle a profit, receive funding, close part of the position, settle again -/
def wxOps : List WOp :=
  [.settle sxLim sxM (80 * S), .funding { sxM with longFunding := -3 * S }, .trade { sxM with openInterest := 8 } (-2) (300 * S), .settle sxLim sxM (4 * S)]
def wxP : Pos := { base := 4, quote := -400 * S }

example : ∀ o ∈ wxOps, o.within I64MAX := by
  intro o ho
  simp only [wxOps, List.mem_cons, List.not_mem_nil, or_false] at ho
  rcases ho with rfl | rfl | rfl | rfl
  · exact ⟨by decide, sxLim_ok⟩
  · exact True.intro
  · exact True.intro
  · exact ⟨by decide, sxLim_ok⟩

-- 80 settled at first, later 4 out of the 12 received as funding; closing half the position granted 40 in both directions
example : (match wrun ⟨wxP, 0, 0, 0⟩ wxOps with | .ok w => (w.net, w.gain, w.loss, w.pos.settledInWindow) | .error _ => (0, 0, 0, 0)) = (84, 52, 40, 80) := by decide +kernel

-- C29_limit_exact: the stable value 400 gives a limit of 80; a recurring allowance of 7, a one-shot profit allowance of a little over 5, 30 settled
-- before: 80 + 7 + 6 - 30 more profit, or 80 + 7 + 30 of loss
def wxQ : Pos := { base := 4, quote := -500 * S, oneshot := 5 * S + 1, recurring := 7, settledInWindow := 30 }
def wxLim (v : I80F48) : Int := min (sxLim v) (2 ^ 60)
example : (∀ v, 0 ≤ v → 0 ≤ wxLim v ∧ wxLim v ≤ 2 ^ 60) ∧ (match wxQ.availableSettleLimit wxLim sxM with | .ok r => r | .error _ => (0, 0)) = (-117, 63) := by
  refine ⟨fun v hv => ?_, by decide +kernel⟩
  have := sxLim_ok v hv
  unfold wxLim; omega

/-- **Finding (C31).** With no open interest a socialized loss is charged to nobody: the bankrupt account's debt disappears and the
net quote of the market rises by it. -/
theorem C31_nobody_pays : ∃ s', Reachable sxS ∧
    sstep sxLim (prun sxS [.market { sxM with forceClose := true }, .forceClose 0 1 (160 * S)])
      (.bankrupt 1 0 (160 * S) S S S 10 0 (500 * S) 500 0) = .ok s' ∧
    netQuote s' - netQuote (prun sxS [.market { sxM with forceClose := true }, .forceClose 0 1 (160 * S)]) > 200 * S := by
  refine ⟨_, sxReach, rfl, ?_⟩
  decide +kernel

end Perp
end Mango
