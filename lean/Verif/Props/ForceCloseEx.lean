import Verif.Props.ForceClose
import Verif.Props.SerumEx
/-!
# Concrete cases for C65, and how it can hurt the liqee
-/
namespace Mango
namespace Liquidation
open Fx Health Bank
open Serum (got isOk got_eq)

/-- a bank with the given weights -/
def fcBank (ma ia ml il : Int) : Bank :=
  { depositIndex := S, borrowIndex := S, indexedDeposits := 5000 * S, indexedBorrows := 900 * S, stablePrice := S, loanOriginationFeeRate := S / 128,
    maintAssetWeight := ma, initAssetWeight := ia, maintLiabWeight := ml, initLiabWeight := il, depositLimit := 50000, netBorrowLimitPerWindowQuote := -1 }
/-- token 1: weights 0.8 and 1.2; token 2, to be closed: weights 0 and 1.5, still 1.05 in maintenance; token 0: weight 1 -/
def fcBanks (t : Nat) : BankIn :=
  if t = 1 then { bank := fcBank (S / 100 * 85) (S / 10 * 8) (S / 100 * 115) (S / 10 * 12), oracle := S }
  else if t = 2 then { bank := fcBank (S / 2) 0 (S / 100 * 105) (S / 2 * 3), oracle := S }
  else { bank := fcBank S S S S, oracle := S }
/-- the liqee owes 100 of token 2 and holds 106 of token 0 and the open orders accounts `os` -/
def exFc (os : List OpenOrd) (being : Bool) : ForceClose where
  asset := { bank := (fcBanks 1).bank, index := 1, price := S, fee := S / 100, platformFee := 0 }
  liab := { bank := (fcBanks 2).bank, index := 2, price := S, fee := S / 50, platformFee := S / 200 }
  forceClose := true
  liqee := { banks := fcBanks, ps := [⟨0, 106 * S⟩, ⟨1, 0⟩, ⟨2, -100 * S⟩], os := os, perps := [] }
  kA := 1
  kL := 2
  liqeeAsset := { indexed := 0 }
  liqeeLiab := { indexed := -100 * S }
  liqeeFlag := ⟨being⟩
  liqorFlag := ⟨false⟩
  liqorAsset := { indexed := 30 * S }
  liqorLiab := { indexed := 500 * S }
def exFcEnv : ForceCloseEnv := { rnd := id, fd := Fx.div, now := 90000, liqorHealth := fun _ => .ok 0 }
/-- 50 of the token are free in an open orders account -/
def fcFree : List OpenOrd := [⟨2, 0, 50, 0, 0, 0, 0, 0, 5, false⟩]

def fcHealth (st : AcctState) (h : HT) : Res I80F48 := accountHealth id Fx.div 90000 st.banks st.ps st.os st.perps h
/-- after repaying at most 1000 -/
def exFcR (os : List OpenOrd) : Res (ForceClose × TokReport) := forceCloseBorrows exFcEnv (exFc os false) 1000
def exFc1 (os : List OpenOrd) : ForceClose := (got (exFc os false, ⟨0, 0, 0, 0⟩) (exFcR os)).1
def exFc2 (os : List OpenOrd) : TokReport := (got (exFc os false, ⟨0, 0, 0, 0⟩) (exFcR os)).2

theorem exFc_ok : exFcR [] = .ok (exFc1 [], exFc2 []) ∧ exFcR fcFree = .ok (exFc1 fcFree, exFc2 fcFree) := ⟨got_eq (by decide +kernel), got_eq (by decide +kernel)⟩

/-- **C65_conditions, C65_amounts, a case.** All 100 are repaid; the liqee pays 103.525, of which 0.505 are fees; only 40 if 40 are asked for. -/
theorem exFc_run : (exFc2 []).liabTransfer = 100 * S ∧ (exFc2 []).assetFromLiqee / S = 103 ∧ (exFc2 []).assetToLiqor / S = 103 ∧ 0 < (exFc2 []).fee ∧ (exFc1 []).liqeeLiab.indexed = 0 ∧
    (exFc1 []).liqorLiab.indexed = 400 * S ∧ (exFc1 []).liqeeAsset.indexed < -103 * S := by decide +kernel
theorem exFc_run40 : (forceCloseBorrows exFcEnv (exFc [] true) 40).toOption.any (fun x => decide (x.2.liabTransfer = 40 * S ∧ x.1.liqeeFlag.being = true)) = true ∧
    (forceCloseBorrows exFcEnv (exFc [] true) 100).toOption.any (fun x => decide (x.1.liqeeFlag.being = true)) = true := by decide +kernel

/-- what fails: a bank not marked, a liqor being liquidated, a liqor without deposits, an asset token with too high a liability weight -/
theorem exFc_fails : isOk (forceCloseBorrows exFcEnv { exFc [] false with forceClose := false } 40) = false ∧ isOk (forceCloseBorrows exFcEnv { exFc [] false with liqorFlag := ⟨true⟩ } 40) = false ∧
    isOk (forceCloseBorrows exFcEnv { exFc [] false with liqorLiab := { indexed := 0 } } 40) = false ∧
    isOk (forceCloseBorrows exFcEnv { exFc [] false with asset := { (exFc [] false).asset with bank := fcBank S S S (S / 2 * 3) } } 40) = false := by decide +kernel

theorem exFc_sane (os : List OpenOrd) : (exFc os false).Sane := by
  show ForceClose.Sane { exFc [] false with liqee := _ }
  exact ⟨(by decide : (0 : Int) ≤ S / 100), (by decide : (0 : Int) ≤ S / 50), (by decide : (0 : Int) ≤ 0), (by decide : (0 : Int) ≤ S / 200), (by decide : (0 : Int) ≤ S), (by decide : (0 : Int) ≤ S)⟩
theorem exFc_shows (os : List OpenOrd) : (exFc os false).Shows := by constructor <;> first | rfl | exact ⟨rfl, rfl⟩
theorem exFc_banks (os : List OpenOrd) : (exFc os false).asset.bank.Pos ∧ (exFc os false).liab.bank.Pos ∧ (exFc os false).asset.bank.RatesOk ∧ (exFc os false).liab.bank.RatesOk := by
  show (fcBanks 1).bank.Pos ∧ (fcBanks 2).bank.Pos ∧ (fcBanks 1).bank.RatesOk ∧ (fcBanks 2).bank.RatesOk
  refine ⟨?_, ?_, ?_, ?_⟩ <;> first | (unfold Bank.Pos; decide) | (unfold Bank.RatesOk; decide)

/-- **C65_ledger, a case** -/
example := C65_ledger exFc_ok.1 (A := [(fcBanks 1).bank]) (L := [(fcBanks 2).bank]) (k := 0) (m := 0) rfl rfl (ps := [{ indexed := 0 }, { indexed := 30 * S }])
  (qs := [{ indexed := -100 * S }, { indexed := 500 * S }]) (i := 0) (j := 1) (by decide) rfl rfl rfl rfl 5000 5000

def fcCache (os : List OpenOrd) : Cache := got ⟨[], [], []⟩ (accountCache id 90000 fcBanks [⟨0, 106 * S⟩, ⟨1, 0⟩, ⟨2, -100 * S⟩] os [])
theorem fcCache_ok : accountCache id 90000 fcBanks [⟨0, 106 * S⟩, ⟨1, 0⟩, ⟨2, -100 * S⟩] [] [] = .ok (fcCache []) := got_eq (by decide +kernel)
theorem exFcEnv_fd0 : ∀ p x, exFcEnv.fd 0 p = .ok x → x = 0 := by
  intro p x h
  simp only [exFcEnv, div_ok] at h
  have := h.2.1
  simpa using this
def fcH (st : AcctState) (h : HT) : I80F48 := got 0 (fcHealth st h)

/-- **C65_health, a case.** Liquidation-end health rises from -44 to -18. -/
theorem exFc_health : -(exFc2 []).liabTransfer * (2 * S) - S * (S * (S / 10 * 12) + 2 * S) ≤ S * S * (fcH (exFc1 []).liqee .liqEnd - fcH (exFc [] false).liqee .liqEnd) := by
  have h := C65_health exFcEnv_fd0 (exFc_sane []) (exFc_shows []) (exFc_banks []).1 (exFc_banks []).2.1 (exFc_banks []).2.2.1 (exFc_banks []).2.2.2 (by decide) (by decide) (by decide)
    (by intro o ho; simp [exFc] at ho) fcCache_ok exFc_ok.1 (by decide +kernel)
    (H := fcH (exFc [] false).liqee .liqEnd) (H' := fcH (exFc1 []).liqee .liqEnd) (got_eq (by decide +kernel)) (got_eq (by decide +kernel))
  have e : (exFc [] false).asset.bank.initLiabWeight * (exFc [] false).asset.price / S = S / 10 * 12 := by decide
  have e2 : (exFc [] false).liab.price = S := rfl
  rw [e, e2] at h
  have e3 : -(exFc2 []).liabTransfer * (2 * S) = -((exFc2 []).liabTransfer * (S + S)) := by ring
  rw [e3]
  exact h
theorem exFc_health_values : fcH (exFc [] false).liqee .liqEnd = -44 * S ∧ -19 * S < fcH (exFc1 []).liqee .liqEnd := by decide +kernel

/-- **C65, a flaw of the program.** A healthy account whose borrows are closed by force is liquidatable afterwards: maintenance health falls from 1 to below -12. The check of the liability weights only
compares init weights. -/
theorem C65_maint_health_can_fall : ∃ (env : ForceCloseEnv) (s s' : ForceClose) (r : TokReport) (H H' : I80F48), forceCloseBorrows env s 1000 = .ok (s', r) ∧ s.Sane ∧ s.Shows ∧
    accountHealth env.rnd env.fd env.now s.liqee.banks s.liqee.ps s.liqee.os s.liqee.perps .maint = .ok H ∧
    accountHealth env.rnd env.fd env.now s'.liqee.banks s'.liqee.ps s'.liqee.os s'.liqee.perps .maint = .ok H' ∧ 0 ≤ H ∧ H' < -12 * S :=
  ⟨exFcEnv, exFc [] false, exFc1 [], exFc2 [], fcH (exFc [] false).liqee .maint, fcH (exFc1 []).liqee .maint, exFc_ok.1, exFc_sane [], exFc_shows [],
    got_eq (by decide +kernel), got_eq (by decide +kernel), by decide +kernel, by decide +kernel⟩

/-- **C65, a flaw of the program.** Also liquidation-end health can fall, by 48: 50 of the token owed lie free in an open orders account. They count against the debt before, and for nothing after it was repaid. -/
theorem C65_health_can_fall : ∃ (env : ForceCloseEnv) (s s' : ForceClose) (r : TokReport) (H H' : I80F48), forceCloseBorrows env s 1000 = .ok (s', r) ∧ s.Sane ∧ s.Shows ∧ NoneReserved s.liqee.os ∧
    accountHealth env.rnd env.fd env.now s.liqee.banks s.liqee.ps s.liqee.os s.liqee.perps .liqEnd = .ok H ∧
    accountHealth env.rnd env.fd env.now s'.liqee.banks s'.liqee.ps s'.liqee.os s'.liqee.perps .liqEnd = .ok H' ∧ 0 ≤ H ∧ H' < H - 48 * S ∧ H' < 0 :=
  ⟨exFcEnv, exFc fcFree false, exFc1 fcFree, exFc2 fcFree, fcH (exFc fcFree false).liqee .liqEnd, fcH (exFc1 fcFree).liqee .liqEnd, exFc_ok.2, exFc_sane _, exFc_shows _,
    (by intro o ho; simp only [exFc, fcFree, List.mem_singleton] at ho; subst ho; exact ⟨rfl, rfl⟩),
    got_eq (by decide +kernel), got_eq (by decide +kernel), by decide +kernel, by decide +kernel, by decide +kernel⟩

end Liquidation
end Mango
