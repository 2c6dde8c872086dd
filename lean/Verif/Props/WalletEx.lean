import Verif.Props.WalletDeposit
import Verif.Props.WalletHealth
import Verif.Props.SerumEx
/-!
# Concrete cases for C64, and a deposit that lowers health
-/
namespace Mango
namespace Wallet
open Fx Health
open Serum (got isOk got_eq)

/-- token 0: price 1, weights 1; token 1: price 5, maintenance weights 7/8 and 9/8; loan fee 1/128 -/
def exBanks (t : Nat) : BankIn :=
  if t = 0 then
    { bank := { depositIndex := S, borrowIndex := S, indexedDeposits := 10000 * S, indexedBorrows := 100 * S, stablePrice := S, loanOriginationFeeRate := S / 128,
                maintAssetWeight := S, initAssetWeight := S, maintLiabWeight := S, initLiabWeight := S, depositLimit := 50000, netBorrowLimitPerWindowQuote := -1 },
      oracle := S }
  else
    { bank := { depositIndex := S / 2 * 3, borrowIndex := S * 2, indexedDeposits := 3000 * S, indexedBorrows := 100 * S, stablePrice := 5 * S, loanOriginationFeeRate := S / 128,
                maintAssetWeight := S / 8 * 7, initAssetWeight := S / 4 * 3, maintLiabWeight := S / 8 * 9, initLiabWeight := S / 4 * 5, depositLimit := 5000,
                netBorrowLimitPerWindowQuote := 100000, netBorrowLimitWindowSizeTs := 86400, minVaultToDepositsRatio := S / 5 },
      oracle := 5 * S }

/-- 1000 of token 0 and 30 of token 1 (indexed 20) -/
def exA : Acct :=
  { st := { banks := exBanks, ps := [⟨0, 1000 * S⟩, ⟨1, 20 * S⟩], os := [], perps := [] }, k := 1, ti := 1, pos := { indexed := 20 * S }, flag := ⟨false⟩, netDeposits := 700, vault := 4300, wallet := 7 }
def exE : Env := { rnd := id, fd := Fx.div, now := 90000, price := 5 * S, depositLimitQuote := 5000 }

/-- the owner takes 94, 64 more than there are: a loan of 64.5 -/
def exW : Res (Acct × Outcome) := withdraw exE ⟨false, false⟩ exA 94 true

/-- a delegate takes everything to the owner's associated token account: the position closes -/
def exWAll : Res (Acct × Outcome) := withdraw exE ⟨true, true⟩ exA U64MAX false
/-- a third party pays in 40, of which none is needed to repay -/
def exD : Res (Acct × Outcome) := deposit exE { exA with wallet := 50 } 40 false true false
/-- the account owes 30 of token 1 (indexed -15) and 60 of token 0, and is being liquidated -/
def exOwes : Acct :=
  { st := { banks := exBanks, ps := [⟨0, 100 * S⟩, ⟨1, -15 * S⟩], os := [], perps := [] }, k := 1, ti := 1, pos := { indexed := -15 * S }, flag := ⟨true⟩, netDeposits := 700, vault := 4300, wallet := 70 }
/-- repaying "reduce only" pays 30 of the 50 offered and ends the liquidation; paying 1 would not -/
def exDRec : Res (Acct × Outcome) := deposit exE exOwes 50 true false false
def exDFew : Res (Acct × Outcome) := deposit exE exOwes 1 true false false
def exF : Res (Acct × Outcome) := forceWithdraw exE true exA

/-- one token with weights 2/5 and 8/5 (maintenance), reserved in two markets; 50 of the quote token -/
def lowBanks (t : Nat) : BankIn :=
  if t = 0 then exBanks 0
  else
    { bank := { depositIndex := S, borrowIndex := S, indexedDeposits := 3000 * S, indexedBorrows := 200 * S, stablePrice := S, loanOriginationFeeRate := S / 128,
                maintAssetWeight := S / 5 * 2, initAssetWeight := S / 5, maintLiabWeight := S / 5 * 8, initLiabWeight := S / 5 * 9, depositLimit := 5000 },
      oracle := S }
/-- owes 150 of token 1; two markets for token 1 hold orders selling 100 each at price 2 -/
def exLow : Acct :=
  { st := { banks := lowBanks, ps := [⟨0, 50 * S⟩, ⟨1, -150 * S⟩], perps := [],
            os := [⟨1, 0, 0, 0, 100, 0, 2 * S, 0, 5, false⟩, ⟨1, 0, 0, 0, 100, 0, 2 * S, 0, 6, false⟩] },
    k := 1, ti := 1, pos := { indexed := -150 * S, inUseCount := 2 }, flag := ⟨false⟩, netDeposits := 0, vault := 2800, wallet := 50 }
def exLowD : Res (Acct × Outcome) := deposit { exE with price := S, depositLimitQuote := 0 } exLow 50 false true false
def maintOf (a : Acct) : Res I80F48 := accountHealth id Fx.div 90000 a.st.banks a.st.ps a.st.os a.st.perps .maint


/-- the banks of the cases meet the conditions of the theorems -/
theorem exBank_ok : (exBanks 0).bank.Pos ∧ (exBanks 1).bank.Pos ∧ (lowBanks 1).bank.Pos ∧ 0 ≤ (exBanks 0).bank.loanOriginationFeeRate ∧ 0 ≤ (exBanks 1).bank.loanOriginationFeeRate := by
  refine ⟨?_, ?_, ?_, by decide, by decide⟩ <;> (unfold Bank.Pos; decide)

theorem exA_ok : exA.Ok := rfl
theorem exOwes_ok : exOwes.Ok := rfl

/-- **C64_withdraw, C64_loan, a case.** 94 tokens are taken from an account with 30: a loan of 64, the fee of 1/2 is added to the debt and goes to the group. -/
theorem exW_run : exW.toOption.any (fun x => decide (x.1.pos.indexed * 4 = -129 * S ∧ x.1.vault = 4206 ∧ x.1.wallet = 101 ∧ x.1.netDeposits = 230 ∧ x.2.amount = 94 ∧ x.2.closed = false)) = true ∧
    exW.toOption.any (fun x => decide (x.2.loan * 2 = 129 * S ∧ x.2.fee * 2 = S ∧ x.1.bankIn.bank.collectedFeesNative * 2 = S)) = true := by decide +kernel

/-- without permission to borrow the same withdrawal fails -/
theorem exW_noborrow : isOk (withdraw exE ⟨false, false⟩ exA 94 false) = false ∧ isOk (withdraw exE ⟨true, true⟩ exA 29 false) = false := by decide +kernel

/-- **C64_withdraw_all, C64_delegate, a case.** -/
theorem exWAll_run : exWAll.toOption.any (fun x => decide (x.1.pos.indexed = 0 ∧ x.1.vault = 4270 ∧ x.1.wallet = 37 ∧ x.2.amount = 30 ∧ x.2.closed = true)) = true := by decide +kernel

/-- accounts and outcomes after the loan and the deposit -/
def exW1 : Acct := (got (exA, ⟨0, false, 0, 0⟩) exW).1
def exW2 : Outcome := (got (exA, ⟨0, false, 0, 0⟩) exW).2
theorem exW_ok : exW = .ok (exW1, exW2) := got_eq (by decide +kernel)
def exD0 : Acct := { exA with wallet := 50 }
def exD1 : Acct := (got (exA, ⟨0, false, 0, 0⟩) exD).1
def exD2 : Outcome := (got (exA, ⟨0, false, 0, 0⟩) exD).2
theorem exD_ok : exD = .ok (exD1, exD2) := got_eq (by decide +kernel)
def initOf (a : Acct) : Res I80F48 := accountHealth id Fx.div 90000 a.st.used.banks a.st.used.ps a.st.used.os a.st.used.perps .init
def cacheOf (a : Acct) : Res Cache := accountCache id 90000 a.st.banks a.st.ps a.st.os a.st.perps
def cch (a : Acct) : Cache := got ⟨[], [], []⟩ (cacheOf a)

/-- **C64_withdraw_health, a case.** All hypotheses are met by the loan above. -/
example : ∃ post, 0 ≤ post ∧ initOf exW1 = .ok post := by
  obtain ⟨_, pre, h1, h2, _⟩ := C64_withdraw_health (e := exE) (a := exA) Swap.isFloat_id
    (by intro x y z hx hy hz; simp only [exE, Fx.div_ok] at hz; obtain ⟨_, rfl, _⟩ := hz; exact Int.tdiv_nonneg (Int.mul_nonneg hx (le_of_lt S_pos)) hy)
    exBank_ok.2.1 exA_ok (by decide) (by decide) (by decide) rfl exW_ok
  obtain ⟨post, _, h3, h4⟩ := h2 rfl
  have hp : (0 : Int) ≤ pre := by
    have : (initOf exA).toOption.any (fun x => decide (0 ≤ x)) = true := by decide +kernel
    have h1' : initOf exA = .ok pre := h1
    rw [h1'] at this
    exact of_decide_eq_true this
  have hf := got_eq (d := (0 : Int)) (show isOk (initOf exW1) = true by decide +kernel)
  refine ⟨_, ?_, hf⟩
  have hd : ∀ p ∈ exW1.st.used.ps, (exW1.st.banks p.tokenIndex).depositScaleStart = F64MAX := by decide +kernel
  have := (h4 _ hf).1 (by
    intro p hp b
    have hb : b.depositScaleStart = F64MAX := hd p hp
    unfold scaledAt
    rw [if_pos (Or.inl hb), if_pos (Or.inl hb)])
  have h5 := h3 hp
  omega

/-- **C64_deposit, a case.** -/
theorem exD_run : exD.toOption.any (fun x => decide (x.1.vault = 4340 ∧ x.1.wallet = 10 ∧ x.1.netDeposits = 900 ∧ x.2.amount = 40 ∧ x.2.closed = false)) = true := by decide +kernel

/-- **C64_deposit_limits, C64_deposit_recovers, a case.** -/
theorem exDRec_run : exDRec.toOption.any (fun x => decide (x.1.pos.indexed = 0 ∧ x.1.vault = 4330 ∧ x.1.wallet = 40 ∧ x.2.amount = 30 ∧ x.2.closed = true ∧ x.1.flag.being = false)) = true ∧
    isOk exDFew = false := by decide +kernel

/-- **C64_force_withdraw, a case.** -/
theorem exF_run : exF.toOption.any (fun x => decide (x.1.pos.indexed = 0 ∧ x.1.vault = 4270 ∧ x.1.wallet = 37 ∧ x.2.amount = 30 ∧ x.2.closed = true)) = true ∧
    isOk (forceWithdraw exE false exA) = false := by decide +kernel

/-- **C64_deposit_health, a case.** -/
example : ∃ v v', maintOf exD0 = .ok v ∧ maintOf exD1 = .ok v' ∧
    v * (S * S) ≤ v' * (S * S) + slack (cch exD1) .maint (got [] ((cch exD1).balances .maint)) [] + tokenExcess (got [] ((cch exD0).balances .maint)) (cch exD0).tokens.length := by
  have hc : cacheOf exD0 = .ok (cch exD0) := got_eq (by decide +kernel)
  have hc' : cacheOf exD1 = .ok (cch exD1) := got_eq (by decide +kernel)
  have hv := got_eq (d := (0 : Int)) (show isOk (maintOf exD0) = true by decide +kernel)
  have hv' := got_eq (d := (0 : Int)) (show isOk (maintOf exD1) = true by decide +kernel)
  have hb := got_eq (d := []) (show isOk ((cch exD0).balances .maint) = true by decide +kernel)
  have hb' := got_eq (d := []) (show isOk ((cch exD1).balances .maint) = true by decide +kernel)
  have hs : (cch exD1).serums = [] := by decide +kernel
  refine ⟨_, _, hv, hv', ?_⟩
  refine C64_deposit_health (e := exE) (a := exD0) fdOk_div exBank_ok.2.1 rfl (by decide) exD_ok hc hc' (Or.inl rfl) ?_ ?_ ?_ hb hb' (mr' := [0, 0]) (rs' := []) ?_ ?_ hv hv'
  · intro t ht
    have : ∀ t ∈ (cch exD1).tokens,
      0 ≤ t.assetWeight .maint ∧ 0 ≤ t.prices.asset .maint ∧ 0 ≤ t.liabWeight .maint ∧ 0 ≤ t.prices.liab .maint ∧ t.assetWeight .maint * t.prices.asset .maint ≤ t.liabWeight .maint * t.prices.liab .maint := by decide +kernel
    obtain ⟨h1, h2, h3, h4, h5⟩ := this t ht
    exact ⟨h1, h2, h3, h4, h5⟩
  · intro s h; rw [hs] at h; cases h
  · intro s h; rw [hs] at h; cases h
  · have h1 : isOk ((cch exD1).reservations Fx.div .maint) = true := by decide +kernel
    have h2 := got_eq (d := ([], [])) h1
    have h3 : (got ([], []) ((cch exD1).reservations Fx.div .maint)).1 = [0, 0] ∧ (got ([], []) ((cch exD1).reservations Fx.div .maint)).2.length = 0 := by decide +kernel
    show (cch exD1).reservations Fx.div .maint = _
    rw [h2]
    congr 1
    exact Prod.ext h3.1 (List.length_eq_zero_iff.mp h3.2)
  · intro k; right; rw [hs]; exact List.Pairwise.nil

/-- C64_withdraw_recovers: a healthy account still flagged as being liquidated can withdraw, an unhealthy one cannot -/
example : isOk (withdraw exE ⟨false, false⟩ { exA with flag := ⟨true⟩ } 10 false) = true ∧ isOk (withdraw exE ⟨false, false⟩ exOwes 1 true) = false ∧
    isOk (withdraw exE ⟨false, false⟩ { exOwes with flag := ⟨false⟩ } 1 true) = false := by decide +kernel

/-- **Depositing can lower health.** token_deposit.rs:139 says "Since depositing can only increase health, we can skip the usual pre-health computation". Here an account owes 150 of a token and
has 100 of it reserved in each of two markets. A deposit of 50, which needs no signature of the account's owner, takes the maintenance health from 10 to below -29: the account can be liquidated.
The reason is how health treats reserved funds that may come back: each market counts the part up to the largest possible balance (-150 + 200 = 50, later 100) at the asset weight, so the deposit moves
50 of each of the two amounts from the higher liability weight to the asset weight. -/
theorem C64_deposit_can_lower_health : ∃ (e : Env) (a a' : Acct) (o : Outcome), a.bankIn.bank.Pos ∧ a.Ok ∧ (a.st.ps.map (·.tokenIndex)).Nodup ∧
    deposit e a 50 false true false = .ok (a', o) ∧ o.amount = 50 ∧ e.fd = Fx.div ∧
    ∃ v v', accountHealth e.rnd e.fd e.now a.st.banks a.st.ps a.st.os a.st.perps .maint = .ok v ∧ accountHealth e.rnd e.fd e.now a'.st.banks a'.st.ps a'.st.os a'.st.perps .maint = .ok v' ∧
      9 * S < v ∧ v' < -29 * S := by
  have h : exLowD = .ok (got (exA, ⟨0, false, 0, 0⟩) exLowD) := got_eq (by decide +kernel)
  have hv := got_eq (d := (0 : Int)) (show isOk (maintOf exLow) = true by decide +kernel)
  have hv' := got_eq (d := (0 : Int)) (show isOk (maintOf (got (exA, ⟨0, false, 0, 0⟩) exLowD).1) = true by decide +kernel)
  exact ⟨{ exE with price := S, depositLimitQuote := 0 }, exLow, _, _, exBank_ok.2.2.1, rfl, by decide, h, by decide +kernel, rfl, _, _, hv, hv', by decide +kernel, by decide +kernel⟩

end Wallet
end Mango
