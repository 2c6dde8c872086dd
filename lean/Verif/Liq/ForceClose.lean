import Verif.Liq.Token
import Verif.Health.Update
/-!
# Closing borrows of a token by force

Models instructions/token_force_close_borrows_with_token.rs. Account slots (`ensure_token_position`, deactivation) are in `Verif.Account.Slots`; logs and the statistics counter
`collected_liquidation_fees` are left out.
-/
namespace Mango
namespace Liquidation
open Fx Health

/-- what the instruction reads and writes: the two tokens, the liqee's account (positions number `kA` and `kL` in it are the asset and liab token positions) and the liqor's two positions -/
structure ForceClose where
  asset : LiqTok
  liab : LiqTok
  /-- `is_force_close` of the liab bank -/
  forceClose : Bool
  liqee : AcctState
  kA : Nat
  kL : Nat
  liqeeAsset : TokenPosition
  liqeeLiab : TokenPosition
  liqeeFlag : Account.Liq
  liqorFlag : Account.Liq
  liqorAsset : TokenPosition
  liqorLiab : TokenPosition

structure ForceCloseEnv where
  rnd : ℚ → ℚ
  fd : FDiv
  now : Int
  /-- the liqor's init health at the end (220-228) -/
  liqorHealth : ForceClose → Res I80F48

/-- 63-67: fee factors: for the liqor, in total -/
def ForceClose.factors (s : ForceClose) : Res (I80F48 × I80F48) := do
  let l1 ← Fx.add ONE s.liab.fee
  let a1 ← Fx.add ONE s.asset.fee
  let ffl ← Fx.mul l1 a1
  let l2 ← Fx.add l1 s.liab.platformFee
  let a2 ← Fx.add a1 s.asset.platformFee
  let fft ← Fx.mul l2 a2
  .ok (ffl, fft)

/-- 99-113: amounts -/
def ForceClose.amounts (s : ForceClose) (ffl fft nl ol : I80F48) (maxLiab : Int) : Res TokReport := do
  let nnl ← Fx.neg nl
  let lt := max (min (min (ofInt maxLiab) nnl) ol) 0
  let v ← Fx.mul lt s.liab.price
  let base ← Fx.div v s.asset.price
  let toLiqor ← Fx.mul base ffl
  let fromLiqee ← Fx.mul base fft
  let fee ← Fx.sub fromLiqee toLiqor
  .ok ⟨lt, fromLiqee, toLiqor, fee⟩

/-- the liqee's account with the two banks and positions -/
def ForceClose.account (s : ForceClose) (ab lb : Bank) (pA pL : TokenPosition) : AcctState :=
  (Upd.token s.kA { s.liqee.banks s.asset.index with bank := ab } pA.indexed).state
    ((Upd.token s.kL { s.liqee.banks s.liab.index with bank := lb } pL.indexed).state s.liqee)

/-- 9-232 `token_force_close_borrows_with_token`. Requires distinct accounts (23) and the liqor's signature (26-31). -/
def forceCloseBorrows (env : ForceCloseEnv) (s : ForceClose) (maxLiab : Int) : Res (ForceClose × TokReport) := do
  require (s.asset.index ≠ s.liab.index) .someError
  require (s.liqorFlag.being = false) .beingLiquidated
  require (s.forceClose = true) .someError
  require (s.asset.bank.areBorrowsReduceOnly = false) .tokenInReduceOnlyMode
  let (ffl, fft) ← s.factors
  let w ← Fx.mul s.asset.bank.initLiabWeight fft
  require (s.liab.bank.initLiabWeight ≥ w) .someError
  let _ ← s.liqeeAsset.native s.asset.bank
  let nl ← s.liqeeLiab.native s.liab.bank
  require (nl < 0) .someError
  let ol ← s.liqorLiab.native s.liab.bank
  require (ol > 0) .someError
  let r ← s.amounts ffl fft nl ol maxLiab
  let cf ← Fx.add s.asset.bank.collectedFeesNative r.fee
  let ab := { s.asset.bank with collectedFeesNative := cf }
  let (lb, liqeeLiab, _) ← s.liab.bank.depositWithDusting s.liqeeLiab r.liabTransfer env.now
  let (lb, liqorLiab, wr) ← lb.withdrawWithFee s.liqorLiab r.liabTransfer env.now
  let _ ← liqeeLiab.native lb
  let (ab, liqorAsset, _) ← ab.deposit s.liqorAsset r.assetToLiqor env.now
  let (ab, liqeeAsset, _) ← ab.withdrawWithoutFeeWithDusting s.liqeeAsset r.assetFromLiqee env.now
  let _ ← liqeeAsset.native ab
  require (wr.loanAmount = 0) .someError
  let st := s.account ab lb liqeeAsset liqeeLiab
  let c ← accountCache env.rnd env.now st.banks st.ps st.os st.perps
  let h ← c.health env.fd .liqEnd
  let s := { s with asset := { s.asset with bank := ab }, liab := { s.liab with bank := lb }, liqee := st, liqeeAsset := liqeeAsset, liqeeLiab := liqeeLiab,
                    liqorAsset := liqorAsset, liqorLiab := liqorLiab, liqeeFlag := (s.liqeeFlag.maybeRecover h).1 }
  let lh ← env.liqorHealth s
  require (lh ≥ 0) .healthMustBePositive
  .ok (s, r)

end Liquidation
end Mango
