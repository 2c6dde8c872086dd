import Verif.Config.Model
/-!
# What the configuration of a token should look like, and what an edit may change

Written without the steps of the model.
-/
namespace Mango
namespace Config
open Fx

/-- `q ≤ f`, as far as the checks of the program go: not-a-number passes them too -/
def Flt.AtLeast (q : ℚ) (f : Flt) : Prop := f = .nan ∨ f = .pinf ∨ ∃ r, f = .num r ∧ q ≤ r
/-- `f ≤ q`, or not-a-number -/
def Flt.AtMost (q : ℚ) (f : Flt) : Prop := f = .nan ∨ f = .ninf ∨ ∃ r, f = .num r ∧ r ≤ q
/-- `q < f`, or not-a-number -/
def Flt.Above (q : ℚ) (f : Flt) : Prop := f = .nan ∨ f = .pinf ∨ ∃ r, f = .num r ∧ q < r

/-- what every bank's configuration satisfies -/
structure Valid (c : Cfg) : Prop where
  confFilter : 0 ≤ c.confFilter
  /-- the interest curve: 0 ≤ util0 ≤ util1 ≤ 1 and no negative rate -/
  curve : 0 ≤ c.util0 ∧ c.util0 ≤ c.util1 ∧ c.util1 ≤ ONE
  rates : 0 ≤ c.zeroUtil ∧ 0 ≤ c.rate0 ∧ 0 ≤ c.rate1 ∧ 0 ≤ c.maxRate ∧ 0 ≤ c.adjustment
  curveScaling : c.curveScaling.AtLeast 1
  targetUtil : c.targetUtil.AtLeast 0 ∧ c.targetUtil.AtMost 1
  /-- no negative fee -/
  fees : 0 ≤ c.loanFee ∧ 0 ≤ c.originationFee ∧ 0 ≤ c.liqFee ∧ 0 ≤ c.platformFee
  floatFees : c.tcsTaker.AtLeast 0 ∧ c.tcsMaker.AtLeast 0 ∧ c.flashFee.AtLeast 0 ∧ c.collateralFee.AtLeast 0
  /-- initial weights are at least as strict as maintenance weights -/
  assetWeights : 0 ≤ c.initAsset ∧ c.initAsset ≤ c.maintAsset
  liabWeights : 0 ≤ c.maintLiab ∧ c.maintLiab ≤ c.initLiab
  shift : 0 ≤ c.shiftInv ∧ 0 ≤ c.shiftAsset ∧ 0 ≤ c.shiftLiab
  stable : c.delayGrowth.AtLeast 0 ∧ c.stableGrowth.AtLeast 0
  vault : c.minVault.AtLeast 0 ∧ c.minVault.AtMost 1
  borrowLimit : -1 ≤ c.netBorrowLimit
  scales : c.borrowScale.Above 0 ∧ c.depositScale.Above 0
  reduceOnly : c.reduceOnly ≤ 2
  /-- a token that liquidators cannot take has no value in maintenance health and cannot be borrowed -/
  notLiquidatable : c.disableAssetLiq = true → (c.reduceOnly = 1 ∨ c.reduceOnly = 2) ∧ c.maintAsset = 0
  /-- forced withdrawal only of tokens without deposits, collateral value and asset liquidation -/
  forceWithdraw : c.forceWithdraw = true → c.reduceOnly = 1 ∧ c.disableAssetLiq = true ∧ c.maintAsset = 0

/-- equal apart from the fallback oracle -/
def Alike (c d : Cfg) : Prop := d = { c with fallback := d.fallback }

/-- the stored number after an optional change -/
def Num (o : Option Flt) (old new : I80F48) : Prop :=
  match o with
  | none => new = old
  | some v => v.toFx = .ok new

/-- the stored maximal staleness (in slots) after an optional change; -1: none -/
def staleness : Option (Flt × Option Nat) → Int → Int
  | none, old => old
  | some (_, some n), _ => (n : Int)
  | some (_, none), _ => -1

/-- what a token edit does to a bank: requested fields change to the requested value, all others stay -/
structure Edited (env : Env) (e : Edit) (c c' : Cfg) : Prop where
  oracle : c'.oracle = e.oracle.getD c.oracle
  fallback : c'.fallback = if e.setFallback then env.fallbackKey else c.fallback
  confFilter : Num (e.oracleConfig.map Prod.fst) c.confFilter c'.confFilter
  maxStaleness : c'.maxStaleness = staleness e.oracleConfig c.maxStaleness
  adjustment : Num (e.interest.map (fun v => v.1)) c.adjustment c'.adjustment
  util0 : Num (e.interest.map (fun v => v.2.1)) c.util0 c'.util0
  rate0 : Num (e.interest.map (fun v => v.2.2.1)) c.rate0 c'.rate0
  util1 : Num (e.interest.map (fun v => v.2.2.2.1)) c.util1 c'.util1
  rate1 : Num (e.interest.map (fun v => v.2.2.2.2.1)) c.rate1 c'.rate1
  maxRate : Num (e.interest.map (fun v => v.2.2.2.2.2)) c.maxRate c'.maxRate
  loanFee : Num e.loanFee c.loanFee c'.loanFee
  originationFee : Num e.originationFee c.originationFee c'.originationFee
  /-- the maintenance weights are frozen at their present values when the shift is aborted -/
  maint : ∃ a l : I80F48, Num e.maintAsset c.maintAsset a ∧ Num e.maintLiab c.maintLiab l ∧
    (if e.shiftAbort then { c with maintAsset := a, maintLiab := l }.maintWeights env.now = .ok (c'.maintAsset, c'.maintLiab) else c'.maintAsset = a ∧ c'.maintLiab = l)
  initAsset : Num e.initAsset c.initAsset c'.initAsset
  initLiab : Num e.initLiab c.initLiab c'.initLiab
  liqFee : Num e.liqFee c.liqFee c'.liqFee
  delayInterval : c'.delayInterval = e.delayInterval.getD c.delayInterval
  delayGrowth : c'.delayGrowth = e.delayGrowth.getD c.delayGrowth
  stableGrowth : c'.stableGrowth = e.stableGrowth.getD c.stableGrowth
  minVault : c'.minVault = e.minVault.getD c.minVault
  netBorrowLimit : c'.netBorrowLimit = e.netBorrowLimit.getD c.netBorrowLimit
  netBorrowWindow : c'.netBorrowWindow = e.netBorrowWindow.getD c.netBorrowWindow
  borrowScale : c'.borrowScale = e.borrowScale.getD c.borrowScale
  depositScale : c'.depositScale = e.depositScale.getD c.depositScale
  reduceOnly : c'.reduceOnly = e.reduceOnly.getD c.reduceOnly
  /-- force close can be switched on only in a reduce-only mode -/
  forceClose : c'.forceClose = e.forceClose.getD c.forceClose ∧ (e.forceClose = some true → 0 < c'.reduceOnly)
  name : c'.name = e.name.getD c.name
  tier : c'.tier = e.tier.getD c.tier
  tcsTaker : c'.tcsTaker = e.tcsTaker.getD c.tcsTaker
  tcsMaker : c'.tcsMaker = e.tcsMaker.getD c.tcsMaker
  flashFee : c'.flashFee = e.flashFee.getD c.flashFee
  curveScaling : c'.curveScaling = e.curveScaling.getD c.curveScaling
  targetUtil : c'.targetUtil = e.targetUtil.getD c.targetUtil
  shiftStart : c'.shiftStart = e.shiftStart.getD (if e.shiftAbort then 0 else c.shiftStart)
  shiftEnd : c'.shiftEnd = e.shiftEnd.getD (if e.shiftAbort then 0 else c.shiftEnd)
  shiftAsset : Num e.shiftAsset (if e.shiftAbort then 0 else c.shiftAsset) c'.shiftAsset
  shiftLiab : Num e.shiftLiab (if e.shiftAbort then 0 else c.shiftLiab) c'.shiftLiab
  /-- one over the length of the shift, recomputed when a boundary is given -/
  shiftInv : if e.shiftStart.isSome ∨ e.shiftEnd.isSome then
      (c'.shiftEnd ≤ c'.shiftStart ∧ c'.shiftInv = 0) ∨ (c'.shiftStart < c'.shiftEnd ∧ Fx.div ONE (ofInt (c'.shiftEnd - c'.shiftStart)) = .ok c'.shiftInv)
    else c'.shiftInv = if e.shiftAbort then 0 else c.shiftInv
  depositLimit : c'.depositLimit = e.depositLimit.getD c.depositLimit
  zeroUtil : Num e.zeroUtil c.zeroUtil c'.zeroUtil
  platformFee : Num e.platformFee c.platformFee c'.platformFee
  disableAssetLiq : c'.disableAssetLiq = e.disableAssetLiq.getD c.disableAssetLiq
  collateralFee : c'.collateralFee = e.collateralFee.getD c.collateralFee
  forceWithdraw : c'.forceWithdraw = e.forceWithdraw.getD c.forceWithdraw

/-- edits that can only make the token safer: initial asset weight to zero, a stricter reduce-only mode, liquidation platform fee or collateral fee to zero, abort of a weight shift -/
structure Protective (e : Edit) (c : Cfg) : Prop where
  oracle : e.oracle = none
  oracleConfig : e.oracleConfig = none
  setFallback : e.setFallback = false
  insurance : e.insurance = none
  interest : e.interest = none
  loanFee : e.loanFee = none
  originationFee : e.originationFee = none
  maintAsset : e.maintAsset = none
  initAsset : ∀ v, e.initAsset = some v → v = .num 0
  maintLiab : e.maintLiab = none
  initLiab : e.initLiab = none
  liqFee : e.liqFee = none
  delayInterval : e.delayInterval = none
  delayGrowth : e.delayGrowth = none
  stableGrowth : e.stableGrowth = none
  minVault : e.minVault = none
  netBorrowLimit : e.netBorrowLimit = none
  netBorrowWindow : e.netBorrowWindow = none
  borrowScale : e.borrowScale = none
  depositScale : e.depositScale = none
  resets : e.resetStablePrice = false ∧ e.resetNetBorrowLimit = false
  reduceOnly : ∀ v, e.reduceOnly = some v → v ≠ 0 ∧ ¬ (v = 2 ∧ c.reduceOnly = 1)
  name : e.name = none
  tier : e.tier = none
  forceClose : e.forceClose = none
  tcsTaker : e.tcsTaker = none
  tcsMaker : e.tcsMaker = none
  flashFee : e.flashFee = none
  curveScaling : e.curveScaling = none
  targetUtil : e.targetUtil = none
  shiftStart : e.shiftStart = none
  shiftEnd : e.shiftEnd = none
  shiftAsset : e.shiftAsset = none
  shiftLiab : e.shiftLiab = none
  depositLimit : e.depositLimit = none
  zeroUtil : e.zeroUtil = none
  platformFee : ∀ v, e.platformFee = some v → v = .num 0
  disableAssetLiq : e.disableAssetLiq = none
  collateralFee : ∀ v, e.collateralFee = some v → v = .num 0
  forceWithdraw : e.forceWithdraw = none

/-- what a protective edit can do to a bank, at time `now` -/
structure Restricts (now : Int) (c c' : Cfg) : Prop where
  /-- only these fields can differ -/
  others : c' = { c with initAsset := c'.initAsset, reduceOnly := c'.reduceOnly, platformFee := c'.platformFee, collateralFee := c'.collateralFee, maintAsset := c'.maintAsset,
                         maintLiab := c'.maintLiab, shiftStart := c'.shiftStart, shiftEnd := c'.shiftEnd, shiftInv := c'.shiftInv, shiftAsset := c'.shiftAsset, shiftLiab := c'.shiftLiab }
  initAsset : c'.initAsset = c.initAsset ∨ c'.initAsset = 0
  /-- new positions stay forbidden where they were: 1 forbids new deposits and borrows, 2 new borrows -/
  reduceOnly : c'.reduceOnly = c.reduceOnly ∨ c'.reduceOnly = 1 ∨ (c'.reduceOnly ≠ 0 ∧ c.reduceOnly ≠ 1)
  platformFee : c'.platformFee = c.platformFee ∨ c'.platformFee = 0
  collateralFee : c'.collateralFee = c.collateralFee ∨ c'.collateralFee = .num 0
  /-- the maintenance weights and their shift stay, or the weights are frozen at their values of `now` -/
  weights : (c'.maintAsset = c.maintAsset ∧ c'.maintLiab = c.maintLiab ∧ c'.shiftStart = c.shiftStart ∧ c'.shiftEnd = c.shiftEnd ∧ c'.shiftInv = c.shiftInv ∧ c'.shiftAsset = c.shiftAsset ∧
      c'.shiftLiab = c.shiftLiab) ∨
    (c.maintWeights now = .ok (c'.maintAsset, c'.maintLiab) ∧ ∀ t, c'.maintWeights t = .ok (c'.maintAsset, c'.maintLiab))

end Config
end Mango
