import Verif.Bank.Model
import Verif.Tcs.Model
/-!
# Configuration of tokens and markets

Models instructions/token_register.rs, token_register_trustless.rs, token_add_bank.rs, token_edit.rs, perp_edit_market.rs, serum3_edit_market.rs and state/bank.rs:305-435, for all fields that are
configuration. Public keys are numbers. Left out: logs, creation of the accounts, the values of the stable price model that a reset changes, the gates (C46).

Floats here can be NaN or infinite: `require_gte!(a, b)` is `if a < b { error }`, which a NaN passes.
-/
namespace Mango
namespace Config
open Fx

/-- f32 and f64 values -/
inductive Flt where
  | nan
  | ninf
  | pinf
  | num (q : ℚ)
  deriving DecidableEq

namespace Flt
/-- `a < b` -/
def lt : Flt → Flt → Bool
  | .num a, .num b => decide (a < b)
  | .ninf, .num _ => true
  | .ninf, .pinf => true
  | .num _, .pinf => true
  | _, _ => false
/-- `a <= b` -/
def le (a b : Flt) : Bool := lt a b || (decide (a = b) && decide (a ≠ .nan))
/-- `a != 0.0` -/
def nonZero (a : Flt) : Bool := decide (a ≠ .num 0)
/-- `I80F48::from_num`; panics if not finite -/
def toFx : Flt → Res I80F48
  | .num q => Swap.toFx q
  | _ => .error .panic
/-- `require_gte!(a, b)` -/
def gte (a b : Flt) : Res Unit := require (lt a b = false) .requireFailed
/-- `require_gt!(a, b)` -/
def gt (a b : Flt) : Res Unit := require (le a b = false) .requireFailed
end Flt

/-- the configuration part of a bank (state/bank.rs:60-257) -/
structure Cfg where
  oracle : Nat
  fallback : Nat
  confFilter : I80F48
  /-- i64; -1: no limit -/
  maxStaleness : Int
  adjustment : I80F48
  util0 : I80F48
  rate0 : I80F48
  util1 : I80F48
  rate1 : I80F48
  maxRate : I80F48
  loanFee : I80F48
  originationFee : I80F48
  maintAsset : I80F48
  initAsset : I80F48
  maintLiab : I80F48
  initLiab : I80F48
  liqFee : I80F48
  delayInterval : Int
  delayGrowth : Flt
  stableGrowth : Flt
  minVault : Flt
  netBorrowLimit : Int
  netBorrowWindow : Int
  borrowScale : Flt
  depositScale : Flt
  reduceOnly : Nat
  forceClose : Bool
  name : String
  tier : String
  tcsTaker : Flt
  tcsMaker : Flt
  flashFee : Flt
  curveScaling : Flt
  targetUtil : Flt
  shiftStart : Int
  shiftEnd : Int
  shiftInv : I80F48
  shiftAsset : I80F48
  shiftLiab : I80F48
  depositLimit : Int
  zeroUtil : I80F48
  platformFee : I80F48
  disableAssetLiq : Bool
  collateralFee : Flt
  forceWithdraw : Bool
  deriving DecidableEq

namespace Cfg
/-- the weight fields as a bank, for `Bank.maintWeights` -/
def weights (c : Cfg) : Bank :=
  { depositIndex := S, borrowIndex := S, indexedDeposits := 0, indexedBorrows := 0, maintAssetWeight := c.maintAsset, maintLiabWeight := c.maintLiab, initAssetWeight := c.initAsset,
    initLiabWeight := c.initLiab, maintWeightShiftStart := c.shiftStart, maintWeightShiftEnd := c.shiftEnd, maintWeightShiftDurationInv := c.shiftInv,
    maintWeightShiftAssetTarget := c.shiftAsset, maintWeightShiftLiabTarget := c.shiftLiab }
/-- bank.rs:479-497 -/
def maintWeights (c : Cfg) (now : Int) : Res (I80F48 × I80F48) := c.weights.maintWeights now

/-- bank.rs:453-455 -/
def borrowsReduceOnly (c : Cfg) : Bool := c.reduceOnly == 1 || c.reduceOnly == 2
/-- bank.rs:449-451 -/
def depositsReduceOnly (c : Cfg) : Bool := c.reduceOnly == 1

/-- bank.rs:389-435 `verify` -/
def verify (c : Cfg) : Res Unit := do
  require (c.confFilter ≥ 0) .requireFailed
  require (c.util0 ≥ 0) .requireFailed
  require (c.util1 ≥ c.util0) .requireFailed
  require (ONE ≥ c.util1) .requireFailed
  require (c.rate0 ≥ 0) .requireFailed
  require (c.rate1 ≥ 0) .requireFailed
  require (c.maxRate ≥ 0) .requireFailed
  require (c.adjustment ≥ 0) .requireFailed
  require (c.loanFee ≥ 0) .requireFailed
  require (c.originationFee ≥ 0) .requireFailed
  c.delayGrowth.gte (.num 0)
  c.stableGrowth.gte (.num 0)
  require (c.initAsset ≥ 0) .requireFailed
  require (c.maintAsset ≥ c.initAsset) .requireFailed
  require (c.maintLiab ≥ 0) .requireFailed
  require (c.initLiab ≥ c.maintLiab) .requireFailed
  require (c.liqFee ≥ 0) .requireFailed
  c.minVault.gte (.num 0)
  (Flt.num 1).gte c.minVault
  require (c.netBorrowLimit ≥ -1) .requireFailed
  c.borrowScale.gt (.num 0)
  c.depositScale.gt (.num 0)
  require (2 ≥ c.reduceOnly) .requireFailed
  c.tcsTaker.gte (.num 0)
  c.tcsMaker.gte (.num 0)
  c.flashFee.gte (.num 0)
  c.curveScaling.gte (.num 1)
  c.targetUtil.gte (.num 0)
  (Flt.num 1).gte c.targetUtil
  require (c.shiftInv ≥ 0) .requireFailed
  require (c.shiftAsset ≥ 0) .requireFailed
  require (c.shiftLiab ≥ 0) .requireFailed
  require (c.zeroUtil ≥ 0) .requireFailed
  require (c.platformFee ≥ 0) .requireFailed
  (if c.disableAssetLiq then do
    require (c.borrowsReduceOnly = true) .someError
    require (c.maintAsset = 0) .requireFailed
   else .ok ())
  c.collateralFee.gte (.num 0)
  (if c.forceWithdraw then do
    require (c.depositsReduceOnly = true) .someError
    require (c.disableAssetLiq = true) .someError
    require (c.maintAsset = 0) .requireFailed
   else .ok ())
end Cfg

/-- parameters of token_edit.rs:15-62 -/
structure Edit where
  oracle : Option Nat := none
  oracleConfig : Option (Flt × Option Nat) := none
  insurance : Option Bool := none
  /-- adjustment_factor, util0, rate0, util1, rate1, max_rate -/
  interest : Option (Flt × Flt × Flt × Flt × Flt × Flt) := none
  loanFee : Option Flt := none
  originationFee : Option Flt := none
  maintAsset : Option Flt := none
  initAsset : Option Flt := none
  maintLiab : Option Flt := none
  initLiab : Option Flt := none
  liqFee : Option Flt := none
  delayInterval : Option Int := none
  delayGrowth : Option Flt := none
  stableGrowth : Option Flt := none
  minVault : Option Flt := none
  netBorrowLimit : Option Int := none
  netBorrowWindow : Option Int := none
  borrowScale : Option Flt := none
  depositScale : Option Flt := none
  resetStablePrice : Bool := false
  resetNetBorrowLimit : Bool := false
  reduceOnly : Option Nat := none
  name : Option String := none
  forceClose : Option Bool := none
  tcsTaker : Option Flt := none
  tcsMaker : Option Flt := none
  flashFee : Option Flt := none
  curveScaling : Option Flt := none
  targetUtil : Option Flt := none
  shiftStart : Option Int := none
  shiftEnd : Option Int := none
  shiftAsset : Option Flt := none
  shiftLiab : Option Flt := none
  shiftAbort : Bool := false
  setFallback : Bool := false
  depositLimit : Option Int := none
  zeroUtil : Option Flt := none
  platformFee : Option Flt := none
  disableAssetLiq : Option Bool := none
  collateralFee : Option Flt := none
  forceWithdraw : Option Bool := none
  tier : Option String := none

/-- group, signer and passed accounts -/
structure Env where
  now : Int
  /-- group.admin, group.security_admin, group.fast_listing_admin -/
  admin : Nat
  security : Nat
  fast : Nat
  signer : Nat
  /-- passed oracle account and whether it has a price -/
  oracleKey : Nat := 0
  oraclePriceOk : Bool := true
  /-- passed fallback oracle and whether `check_is_valid_fallback_oracle` accepts it -/
  fallbackKey : Nat := 0
  fallbackValid : Bool := true
  /-- group supports several banks per token and is in test mode (accounts_ix/token_add_bank.rs:13-18) -/
  testing : Bool := false

/-- one edit: new configuration and whether the group admin must sign -/
abbrev Step (C : Type) := C × Bool → Res (C × Bool)

/-- `if let Some(v) = .. { ..; if strict { require_group_admin = true } }` -/
def change {C α : Type} (o : Option α) (strict : C → α → Bool) (f : C → α → Res C) : Step C := fun s =>
  match o with
  | none => .ok s
  | some v => do
    let c ← f s.1 v
    .ok (c, s.2 || strict s.1 v)

/-- a change only the group admin may make -/
def always {C α : Type} (_ : C) (_ : α) : Bool := true
/-- `bool` parameters -/
def flag (b : Bool) : Option Unit := if b then some () else none

/-- one after the other -/
def runSteps {C : Type} : List (Step C) → Step C
  | [], s => .ok s
  | f :: fs, s => do
    let s ← f s
    runSteps fs s

/-- token_edit.rs:70-516, in order -/
def tokenSteps (env : Env) (e : Edit) : List (Step Cfg) := [
  change e.oracleConfig always (fun c v => do
    let f ← v.1.toFx
    .ok { c with confFilter := f, maxStaleness := match v.2 with | some n => (n : Int) | none => -1 }),
  change e.oracle always (fun c v => .ok { c with oracle := v }),
  change (flag e.setFallback) always (fun c _ => do
    require (env.fallbackValid = true) .someError
    .ok { c with fallback := env.fallbackKey }),
  change (flag e.resetStablePrice) always (fun c _ => do
    require (c.oracle = env.oracleKey) .requireFailed
    require (env.oraclePriceOk = true) .oracleStale
    .ok c),
  change e.insurance always (fun c _ => .ok c),
  change e.interest always (fun c v => do
    let a ← v.1.toFx
    let u0 ← v.2.1.toFx
    let r0 ← v.2.2.1.toFx
    let u1 ← v.2.2.2.1.toFx
    let r1 ← v.2.2.2.2.1.toFx
    let m ← v.2.2.2.2.2.toFx
    .ok { c with adjustment := a, util0 := u0, rate0 := r0, util1 := u1, rate1 := r1, maxRate := m }),
  change e.originationFee always (fun c v => do
    let x ← v.toFx
    .ok { c with originationFee := x }),
  change e.loanFee always (fun c v => do
    let x ← v.toFx
    .ok { c with loanFee := x }),
  change e.maintAsset always (fun c v => do
    let x ← v.toFx
    .ok { c with maintAsset := x }),
  change e.initAsset (fun _ v => v.nonZero) (fun c v => do
    v.gte (.num 0)
    let x ← v.toFx
    .ok { c with initAsset := x }),
  change e.maintLiab always (fun c v => do
    let x ← v.toFx
    .ok { c with maintLiab := x }),
  change e.initLiab always (fun c v => do
    let x ← v.toFx
    .ok { c with initLiab := x }),
  change e.liqFee always (fun c v => do
    let x ← v.toFx
    .ok { c with liqFee := x }),
  change e.delayInterval always (fun c v => .ok { c with delayInterval := v }),
  change e.delayGrowth always (fun c v => .ok { c with delayGrowth := v }),
  change e.stableGrowth always (fun c v => .ok { c with stableGrowth := v }),
  change e.minVault always (fun c v => .ok { c with minVault := v }),
  change e.netBorrowLimit always (fun c v => .ok { c with netBorrowLimit := v }),
  change e.netBorrowWindow always (fun c v => .ok { c with netBorrowWindow := v }),
  change (flag e.resetNetBorrowLimit) always (fun c _ => .ok c),
  change e.borrowScale always (fun c v => .ok { c with borrowScale := v }),
  change e.depositScale always (fun c v => .ok { c with depositScale := v }),
  change e.reduceOnly (fun c v => v == 0 || (v == 2 && c.reduceOnly == 1)) (fun c v => .ok { c with reduceOnly := v }),
  change e.name always (fun c v => .ok { c with name := v }),
  change e.tier always (fun c v => .ok { c with tier := v }),
  change e.forceClose always (fun c v => do
    (if v then require (c.reduceOnly > 0) .someError else .ok ())
    .ok { c with forceClose := v }),
  change e.tcsTaker always (fun c v => do
    v.gte (.num 0)
    .ok { c with tcsTaker := v }),
  change e.tcsMaker always (fun c v => do
    v.gte (.num 0)
    .ok { c with tcsMaker := v }),
  change e.flashFee always (fun c v => do
    v.gte (.num 0)
    .ok { c with flashFee := v }),
  change e.curveScaling always (fun c v => do
    v.gte (.num 1)
    .ok { c with curveScaling := v }),
  change e.targetUtil always (fun c v => do
    v.gte (.num 0)
    .ok { c with targetUtil := v }),
  change (flag e.shiftAbort) (fun _ _ => false) (fun c _ => do
    let (a, l) ← c.maintWeights env.now
    .ok { c with maintAsset := a, maintLiab := l, shiftStart := 0, shiftEnd := 0, shiftInv := 0, shiftAsset := 0, shiftLiab := 0 }),
  change e.shiftStart always (fun c v => .ok { c with shiftStart := v }),
  change e.shiftEnd always (fun c v => .ok { c with shiftEnd := v }),
  change e.shiftAsset always (fun c v => do
    let x ← v.toFx
    .ok { c with shiftAsset := x }),
  change e.shiftLiab always (fun c v => do
    let x ← v.toFx
    .ok { c with shiftLiab := x }),
  change (flag (e.shiftStart.isSome || e.shiftEnd.isSome)) (fun _ _ => false) (fun c _ =>
    if c.shiftEnd ≤ c.shiftStart then .ok { c with shiftInv := 0 }
    else do
      let q ← Fx.div ONE (ofInt (c.shiftEnd - c.shiftStart))
      .ok { c with shiftInv := q }),
  change e.depositLimit always (fun c v => .ok { c with depositLimit := v }),
  change e.zeroUtil always (fun c v => do
    let x ← v.toFx
    .ok { c with zeroUtil := x }),
  change e.platformFee (fun _ v => v.nonZero) (fun c v => do
    let x ← v.toFx
    .ok { c with platformFee := x }),
  change e.collateralFee (fun _ v => v.nonZero) (fun c v => .ok { c with collateralFee := v }),
  change e.disableAssetLiq always (fun c v => .ok { c with disableAssetLiq := v }),
  change e.forceWithdraw always (fun c v => .ok { c with forceWithdraw := v })]

/-- all banks of a token, and the mint info -/
structure Token where
  banks : List Cfg
  oracle : Nat
  fallback : Nat
  insurance : Bool
  deriving DecidableEq

/-- the loop of token_edit.rs:68-517 -/
def editBanks (env : Env) (e : Edit) : List Cfg → Bool → Res (List Cfg × Bool)
  | [], adm => .ok ([], adm)
  | c :: cs, adm => do
    let (c, adm) ← runSteps (tokenSteps env e) (c, adm)
    let (cs, adm) ← editBanks env e cs adm
    .ok (c :: cs, adm)

/-- token_edit.rs:519-530: who must sign -/
def authorized (env : Env) (adm : Bool) : Res Unit :=
  if adm then require (env.admin = env.signer) .someError else require (env.admin = env.signer ∨ env.security = env.signer) .someError

/-- token_edit.rs:15-546; the banks passed are exactly those of the mint info (65-66) -/
def tokenEdit (env : Env) (t : Token) (e : Edit) : Res Token := do
  let (cs, adm) ← editBanks env e t.banks false
  authorized env adm
  match cs with
  | [] => .error .panic
  | c :: _ => do
    c.verify
    .ok { banks := cs, oracle := e.oracle.getD t.oracle, fallback := if e.setFallback then env.fallbackKey else t.fallback, insurance := e.insurance.getD t.insurance }

/-- token_add_bank.rs:7-29 with bank.rs:305-387: a copy of an existing bank (number `k`) — except for the fallback oracle (380) -/
def addBank (env : Env) (t : Token) (k : Nat) : Res Token := do
  require (env.admin = env.signer) .someError
  require (env.testing = true) .someError
  match t.banks[k]? with
  | none => .error .someError
  | some c => do
    -- mint_info.rs: at most MAX_BANKS = 6 banks
    require (t.banks.length < 6) .panic
    .ok { t with banks := t.banks ++ [{ c with fallback := c.oracle }] }

/-- parameters of token_register.rs:16-49 -/
structure RegisterArgs where
  confFilter : Flt
  maxStaleness : Option Nat
  interest : Flt × Flt × Flt × Flt × Flt × Flt
  loanFee : Flt
  originationFee : Flt
  maintAsset : Flt
  initAsset : Flt
  maintLiab : Flt
  initLiab : Flt
  liqFee : Flt
  delayInterval : Int
  delayGrowth : Flt
  stableGrowth : Flt
  minVault : Flt
  netBorrowWindow : Int
  netBorrowLimit : Int
  borrowScale : Flt
  depositScale : Flt
  reduceOnly : Nat
  tcsTaker : Flt
  tcsMaker : Flt
  flashFee : Flt
  curveScaling : Flt
  targetUtil : Flt
  insurance : Bool
  depositLimit : Int
  zeroUtil : Flt
  platformFee : Flt
  disableAssetLiq : Bool
  collateralFee : Flt
  name : String
  tier : String

/-- token_register.rs:16-176 (the admin signs: accounts_ix/token_register.rs:13) -/
def register (env : Env) (a : RegisterArgs) : Res Token := do
  require (env.admin = env.signer) .someError
  let conf ← a.confFilter.toFx
  let adj ← a.interest.1.toFx
  let u0 ← a.interest.2.1.toFx
  let r0 ← a.interest.2.2.1.toFx
  let u1 ← a.interest.2.2.2.1.toFx
  let r1 ← a.interest.2.2.2.2.1.toFx
  let mr ← a.interest.2.2.2.2.2.toFx
  let orig ← a.originationFee.toFx
  let loan ← a.loanFee.toFx
  let ma ← a.maintAsset.toFx
  let ia ← a.initAsset.toFx
  let ml ← a.maintLiab.toFx
  let il ← a.initLiab.toFx
  let lf ← a.liqFee.toFx
  -- 107-108: division by the window size
  require (a.netBorrowWindow ≠ 0) .panic
  let zu ← a.zeroUtil.toFx
  let pf ← a.platformFee.toFx
  let c : Cfg := { oracle := env.oracleKey, fallback := env.fallbackKey, confFilter := conf, maxStaleness := match a.maxStaleness with | some n => (n : Int) | none => -1,
                   adjustment := adj, util0 := u0, rate0 := r0, util1 := u1, rate1 := r1, maxRate := mr, loanFee := loan, originationFee := orig,
                   maintAsset := ma, initAsset := ia, maintLiab := ml, initLiab := il, liqFee := lf, delayInterval := a.delayInterval, delayGrowth := a.delayGrowth, stableGrowth := a.stableGrowth,
                   minVault := a.minVault, netBorrowLimit := a.netBorrowLimit, netBorrowWindow := a.netBorrowWindow, borrowScale := a.borrowScale, depositScale := a.depositScale,
                   reduceOnly := a.reduceOnly, forceClose := false, name := a.name, tier := a.tier, tcsTaker := a.tcsTaker, tcsMaker := a.tcsMaker, flashFee := a.flashFee,
                   curveScaling := a.curveScaling, targetUtil := a.targetUtil, shiftStart := 0, shiftEnd := 0, shiftInv := 0, shiftAsset := 0, shiftLiab := 0,
                   depositLimit := a.depositLimit, zeroUtil := zu, platformFee := pf, disableAssetLiq := a.disableAssetLiq, collateralFee := a.collateralFee, forceWithdraw := false }
  c.verify
  require (env.fallbackValid = true) .someError
  .ok { banks := [c], oracle := env.oracleKey, fallback := env.fallbackKey, insurance := a.insurance }

/-- token_register_trustless.rs:37-121: the fixed configuration. Literals are the I80F48 values nearest to the f64 constants of the code; the f32 growth limits of
stable_price.rs:78-79 and the f64 0.2 are their exact values. -/
def trustlessCfg (oracle fallback : Nat) (name : String) : Cfg where
  oracle := oracle
  fallback := fallback
  confFilter := 1000 * S
  maxStaleness := -1
  adjustment := 1125899906843
  util0 := 140737488355328
  rate0 := 5066549580792
  util1 := 211106232532992
  rate1 := 14073748835533
  maxRate := 140737488355328
  loanFee := 1407374883553
  originationFee := 562949953421
  maintAsset := 0
  initAsset := 0
  maintLiab := 394064967394918
  initLiab := 506654958079181
  liqFee := 14073748835533
  platformFee := 14073748835533
  delayInterval := 3600
  delayGrowth := .num (16106127 / 268435456)
  stableGrowth := .num (5153961 / 17179869184)
  minVault := .num (3602879701896397 / 18014398509481984)
  netBorrowWindow := 86400
  netBorrowLimit := 5000000000
  borrowScale := .num 5000000000
  depositScale := .num 5000000000
  reduceOnly := 2
  forceClose := false
  name := name
  tier := "C"
  tcsTaker := .num 0
  tcsMaker := .num 0
  flashFee := .num 0
  curveScaling := .num 4
  targetUtil := .num (1 / 2)
  shiftStart := 0
  shiftEnd := 0
  shiftInv := 0
  shiftAsset := 0
  shiftLiab := 0
  depositLimit := 0
  zeroUtil := 0
  disableAssetLiq := true
  collateralFee := .num 0
  forceWithdraw := false

/-- group.rs:88-94: fast listings -/
structure Listings where
  start : Int
  count : Int
  /-- u16 -/
  allowed : Int

/-- a week in seconds -/
def WEEK : Int := 604800

/-- token_register_trustless.rs:22-34: the quota -/
def fastListing (g : Listings) (now : Int) : Res Listings := do
  let fin ← cku64 (g.start + WEEK)
  let g := if now ≥ fin then { g with start := now / WEEK * WEEK, count := 0 } else g
  require (g.count + 1 ≤ 65535) .panic
  require (g.count + 1 ≤ g.allowed) .requireFailed
  .ok { g with count := g.count + 1 }

/-- token_register_trustless.rs:15-160 -/
def registerTrustless (env : Env) (g : Listings) (tokenIndex : Nat) (name : String) : Res (Token × Listings) := do
  require (env.admin = env.signer ∨ env.fast = env.signer) .someError
  require (tokenIndex ≠ 0) .requireFailed
  require (tokenIndex ≠ 65535) .requireFailed
  let g ← fastListing g env.now
  let c := trustlessCfg env.oracleKey env.fallbackKey name
  c.verify
  require (env.fallbackValid = true) .someError
  .ok ({ banks := [c], oracle := env.oracleKey, fallback := env.fallbackKey, insurance := false }, g)

/-! ## Perp and spot markets -/

/-- the configuration of a perp market that perp_edit_market.rs can change -/
structure PerpCfg where
  oracle : Nat
  confFilter : I80F48
  maxStaleness : Int
  baseDecimals : Int
  maintBaseAsset : I80F48
  initBaseAsset : I80F48
  maintBaseLiab : I80F48
  initBaseLiab : I80F48
  maintOverall : I80F48
  initOverall : I80F48
  baseLiqFee : I80F48
  makerFee : I80F48
  takerFee : I80F48
  minFunding : I80F48
  maxFunding : I80F48
  impactQuantity : Int
  insurance : Bool
  feePenalty : Flt
  settleFeeFlat : Flt
  settleFeeThreshold : Flt
  settleFeeFraction : Flt
  delayInterval : Int
  delayGrowth : Flt
  stableGrowth : Flt
  settleLimitFactor : Flt
  settleLimitWindow : Int
  reduceOnly : Bool
  positivePnlFee : I80F48
  name : String
  forceClose : Bool
  platformFee : I80F48
  deriving DecidableEq

/-- parameters of perp_edit_market.rs:11-43 -/
structure PerpEdit where
  oracle : Option Nat := none
  oracleConfig : Option (Flt × Option Nat) := none
  baseDecimals : Option Int := none
  maintBaseAsset : Option Flt := none
  initBaseAsset : Option Flt := none
  maintBaseLiab : Option Flt := none
  initBaseLiab : Option Flt := none
  maintOverall : Option Flt := none
  initOverall : Option Flt := none
  baseLiqFee : Option Flt := none
  makerFee : Option Flt := none
  takerFee : Option Flt := none
  minFunding : Option Flt := none
  maxFunding : Option Flt := none
  impactQuantity : Option Int := none
  insurance : Option Bool := none
  feePenalty : Option Flt := none
  settleFeeFlat : Option Flt := none
  settleFeeThreshold : Option Flt := none
  settleFeeFraction : Option Flt := none
  delayInterval : Option Int := none
  delayGrowth : Option Flt := none
  stableGrowth : Option Flt := none
  settleLimitFactor : Option Flt := none
  settleLimitWindow : Option Int := none
  reduceOnly : Option Bool := none
  resetStablePrice : Bool := false
  positivePnlFee : Option Flt := none
  name : Option String := none
  forceClose : Option Bool := none
  platformFee : Option Flt := none

/-- perp_edit_market.rs:50-356, in order -/
def perpSteps (env : Env) (e : PerpEdit) : List (Step PerpCfg) := [
  change e.oracleConfig always (fun c v => do
    let f ← v.1.toFx
    .ok { c with confFilter := f, maxStaleness := match v.2 with | some n => (n : Int) | none => -1 }),
  change e.oracle always (fun c v => .ok { c with oracle := v }),
  change (flag e.resetStablePrice) always (fun c _ => do
    require (c.oracle = env.oracleKey) .requireFailed
    require (env.oraclePriceOk = true) .oracleStale
    .ok c),
  change e.maintBaseAsset always (fun c v => do
    let x ← v.toFx
    .ok { c with maintBaseAsset := x }),
  change e.initBaseAsset always (fun c v => do
    v.gte (.num 0)
    let x ← v.toFx
    .ok { c with initBaseAsset := x }),
  change e.maintBaseLiab always (fun c v => do
    let x ← v.toFx
    .ok { c with maintBaseLiab := x }),
  change e.initBaseLiab always (fun c v => do
    let x ← v.toFx
    .ok { c with initBaseLiab := x }),
  change e.maintOverall always (fun c v => do
    let x ← v.toFx
    .ok { c with maintOverall := x }),
  change e.initOverall (fun _ v => v.nonZero) (fun c v => do
    let x ← v.toFx
    .ok { c with initOverall := x }),
  change e.baseLiqFee always (fun c v => do
    let x ← v.toFx
    .ok { c with baseLiqFee := x }),
  change e.makerFee always (fun c v => do
    let x ← v.toFx
    .ok { c with makerFee := x }),
  change e.takerFee always (fun c v => do
    let x ← v.toFx
    .ok { c with takerFee := x }),
  change e.minFunding always (fun c v => do
    let x ← v.toFx
    .ok { c with minFunding := x }),
  change e.maxFunding always (fun c v => do
    let x ← v.toFx
    .ok { c with maxFunding := x }),
  change e.impactQuantity always (fun c v => .ok { c with impactQuantity := v }),
  change e.feePenalty always (fun c v => .ok { c with feePenalty := v }),
  change e.baseDecimals always (fun c v => .ok { c with baseDecimals := v }),
  change e.insurance always (fun c v => .ok { c with insurance := v }),
  change e.settleFeeFlat always (fun c v => .ok { c with settleFeeFlat := v }),
  change e.settleFeeThreshold always (fun c v => .ok { c with settleFeeThreshold := v }),
  change e.settleFeeFraction always (fun c v => .ok { c with settleFeeFraction := v }),
  change e.delayInterval always (fun c v => .ok { c with delayInterval := v }),
  change e.delayGrowth always (fun c v => .ok { c with delayGrowth := v }),
  change e.stableGrowth always (fun c v => .ok { c with stableGrowth := v }),
  change e.settleLimitFactor always (fun c v => .ok { c with settleLimitFactor := v }),
  change e.settleLimitWindow always (fun c v => .ok { c with settleLimitWindow := v }),
  change e.reduceOnly (fun _ v => !v) (fun c v => .ok { c with reduceOnly := v }),
  change e.positivePnlFee always (fun c v => do
    let x ← v.toFx
    .ok { c with positivePnlFee := x }),
  change e.name always (fun c v => .ok { c with name := v }),
  change e.forceClose always (fun c v => do
    (if v then require (c.reduceOnly = true) .someError else .ok ())
    .ok { c with forceClose := v }),
  change e.platformFee always (fun c v => do
    let x ← v.toFx
    .ok { c with platformFee := x })]

/-- perp_edit_market.rs:11-384 -/
def perpEdit (env : Env) (c : PerpCfg) (e : PerpEdit) : Res PerpCfg := do
  let (c, adm) ← runSteps (perpSteps env e) (c, false)
  authorized env adm
  .ok c

/-- configuration of a spot market -/
structure SpotCfg where
  reduceOnly : Bool
  forceClose : Bool
  name : String
  /-- `oracle_price_band` -/
  band : Flt
  deriving DecidableEq

/-- parameters of serum3_edit_market.rs:5-11 -/
structure SpotEdit where
  reduceOnly : Option Bool := none
  forceClose : Option Bool := none
  name : Option String := none
  band : Option Flt := none

/-- serum3_edit_market.rs:17-58 -/
def spotSteps (e : SpotEdit) : List (Step SpotCfg) := [
  change e.reduceOnly (fun _ v => !v) (fun c v => .ok { c with reduceOnly := v }),
  change e.forceClose always (fun c v => do
    (if v then require (c.reduceOnly = true) .someError else .ok ())
    .ok { c with forceClose := v }),
  change e.name always (fun c v => .ok { c with name := v }),
  change e.band always (fun c v => .ok { c with band := v })]

/-- serum3_edit_market.rs:5-74 -/
def spotEdit (env : Env) (c : SpotCfg) (e : SpotEdit) : Res SpotCfg := do
  let (c, adm) ← runSteps (spotSteps e) (c, false)
  authorized env adm
  .ok c

/-- f64::MAX -/
def F64_MAX : Flt := .num ((2 ^ 53 - 1) * 2 ^ 971)

/-- serum3_register_market.rs:14-75: who lists a spot market, with which price band; `base`, `quote`: the banks of its tokens. Which market gets which index: `Registry` (C82). -/
def spotListing (env : Env) (base quote : Cfg) (name : String) (band : Flt) : Res SpotCfg := do
  let fast ← (if env.signer = env.admin then .ok false else if env.signer = env.fast then .ok true else .error .someError : Res Bool)
  let cTier := base.borrowsReduceOnly && decide (base.maintAsset = 0)
  let noLimit := decide (quote.depositScale = F64_MAX) && decide (quote.depositLimit = 0)
  (if fast then (if cTier && noLimit then require (band = .num 19) .requireFailed else require (band = .num 1) .requireFailed) else .ok ())
  .ok { reduceOnly := false, forceClose := false, name := name, band := band }

end Config
end Mango
