import Verif.Liq.Phases
import Verif.Bank.System
import Verif.Account.HealthCheck
/-!
# Token liquidation

Models instructions/token_liq_with_token.rs:13-347. Account slots (`ensure_token_position`, deactivation) are in `Verif.Account.Slots`, logs are left out.
-/
namespace Mango
namespace Liquidation
open Fx Health

/-- what the instruction reads from one token: bank, oracle price, liquidation fees, index -/
structure LiqTok where
  bank : Bank
  index : Nat
  price : I80F48
  fee : I80F48
  platformFee : I80F48
  /-- `allows_asset_liquidation` -/
  allowAsset : Bool := true

/-- what the instruction reads and writes -/
structure TokLiq where
  asset : LiqTok
  liab : LiqTok
  liqeeAsset : TokenPosition
  liqeeLiab : TokenPosition
  liqeeFlag : Account.Liq
  /-- health cache of the liqee -/
  cache : Cache
  liqorFlag : Account.Liq
  liqorAsset : TokenPosition
  liqorLiab : TokenPosition

/-- what other accounts determine: scaled init weights of the two banks, the liqor's init health at the end (`none`: in a health region) -/
structure TokLiqEnv where
  fd : FDiv
  now : Int
  scaledAsset : Bank → Res (I80F48 × I80F48)
  scaledLiab : Bank → Res (I80F48 × I80F48)
  liqorHealth : TokLiq → Option (Res I80F48)

/-- amounts of the instruction -/
structure TokReport where
  liabTransfer : I80F48
  assetFromLiqee : I80F48
  assetToLiqor : I80F48
  fee : I80F48
  deriving DecidableEq, Repr

/-- the factors of 139-144 -/
structure Factors where
  liqor : I80F48
  total : I80F48
  /-- `liab_oracle_price_adjusted` -/
  lopa : I80F48

/-- 139-144 -/
def feeFactors (s : TokLiq) : Res Factors := do
  let l1 ← Fx.add ONE s.liab.fee
  let a1 ← Fx.add ONE s.asset.fee
  let ffl ← Fx.mul l1 a1
  let l2 ← Fx.add l1 s.liab.platformFee
  let a2 ← Fx.add a1 s.asset.platformFee
  let fft ← Fx.mul l2 a2
  let lopa ← Fx.mul s.liab.price fft
  .ok ⟨ffl, fft, lopa⟩

/-- cache lookup, `token_info(..).unwrap()` / `token_info_index(..)?` -/
def lookup (c : Cache) (ti : Nat) : Res (Nat × TokenInfo) :=
  match c.tokenIdx ti with
  | some i => do
    let t ← Serum3Info.at_ c.tokens i
    .ok (i, t)
  | none => .error .tokenPositionDoesNotExist

/-- 111-123, 162-191: the limits: liab and asset tokens that may change hands at most -/
def liqLimits (s : TokLiq) (maxLiab : I80F48) : Res (I80F48 × I80F48 × I80F48 × I80F48) := do
  let na ← s.liqeeAsset.native s.asset.bank
  require (na > 0) .requireFailed
  require (s.asset.allowAsset = true) .someError
  let nl ← s.liqeeLiab.native s.liab.bank
  require (0 > nl) .requireFailed
  let bs ← s.cache.balances .liqEnd
  let (il, _) ← lookup s.cache s.liab.index
  let bl ← Serum3Info.at_ bs il
  let nnl ← Fx.neg nl
  let nbl ← Fx.neg bl
  let ml := max (min (min maxLiab nnl) nbl) 0
  let (ia, _) ← lookup s.cache s.asset.index
  let ba ← Serum3Info.at_ bs ia
  let ma := max (min na ba) 0
  require (ml > 0) .requireFailed
  require (ma > 0) .requireFailed
  .ok (na, nl, ml, ma)

/-- 146-160, 214-225: how many liab tokens change hands -/
def liabAmount (s : TokLiq) (f : Factors) (health maxLiab maxAsset : I80F48) : Res I80F48 := do
  let (_, tl) ← lookup s.cache s.liab.index
  let (_, ta) ← lookup s.cache s.asset.index
  require (ta.prices.asset .liqEnd = s.asset.price) .panic
  let nh ← Fx.neg health
  let wl ← Fx.mul (tl.prices.liab .liqEnd) s.liab.bank.initLiabWeight
  let x ← Fx.mul f.lopa s.asset.bank.initAssetWeight
  let d ← Fx.sub wl x
  let needed ← Fx.div nh d
  let v ← Fx.mul maxAsset s.asset.price
  let possible ← Fx.div v f.lopa
  .ok (max (min (min needed possible) maxLiab) 0)

/-- 228-232: asset tokens given up and received for them, and the fee between -/
def assetAmounts (s : TokLiq) (f : Factors) (liabTransfer : I80F48) : Res TokReport := do
  let v ← Fx.mul liabTransfer s.liab.price
  let base ← Fx.div v s.asset.price
  let toLiqor ← Fx.mul base f.liqor
  let fromLiqee ← Fx.mul base f.total
  let fee ← Fx.sub fromLiqee toLiqor
  .ok ⟨liabTransfer, fromLiqee, toLiqor, fee⟩

/-- 86-347 `liquidation_action` -/
def liquidationAction (env : TokLiqEnv) (s : TokLiq) (health maxLiab : I80F48) : Res (TokLiq × TokReport) := do
  let f ← feeFactors s
  let (na, nl, ml, ma) ← liqLimits s maxLiab
  let lt ← liabAmount s f health ml ma
  let r ← assetAmounts s f lt
  let cf ← Fx.add s.asset.bank.collectedFeesNative r.fee
  let ab := { s.asset.bank with collectedFeesNative := cf }
  let (lb, liqeeLiab, _) ← s.liab.bank.depositWithDusting s.liqeeLiab lt env.now
  let (lb, liqorLiab, _) ← lb.withdrawWithFee s.liqorLiab lt env.now
  let nl1 ← liqeeLiab.native lb
  let (ab, liqorAsset, _) ← ab.deposit s.liqorAsset r.assetToLiqor env.now
  let (ab, liqeeAsset, _) ← ab.withdrawWithoutFeeWithDusting s.liqeeAsset r.assetFromLiqee env.now
  let na1 ← liqeeAsset.native ab
  let dl ← Fx.sub nl1 nl
  let wl ← env.scaledLiab lb
  let c ← s.cache.adjustTokenBalance s.liab.index wl dl
  let da ← Fx.sub na1 na
  let wa ← env.scaledAsset ab
  let c ← c.adjustTokenBalance s.asset.index wa da
  let h ← c.health env.fd .liqEnd
  .ok ({ s with asset := { s.asset with bank := ab }, liab := { s.liab with bank := lb }, liqeeAsset := liqeeAsset, liqeeLiab := liqeeLiab, cache := c,
                liqorAsset := liqorAsset, liqorLiab := liqorLiab, liqeeFlag := (s.liqeeFlag.maybeRecover h).1 }, r)

/-- 13-84 `token_liq_with_token`; no report: the liqee was not liquidatable and (apart from its flag) nothing changed. Requires distinct accounts (26). -/
def tokenLiqWithToken (env : TokLiqEnv) (s : TokLiq) (maxLiab : I80F48) : Res (TokLiq × Option TokReport) := do
  require (s.asset.index ≠ s.liab.index) .someError
  require (s.liqorFlag.being = false) .beingLiquidated
  let h ← s.cache.health env.fd .liqEnd
  s.cache.requireAfterPhase1
  let (flag, r) ← s.liqeeFlag.checkLiquidatable (s.cache.health env.fd .maint) (.ok h)
  if r ≠ .liquidatable then .ok ({ s with liqeeFlag := flag }, none)
  else do
    let (s, rep) ← liquidationAction env { s with liqeeFlag := flag } h maxLiab
    let _ ← (match env.liqorHealth s with
      | some h => do
        let h ← h
        require (h ≥ 0) .healthMustBePositive
      | none => .ok ())
    .ok (s, some rep)

end Liquidation
end Mango
