import Verif.Fixed
/-!
# Bank: deposits, borrows, fees, limits, interest

Models /repo/programs/mango-v4/src/state/bank.rs and `TokenPosition` of
/repo/programs/mango-v4/src/state/mango_account_components.rs.  Unless another file is named, line numbers below
refer to bank.rs.
-/
namespace Mango

/-- bank.rs:31-230 `Bank`, restricted to the fields used by the accounting logic.  Pubkeys, names, padding and
oracle configuration are omitted.  `stablePrice` is `I80F48::from_num(stable_price_model.stable_price)` (1222-1224),
i.e. the f64 is represented by its I80F48 conversion.  `curveScaling` is the I80F48 conversion of the f64
`interest_curve_scaling` (0 standing for exactly 0.0, all other accepted values are >= 1.0 by `verify`). -/
structure Bank where
  depositIndex : I80F48
  borrowIndex : I80F48
  indexedDeposits : I80F48
  indexedBorrows : I80F48
  collectedFeesNative : I80F48 := 0
  feesWithdrawn : Int := 0                     -- u64
  dust : I80F48 := 0
  loanOriginationFeeRate : I80F48 := 0
  loanFeeRate : I80F48 := 0
  -- net borrow limits
  netBorrowLimitPerWindowQuote : Int := -1     -- i64
  netBorrowLimitWindowSizeTs : Int := 86400    -- u64
  lastNetBorrowsWindowStartTs : Int := 0       -- u64
  netBorrowsInWindow : Int := 0                -- i64
  -- deposit limits
  depositLimit : Int := 0                      -- u64
  potentialSerumTokens : Int := 0              -- u64
  reduceOnly : Nat := 0                        -- u8
  forceClose : Nat := 0                        -- u8
  stablePrice : I80F48 := 0
  -- interest curve
  zeroUtilRate : I80F48 := 0
  util0 : I80F48 := 0
  rate0 : I80F48 := 0
  util1 : I80F48 := 0
  rate1 : I80F48 := 0
  maxRate : I80F48 := 0
  curveScaling : I80F48 := S
  avgUtilization : I80F48 := 0
  indexLastUpdated : Int := 0                  -- u64
  bankRateLastUpdated : Int := 0               -- u64
  -- weights
  maintAssetWeight : I80F48 := 0
  initAssetWeight : I80F48 := 0
  maintLiabWeight : I80F48 := 0
  initLiabWeight : I80F48 := 0
  maintWeightShiftStart : Int := 0             -- u64
  maintWeightShiftEnd : Int := 0               -- u64
  maintWeightShiftDurationInv : I80F48 := 0
  maintWeightShiftAssetTarget : I80F48 := 0
  maintWeightShiftLiabTarget : I80F48 := 0
  minVaultToDepositsRatio : I80F48 := 0            -- f64 in the code; here its I80F48 conversion
  deriving DecidableEq, Repr

/-- mango_account_components.rs:17-47 `TokenPosition`; display-only float fields and padding are omitted.
The `token_index` lives in the account model. -/
structure TokenPosition where
  indexed : I80F48 := 0
  inUseCount : Nat := 0
  previousIndex : I80F48 := 0
  deriving DecidableEq, Repr

namespace TokenPosition
/-- mango_account_components.rs:80-86 `native` -/
def native (p : TokenPosition) (b : Bank) : Res I80F48 :=
  if p.indexed > 0 then Fx.mul p.indexed b.depositIndex else Fx.mul p.indexed b.borrowIndex

/-- mango_account_components.rs:99-101 `is_in_use` -/
def isInUse (p : TokenPosition) : Bool := decide (p.inUseCount > 0)
end TokenPosition

namespace Bank

/-- 389-435 `verify`, for the modelled fields (the remaining checks concern oracle config, stable price model
growth limits, liquidation and swap fee rates, which are not part of this structure). -/
def verify (b : Bank) : Res Unit := do
  require (b.util0 ≥ 0) .requireFailed
  require (b.util1 ≥ b.util0) .requireFailed
  require (Fx.ONE ≥ b.util1) .requireFailed
  require (b.rate0 ≥ 0) .requireFailed
  require (b.rate1 ≥ 0) .requireFailed
  require (b.maxRate ≥ 0) .requireFailed
  require (b.loanFeeRate ≥ 0) .requireFailed
  require (b.loanOriginationFeeRate ≥ 0) .requireFailed
  require (b.initAssetWeight ≥ 0) .requireFailed
  require (b.maintAssetWeight ≥ b.initAssetWeight) .requireFailed
  require (b.maintLiabWeight ≥ 0) .requireFailed
  require (b.initLiabWeight ≥ b.maintLiabWeight) .requireFailed
  require (b.minVaultToDepositsRatio ≥ 0) .requireFailed
  require (Fx.ONE ≥ b.minVaultToDepositsRatio) .requireFailed
  require (b.netBorrowLimitPerWindowQuote ≥ -1) .requireFailed
  require (2 ≥ b.reduceOnly) .requireFailed
  require (b.curveScaling ≥ Fx.ONE) .requireFailed
  require (b.maintWeightShiftDurationInv ≥ 0) .requireFailed
  require (b.maintWeightShiftAssetTarget ≥ 0) .requireFailed
  require (b.maintWeightShiftLiabTarget ≥ 0) .requireFailed
  require (b.zeroUtilRate ≥ 0) .requireFailed

/-- 449-451 -/
def areDepositsReduceOnly (b : Bank) : Bool := b.reduceOnly == 1
/-- 453-455 -/
def areBorrowsReduceOnly (b : Bank) : Bool := b.reduceOnly == 1 || b.reduceOnly == 2
/-- 470-472 -/
def nativeBorrows (b : Bank) : Res I80F48 := Fx.mul b.borrowIndex b.indexedBorrows
/-- 475-477 -/
def nativeDeposits (b : Bank) : Res I80F48 := Fx.mul b.depositIndex b.indexedDeposits

/-- 479-497 `maint_weights` -/
def maintWeights (b : Bank) (now : Int) : Res (I80F48 × I80F48) :=
  if b.maintWeightShiftDurationInv = 0 ∨ now ≤ b.maintWeightShiftStart then
    .ok (b.maintAssetWeight, b.maintLiabWeight)
  else if now ≥ b.maintWeightShiftEnd then
    .ok (b.maintWeightShiftAssetTarget, b.maintWeightShiftLiabTarget)
  else do
    let scale ← Fx.mul (Fx.ofInt (now - b.maintWeightShiftStart)) b.maintWeightShiftDurationInv
    let da ← Fx.sub b.maintWeightShiftAssetTarget b.maintAssetWeight
    let sa ← Fx.mul scale da
    let asset ← Fx.add b.maintAssetWeight sa
    let dl ← Fx.sub b.maintWeightShiftLiabTarget b.maintLiabWeight
    let sl ← Fx.mul scale dl
    let liab ← Fx.add b.maintLiabWeight sl
    .ok (asset, liab)

/-- 513-527 `enforce_max_utilization` -/
def enforceMaxUtilization (b : Bank) (maxUtil : I80F48) : Res Unit := do
  let deposits ← b.nativeDeposits
  let borrows ← b.nativeBorrows
  let lim ← Fx.mul maxUtil deposits
  if borrows > lim then .error .bankBorrowLimitReached else .ok ()

/-- 499-501 -/
def enforceBorrowsLteDeposits (b : Bank) : Res Unit := b.enforceMaxUtilization Fx.ONE

/-- 505-509 (the f64 ratio is given as its I80F48 conversion) -/
def enforceMaxUtilizationOnBorrow (b : Bank) : Res Unit := do
  let m ← Fx.sub Fx.ONE b.minVaultToDepositsRatio
  b.enforceMaxUtilization m

/-- 917-931 `update_net_borrows` -/
def updateNetBorrows (b : Bank) (amt : I80F48) (now : Int) : Res Bank := do
  let windowEnd ← cku64 (b.lastNetBorrowsWindowStartTs + b.netBorrowLimitWindowSizeTs)
  let c ← Fx.ceil amt
  let amount := Fx.clampToI64 c
  if now ≥ windowEnd then
    if b.netBorrowLimitWindowSizeTs = 0 then .error .panic else
      .ok { b with
        lastNetBorrowsWindowStartTs := now / b.netBorrowLimitWindowSizeTs * b.netBorrowLimitWindowSizeTs
        netBorrowsInWindow := amount }
  else do
    let s ← ck64 (b.netBorrowsInWindow + amount)
    .ok { b with netBorrowsInWindow := s }

/-- 588-595 the closure `div_rounding_up` of `deposit_internal` -/
def divRoundingUp (native index : I80F48) : Res I80F48 := do
  let indexed ← Fx.div native index
  let back ← Fx.mul indexed index
  if back < native then Fx.add indexed Fx.DELTA else .ok indexed

/-- 625-629 the tail of `deposit_internal`: "add to deposits" -/
def addToDeposits (b : Bank) (p : TokenPosition) (amt : I80F48) : Res (Bank × TokenPosition × Bool) := do
  let change ← divRoundingUp amt b.depositIndex
  let d ← Fx.add b.indexedDeposits change
  let i ← Fx.add p.indexed change
  .ok ({ b with indexedDeposits := d }, { p with indexed := i }, true)

/-- 573-632 `deposit_internal`.  The result flag is "position is active". -/
def depositInternal (b : Bank) (p : TokenPosition) (amt : I80F48) (allowDusting : Bool) (now : Int) :
    Res (Bank × TokenPosition × Bool) := do
  require (amt ≥ 0) .requireFailed
  let native ← p.native b
  if native < 0 then do
    let negAmt ← Fx.neg amt
    let b ← b.updateNetBorrows (max native negAmt) now
    let newNative ← Fx.add native amt
    let change ← divRoundingUp amt b.borrowIndex
    let newIndexed ← Fx.add p.indexed change
    if newIndexed < 0 then do
      let br ← Fx.sub b.indexedBorrows change
      .ok ({ b with indexedBorrows := br }, { p with indexed := newIndexed }, true)
    else if newNative < Fx.ONE ∧ allowDusting = true then do
      let dust ← Fx.add b.dust newNative
      let br ← Fx.add b.indexedBorrows p.indexed
      .ok ({ b with dust := dust, indexedBorrows := br }, { p with indexed := 0 }, false)
    else do
      let br ← Fx.add b.indexedBorrows p.indexed
      addToDeposits { b with indexedBorrows := br } { p with indexed := 0 } (max newNative 0)
  else
    addToDeposits b p amt

/-- 1002-1024 `update_cumulative_interest`: the interest product is computed (it may overflow) but the f64
accumulators are display-only and omitted. -/
def updateCumulativeInterest (b : Bank) (p : TokenPosition) (opening : I80F48) : Res TokenPosition := do
  let d ← Fx.sub (if opening > 0 then b.depositIndex else b.borrowIndex) p.previousIndex
  let _ ← Fx.mul d opening
  .ok { p with previousIndex := if p.indexed > 0 then b.depositIndex else b.borrowIndex }

/-- 559-570 `deposit_internal_wrapper` -/
def depositWrapper (b : Bank) (p : TokenPosition) (amt : I80F48) (allowDusting : Bool) (now : Int) :
    Res (Bank × TokenPosition × Bool) := do
  let (b', p', r) ← depositInternal b p amt allowDusting now
  let p'' ← updateCumulativeInterest b' p' p.indexed
  .ok (b', p'', r)

/-- 537-544 `deposit` -/
def deposit (b : Bank) (p : TokenPosition) (amt : I80F48) (now : Int) : Res (Bank × TokenPosition × Bool) :=
  depositWrapper b p amt (!p.isInUse) now

/-- 549-557 `deposit_with_dusting` -/
def depositWithDusting (b : Bank) (p : TokenPosition) (amt : I80F48) (now : Int) :
    Res (Bank × TokenPosition × Bool) := do
  let (b', p', r) ← depositWrapper b p amt true now
  .ok (b', p', r || p'.isInUse)

/-- 279-283 `WithdrawResult` -/
structure WithdrawResult where
  positionIsActive : Bool
  loanOriginationFee : I80F48
  loanAmount : I80F48
  deriving DecidableEq, Repr

/-- 757-781, the borrowing tail of `withdraw_internal` -/
def borrowRest (b : Bank) (p : TokenPosition) (amt : I80F48) (withFee : Bool) (now : Int) :
    Res (Bank × TokenPosition × WithdrawResult) := do
  let fee ← (if withFee = true then Fx.mul b.loanOriginationFeeRate amt else .ok 0)
  let cf ← (if withFee = true then Fx.add b.collectedFeesNative fee else .ok b.collectedFeesNative)
  let total ← (if withFee = true then Fx.add amt fee else .ok amt)
  let change ← Fx.div total b.borrowIndex
  let br ← Fx.add b.indexedBorrows change
  let i ← Fx.sub p.indexed change
  let b' ← updateNetBorrows { b with collectedFeesNative := cf, indexedBorrows := br } total now
  .ok (b', { p with indexed := i }, ⟨true, fee, total⟩)

/-- 712-782 `withdraw_internal` -/
def withdrawInternal (b : Bank) (p : TokenPosition) (amt : I80F48) (withFee allowDusting : Bool) (now : Int) :
    Res (Bank × TokenPosition × WithdrawResult) := do
  require (amt ≥ 0) .requireFailed
  let native ← p.native b
  if ¬ native < 0 then do
    let newNative ← Fx.sub native amt
    if ¬ newNative < 0 then
      if newNative < Fx.ONE ∧ allowDusting = true then do
        let dust ← Fx.add b.dust newNative
        let d ← Fx.sub b.indexedDeposits p.indexed
        .ok ({ b with dust := dust, indexedDeposits := d }, { p with indexed := 0 }, ⟨false, 0, 0⟩)
      else do
        let change ← Fx.div amt b.depositIndex
        let d ← Fx.sub b.indexedDeposits change
        let i ← Fx.sub p.indexed change
        .ok ({ b with indexedDeposits := d }, { p with indexed := i }, ⟨true, 0, 0⟩)
    else do
      let d ← Fx.sub b.indexedDeposits p.indexed
      let rest ← Fx.neg newNative
      borrowRest { b with indexedDeposits := d } { p with indexed := 0 } rest withFee now
  else
    borrowRest b p amt withFee now

/-- 692-709 `withdraw_internal_wrapper` -/
def withdrawWrapper (b : Bank) (p : TokenPosition) (amt : I80F48) (withFee allowDusting : Bool) (now : Int) :
    Res (Bank × TokenPosition × WithdrawResult) := do
  let (b', p', r) ← withdrawInternal b p amt withFee allowDusting now
  let p'' ← updateCumulativeInterest b' p' p.indexed
  .ok (b', p'', r)

/-- 644-661 `withdraw_without_fee` -/
def withdrawWithoutFee (b : Bank) (p : TokenPosition) (amt : I80F48) (now : Int) :
    Res (Bank × TokenPosition × Bool) := do
  let (b', p', r) ← withdrawWrapper b p amt false (!p.isInUse) now
  .ok (b', p', r.positionIsActive)

/-- 666-674 `withdraw_without_fee_with_dusting` -/
def withdrawWithoutFeeWithDusting (b : Bank) (p : TokenPosition) (amt : I80F48) (now : Int) :
    Res (Bank × TokenPosition × Bool) := do
  let (b', p', r) ← withdrawWrapper b p amt false true now
  .ok (b', p', r.positionIsActive || p'.isInUse)

/-- 684-691 `withdraw_with_fee` -/
def withdrawWithFee (b : Bank) (p : TokenPosition) (amt : I80F48) (now : Int) :
    Res (Bank × TokenPosition × WithdrawResult) :=
  withdrawWrapper b p amt true (!p.isInUse) now

/-- 784-809 `withdraw_loan_origination_fee` -/
def withdrawLoanOriginationFee (b : Bank) (p : TokenPosition) (already : I80F48) (now : Int) :
    Res (Bank × TokenPosition × WithdrawResult) := do
  let fee ← Fx.mul b.loanOriginationFeeRate already
  let cf ← Fx.add b.collectedFeesNative fee
  let (b', p', r) ← withdrawWrapper { b with collectedFeesNative := cf } p fee false (!p.isInUse) now
  .ok (b', p', ⟨r.positionIsActive, fee, 0⟩)

/-- 812-822 `dust_if_possible` -/
def dustIfPossible (b : Bank) (p : TokenPosition) (now : Int) : Res (Bank × TokenPosition × Bool) :=
  if p.isInUse = true then .ok (b, p, true) else do
    let native ← p.native b
    if native ≥ 0 ∧ native < Fx.ONE then withdrawWithoutFee b p 0 now else .ok (b, p, true)

/-- 825-836 `change_without_fee` -/
def changeWithoutFee (b : Bank) (p : TokenPosition) (amt : I80F48) (now : Int) : Res (Bank × TokenPosition × Bool) :=
  if amt ≥ 0 then deposit b p amt now else do
    let n ← Fx.neg amt
    withdrawWithoutFee b p n now

/-- 839-854 `change_with_fee` -/
def changeWithFee (b : Bank) (p : TokenPosition) (amt : I80F48) (now : Int) :
    Res (Bank × TokenPosition × WithdrawResult) :=
  if amt ≥ 0 then do
    let (b', p', a) ← deposit b p amt now
    .ok (b', p', ⟨a, 0, 0⟩)
  else do
    let n ← Fx.neg amt
    withdrawWithFee b p n now

/-- 933-944 `remaining_net_borrows_quote` -/
def remainingNetBorrowsQuote (b : Bank) (oraclePrice : I80F48) : Res I80F48 :=
  if b.netBorrowsInWindow < 0 ∨ b.netBorrowLimitPerWindowQuote < 0 then .ok Fx.MAX else do
    let price := max oraclePrice b.stablePrice
    let q ← Fx.mulInt price b.netBorrowsInWindow
    Fx.sub (Fx.ofInt b.netBorrowLimitPerWindowQuote) q

/-- 946-957 `check_net_borrows` -/
def checkNetBorrows (b : Bank) (oraclePrice : I80F48) : Res Unit := do
  let r ← b.remainingNetBorrowsQuote oraclePrice
  if r < 0 then .error .bankNetBorrowsLimitReached else .ok ()

/-- 959-973 `remaining_deposits_until_limit` -/
def remainingDepositsUntilLimit (b : Bank) : Res I80F48 :=
  if b.depositLimit = 0 then .ok Fx.MAX else do
    let i ← Fx.add b.indexedDeposits Fx.DELTA
    let deposits ← Fx.mul b.depositIndex i
    let total ← Fx.add deposits (Fx.ofInt b.potentialSerumTokens)
    Fx.sub (Fx.ofInt b.depositLimit) total

/-- 975-1000 `check_deposit_and_oo_limit` -/
def checkDepositAndOoLimit (b : Bank) : Res Unit :=
  if b.depositLimit = 0 then .ok () else do
    let deposits ← b.nativeDeposits
    let total ← Fx.add deposits (Fx.ofInt b.potentialSerumTokens)
    let remaining ← Fx.sub (Fx.ofInt b.depositLimit) total
    if remaining < 0 then .error .bankDepositLimit else .ok ()

/-- 291-296 `TransferResult` -/
structure TransferResult where
  sourceIsActive : Bool
  targetIsActive : Bool
  loanOriginationFee : I80F48
  loanAmount : I80F48
  deriving DecidableEq, Repr

/-- 870-886 the source half of `checked_transfer_with_fee` -/
def transferSource (b : Bank) (src : TokenPosition) (amt : I80F48) (now : Int) :
    Res (Bank × TokenPosition × WithdrawResult) :=
  if amt ≠ 0 then do
    let (b1, s1, w) ← withdrawWithFee b src amt now
    require (s1.indexed ≥ 0 ∨ ¬ b1.areBorrowsReduceOnly = true) .tokenInReduceOnlyMode
    .ok (b1, s1, w)
  else .ok (b, src, ⟨true, 0, 0⟩)

/-- 888-897 the target half of `checked_transfer_with_fee` -/
def transferTarget (b : Bank) (tgt : TokenPosition) (amt : I80F48) (now : Int) :
    Res (Bank × TokenPosition × Bool) :=
  if amt ≠ 0 then do
    let (b2, t2, a) ← deposit b tgt amt now
    require (t2.indexed ≤ 0 ∨ ¬ b2.areDepositsReduceOnly = true) .tokenInReduceOnlyMode
    .ok (b2, t2, a)
  else .ok (b, tgt, true)

/-- 860-913 `checked_transfer_with_fee` -/
def checkedTransferWithFee (b : Bank) (src : TokenPosition) (srcAmt : I80F48) (tgt : TokenPosition) (tgtAmt : I80F48)
    (now : Int) (oraclePrice : I80F48) : Res (Bank × TokenPosition × TokenPosition × TransferResult) := do
  let (b1, s1, w) ← transferSource b src srcAmt now
  let (b2, t2, a) ← transferTarget b1 tgt tgtAmt now
  let lb ← Fx.add b.indexedBorrows Fx.DELTA
  let _ ← (if b2.indexedBorrows > lb then b2.checkNetBorrows oraclePrice else .ok ())
  let ld ← Fx.add b.indexedDeposits Fx.DELTA
  let _ ← (if b2.indexedDeposits > ld then b2.checkDepositAndOoLimit else .ok ())
  .ok (b2, s1, t2, ⟨w.positionIsActive, a, w.loanOriginationFee, w.loanAmount⟩)

/-- 1074-1087 `instantaneous_utilization` -/
def instantaneousUtilization (deposits borrows : I80F48) : Res I80F48 :=
  if deposits = 0 then .ok 0 else do
    let q ← Fx.div borrows deposits
    .ok (min (max q 0) Fx.ONE)

/-- 1116-1129 the unscaled curve value of `interest_rate_curve_calculator` for an already clamped utilization -/
def interestRateCurveUnscaled (u zeroUtilRate util0 rate0 util1 rate1 maxRate : I80F48) : Res I80F48 :=
  if u ≤ util0 then do
    let d ← Fx.sub rate0 zeroUtilRate
    let slope ← Fx.div d util0
    let m ← Fx.mul slope u
    Fx.add zeroUtilRate m
  else if u ≤ util1 then do
    let extra ← Fx.sub u util0
    let d ← Fx.sub rate1 rate0
    let w ← Fx.sub util1 util0
    let slope ← Fx.div d w
    let m ← Fx.mul slope extra
    Fx.add rate0 m
  else do
    let extra ← Fx.sub u util1
    let d ← Fx.sub maxRate rate1
    let w ← Fx.sub Fx.ONE util1
    let slope ← Fx.div d w
    let m ← Fx.mul slope extra
    Fx.add rate1 m

/-- 1106-1138 `interest_rate_curve_calculator` -/
def interestRateCurve (utilization zeroUtilRate util0 rate0 util1 rate1 maxRate scaling : I80F48) : Res I80F48 := do
  let v ← interestRateCurveUnscaled (min (max utilization 0) Fx.ONE) zeroUtilRate util0 rate0 util1 rate1 maxRate
  if scaling = 0 then .ok v else Fx.mul v scaling

/-- 1090-1101 `compute_interest_rate` -/
def computeInterestRate (b : Bank) (utilization : I80F48) : Res I80F48 :=
  interestRateCurve utilization b.zeroUtilRate b.util0 b.rate0 b.util1 b.rate1 b.maxRate b.curveScaling

/-- bank.rs:20-22 `YEAR_I80F48` (31536000) -/
def YEAR : I80F48 := 31536000 * S

/-- 1026-1071 `compute_index`; returns (deposit_index, borrow_index, borrow_fees, borrow_rate, deposit_rate) -/
def computeIndex (b : Bank) (totalDeposits totalBorrows diffTs : I80F48) : Res (I80F48 × I80F48 × I80F48 × I80F48 × I80F48) := do
  let nd ← Fx.mul b.depositIndex totalDeposits
  let nb ← Fx.mul b.borrowIndex totalBorrows
  let util ← instantaneousUtilization nd nb
  let borrowRate ← b.computeInterestRate util
  let depositRate ← Fx.mul borrowRate util
  let rateWithFees ← Fx.add borrowRate b.loanFeeRate
  let f1 ← Fx.mul nb b.loanFeeRate
  let f2 ← Fx.mul f1 diffTs
  let borrowFees ← Fx.div f2 YEAR
  let x1 ← Fx.mul b.borrowIndex rateWithFees
  let x2 ← Fx.mul x1 diffTs
  let x3 ← Fx.div x2 YEAR
  let bi ← Fx.add x3 b.borrowIndex
  let y1 ← Fx.mul b.depositIndex depositRate
  let y2 ← Fx.mul y1 diffTs
  let y3 ← Fx.div y2 YEAR
  let di ← Fx.add y3 b.depositIndex
  .ok (di, bi, borrowFees, borrowRate, depositRate)

/-- 1141-1166 `compute_new_avg_utilization` -/
def computeNewAvgUtilization (b : Bank) (totalDeposits totalBorrows : I80F48) (now : Int) : Res I80F48 :=
  if now = 0 then .ok 0 else do
    let nd ← Fx.mul b.depositIndex totalDeposits
    let nb ← Fx.mul b.borrowIndex totalBorrows
    let util ← instantaneousUtilization nd nb
    let prev ← cku64 (b.indexLastUpdated - b.bankRateLastUpdated)
    let diff ← cku64 (now - b.indexLastUpdated)
    let total ← cku64 (now - b.bankRateLastUpdated)
    if total ≤ 0 then .ok util else do
      let a ← Fx.mul b.avgUtilization (Fx.ofInt prev)
      let c ← Fx.mul util (Fx.ofInt diff)
      let s ← Fx.add a c
      Fx.div s (Fx.ofInt total)

/-- 1269-1276 `update_potential_serum_tokens` -/
def updatePotentialSerumTokens (b : Bank) (old new : Int) : Res Bank :=
  if new ≥ old then do
    let s ← cku64 (b.potentialSerumTokens + (new - old))
    .ok { b with potentialSerumTokens := s }
  else .ok { b with potentialSerumTokens := max 0 (b.potentialSerumTokens - (old - new)) }

end Bank
end Mango
