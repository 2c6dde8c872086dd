import Verif.Bank.Model
/-!
# One token: its banks, all positions in it, and the instructions that change them

A token has one or more banks (token_register, token_add_bank) which share the deposit and borrow index.  Positions
belong to accounts; an operation names the bank it goes through and the position it changes.  All instructions that
change token balances do it through the operations below (`grep indexed_position` over
/repo/programs/mango-v4/src/instructions shows no other writer).
-/
namespace Mango
namespace Bank

/-- The bank operations that change one position (bank.rs:537-854). -/
inductive PosOp where
  | deposit (amt : I80F48)
  | depositWithDusting (amt : I80F48)
  | withdrawWithoutFee (amt : I80F48)
  | withdrawWithoutFeeWithDusting (amt : I80F48)
  | withdrawWithFee (amt : I80F48)
  | withdrawLoanOriginationFee (already : I80F48)
  | dustIfPossible
  | changeWithoutFee (amt : I80F48)
  | changeWithFee (amt : I80F48)
  deriving Repr, DecidableEq

/-- Run the operation; the flag says whether the position stays active. -/
def PosOp.run (op : PosOp) (b : Bank) (p : TokenPosition) (now : Int) : Res (Bank × TokenPosition × Bool) :=
  match op with
  | .deposit a => b.deposit p a now
  | .depositWithDusting a => b.depositWithDusting p a now
  | .withdrawWithoutFee a => b.withdrawWithoutFee p a now
  | .withdrawWithoutFeeWithDusting a => b.withdrawWithoutFeeWithDusting p a now
  | .withdrawWithFee a => do
      let (b', p', w) ← b.withdrawWithFee p a now
      .ok (b', p', w.positionIsActive)
  | .withdrawLoanOriginationFee a => do
      let (b', p', w) ← b.withdrawLoanOriginationFee p a now
      .ok (b', p', w.positionIsActive)
  | .dustIfPossible => b.dustIfPossible p now
  | .changeWithoutFee a => b.changeWithoutFee p a now
  | .changeWithFee a => do
      let (b', p', w) ← b.changeWithFee p a now
      .ok (b', p', w.positionIsActive)

/-- Tokens that flow into the bank with the operation (negative: out of it), as I80F48 bits. -/
def PosOp.inflow : PosOp → Int
  | .deposit a => a
  | .depositWithDusting a => a
  | .withdrawWithoutFee a => -a
  | .withdrawWithoutFeeWithDusting a => -a
  | .withdrawWithFee a => -a
  | .withdrawLoanOriginationFee _ => 0
  | .dustIfPossible => 0
  | .changeWithoutFee a => a
  | .changeWithFee a => a

/-- State of one token. `vault` is the net inflow of tokens (in I80F48 bits): user deposits minus withdrawals
minus withdrawn fees. -/
structure TokenState where
  banks : List Bank
  positions : List TokenPosition
  vault : Int
  deriving Repr, DecidableEq

/-- A newly registered token (token_register.rs:52-130): one bank with both indexes `INDEX_START` = 1000000 and no
deposits or borrows; nobody holds a position. `cfg` supplies all configuration fields. -/
def TokenState.fresh (cfg : Bank) : TokenState :=
  { banks := [{ cfg with
      depositIndex := 1000000 * S, borrowIndex := 1000000 * S, indexedDeposits := 0, indexedBorrows := 0,
      collectedFeesNative := 0, feesWithdrawn := 0, dust := 0, netBorrowsInWindow := 0 }]
    positions := []
    vault := 0 }

/-- Sum of indexed deposits over the banks, with the overflow check of `+=` in
token_update_index_and_rate.rs:66-72. -/
def totalDeposits : List Bank → Res I80F48
  | [] => .ok 0
  | b :: bs => do
      let t ← totalDeposits bs
      Fx.add b.indexedDeposits t

/-- ditto for borrows -/
def totalBorrows : List Bank → Res I80F48
  | [] => .ok 0
  | b :: bs => do
      let t ← totalBorrows bs
      Fx.add b.indexedBorrows t

/-- token_update_index_and_rate.rs:139-164: write the new index etc. to one bank. -/
def applyIndex (now : Int) (di bi avg stable : I80F48) (shiftDone : Bool) (b : Bank) : Bank :=
  let b := { b with indexLastUpdated := now, depositIndex := di, borrowIndex := bi, avgUtilization := avg,
                    stablePrice := stable }
  if shiftDone then
    { b with maintAssetWeight := b.maintWeightShiftAssetTarget, maintLiabWeight := b.maintWeightShiftLiabTarget,
             maintWeightShiftDurationInv := 0, maintWeightShiftAssetTarget := 0, maintWeightShiftLiabTarget := 0,
             maintWeightShiftStart := 0, maintWeightShiftEnd := 0 }
  else b

/-- token_update_index_and_rate.rs:167-224: hourly rescaling of the curve. `scaling` is the (float-computed) new
`interest_curve_scaling`, at least 1.0 by bank.rs:1186. The legacy initialisation for `scaling == 0.0` (177-188)
is not modelled. -/
def applyRate (now : Int) (scaling : I80F48) (b : Bank) : Bank :=
  { b with bankRateLastUpdated := now, curveScaling := scaling }

/-- token_update_index_and_rate.rs:21-228, without the instruction introspection and oracle read. `stable` is the
new stable price, `scaling` the new curve scaling (float computations, taken as inputs).  The order of the additions
in the totals differs from the code (right to left), which matters only for intermediate overflow. -/
def updateIndexAndRate (banks : List Bank) (now : Int) (stable scaling : I80F48) : Res (List Bank) := do
  let D ← totalDeposits banks
  let B ← totalBorrows banks
  match banks with
  | [] => .error .panic
  | b0 :: rest => do
    let elapsed ← cku64 (now - b0.indexLastUpdated)
    let dt := Fx.ofInt (min elapsed 3600)
    let (di, bi, fees, _, _) ← b0.computeIndex D B dt
    let cf ← Fx.add b0.collectedFeesNative fees
    let avg ← b0.computeNewAvgUtilization D B now
    let done := decide (b0.maintWeightShiftDurationInv > 0 ∧ now ≥ b0.maintWeightShiftEnd)
    let banks := ({ b0 with collectedFeesNative := cf } :: rest).map (applyIndex now di bi avg stable done)
    let sinceRate ← cku64 (now - b0.bankRateLastUpdated)
    if sinceRate > 3600 then .ok (banks.map (applyRate now scaling)) else .ok banks

/-- token_edit.rs: configuration fields are replaced, accounting fields are kept.  Which fields the editor changes
is arbitrary. -/
def editConfig (cfg : Bank) (resetNetBorrows : Bool) (b : Bank) : Bank :=
  { cfg with
    depositIndex := b.depositIndex, borrowIndex := b.borrowIndex,
    indexedDeposits := b.indexedDeposits, indexedBorrows := b.indexedBorrows,
    collectedFeesNative := b.collectedFeesNative, feesWithdrawn := b.feesWithdrawn, dust := b.dust,
    lastNetBorrowsWindowStartTs := b.lastNetBorrowsWindowStartTs,
    netBorrowsInWindow := if resetNetBorrows then 0 else b.netBorrowsInWindow,
    potentialSerumTokens := b.potentialSerumTokens,
    indexLastUpdated := b.indexLastUpdated, bankRateLastUpdated := b.bankRateLastUpdated,
    avgUtilization := b.avgUtilization }

/-- bank.rs:305-387 `from_existing_bank` as used by token_add_bank.rs -/
def fromExistingBank (b : Bank) : Bank :=
  { b with indexedDeposits := 0, indexedBorrows := 0, collectedFeesNative := 0, feesWithdrawn := 0, dust := 0,
           netBorrowsInWindow := 0, potentialSerumTokens := 0 }

/-- admin_token_withdraw_fees.rs:6-20; `vaultAmount` is the balance of the bank's vault. -/
def withdrawFees (b : Bank) (vaultAmount : Int) : Res (Bank × Int) := do
  let f ← Fx.floor b.collectedFeesNative
  let u ← cku64 (Fx.toInt f)
  let fees ← cku64 (u - b.feesWithdrawn)
  let amount := min fees vaultAmount
  let w ← cku64 (b.feesWithdrawn + amount)
  .ok ({ b with feesWithdrawn := w }, amount)

/-- token_liq_bankruptcy.rs:256-272: the loop crediting the liqee bank by bank.  Note the `break` (268-270): banks
after the one that completes the credit keep their old deposit index. -/
def creditLoop (newIndex : I80F48) (now : Int) : List Bank → TokenPosition → I80F48 → Res (List Bank × TokenPosition)
  | [], p, _ => .ok ([], p)
  | b :: bs, p, toCredit => do
    let b := { b with depositIndex := newIndex }
    let nb ← b.nativeBorrows
    let amt := min toCredit nb
    if amt > 0 then do
      let (b', p', _) ← b.depositWithDusting p amt now
      let toCredit' ← Fx.sub toCredit amt
      if toCredit' ≤ 0 then .ok (b' :: bs, p')
      else do
        let (bs', p'') ← creditLoop newIndex now bs p' toCredit'
        .ok (b' :: bs', p'')
    else do
      let (bs', p'') ← creditLoop newIndex now bs p toCredit
      .ok (b :: bs', p'')

/-- token_liq_bankruptcy.rs:238-276 "Socialize loss": `loss` is the (positive) remaining loss, `p` the liqee's
position, `di` the deposit index of the bank the health accounts hold (213, all banks of a token should have the same). -/
def socializeLoss (di : I80F48) (banks : List Bank) (p : TokenPosition) (loss : I80F48) (now : Int) :
    Res (List Bank × TokenPosition) := do
  let D ← totalDeposits banks
  let q ← Fx.div loss D
  let newIndex ← Fx.sub di q
  let (banks', p') ← creditLoop newIndex now banks p loss
  require (p'.indexed = 0) .requireFailed
  .ok (banks', p')

/-- Operations on a token. -/
inductive TokenOp where
  | open                                                        -- ensure_token_position on some account
  | setInUse (pos : Nat) (n : Nat)                              -- increment/decrement_in_use
  | pos (op : PosOp) (bank pos : Nat) (close : Bool) (now : Int)
  | transfer (bank src tgt : Nat) (srcAmt tgtAmt : I80F48) (now : Int) (price : I80F48)
  | updateIndex (now : Int) (stable scaling : I80F48)
  | edit (cfg : Bank) (reset : Bool)
  | addBank
  | withdrawFees (bank : Nat) (vaultAmount : Int)
  | socialize (bank pos : Nat) (loss : I80F48) (now : Int)
  | collect (bank : Nat) (fee : I80F48)                         -- a fee paid out of the operations around it (liquidation, swaps)
  deriving Repr, DecidableEq

/-- mango_account.rs:1028-1031 deactivation (asserts `in_use_count == 0`); a later re-activation of the slot
(mango_account.rs:989-1026) starts from an empty position. -/
def closePosition (p : TokenPosition) : Res TokenPosition :=
  if p.inUseCount = 0 then .ok {} else .error .panic

def getBank (s : TokenState) (k : Nat) : Res Bank :=
  match s.banks[k]? with
  | some b => .ok b
  | none => .error .panic

def getPos (s : TokenState) (i : Nat) : Res TokenPosition :=
  match s.positions[i]? with
  | some b => .ok b
  | none => .error .panic

/-- One step of the token. -/
def step (s : TokenState) : TokenOp → Res TokenState
  | .open => .ok { s with positions := s.positions ++ [{}] }
  | .setInUse i n => do
      let p ← getPos s i
      .ok { s with positions := s.positions.set i { p with inUseCount := n } }
  | .pos op k i close now => do
      let b ← getBank s k
      let p ← getPos s i
      let (b', p', active) ← op.run b p now
      let p'' ← (if close = true ∧ active = false then closePosition p' else .ok p')
      .ok { banks := s.banks.set k b', positions := s.positions.set i p'', vault := s.vault + op.inflow }
  | .transfer k i j sa ta now price => do
      require (i ≠ j) .someError
      let b ← getBank s k
      let ps ← getPos s i
      let pt ← getPos s j
      let (b', ps', pt', _) ← b.checkedTransferWithFee ps sa pt ta now price
      .ok { banks := s.banks.set k b', positions := (s.positions.set i ps').set j pt', vault := s.vault + (ta - sa) }
  | .updateIndex now stable scaling => do
      require (scaling ≥ Fx.ONE) .someError
      let bs ← updateIndexAndRate s.banks now stable scaling
      .ok { s with banks := bs }
  | .edit cfg reset => do
      cfg.verify
      .ok { s with banks := s.banks.map (editConfig cfg reset) }
  | .addBank => do
      let b ← getBank s 0
      .ok { s with banks := s.banks ++ [fromExistingBank b] }
  | .withdrawFees k v => do
      let b ← getBank s k
      let (b', amount) ← b.withdrawFees v
      .ok { s with banks := s.banks.set k b', vault := s.vault - amount * S }
  | .socialize k i loss now => do
      require (loss > 0) .someError
      let b ← getBank s k
      let p ← getPos s i
      let (bs, p') ← socializeLoss b.depositIndex s.banks p loss now
      .ok { s with banks := bs, positions := s.positions.set i p' }
  | .collect k fee => do
      let b ← getBank s k
      let cf ← Fx.add b.collectedFeesNative fee
      .ok { s with banks := s.banks.set k { b with collectedFeesNative := cf }, vault := s.vault + fee }

end Bank
end Mango
