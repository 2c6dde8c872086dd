import Verif.Bank.System

/-!
# Flash loans

Models /repo/programs/mango-v4/src/instructions/flash_loan.rs (line numbers below refer to it unless another file is
named) together with the parts of the Solana runtime it relies on: a transaction is a list of instructions that
are executed in order and take effect together or not at all; a program can call another program only if the callee's
account is among the instruction's accounts; and tokens leave a token account only with its owner's signature.

Keys are natural numbers. Accounts of the banks, token accounts and mango accounts are functions of the key.
-/
namespace Mango.Flash

/-- `u64::MAX`, the value of `flash_loan_token_account_initial` outside of a loan. -/
def NOLOAN : Int := 18446744073709551615

/-- The key of the mango program. -/
def MANGO : Nat := 0

/-- An SPL token account. -/
structure Tok where
  mint : Nat
  owner : Nat
  amount : Int
  deriving DecidableEq, Repr

/-- A bank account (bank.rs:31-230): its identity, the flash loan fields (bank.rs:108-112) and the
accounting fields `b`. `swapFee` is the I80F48 conversion of the f32 `flash_loan_swap_fee_rate`. -/
structure FBank where
  group : Nat
  vault : Nat
  mint : Nat
  token : Nat
  approved : Int
  initial : Int
  swapFee : I80F48
  b : Bank
  deriving DecidableEq, Repr

/-- The fixed part of a mango account (mango_account.rs:300-372), with `delegates` for the delegate and an unexpired
temporary delegate. -/
structure Acct where
  group : Nat
  owner : Nat
  delegates : List Nat
  operational : Bool
  deriving DecidableEq, Repr

/-- All accounts. `pos a t` is the token position of mango account `a` in token `t`; an inactive slot is an empty
position (slots are modelled in Account/Slots.lean). -/
structure State where
  banks : Nat → Option FBank
  toks : Nat → Tok
  accts : Nat → Option Acct
  pos : Nat → Nat → TokenPosition

/-- What the model takes from outside: `pda k`: key `k` is the address of a group, which can sign only through the mango
program; the health checks before and after (mango_account.rs `check_health_pre`, `check_health_post`; the
being-liquidated flag they update is left out); oracle prices; whether flash loans are enabled; the programs a delegate
may use besides mango (155-163). -/
structure Env where
  pda : Nat → Bool
  pre : State → Nat → Res Int
  post : State → Nat → Int → Res Unit
  price : State → Nat → Res I80F48
  enabled : Nat → Bool
  allowed : List Nat

/-- `FlashLoanType` (accounts_ix/flash_loan.rs). -/
inductive LoanType where
  | unknown | swap | swapWithoutFee
  deriving DecidableEq, Repr

/-- The instructions of the mango program. `other` stands for every instruction except the flash loan ones. -/
inductive Call where
  | begin (amounts : List Int)
  | swapBegin (amount : Int)
  | endLoan (n : Nat) (ty : LoanType) (now : Int)
  | other (f : State → Res State)

/-- What other programs can do: change token accounts and call mango. -/
inductive Act where
  | setTok (k : Nat) (t : Tok)
  | cpi (accounts : List Nat) (call : Call)

/-- An instruction of a transaction, with the list of accounts it is given. -/
inductive Ix where
  | mango (accounts : List Nat) (call : Call)
  | foreign (program : Nat) (accounts : List Nat) (acts : List Act)

def setBank (s : State) (k : Nat) (b : FBank) : State :=
  { s with banks := fun j => if j = k then some b else s.banks j }

def setTok (s : State) (k : Nat) (t : Tok) : State :=
  { s with toks := fun j => if j = k then t else s.toks j }

def setPos (s : State) (a t : Nat) (p : TokenPosition) : State :=
  { s with pos := fun i j => if i = a ∧ j = t then p else s.pos i j }

/-- SPL token transfer: same mint, enough balance, no overflow of the target; `auth` is the signer, who must own the
source (token delegates are left out). -/
def transfer (s : State) (auth src dst : Nat) (amt : Int) : Res State :=
  if (s.toks src).owner ≠ auth ∨ (s.toks src).mint ≠ (s.toks dst).mint ∨ (s.toks src).amount < amt then .error .someError
  else if src = dst then .ok s
  else if (s.toks dst).amount + amt > NOLOAN then .error .someError
  else .ok (setTok (setTok s src { s.toks src with amount := (s.toks src).amount - amt })
    dst { s.toks dst with amount := (s.toks dst).amount + amt })

/-! ## Begin -/

/-- 64-120: the loop over the loans: (bank, vault, token account, amount). -/
def beginLoop (g : Nat) : List (Nat × Nat × Nat × Int) → List Nat → State → Res State
  | [], _, s => .ok s
  | (bk, v, t, amt) :: rest, seen, s =>
    match s.banks bk with
    | none => .error .someError
    | some b => do
      require (b.group = g) .requireFailed
      require (b.vault = v) .requireFailed
      require (b.token ∉ seen) .someError
      require ((s.toks t).mint = b.mint) .requireFailed
      require ((s.toks t).owner ≠ g) .requireFailed
      require (b.approved = 0) .requireFailed
      require (b.initial = NOLOAN) .requireFailed
      let s1 := setBank s bk { b with approved := amt, initial := (s.toks t).amount }
      let s2 ← (if amt > 0 then
          if (s.toks v).amount < amt then .error .insufficientBankVaultFunds else transfer s1 g v t amt
        else .ok s1)
      beginLoop g rest (b.token :: seen) s2

/-- The program an instruction runs. -/
def Ix.program : Ix → Nat
  | .mango .. => MANGO
  | .foreign p .. => p

/-- The accounts of an instruction. -/
def Ix.accounts : Ix → List Nat
  | .mango a _ => a
  | .foreign _ a _ => a

/-- 138-198: scan of the instructions after Begin. `trail` are the vaults, token accounts and the group. -/
def scan (env : Env) (delegate : Bool) (acct n : Nat) (trail : List Nat) : List Ix → Res Unit
  | [] => .error .someError
  | ix :: rest => do
    require (delegate = false ∨ ix.program ∈ env.allowed ∨ ix.program = MANGO) .someError
    match ix with
    | .mango accounts (.endLoan m _ _) => do
      require (m = n) .requireFailed
      require (accounts[0]? = some acct) .someError
      require (trail.length ≤ accounts.length) .panic
      require (accounts.drop (accounts.length - trail.length) = trail) .someError
    | .mango _ _ => .error .someError
    | .foreign p accounts _ =>
      if p = MANGO then .error .someError
      else do
        require (MANGO ∉ accounts) .someError
        scan env delegate acct n trail rest

/-- 19-203 `flash_loan_begin`; `fixed` is the number of accounts before the remaining ones, `rest` are the
transaction's later instructions, `topLevel` says that the current top-level instruction is mango's (132-136). -/
def begin' (env : Env) (fixed : Nat) (topLevel : Bool) (rest : List Ix) (s : State) (accounts : List Nat)
    (amounts : List Int) : Res State := do
  let n := amounts.length
  require (∀ x ∈ amounts, 0 ≤ x ∧ x ≤ NOLOAN) .requireFailed -- the type `u64` of the arguments
  require (n > 0) .requireFailed
  match accounts[0]?, accounts[1]? with
  | some acctKey, some owner =>
    match s.accts acctKey with
    | none => .error .someError
    | some acct => do
      require acct.operational .accountIsFrozen
      require (acct.owner = owner ∨ owner ∈ acct.delegates) .someError
      let rem := accounts.drop fixed
      require (rem.length = 3 * n + 1) .requireFailed
      let banks := rem.take n
      let vaults := (rem.drop n).take n
      let toks := (rem.drop (2 * n)).take n
      match rem[3 * n]? with
      | none => .error .panic
      | some g => do
        require (env.enabled g) .ixIsDisabled
        let s ← beginLoop g (banks.zip (vaults.zip (toks.zip amounts))) [] s
        require topLevel .someError
        scan env (decide (owner ∈ acct.delegates)) acctKey n (rem.drop n) rest
        .ok s
  | _, _ => .error .someError

/-! ## End -/

/-- `TokenVaultChange` (259-264); `bank` is the key of the bank's account. -/
structure Change where
  bank : Nat
  token : Nat
  amount : I80F48
  deriving DecidableEq, Repr

/-- The variables of the first loop of End. -/
structure EndSt where
  s : State
  changes : List Change
  seen : List Nat
  maxFee : I80F48

/-- 304-364: the loop over the health accounts, up to the first account that is no bank. The changes are collected in
reverse order. `ensure_token_position` (335) is left out: it fails or returns the position. -/
def endLoop (g owner : Nat) (vaults toks : List Nat) : List Nat → EndSt → Res EndSt
  | [], st => .ok st
  | k :: rest, st =>
    match st.s.banks k with
    | none => .ok st
    | some b => do
      require (b.group = g) .requireFailed
      match vaults.findIdx? (fun v => v == b.vault) with
      | none => endLoop g owner vaults toks rest st
      | some vi =>
        match toks[vi]? with
        | none => .error .panic
        | some t => do
          require ((st.s.toks t).mint = b.mint) .requireFailed
          require (b.initial ≠ NOLOAN) .requireFailed
          let repay := max ((st.s.toks t).amount - b.initial) 0
          let s ← (if (st.s.toks t).amount > b.initial then transfer st.s owner t b.vault repay else .ok st.s)
          endLoop g owner vaults toks rest
            ⟨s, ⟨k, b.token, (repay - b.approved) * S⟩ :: st.changes, vi :: st.seen, max st.maxFee b.swapFee⟩

/-- 432-456: the fees: loan origination fee and swap fee. -/
def loanFees (b : FBank) (native amount maxFee : I80F48) (ty : LoanType) : Res (I80F48 × I80F48) := do
  let loan ← (if native > 0 then do
      let d ← Fx.sub (b.approved * S) native
      pure (max d 0)
    else pure (b.approved * S))
  let lof ← Fx.mul loan b.b.loanOriginationFeeRate
  let swap ← (if amount < 0 ∧ ty = .swap then do
      let n ← Fx.neg amount
      Fx.mul n maxFee
    else pure 0)
  pure (lof, swap)

/-- 427-496: one iteration of the second loop. The flag says whether the position stays active. -/
def applyOne (ty : LoanType) (maxFee : I80F48) (acct : Nat) (now : Int) (s : State) (c : Change) (price : I80F48) :
    Res (State × Bool) :=
  match s.banks c.bank with
  | none => .error .someError
  | some b => do
    let p := s.pos acct b.token
    let native ← p.native b.b
    let (lof, swap) ← loanFees b native c.amount maxFee ty
    let cf ← Fx.add b.b.collectedFeesNative lof
    let cf ← Fx.add cf swap
    let ch ← Fx.sub c.amount lof
    let ch ← Fx.sub ch swap
    let after ← Fx.add native ch
    require (¬ b.b.areDepositsReduceOnly = true ∨ (after < Fx.ONE ∨ after ≤ native)) .tokenInReduceOnlyMode
    require (¬ b.b.areBorrowsReduceOnly = true ∨ (after ≥ native ∨ after ≥ 0)) .tokenInReduceOnlyMode
    let (b', p', active) ← ({ b.b with collectedFeesNative := cf } : Bank).changeWithoutFee p ch now
    let _ ← (if ch < 0 ∧ after < 0 then do
        let _ ← b'.enforceMaxUtilizationOnBorrow
        b'.checkNetBorrows price
      else b'.enforceBorrowsLteDeposits)
    let _ ← (if ch > 0 ∧ after > 0 then b'.checkDepositAndOoLimit else .ok ())
    pure (setPos (setBank s c.bank { b with b := b', approved := 0, initial := NOLOAN }) acct b.token p', active)

/-- 424-519: the second loop; the result includes the tokens of the positions to deactivate. -/
def applyLoop (ty : LoanType) (maxFee : I80F48) (acct : Nat) (now : Int) :
    List (Change × I80F48) → State → List Nat → Res (State × List Nat)
  | [], s, off => .ok (s, off)
  | (c, price) :: rest, s, off => do
    let (s', active) ← applyOne ty maxFee acct now s c price
    applyLoop ty maxFee acct now rest s' (if active then off else c.token :: off)

/-- 405-421: the oracle prices of the changed banks. -/
def prices (env : Env) (s : State) : List Change → Res (List (Change × I80F48))
  | [] => .ok []
  | c :: rest => do
    let p ← env.price s c.bank
    let ps ← prices env s rest
    pure ((c, p) :: ps)

/-- 547-549: deactivation (mango_account.rs:1033-1049): the slot is freed, whatever its balance. -/
def deactivateAll (acct : Nat) : List Nat → State → Res State
  | [], s => .ok s
  | t :: rest, s =>
    if (s.pos acct t).inUseCount = 0 then deactivateAll acct rest (setPos s acct t {}) else .error .panic

/-- 266-552 `flash_loan_end`. -/
def end' (env : Env) (s : State) (accounts : List Nat) (n : Nat) (ty : LoanType) (now : Int) : Res State := do
  require (n > 0) .requireFailed
  match accounts[0]?, accounts[1]? with
  | some acctKey, some owner =>
    match s.accts acctKey with
    | none => .error .someError
    | some acct => do
      require (env.pda owner = false) .someError
      require acct.operational .accountIsFrozen
      require (acct.owner = owner ∨ owner ∈ acct.delegates) .someError
      let rem := accounts.drop 3
      require (2 * n + 1 ≤ rem.length) .panic
      let vi := rem.length - 2 * n - 1
      let health := rem.take vi
      let vaults := (rem.drop vi).take n
      let toks := (rem.drop (vi + n)).take n
      match rem[rem.length - 1]? with
      | none => .error .panic
      | some g => do
        require (acct.group = g) .requireFailed
        let st ← endLoop g owner vaults toks health ⟨s, [], [], 0⟩
        require (∀ i < n, i ∈ st.seen) .invalidBank
        require (ty = .unknown ∨ st.changes.length = 2) .someError
        let pre ← env.pre st.s acctKey
        let cs ← prices env st.s st.changes.reverse
        let (s1, off) ← applyLoop ty st.maxFee acctKey now cs st.s []
        env.post s1 acctKey pre
        deactivateAll acctKey off.reverse s1
  | _, _ => .error .someError

/-! ## Transactions -/

/-- Run a mango instruction. -/
def call (env : Env) (topLevel : Bool) (rest : List Ix) (s : State) (accounts : List Nat) : Call → Res State
  | .begin amounts => begin' env 4 topLevel rest s accounts amounts
  | .swapBegin amount => do
    -- 205-257: creates the token accounts if missing, then begins with the amounts [amount, 0]
    require ((accounts.drop 8).length = 7) .requireFailed
    begin' env 8 topLevel rest s accounts [amount, 0]
  | .endLoan n ty now => end' env s accounts n ty now
  | .other f => f s

/-- Run what another program does. Token accounts owned by a group cannot lose tokens or change hands. -/
def runActs (env : Env) (metas : List Nat) : List Act → State → Res State
  | [], s => .ok s
  | .setTok k t :: rest, s =>
    if t.amount < 0 ∨ t.amount > NOLOAN then .error .someError
    else if env.pda (s.toks k).owner = true ∧
        (t.owner ≠ (s.toks k).owner ∨ t.mint ≠ (s.toks k).mint ∨ t.amount < (s.toks k).amount) then .error .someError
    else runActs env metas rest (setTok s k t)
  | .cpi accounts c :: rest, s => do
    require (MANGO ∈ metas) .someError
    let s ← call env false [] s accounts c
    runActs env metas rest s

/-- Run one instruction of a transaction whose later instructions are `rest`. -/
def runIx (env : Env) (rest : List Ix) (s : State) : Ix → Res State
  | .mango accounts c => call env true rest s accounts c
  | .foreign _ accounts acts => runActs env accounts acts s

/-- Run a transaction: if one instruction fails, nothing happens. -/
def runTx (env : Env) : List Ix → State → Res State
  | [], s => .ok s
  | ix :: rest, s => do
    let s ← runIx env rest s ix
    runTx env rest s

end Mango.Flash
