import Verif.Props.HealthUsed
import Verif.Bank.System
import Verif.Account.HealthCheck
import Verif.Serum.Model
/-!
# Moving tokens between a wallet and an account

Models instructions/token_deposit.rs, token_withdraw.rs and token_force_withdraw.rs as whole instructions. Left out: logs, account loading and the key checks of the accounts structs other than
those listed in `Who`; the token program's transfer moves the amount or fails. The oracle price read without checks and the result of the confidence and staleness check are inputs.
-/
namespace Mango
namespace Wallet
open Fx Health

/-- what the instruction reads besides the account -/
structure Env where
  rnd : ℚ → ℚ
  fd : FDiv
  now : Int
  /-- the account is inside a health region -/
  inRegion : Bool := false
  /-- `oracle_state_unchecked(..).price` of the bank's oracle -/
  price : I80F48
  /-- whether the oracle passes the confidence and staleness check -/
  priceOk : Bool := true
  /-- group.deposit_limit_quote (u64) -/
  depositLimitQuote : Int := 0

/-- the account, its position number `k` in token `ti`, the bank's vault and the wallet's token account -/
structure Acct where
  st : AcctState
  k : Nat
  ti : Nat
  pos : TokenPosition
  flag : Account.Liq
  /-- `net_deposits` (i64) -/
  netDeposits : Int
  vault : Int
  wallet : Int

/-- the bank of the token -/
def Acct.bankIn (a : Acct) : BankIn := a.st.banks a.ti

/-- the position described by `pos` is the one in the account's state -/
def Acct.Ok (a : Acct) : Prop := a.st.ps[a.k]? = some ⟨a.ti, a.pos.indexed⟩

/-- write bank and position back -/
def Acct.put (a : Acct) (b : Bank) (p : TokenPosition) : Acct :=
  { a with st := (Upd.token a.k { a.bankIn with bank := b } p.indexed).state a.st, pos := p }

/-- what happened: tokens moved, position deactivated (removed from the account afterwards), loan and its fee -/
structure Outcome where
  amount : Int
  closed : Bool := false
  loan : I80F48 := 0
  fee : I80F48 := 0
  deriving DecidableEq

/-- the health cache all three instructions use: `new_health_cache_skipping_missing_banks_and_bad_oracles` on the account -/
def Acct.cache (e : Env) (a : Acct) : Res Cache := accountCacheSkipping e.rnd e.now a.st.banks a.st.ps a.st.os a.st.perps

/-- token_deposit.rs:50-69: the amount that is deposited; 0 < amount -/
def depositAmount (b : Bank) (native : I80F48) (amount : Int) (reduceOnly : Bool) : Res I80F48 := do
  let amt ← (if reduceOnly || b.areDepositsReduceOnly then do
      let a ← Fx.abs (min native 0)
      let c ← Fx.ceil a
      .ok (min c (ofInt amount))
    else .ok (ofInt amount))
  (if b.areDepositsReduceOnly then require (reduceOnly = true ∨ amt = ofInt amount) .tokenInReduceOnlyMode else .ok ())
  .ok amt

/-- token_deposit.rs:154-177: the deposit limit of the group on the account -/
def checkGroupLimit (e : Env) (a : Acct) (c : Cache) : Res Unit :=
  if e.depositLimitQuote > 0 then do
    require (c.tokens.length = a.st.ps.length) .requireFailed
    let (assets, _) ← c.assetsAndLiabs e.fd .init true
    let n ← Serum.toU64 (roundToZero assets)
    require (n ≤ e.depositLimitQuote) .depositLimit
  else .ok ()

/-- token_deposit.rs:140-152: deposits into an account being liquidated must make it recover -/
def recoverAfterDeposit (e : Env) (flag : Account.Liq) (c : Cache) : Res Account.Liq :=
  if e.inRegion = false ∧ flag.being = true then do
    let h ← c.health e.fd .liqEnd
    let (f, r) := flag.maybeRecover h
    require (r = true) .depositsIntoLiquidatingMustRecover
    .ok f
  else .ok flag

/-- token_deposit.rs:38-195 `deposit_into_existing` and 197-246 `token_deposit` (`existing = false`: signed by the owner or delegate; `isNew`: the position was just created, which needs a good
oracle) and 248-268 `token_deposit_into_existing` (`existing = true`: needs no signature of the owner, never closes the position) -/
def deposit (e : Env) (a : Acct) (amount : Int) (reduceOnly existing isNew : Bool) : Res (Acct × Outcome) := do
  (if isNew then do
    require (existing = false) .tokenPositionDoesNotExist
    require (e.priceOk = true) .oracleStale
   else .ok ())
  require (amount > 0) .someError
  let b := a.bankIn.bank
  let native ← a.pos.native b
  let amt ← depositAmount b native amount reduceOnly
  let (b', p', active) ← b.deposit a.pos amt e.now
  let moved ← Serum.toU64 amt
  let wallet ← cku64 (a.wallet - moved)
  let vault ← cku64 (a.vault + moved)
  (if p'.indexed > 0 then b'.checkDepositAndOoLimit else .ok ())
  let v ← Fx.mul amt e.price
  let usd ← ck64 (Fx.toInt v)
  let net ← ck64 (a.netDeposits + usd)
  let a := { a.put b' p' with netDeposits := net, vault := vault, wallet := wallet }
  let c ← a.cache e
  let flag ← recoverAfterDeposit e a.flag c
  checkGroupLimit e a c
  .ok ({ a with flag := flag }, { amount := moved, closed := !existing && !active })

/-- token_withdraw.rs:44-66: the amount that is withdrawn, `none` for nothing to do -/
def withdrawAmount (native : I80F48) (amount : Int) (allowBorrow : Bool) : Res (Option Int) :=
  if amount = U64MAX ∧ allowBorrow = false then
    (if ¬ native < 0 then do
      let n ← Serum.toU64 native
      .ok (some n)
     else .ok none)
  else .ok (some amount)

/-- who signs and where the tokens go: whether the signer is the account's delegate, whether the token account is the owner's associated token account and belongs to the owner -/
structure Who where
  delegate : Bool
  toOwnerAta : Bool

/-- token_withdraw.rs:126-148: what a delegate may do -/
def delegateChecks (w : Who) (active : Bool) : Res Unit :=
  if w.delegate then do
    require (w.toOwnerAta = true) .someError
    require (active = false) .someError
  else .ok ()

/-- token_withdraw.rs:150-174: health after the withdrawal -/
def withdrawHealth (e : Env) (a : Acct) (b' : Bank) (change : I80F48) (isBorrow : Bool) (c : Cache) (pre : I80F48) : Res Unit :=
  if (c.tokenIdx a.ti).isSome = true then do
    let c' ← c.adjustBank e.rnd a.ti { a.bankIn with bank := b' } change
    let post ← c'.health e.fd .init
    Account.checkPost pre post
  else do
    require (isBorrow = false) .someError
    Account.checkPostStrict pre

/-- token_withdraw.rs:205-228 -/
def withdrawLimits (e : Env) (b' : Bank) (isBorrow : Bool) : Res Unit :=
  if isBorrow then do
    b'.enforceMaxUtilizationOnBorrow
    require (e.priceOk = true) .oracleStale
    b'.checkNetBorrows e.price
  else b'.enforceBorrowsLteDeposits

/-- token_withdraw.rs:23-42: health before -/
def healthBefore (e : Env) (a : Acct) : Res (Account.Liq × Option (Cache × I80F48)) :=
  if e.inRegion then .ok (a.flag, none) else do
    let c ← a.cache e
    let h ← c.health e.fd .init
    let f ← a.flag.checkPre h (c.health e.fd .liqEnd)
    .ok (f, some (c, h))

/-- token_withdraw.rs:16-231 from the point where the position exists (23; the signature check of the accounts struct is C46's business) -/
def withdraw (e : Env) (w : Who) (a : Acct) (amount : Int) (allowBorrow : Bool) : Res (Acct × Outcome) := do
  require (amount > 0) .someError
  let (flag, pre) ← healthBefore e a
  let b := a.bankIn.bank
  let native ← a.pos.native b
  match ← withdrawAmount native amount allowBorrow with
  | none => .ok ({ a with flag := flag }, { amount := 0 })
  | some amount => do
    let isBorrow := decide (ofInt amount > native)
    require (allowBorrow = true ∨ isBorrow = false) .someError
    (if b.areBorrowsReduceOnly then require (isBorrow = false) .tokenInReduceOnlyMode else .ok ())
    let (b', p', r) ← b.withdrawWithFee a.pos (ofInt amount) e.now
    let after ← p'.native b'
    require (¬ a.vault < amount) .someError
    let vault ← cku64 (a.vault - amount)
    let wallet ← cku64 (a.wallet + amount)
    let v ← Fx.mul (ofInt amount) e.price
    let usd ← ck64 (Fx.toInt v)
    let net ← ck64 (a.netDeposits - usd)
    delegateChecks w r.positionIsActive
    (match pre with
     | some (c, h) => do
       let change ← Fx.sub after native
       withdrawHealth e a b' change isBorrow c h
     | none => .ok ())
    withdrawLimits e b' isBorrow
    .ok ({ a.put b' p' with flag := flag, netDeposits := net, vault := vault, wallet := wallet },
      { amount := amount, closed := !r.positionIsActive, loan := r.loanAmount, fee := r.loanOriginationFee })

/-- token_force_withdraw.rs:12-99; anyone may call it. `wallet` is a token account of the account's owner (28-32 and the constraints of the accounts struct). -/
def forceWithdraw (e : Env) (forceWithdrawBank : Bool) (a : Acct) : Res (Acct × Outcome) := do
  require (forceWithdrawBank = true) .someError
  let b := a.bankIn.bank
  let native ← a.pos.native b
  require (native ≥ 0) .requireFailed
  let amount ← Serum.toU64 native
  let (b', p', active) ← b.withdrawWithoutFee a.pos (ofInt amount) e.now
  require (¬ a.vault < amount) .someError
  let vault ← cku64 (a.vault - amount)
  let wallet ← cku64 (a.wallet + amount)
  let v ← Fx.mul (ofInt amount) e.price
  let usd ← ck64 (Fx.toInt v)
  let net ← ck64 (a.netDeposits - usd)
  b'.enforceBorrowsLteDeposits
  .ok ({ a.put b' p' with netDeposits := net, vault := vault, wallet := wallet }, { amount := amount, closed := !active })

end Wallet
end Mango
