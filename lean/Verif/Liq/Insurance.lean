import Verif.Liq.Bankruptcy
import Verif.Liq.PerpNegative
/-!
# The insurance fund

Models group_create.rs, group_change_insurance_fund.rs, group_withdraw_insurance_fund.rs, group_close.rs with their account checks, and the token transfers of token_liq_bankruptcy.rs:139-142 and
perp_liq_negative_pnl_or_bankruptcy.rs:126-134. The two liquidation instructions themselves are `Liquidation.tokenLiqBankruptcy` (C12) and `Liquidation.perpLiqNegative` (C73). One group. Token
accounts are those of the SPL token program: a transfer needs equal mints and enough tokens, closing an empty account. The gates of the instructions are C46.
-/
namespace Mango
namespace Insurance
open Liquidation

/-- addresses of token accounts: the insurance vaults (accounts_ix/group_create.rs:24-32, group_change_insurance_fund.rs:27-35), the vaults of banks (token_register.rs:30-38), accounts not owned by the group -/
inductive Addr
  | first
  | ofMint (mint : Nat)
  | bank (n : Nat)
  | user (k : Nat)
  deriving DecidableEq, Repr

structure Acct where
  mint : Nat
  amount : Int
  deriving DecidableEq, Repr

structure State where
  admin : Nat
  testing : Bool
  /-- the group was closed -/
  closed : Bool
  /-- group.insurance_vault, group.insurance_mint -/
  vault : Addr
  mint : Nat
  acct : Addr → Option Acct

def State.put (s : State) (a : Addr) (x : Option Acct) : State := { s with acct := fun y => if y = a then x else s.acct y }

/-- SPL token transfer -/
def transfer (s : State) (f t : Addr) (n : Int) : Res State :=
  match s.acct f, s.acct t with
  | some x, some y => do
    require (x.mint = y.mint) .someError
    require (n ≤ x.amount) .someError
    if f = t then .ok s
    else do
      let z ← cku64 (y.amount + n)
      .ok ((s.put f (some { x with amount := x.amount - n })).put t (some { y with amount := z }))
  | _, _ => .error .someError

/-- SPL token close -/
def closeAcct (s : State) (a : Addr) : Res State :=
  match s.acct a with
  | some x => do
    require (x.amount = 0) .someError
    .ok (s.put a none)
  | none => .error .someError

/-- accounts_ix: `has_one = insurance_vault`, `has_one = admin`; the vault account's content -/
def checkVault (s : State) (v : Addr) : Res Acct := do
  require (s.closed = false) .someError
  require (v = s.vault) .someError
  match s.acct v with
  | some x => .ok x
  | none => .error .someError

/-- group_withdraw_insurance_fund.rs:6-19 -/
def withdraw (s : State) (signer : Nat) (v dest : Addr) (amount : Nat) : Res State := do
  let x ← checkVault s v
  require (signer = s.admin) .someError
  transfer s v dest (min (amount : Int) x.amount)

/-- group_change_insurance_fund.rs:6-25; the destination exists before the new vault -/
def change (s : State) (signer : Nat) (v dest : Addr) (newMint : Nat) : Res State := do
  let x ← checkVault s v
  require (signer = s.admin) .someError
  require ((s.acct dest).isSome = true) .someError
  require (s.acct (.ofMint newMint) = none) .someError
  let s := s.put (.ofMint newMint) (some ⟨newMint, 0⟩)
  let s ← transfer s v dest x.amount
  let s ← closeAcct s v
  .ok { s with vault := .ofMint newMint, mint := newMint }

/-- group_close.rs:6-26 -/
def close (s : State) (signer : Nat) (v : Addr) : Res State := do
  let _ ← checkVault s v
  require (signer = s.admin) .someError
  require (s.testing = true) .someError
  let s ← closeAcct s v
  .ok { s with closed := true }

/-- token_liq_bankruptcy.rs:16-327 with the tokens: `v` insurance vault and `n` the bank whose vault was passed. The liquidation reads the amount of the vault (119). The vault passed is that of
the bank credited (147, 227), whose mint is the insurance mint (32, 148; for a liability in the insurance token its banks are found by the mint, 36-48). -/
def tokenBankruptcy (s : State) (env : BkrEnv) (b : Bkr) (maxLiab : I80F48) (v : Addr) (n : Nat) : Res (State × Bkr × Report) := do
  let x ← checkVault s v
  require (x.mint = s.mint) .someError
  require (b.insuranceVault = x.amount) .someError
  let (b', r) ← tokenLiqBankruptcy env b maxLiab
  let s ← (if r.insuranceTransfer > 0 then transfer s v (.bank n) r.insuranceTransfer else .ok s : Res State)
  .ok (s, b', r)

/-- perp_liq_negative_pnl_or_bankruptcy.rs:18-211 with the tokens -/
def perpNegative (s : State) (env : NegEnv) (b : NegLiq) (maxTransfer : Int) (v : Addr) (n : Nat) : Res (State × NegLiq × Option NegReport) := do
  let x ← checkVault s v
  require (b.vault = x.amount) .someError
  let (b', r) ← perpLiqNegative env b maxTransfer
  let s ← (match r with
    | some r => if r.insurance > 0 then transfer s v (.bank n) r.insurance else .ok s
    | none => .ok s : Res State)
  .ok (s, b', r)

inductive Op
  | withdraw (signer : Nat) (v dest : Addr) (amount : Nat)
  | change (signer : Nat) (v dest : Addr) (newMint : Nat)
  | close (signer : Nat) (v : Addr)
  | token (env : BkrEnv) (b : Bkr) (maxLiab : I80F48) (v : Addr) (n : Nat)
  | perp (env : NegEnv) (b : NegLiq) (maxTransfer : Int) (v : Addr) (n : Nat)
  /-- any transfer the group does not sign, or signs for a bank's vault (deposits, withdrawals, flash loans, settling): the source is no insurance vault -/
  | move (f t : Addr) (amount : Nat)
  /-- a token account is created -/
  | open_ (a : Addr) (mint : Nat)
  /-- group_edit.rs: new admin, testing mode (the admin's signature is C71) -/
  | edit (admin : Nat) (testing : Bool)

def isUserOrBank : Addr → Bool
  | .bank _ => true
  | .user _ => true
  | _ => false

def step (s : State) : Op → Res State
  | .withdraw g v d n => withdraw s g v d n
  | .change g v d m => change s g v d m
  | .close g v => close s g v
  | .token env b l v n => do
    let (s, _, _) ← tokenBankruptcy s env b l v n
    .ok s
  | .perp env b l v n => do
    let (s, _, _) ← perpNegative s env b l v n
    .ok s
  | .move f t n => do
    require (isUserOrBank f = true) .someError
    transfer s f t n
  | .open_ a m => do
    require (isUserOrBank a = true) .someError
    require (s.acct a = none) .someError
    .ok (s.put a (some ⟨m, 0⟩))
  | .edit a t => .ok { s with admin := a, testing := t }

/-- group_create.rs:5-26: the first vault, beside the token accounts there are -/
def State.new (creator : Nat) (testing : Bool) (mint : Nat) (users : Nat → Option Acct) : State :=
  { admin := creator, testing := testing, closed := false, vault := .first, mint := mint,
    acct := fun a => match a with
      | .first => some ⟨mint, 0⟩
      | .user k => users k
      | _ => none }

inductive Reachable : State → Prop
  | new {creator : Nat} {testing : Bool} {mint : Nat} {users : Nat → Option Acct} (h : ∀ k x, users k = some x → 0 ≤ x.amount ∧ x.amount ≤ U64MAX) : Reachable (State.new creator testing mint users)
  | step {s s' : State} {op : Op} : Reachable s → Insurance.step s op = .ok s' → Reachable s'

end Insurance
end Mango
