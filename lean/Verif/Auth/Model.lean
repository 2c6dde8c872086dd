import Verif.Basic
/-!
# Who may do what with an account: owner, delegates, freezing, sequence numbers

Models the fixed part of mango accounts as far as rights are concerned (state/mango_account.rs:315-375), the instructions that change it (account_create, account_edit, account_toggle_freeze,
sequence_check, account_close, group_edit's admin) and, for every other instruction, which of its mango accounts are checked how: the `#[account(...)]` constraints in accounts_ix/*.rs and the
`is_owner_or_delegate` checks at the start of the instructions. The effects of these other instructions on the rest of the account are modelled in other files; they leave the fields here unchanged.

Keys are numbers; 0 is the default key, the address of the system program, which cannot sign. Signatures are trusted (Solana's runtime checks them). Gates that switch instructions off are
not modelled here (Misc/Gate). Accounts are numbered in the order of creation. The clock is part of the state.
-/
namespace Mango
namespace Auth

abbrev Key := Nat

/-- mango_account.rs:315-375 (in parts) -/
structure Fixed where
  owner : Key
  delegate : Key := 0
  temporaryDelegate : Key := 0
  temporaryDelegateExpiry : Nat := 0
  frozenUntil : Nat := 0
  sequence : Nat := 0
  closed : Bool := false
  deriving DecidableEq, Repr

/-- mango_account.rs:355-358 `is_operational` -/
def Fixed.isOperational (a : Fixed) (now : Nat) : Bool := decide (a.frozenUntil < now)

/-- mango_account.rs:364-375 `is_delegate` -/
def Fixed.isDelegate (a : Fixed) (signer : Key) (now : Nat) : Bool :=
  if a.delegate = signer then true
  else if now > a.temporaryDelegateExpiry then false
  else decide (a.temporaryDelegate = signer)

/-- mango_account.rs:360-362 `is_owner_or_delegate` -/
def Fixed.isOwnerOrDelegate (a : Fixed) (signer : Key) (now : Nat) : Bool := decide (a.owner = signer) || a.isDelegate signer now

/-- whose signature an instruction asks for, for one of its accounts: nobody's, the owner's (`has_one = owner`), the owner's or a delegate's (`is_owner_or_delegate`) -/
inductive Signed | anyone | owner | ownerOrDelegate
  deriving DecidableEq, Repr

/-- how an instruction treats one of its mango accounts: the signature it asks for, and which of its accounts `is_operational` is asked of (`none`: of no account) -/
structure Role where
  signed : Signed
  frozenCheck : Option Nat
  deriving DecidableEq, Repr

/-- the instructions on existing mango accounts that do not change the fields modelled here -/
inductive Ix
  | buybackFees | expand | sizeMigration | flashLoanBegin | flashLoanSwapBegin | flashLoanEnd | healthCheck | healthRegionBegin | healthRegionEnd
  | perpCancelAllOrders | perpCancelAllOrdersBySide | perpCancelOrder | perpCancelOrderByClientOrderId | perpConsumeEvents | perpDeactivatePosition | perpForceClosePosition
  | perpLiqBaseOrPositivePnl | perpLiqForceCancelOrders | perpLiqNegativePnlOrBankruptcy | perpLiqNegativePnlOrBankruptcyV2 | perpPlaceOrder | perpSettleFees | perpSettlePnl
  | serum3CancelAllOrders | serum3CancelOrder | serum3CancelOrderByClientOrderId | serum3CloseOpenOrders | serum3CreateOpenOrders | serum3LiqForceCancelOrders | serum3PlaceOrder | serum3SettleFunds
  | tokenChargeCollateralFees | tcsCancel | tcsCreate | tcsStart | tcsTrigger | tokenDepositIntoExisting | tokenDeposit | tokenForceCloseBorrows | tokenForceWithdraw
  | tokenLiqBankruptcy | tokenLiqWithToken | tokenWithdraw
  deriving DecidableEq, Repr

/-- the mango accounts of an instruction, in the order of its account list -/
def Ix.roles : Ix → List Role
  /- accounts_ix/account_buyback_fees_with_mngo.rs:13-28, instructions/account_buyback_fees_with_mngo.rs:26: for the second account, `dao_account`, the first one's state is asked -/
  | .buybackFees => [⟨.ownerOrDelegate, some 0⟩, ⟨.anyone, some 0⟩]
  /- accounts_ix/account_expand.rs:12-19 -/
  | .expand => [⟨.owner, some 0⟩]
  /- accounts_ix/account_size_migration.rs:12-16 -/
  | .sizeMigration => [⟨.anyone, none⟩]
  /- accounts_ix/flash_loan.rs:31-36, instructions/flash_loan.rs:38 -/
  | .flashLoanBegin => [⟨.ownerOrDelegate, some 0⟩]
  /- accounts_ix/flash_loan.rs:48-54, instructions/flash_loan.rs:38 -/
  | .flashLoanSwapBegin => [⟨.ownerOrDelegate, some 0⟩]
  /- accounts_ix/flash_loan.rs:81-87, instructions/flash_loan.rs:278 -/
  | .flashLoanEnd => [⟨.ownerOrDelegate, some 0⟩]
  /- accounts_ix/health_check.rs:25-29 -/
  | .healthCheck => [⟨.anyone, some 0⟩]
  /- accounts_ix/health_region.rs:23-28 -/
  | .healthRegionBegin => [⟨.anyone, some 0⟩]
  /- accounts_ix/health_region.rs:36-40 -/
  | .healthRegionEnd => [⟨.anyone, some 0⟩]
  /- accounts_ix/perp_cancel_all_orders.rs:12-18, instructions/perp_cancel_all_orders.rs:11 -/
  | .perpCancelAllOrders => [⟨.ownerOrDelegate, none⟩]
  /- accounts_ix/perp_cancel_all_orders_by_side.rs:12-19, instructions/perp_cancel_all_orders_by_side.rs:15 -/
  | .perpCancelAllOrdersBySide => [⟨.ownerOrDelegate, some 0⟩]
  /- accounts_ix/perp_cancel_order.rs:12-19, instructions/perp_cancel_order.rs:11 -/
  | .perpCancelOrder => [⟨.ownerOrDelegate, some 0⟩]
  /- accounts_ix/perp_cancel_order_by_client_order_id.rs:12-18, instructions/perp_cancel_order_by_client_order_id.rs:14 -/
  | .perpCancelOrderByClientOrderId => [⟨.ownerOrDelegate, none⟩]
  /- accounts_ix/perp_consume_events.rs; the accounts are remaining accounts: instructions/perp_consume_events.rs:36-57. One account here, for each of them. -/
  | .perpConsumeEvents => [⟨.anyone, none⟩]
  /- accounts_ix/perp_deactivate_position.rs:13-20, instructions/perp_deactivate_position.rs:11 -/
  | .perpDeactivatePosition => [⟨.ownerOrDelegate, some 0⟩]
  /- accounts_ix/perp_force_close_position.rs:20-33 -/
  | .perpForceClosePosition => [⟨.anyone, some 0⟩, ⟨.anyone, some 1⟩]
  /- accounts_ix/perp_liq_base_or_positive_pnl.rs:19-33, instructions/perp_liq_base_or_positive_pnl.rs:40: liqor, liqee -/
  | .perpLiqBaseOrPositivePnl => [⟨.ownerOrDelegate, some 0⟩, ⟨.anyone, some 1⟩]
  /- accounts_ix/perp_liq_force_cancel_orders.rs:13-17 -/
  | .perpLiqForceCancelOrders => [⟨.anyone, none⟩]
  /- accounts_ix/perp_liq_negative_pnl_or_bankruptcy.rs:14-29, instructions/perp_liq_negative_pnl_or_bankruptcy.rs:67: liqor, liqee -/
  | .perpLiqNegativePnlOrBankruptcy => [⟨.ownerOrDelegate, some 0⟩, ⟨.anyone, some 1⟩]
  /- accounts_ix/perp_liq_negative_pnl_or_bankruptcy.rs:70-85, instructions/perp_liq_negative_pnl_or_bankruptcy.rs:67: liqor, liqee -/
  | .perpLiqNegativePnlOrBankruptcyV2 => [⟨.ownerOrDelegate, some 0⟩, ⟨.anyone, some 1⟩]
  /- accounts_ix/perp_place_order.rs:12-19, instructions/perp_place_order.rs:47 -/
  | .perpPlaceOrder => [⟨.ownerOrDelegate, some 0⟩]
  /- accounts_ix/perp_settle_fees.rs:16-21 -/
  | .perpSettleFees => [⟨.anyone, some 0⟩]
  /- accounts_ix/perp_settle_pnl.rs:12-36, instructions/perp_settle_pnl.rs:221: settler, the two settled accounts -/
  | .perpSettlePnl => [⟨.ownerOrDelegate, some 0⟩, ⟨.anyone, some 1⟩, ⟨.anyone, some 2⟩]
  /- accounts_ix/serum3_cancel_all_orders.rs:12-19, instructions/serum3_cancel_all_orders.rs:17 -/
  | .serum3CancelAllOrders => [⟨.ownerOrDelegate, some 0⟩]
  /- accounts_ix/serum3_cancel_order.rs:13-20, instructions/serum3_cancel_order.rs:26 -/
  | .serum3CancelOrder => [⟨.ownerOrDelegate, some 0⟩]
  /- accounts_ix/serum3_cancel_order.rs:13-20, instructions/serum3_cancel_order_by_client_order_id.rs:23 -/
  | .serum3CancelOrderByClientOrderId => [⟨.ownerOrDelegate, some 0⟩]
  /- accounts_ix/serum3_close_open_orders.rs:13-20, instructions/serum3_close_open_orders.rs:16 -/
  | .serum3CloseOpenOrders => [⟨.ownerOrDelegate, some 0⟩]
  /- accounts_ix/serum3_create_open_orders.rs:13-20, instructions/serum3_create_open_orders.rs:15 -/
  | .serum3CreateOpenOrders => [⟨.ownerOrDelegate, some 0⟩]
  /- accounts_ix/serum3_liq_force_cancel_orders.rs:15-19 -/
  | .serum3LiqForceCancelOrders => [⟨.anyone, none⟩]
  /- accounts_ix/serum3_place_order.rs:40-47, instructions/serum3_place_order.rs:49 -/
  | .serum3PlaceOrder => [⟨.ownerOrDelegate, some 0⟩]
  /- accounts_ix/serum3_settle_funds.rs:14-21, instructions/serum3_settle_funds.rs:35 -/
  | .serum3SettleFunds => [⟨.ownerOrDelegate, some 0⟩]
  /- accounts_ix/token_charge_collateral_fees.rs:10-15 -/
  | .tokenChargeCollateralFees => [⟨.anyone, some 0⟩]
  /- accounts_ix/token_conditional_swap_cancel.rs:12-19 -/
  | .tcsCancel => [⟨.ownerOrDelegate, some 0⟩]
  /- accounts_ix/token_conditional_swap_create.rs:10-17 -/
  | .tcsCreate => [⟨.ownerOrDelegate, some 0⟩]
  /- accounts_ix/token_conditional_swap_start.rs:12-27: liqee, liqor -/
  | .tcsStart => [⟨.anyone, some 0⟩, ⟨.ownerOrDelegate, some 1⟩]
  /- accounts_ix/token_conditional_swap_trigger.rs:12-26: liqee, liqor -/
  | .tcsTrigger => [⟨.anyone, some 0⟩, ⟨.ownerOrDelegate, some 1⟩]
  /- accounts_ix/token_deposit.rs:16-21 -/
  | .tokenDepositIntoExisting => [⟨.anyone, some 0⟩]
  /- accounts_ix/token_deposit.rs:53-60 -/
  | .tokenDeposit => [⟨.ownerOrDelegate, some 0⟩]
  /- accounts_ix/token_force_close_borrows_with_token.rs:12-26, instructions/token_force_close_borrows_with_token.rs:30: liqor, liqee -/
  | .tokenForceCloseBorrows => [⟨.ownerOrDelegate, some 0⟩, ⟨.anyone, some 1⟩]
  /- accounts_ix/token_force_withdraw.rs:16-21 -/
  | .tokenForceWithdraw => [⟨.anyone, some 0⟩]
  /- accounts_ix/token_liq_bankruptcy.rs:20-34, instructions/token_liq_bankruptcy.rs:54: liqor, liqee -/
  | .tokenLiqBankruptcy => [⟨.ownerOrDelegate, some 0⟩, ⟨.anyone, some 1⟩]
  /- accounts_ix/token_liq_with_token.rs:12-26, instructions/token_liq_with_token.rs:32: liqor, liqee -/
  | .tokenLiqWithToken => [⟨.ownerOrDelegate, some 0⟩, ⟨.anyone, some 1⟩]
  /- accounts_ix/token_withdraw.rs:16-27 -/
  | .tokenWithdraw => [⟨.ownerOrDelegate, some 0⟩]

/-- the signature check of one account -/
def Signed.check (s : Signed) (a : Fixed) (signer : Key) (now : Nat) : Bool :=
  match s with
  | .anyone => true
  | .owner => decide (a.owner = signer)
  | .ownerOrDelegate => a.isOwnerOrDelegate signer now

/-- the checks of one account of an instruction, given all its accounts -/
def Role.check (r : Role) (as : List Fixed) (a : Fixed) (signer : Key) (now : Nat) : Bool :=
  r.signed.check a signer now &&
    (match r.frozenCheck with
     | none => true
     | some j => match as[j]? with
       | none => false
       | some b => b.isOperational now)

/-- clock, group admin and the accounts -/
structure State where
  now : Nat
  admin : Key
  accts : List Fixed
  deriving Repr

/-- an instruction, with its signer and the accounts it is called with, or the passing of time -/
inductive Op
  | tick (seconds : Nat)
  /-- group_edit with a new admin -/
  | setAdmin (signer : Key) (admin : Key)
  | create (signer : Key)
  | edit (signer : Key) (i : Nat) (name : Bool) (delegate : Option Key) (temp : Option Key) (expiry : Option Nat)
  | toggleFreeze (signer : Key) (i : Nat) (freeze : Bool)
  | sequenceCheck (signer : Key) (i : Nat) (expected : Nat)
  | close (signer : Key) (i : Nat)
  | other (ix : Ix) (signer : Key) (accts : List Nat)
  deriving Repr

def U64MAX : Nat := 18446744073709551615
def WEEK : Nat := 604800

/-- an account that exists -/
def State.acct (s : State) (i : Nat) : Res Fixed :=
  match s.accts[i]? with
  | none => .error .someError
  | some a => if a.closed then .error .someError else .ok a

/-- instructions/account_edit.rs:17-45; which name is set is left out -/
def editFixed (a : Fixed) (now : Nat) (name : Bool) (delegate temp : Option Key) (expiry : Option Nat) : Res Fixed := do
  require (name ∨ delegate.isSome) .someError
  let a := match delegate with
    | some d => { a with delegate := d }
    | none => a
  match temp, expiry with
  | some t, some e => do
    require (now + WEEK ≤ U64MAX) .panic
    require (now + WEEK > e) .someError
    .ok { a with temporaryDelegate := t, temporaryDelegateExpiry := e }
  | none, none => .ok a
  | _, _ => .error .someError

/-- instructions/account_toggle_freeze.rs:8-18 -/
def freezeFixed (a : Fixed) (now : Nat) (freeze : Bool) : Res Fixed :=
  if freeze then do
    require (now + WEEK ≤ U64MAX) .panic
    .ok { a with frozenUntil := now + WEEK }
  else .ok { a with frozenUntil := 0 }

/-- instructions/sequence_check.rs:7-18 -/
def sequenceFixed (a : Fixed) (expected : Nat) : Res Fixed := do
  require (expected = a.sequence) .someError
  .ok { a with sequence := (a.sequence + 1) % 256 }

/-- one instruction, or time passing. The key 0 cannot sign. -/
def step (s : State) : Op → Res State
  | .tick d => .ok { s with now := s.now + d }
  /- instructions/group_edit.rs:25-29, accounts_ix/group_edit.rs:7-13 -/
  | .setAdmin k new => do
    require (k ≠ 0 ∧ s.admin = k) .someError
    require (new ≠ 0) .someError
    .ok { s with admin := new }
  /- accounts_ix/account_create.rs:7-27, instructions/account_create.rs -/
  | .create k => do
    require (k ≠ 0) .someError
    .ok { s with accts := s.accts ++ [{ owner := k }] }
  /- accounts_ix/account_edit.rs:6-20 -/
  | .edit k i name d t e => do
    let a ← s.acct i
    require (k ≠ 0 ∧ a.owner = k) .someError
    require (a.isOperational s.now = true) .someError
    let a ← editFixed a s.now name d t e
    .ok { s with accts := s.accts.set i a }
  /- accounts_ix/account_toggle_freeze.rs:6-20 -/
  | .toggleFreeze k i f => do
    let a ← s.acct i
    require (k ≠ 0 ∧ s.admin = k) .someError
    let a ← freezeFixed a s.now f
    .ok { s with accts := s.accts.set i a }
  /- accounts_ix/sequence_check.rs:6-20 -/
  | .sequenceCheck k i n => do
    let a ← s.acct i
    require (k ≠ 0 ∧ a.owner = k) .someError
    require (a.isOperational s.now = true) .someError
    let a ← sequenceFixed a n
    .ok { s with accts := s.accts.set i a }
  /- accounts_ix/account_close.rs:8-30; the account must also be empty: Account/Slots, C45 -/
  | .close k i => do
    let a ← s.acct i
    require (k ≠ 0 ∧ a.owner = k) .someError
    require (a.isOperational s.now = true) .someError
    .ok { s with accts := s.accts.set i { a with closed := true } }
  /- the checks of all roles; the effects are outside of this model -/
  | .other ix k is => do
    let as ← is.mapM s.acct
    require (k ≠ 0 ∧ as.length = ix.roles.length) .someError
    require ((ix.roles.zip as).all (fun x => x.1.check as x.2 k s.now) = true) .someError
    .ok s

/-- a history, oldest instruction first; failed instructions have no effect and are left out -/
inductive Run (s0 : State) : List (Nat × Op) → State → Prop
  | start : Run s0 [] s0
  | next {h s op s'} (r : Run s0 h s) (st : step s op = .ok s') : Run s0 (h ++ [(s.now, op)]) s'

end Auth
end Mango
