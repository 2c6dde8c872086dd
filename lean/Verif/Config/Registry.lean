import Verif.Basic
/-!
# What a group lists

Models the instructions that list and delist tokens and markets in a group: token_register, token_register_trustless, token_add_bank, token_deregister, perp_create_market, perp_close_market,
serum3_register_market, serum3_deregister_market, and the part of group_edit that makes a group a testing group. Only the fields that say what is listed are kept; configuration is in `Config.Model`
(C66, C67), which instruction needs which admin in `Auth` and C66. One group: seeds contain the group's key.

Accounts at program derived addresses are named by their seeds: different seeds, different addresses (the kinds have different prefixes, and the rest has a fixed length, so the concatenations differ; hash
collisions are excluded). `init` fails if the account exists. A closed account is gone at the end of the instruction.
-/
namespace Mango
namespace Registry

/-- addresses: by seeds, or of an account made by a client -/
inductive Addr
  /-- accounts_ix/token_register.rs:21-27, token_add_bank.rs:32-40 -/
  | bank (i n : Nat)
  /-- token_register.rs:30-38, token_add_bank.rs:42-50 -/
  | vault (i n : Nat)
  /-- token_register.rs:40-48 -/
  | mintInfo (mint : Nat)
  /-- perp_create_market.rs:19-26 -/
  | perp (i : Nat)
  /-- serum3_register_market.rs:24-32 -/
  | spot (external : Nat)
  /-- serum3_register_market.rs:34-42 -/
  | spotIndex (i : Nat)
  | key (k : Nat)
  deriving DecidableEq, Repr

/-- what is in an account -/
inductive Data
  /-- state/bank.rs: token_index, mint, vault, bank_num -/
  | bank (index mint : Nat) (vault : Addr) (num : Nat)
  /-- a token account of the group -/
  | vault (mint : Nat)
  /-- state/mint_info.rs:19-44: token_index, mint, and the used part of the arrays of banks and vaults -/
  | mintInfo (index mint : Nat) (banks vaults : List Addr)
  /-- state/perp_market.rs: perp_market_index, settle_token_index, bids, asks, event_queue -/
  | perp (index settle : Nat) (bids asks queue : Addr)
  | bookSide
  | queue
  /-- an account of the program without content -/
  | zero
  /-- state/serum3_market.rs: market_index, base_token_index, quote_token_index, serum_market_external -/
  | spot (index base quote external : Nat)
  /-- Serum3MarketIndexReservation -/
  | spotIndex (index : Nat)
  deriving DecidableEq, Repr

structure State where
  testing : Bool
  acct : Addr → Option Data

/-- write to an account, or create it -/
def State.put (s : State) (a : Addr) (d : Data) : State := { s with acct := fun x => if x = a then some d else s.acct x }
/-- `close = ...`, `close_account` -/
def State.close (s : State) (a : Addr) : State := { s with acct := fun x => if x = a then none else s.acct x }
/-- anchor's `init` -/
def State.init (s : State) (a : Addr) (d : Data) : Res State := do
  require (s.acct a = none) .someError
  .ok (s.put a d)

/-- token_register.rs:51, 147-163 (accounts_ix 8-60) and token_register_trustless.rs:20-21, 130-146 (accounts_ix 8-62) -/
def register (s : State) (trustless : Bool) (i mint : Nat) : Res State := do
  let s ← s.init (.bank i 0) (.bank i mint (.vault i 0) 0)
  let s ← s.init (.vault i 0) (.vault mint)
  let s ← s.init (.mintInfo mint) (.mintInfo i mint [.bank i 0] [.vault i 0])
  require (trustless = true → i ≠ 0) .requireFailed
  require (i ≠ 65535) .requireFailed
  .ok s

/-- token_add_bank.rs:8-29, accounts_ix 6-66; `existing`, `mi`: the accounts passed -/
def addBank (s : State) (i num mint : Nat) (existing mi : Addr) : Res State := do
  require (s.testing = true) .someError
  match s.acct existing, s.acct mi with
  | some (.bank i' m' _ _), some (.mintInfo i'' m'' banks vaults) => do
    require (i' = i ∧ m' = mint) .someError
    require (i'' = i ∧ m'' = mint) .someError
    let s ← s.init (.bank i num) (.bank i' m' (.vault i num) num)
    let s ← s.init (.vault i num) (.vault mint)
    require (banks.length < 6) .panic
    require (num = banks.length) .requireFailed
    .ok (s.put mi (.mintInfo i'' m'' (banks ++ [.bank i num]) (vaults ++ [.vault i num])))
  | _, _ => .error .someError

/-- token_deregister.rs:33-45: the banks and vaults passed are those of the mint info -/
def checkBanks (s : State) (i : Nat) : List Addr → List Addr → Res Unit
  | [], [] => .ok ()
  | b :: bs, v :: vs => match s.acct b, s.acct v with
    | some (.bank i' _ v' _), some (.vault _) => do
      require (i' = i) .requireFailed
      require (v' = v) .requireFailed
      checkBanks s i bs vs
    | _, _ => .error .someError
  | _, _ => .error .requireFailed

def State.closeAll (s : State) (l : List Addr) : State := l.foldl State.close s

/-- token_deregister.rs:9-80, accounts_ix 8-33; `mi`: the mint info passed -/
def deregister (s : State) (mi : Addr) : Res State := do
  require (s.testing = true) .someError
  match s.acct mi with
  | some (.mintInfo i _ banks vaults) => do
    checkBanks s i banks vaults
    .ok (((s.closeAll vaults).closeAll banks).close mi)
  | _ => .error .someError

/-- perp_create_market.rs:13-129, accounts_ix 7-41; bids and asks are borrowed at the same time (112-115) -/
def perpCreate (s : State) (i settle : Nat) (bids asks queue : Addr) : Res State := do
  let s ← s.init (.perp i) (.perp i settle bids asks queue)
  require (s.acct bids = some .zero) .someError
  require (s.acct asks = some .zero) .someError
  require (s.acct queue = some .zero) .someError
  require (bids ≠ asks) .someError
  .ok (((s.put bids .bookSide).put asks .bookSide).put queue .queue)

/-- perp_close_market.rs, accounts_ix 6-49 -/
def perpClose (s : State) (m : Addr) : Res State := do
  require (s.testing = true) .someError
  match s.acct m with
  | some (.perp _ _ bids asks queue) => do
    require (s.acct bids = some .bookSide) .someError
    require (s.acct asks = some .bookSide) .someError
    require (s.acct queue = some .queue) .someError
    .ok ((((s.close m).close bids).close asks).close queue)
  | _ => .error .someError

/-- serum3_register_market.rs:14-98, accounts_ix 6-56; `mints`: base and quote mint of an external market; `base`, `quote`: the banks passed -/
def spotRegister (mints : Nat → Nat × Nat) (s : State) (i external : Nat) (base quote : Addr) : Res State := do
  match s.acct base, s.acct quote with
  | some (.bank bi bm _ _), some (.bank qi qm _ _) => do
    let s ← s.init (.spot external) (.spot i bi qi external)
    let s ← s.init (.spotIndex i) (.spotIndex i)
    require ((mints external).2 = qm) .someError
    require ((mints external).1 = bm) .someError
    .ok s
  | _, _ => .error .someError

/-- serum3_deregister_market.rs, accounts_ix 5-37 -/
def spotDeregister (s : State) (m r : Addr) : Res State := do
  require (s.testing = true) .someError
  match s.acct m, s.acct r with
  | some (.spot i _ _ _), some (.spotIndex j) => do
    require (i = j) .someError
    .ok ((s.close m).close r)
  | _, _ => .error .someError

inductive Op
  /-- group_edit.rs:50-53 -/
  | setTesting (b : Bool)
  | register (trustless : Bool) (i mint : Nat)
  | addBank (i num mint : Nat) (existing mi : Addr)
  | deregister (mi : Addr)
  | perpCreate (i settle : Nat) (bids asks queue : Addr)
  | perpClose (m : Addr)
  | spotRegister (i external : Nat) (base quote : Addr)
  | spotDeregister (m r : Addr)
  /-- a client creates an account owned by the program, without content -/
  | fresh (k : Nat)

def step (mints : Nat → Nat × Nat) (s : State) : Op → Res State
  | .setTesting b => .ok { s with testing := b }
  | .register t i m => register s t i m
  | .addBank i n m e mi => addBank s i n m e mi
  | .deregister mi => deregister s mi
  | .perpCreate i st b a q => perpCreate s i st b a q
  | .perpClose m => perpClose s m
  | .spotRegister i e b q => spotRegister mints s i e b q
  | .spotDeregister m r => spotDeregister s m r
  | .fresh k => s.init (.key k) .zero

/-- a new group (group_create.rs): nothing listed -/
def State.new (testing : Bool) : State := ⟨testing, fun _ => none⟩

/-- a history of instructions that succeeded -/
inductive Reachable (mints : Nat → Nat × Nat) : State → Prop
  | new (testing : Bool) : Reachable mints (State.new testing)
  | step {s s' : State} {op : Op} : Reachable mints s → step mints s op = .ok s' → Reachable mints s'

end Registry
end Mango
