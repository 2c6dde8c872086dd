import Verif.Basic
import Verif.ListSum

/-!
# The slots of an account

Models the slot handling of /repo/programs/mango-v4/src/state/mango_account.rs (token positions 773-800, 984-1078;
spot market orders 798-827, 1083-1124; perp positions 835-860, 1129-1215; conditional swaps 898-930, 1381-1391)
and the instructions that hold token positions open through `in_use_count`.

The payload of a slot (balances, order data) is one opaque integer: the properties are about which slots
exist, which stay untouched and how the use counts move.
-/
namespace Mango.Slots

/-- `TokenIndex::MAX`, `Serum3MarketIndex::MAX`, `PerpMarketIndex::MAX`: the mark of a free slot
(mango_account_components.rs:12, 60, 73, 176, 399). -/
def FREE : Nat := 65535

/-- `TokenPosition` (mango_account_components.rs:18-47), with all balance data as `pos`. -/
structure TokenSlot where
  index : Nat
  inUse : Nat
  pos : Int
  deriving DecidableEq, Repr

/-- `Serum3Orders` (mango_account_components.rs:114-165), with the rest of the data as `data`. -/
structure SerumSlot where
  market : Nat
  base : Nat
  quote : Nat
  data : Int
  deriving DecidableEq, Repr

/-- `PerpPosition` (mango_account_components.rs:208-323), with the rest of the data as `data`. -/
structure PerpSlot where
  market : Nat
  data : Int
  deriving DecidableEq, Repr

/-- `TokenConditionalSwap` (token_conditional_swap.rs:45-146), with the rest of the data as `data`. -/
structure TcsSlot where
  configured : Bool
  id : Nat
  buy : Nat
  sell : Nat
  data : Int
  deriving DecidableEq, Repr

/-- The slots of an account and `next_token_conditional_swap_id`. -/
structure Acc where
  tokens : List TokenSlot
  serums : List SerumSlot
  perps : List PerpSlot
  tcss : List TcsSlot
  nextTcsId : Nat
  deriving DecidableEq, Repr

/-- The `Default` values of the slots (mango_account_components.rs:55-68, 184-203, 336-366;
token_conditional_swap.rs:155-184). -/
def freeToken : TokenSlot := ⟨FREE, 0, 0⟩
/-- `Serum3Orders::default` (mango_account_components.rs:184-203). -/
def freeSerum : SerumSlot := ⟨FREE, FREE, FREE, 0⟩
/-- `PerpPosition::default` (mango_account_components.rs:336-366). -/
def freePerp : PerpSlot := ⟨FREE, 0⟩
/-- `TokenConditionalSwap::default` (token_conditional_swap.rs:155-184). -/
def freeTcs : TcsSlot := ⟨false, 0, FREE, FREE, 0⟩

/-! ## Token positions -/

/-- `token_position_and_raw_index` / `token_position_mut` (mango_account.rs:758-775, 960-978): the raw index of the
position for a token. -/
def tokenRaw (ts : List TokenSlot) (t : Nat) : Res Nat :=
  match ts.findIdx? (fun p => p.index == t) with
  | some i => .ok i
  | none => .error .tokenPositionDoesNotExist

/-- The loop of `ensure_token_position` (mango_account.rs:993-1007): `raw` and `act` are the loop's counters, `acc`
is `match_or_free`. -/
def ensureLoop (t : Nat) : List TokenSlot → Nat → Nat → Option (Nat × Nat) → Option (Nat × Nat)
  | [], _, _, acc => acc
  | p :: ps, raw, act, acc =>
    if p.index = t then some (raw, act)
    else if p.index ≠ FREE then ensureLoop t ps (raw + 1) (act + 1) acc
    else ensureLoop t ps (raw + 1) act (if acc = none then some (raw, act) else acc)

/-- `ensure_token_position` (mango_account.rs:989-1026): the positions, the raw index and the active index. -/
def ensureToken (ts : List TokenSlot) (t : Nat) : Res (List TokenSlot × Nat × Nat) :=
  match ensureLoop t ts 0 0 none with
  | some (raw, act) =>
    match ts[raw]? with
    | some v => .ok (if v.index = t then ts else ts.set raw ⟨t, 0, 0⟩, raw, act)
    | none => .error .panic
  | none => .error .noFreeTokenPositionIndex

/-- `increment_in_use` (mango_account_components.rs:103-105) of the position at `raw`: a `u16` that panics on
overflow. -/
def incUse (ts : List TokenSlot) (raw : Nat) : Res (List TokenSlot) :=
  match ts[raw]? with
  | some p => if p.inUse + 1 ≤ 65535 then .ok (ts.set raw { p with inUse := p.inUse + 1 }) else .error .panic
  | none => .error .panic

/-- `decrement_in_use` (mango_account_components.rs:107-109): saturating. -/
def decUse (ts : List TokenSlot) (raw : Nat) : Res (List TokenSlot) :=
  match ts[raw]? with
  | some p => .ok (ts.set raw { p with inUse := p.inUse - 1 })
  | none => .error .panic

/-- `deactivate_token_position_and_log` (mango_account.rs:1033-1049). -/
def deactivateToken (ts : List TokenSlot) (raw : Nat) : Res (List TokenSlot) :=
  match ts[raw]? with
  | some p => if p.inUse = 0 then .ok (ts.set raw { p with index := FREE }) else .error .panic
  | none => .error .panic

/-- `ensure_token_position(t)?.0.increment_in_use()`. -/
def holdToken (ts : List TokenSlot) (t : Nat) : Res (List TokenSlot) := do
  let (ts, raw, _) ← ensureToken ts t
  incUse ts raw

/-- `token_position_mut(t)?.0.decrement_in_use()`. -/
def releaseToken (ts : List TokenSlot) (t : Nat) : Res (List TokenSlot) := do
  let raw ← tokenRaw ts t
  decUse ts raw

/-- `token_decrement_dust_deactivate` (mango_account.rs:1055-1078). `dust` says whether the balance is in
`[0, 1)`, which together with the use count decides if the position is closed (`Bank::dust_if_possible`,
bank.rs:812-823). -/
def releaseDust (ts : List TokenSlot) (t : Nat) (dust : Bool) : Res (List TokenSlot) :=
  match tokenRaw ts t with
  | .error _ => .ok ts
  | .ok raw => do
    let ts ← decUse ts raw
    match ts[raw]? with
    | none => .error .panic
    | some p =>
      if p.inUse > 0 then pure ts
      else if dust then deactivateToken ts raw
      else pure ts

/-! ## The instructions' effects on the slots -/

/-- A token instruction (deposit, withdraw, settlement, liquidation, ...): `ensure_token_position`, a balance change, and
closing of the position if the bank reports it as inactive, which it never does while it is in use
(bank.rs:543-556, 673, 813; for example token_deposit.rs:100-185). `newPos` is the new balance data, `close`
whether the balance was dusted. -/
def changeToken (a : Acc) (t : Nat) (newPos : Int) (close : Bool) : Res Acc := do
  let (ts, raw, _) ← ensureToken a.tokens t
  match ts[raw]? with
  | none => .error .panic
  | some p => do
    let ts := ts.set raw { p with pos := newPos }
    if close ∧ p.inUse = 0 then do
      let ts ← deactivateToken ts raw
      pure { a with tokens := ts }
    else pure { a with tokens := ts }

/-- Market parameters: the tokens of spot markets and the settle tokens of perp markets
(serum3_market.rs, perp_market.rs: set at registration and never edited). -/
structure Markets where
  base : Nat → Nat
  quote : Nat → Nat
  settle : Nat → Nat

/-- `create_serum3_orders` (mango_account.rs:1083-1101) inside of `serum3_create_open_orders`
(serum3_create_open_orders.rs:7-33). -/
def createSerum (mk : Markets) (a : Acc) (m : Nat) (data : Int) : Res Acc := do
  if a.serums.any (fun p => p.market == m) then .error .serum3OpenOrdersExistAlready
  else
    match a.serums.findIdx? (fun p => p.market == FREE) with
    | none => .error .noFreeSerum3OpenOrdersIndex
    | some raw => do
      let ss := a.serums.set raw ⟨m, mk.base m, mk.quote m, data⟩
      let ts ← holdToken a.tokens (mk.quote m)
      let ts ← holdToken ts (mk.base m)
      pure { a with tokens := ts, serums := ss }

/-- `serum3_close_open_orders` (serum3_close_open_orders.rs:7-46) with `deactivate_serum3_orders`
(mango_account.rs:1103-1110). -/
def closeSerum (mk : Markets) (a : Acc) (m : Nat) : Res Acc := do
  if a.serums.any (fun p => p.market == m) then do
    let ts ← releaseToken a.tokens (mk.base m)
    let ts ← releaseToken ts (mk.quote m)
    match a.serums.findIdx? (fun p => p.market == m) with
    | none => .error .someError
    | some raw =>
      match a.serums[raw]? with
      | none => .error .panic
      | some p => pure { a with tokens := ts, serums := a.serums.set raw { p with market := FREE } }
  else .error .serum3OrdersDoNotExist

/-- `ensure_perp_position` (mango_account.rs:1147-1172): the account and the raw index. -/
def ensurePerp (mk : Markets) (a : Acc) (m : Nat) : Res (Acc × Nat) :=
  match a.perps.findIdx? (fun p => p.market == m) with
  | some raw => .ok (a, raw)
  | none =>
    match a.perps.findIdx? (fun p => p.market == FREE) with
    | none => .error .noFreePerpPositionIndex
    | some raw => do
      let ps := a.perps.set raw { freePerp with market := m }
      let ts ← holdToken a.tokens (mk.settle m)
      pure ({ a with perps := ps, tokens := ts }, raw)

/-- `deactivate_perp_position_and_log` (mango_account.rs:1187-1213); the conditions of
perp_deactivate_position.rs are modelled with the perp positions. -/
def deactivatePerp (mk : Markets) (a : Acc) (m : Nat) : Res Acc :=
  match a.perps.findIdx? (fun p => p.market == m) with
  | none => .error .perpPositionDoesNotExist
  | some raw =>
    match a.perps[raw]? with
    | none => .error .panic
    | some p => do
      let ps := a.perps.set raw { p with market := FREE }
      let ts ← releaseToken a.tokens (mk.settle m)
      pure { a with perps := ps, tokens := ts }

/-- `token_conditional_swap_create` (token_conditional_swap_create.rs:8-58): the parameter checks other than the
distinct tokens are left out. The id counter is a `u64` that wraps around; here it does not. -/
def createTcs (a : Acc) (buy sell : Nat) (data : Int) : Res Acc := do
  let ts ← holdToken a.tokens buy
  let ts ← holdToken ts sell
  match a.tcss.findIdx? (fun p => !p.configured) with
  | none => .error .noTokenConditionalSwapSlot
  | some i =>
    if buy = sell then .error .requireFailed
    else pure { a with tokens := ts, tcss := a.tcss.set i ⟨true, a.nextTcsId, buy, sell, data⟩,
                       nextTcsId := a.nextTcsId + 1 }

/-- Closing of a conditional swap, by the owner (token_conditional_swap_cancel.rs:9-47), on expiry
(token_conditional_swap_trigger.rs:59-82) or on completion (464-484). -/
def closeTcs (a : Acc) (i : Nat) (id : Nat) (dustBuy dustSell : Bool) : Res Acc :=
  match a.tcss[i]? with
  | none => .error .requireFailed
  | some s =>
    if s.configured = false then .ok a
    else if s.id ≠ id then .error .tcsIndexIdMismatch
    else do
      let ts ← releaseDust a.tokens s.buy dustBuy
      let ts ← releaseDust ts s.sell dustSell
      pure { a with tokens := ts, tcss := a.tcss.set i freeTcs }

/-- `resize_dynamic_content` on the level of slots: what `C33_resize` proves about the bytes. -/
def resizeAcc (a : Acc) (tc sc pc cc : Nat) : Res Acc := do
  let ts := a.tokens.filter (fun p => p.index ≠ FREE)
  let ss := a.serums.filter (fun p => p.market ≠ FREE)
  let ps := a.perps.filter (fun p => p.market ≠ FREE)
  let cs := a.tcss.filter (fun p => p.configured)
  if ts.length ≤ tc ∧ ss.length ≤ sc ∧ ps.length ≤ pc ∧ cs.length ≤ cc then
    pure { a with
      tokens := ts ++ List.replicate (tc - ts.length) freeToken
      serums := ss ++ List.replicate (sc - ss.length) freeSerum
      perps := ps ++ List.replicate (pc - ps.length) freePerp
      tcss := cs ++ List.replicate (cc - cs.length) freeTcs }
  else .error .requireFailed

/-- Everything that can happen to the slots of one account. -/
inductive Op where
  | token (t : Nat) (newPos : Int) (close : Bool)
  | createSerum (m : Nat) (data : Int)
  | closeSerum (m : Nat)
  | ensurePerp (m : Nat)
  | deactivatePerp (m : Nat)
  | createTcs (buy sell : Nat) (data : Int)
  | closeTcs (i id : Nat) (dustBuy dustSell : Bool)
  | resize (tc sc pc cc : Nat)

/-- The market or token an operation names is registered, so it is not the free mark
(token_register.rs:51, token_register_trustless.rs:21; for markets this is an assumption, see DESIGN.md). -/
def Op.Registered (mk : Markets) : Op → Prop
  | .token t _ _ => t ≠ FREE
  | .createSerum m _ => m ≠ FREE ∧ mk.base m ≠ FREE ∧ mk.quote m ≠ FREE
  | .closeSerum m => m ≠ FREE ∧ mk.base m ≠ FREE ∧ mk.quote m ≠ FREE
  | .ensurePerp m => m ≠ FREE ∧ mk.settle m ≠ FREE
  | .deactivatePerp m => m ≠ FREE ∧ mk.settle m ≠ FREE
  | .createTcs b s _ => b ≠ FREE ∧ s ≠ FREE
  | .closeTcs .. => True
  | .resize .. => True

/-- One instruction. -/
def step (mk : Markets) (a : Acc) : Op → Res Acc
  | .token t p c => changeToken a t p c
  | .createSerum m d => createSerum mk a m d
  | .closeSerum m => closeSerum mk a m
  | .ensurePerp m => (ensurePerp mk a m).map Prod.fst
  | .deactivatePerp m => deactivatePerp mk a m
  | .createTcs b s d => createTcs a b s d
  | .closeTcs i id x y => closeTcs a i id x y
  | .resize tc sc pc cc => resizeAcc a tc sc pc cc

/-- A new account (account_create.rs): all slots are free. -/
def newAcc (tc sc pc cc : Nat) : Acc :=
  ⟨List.replicate tc freeToken, List.replicate sc freeSerum, List.replicate pc freePerp,
    List.replicate cc freeTcs, 0⟩

/-- Reachable accounts: any sequence of successful instructions (failed ones change nothing). -/
inductive Reach (mk : Markets) : Acc → Prop
  | new (tc sc pc cc : Nat) : Reach mk (newAcc tc sc pc cc)
  | step {a a' : Acc} (op : Op) : Reach mk a → op.Registered mk → step mk a op = .ok a' → Reach mk a'

end Mango.Slots
