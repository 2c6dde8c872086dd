import Verif.Fixed
/-!
# Oracles

Models state/oracle.rs (price sources, staleness and confidence checks), state/amm_cpi.rs:33-108 (pool prices) and the two users
state/bank.rs:1190-1220 and state/perp_market.rs:277-296. The bytes of an oracle account are abstracted to a `Source`: the values the code reads
from them. Not modelled: byte layout and discriminators (oracle.rs:204-238 `determine_oracle_type`), f64 conversions of Switchboard feeds
(the I80F48 values after conversion are given), the f64 inversion of a pool price (parameter `inv`), and exponents outside i8.
-/
namespace Mango
namespace Oracle
open Fx

/-- oracle.rs:18-44 `DECIMAL_CONSTANTS` -/
def decimalConstants : List I80F48 := [
  S / 10 ^ 12, S / 10 ^ 11 + 1, S / 10 ^ 10, S / 10 ^ 9 + 1, S / 10 ^ 8 + 1, S / 10 ^ 7 + 1, S / 10 ^ 6 + 1, S / 10 ^ 5, S / 10 ^ 4,
  S / 10 ^ 3 + 1, S / 10 ^ 2 + 1, S / 10 ^ 1 + 1, S * 10 ^ 0, S * 10 ^ 1, S * 10 ^ 2, S * 10 ^ 3, S * 10 ^ 4, S * 10 ^ 5, S * 10 ^ 6,
  S * 10 ^ 7, S * 10 ^ 8, S * 10 ^ 9, S * 10 ^ 10, S * 10 ^ 11, S * 10 ^ 12]

/-- oracle.rs:45-47 `power_of_ten`; an index outside the table panics -/
def powerOfTen (d : Int) : Res I80F48 :=
  if 0 ≤ d + 12 then (match decimalConstants[(d + 12).toNat]? with
    | some x => .ok x
    | none => .error .panic)
  else .error .panic

/-- oracle.rs:49 -/
def QUOTE_DECIMALS : Int := 6
def SOL_DECIMALS : Int := 9

/-- oracle.rs:92-98 `OracleConfig` -/
structure Cfg where
  confFilter : I80F48
  maxStaleness : Int
  deriving DecidableEq, Repr

/-- oracle.rs:133-139 `OracleState` -/
structure OState where
  price : I80F48
  deviation : I80F48
  slot : Int
  time : Option Int
  deriving DecidableEq, Repr

/-- a legacy Pyth price account: the aggregate and the previous price -/
structure Pyth where
  trading : Bool
  price : Int
  conf : Int
  pubSlot : Int
  prevPrice : Int
  prevConf : Int
  prevSlot : Int
  expo : Int
  deriving DecidableEq, Repr

/-- a token mint, as far as pools care -/
inductive Mint where
  | usdc
  | sol
  | other (n : Nat)
  deriving DecidableEq, Repr

/-- what an oracle account contains -/
inductive Source where
  | pyth (p : Pyth)
  | pythV2 (full : Bool) (price conf expo postedSlot publishTime : Int)
  | stub (price deviation : I80F48) (slot : Int)
  /-- Switchboard V1, V2 and on-demand feeds; `readable = false`: no result or conversion error -/
  | feed (readable : Bool) (uiPrice uiDeviation : I80F48) (slot : Int)
  /-- Orca and Raydium pools; `valid = false`: wrong discriminator, length or owner -/
  | pool (valid : Bool) (sqrtPrice : Nat) (a b : Mint)
  | unknown
  deriving DecidableEq, Repr

/-- an account used as oracle -/
structure OAcc where
  key : Nat
  src : Source
  deriving DecidableEq, Repr

/-- oracle.rs:348-354 `OracleAccountInfos` -/
structure Infos where
  oracle : OAcc
  fallback : Option OAcc
  usdc : Option OAcc
  sol : Option OAcc
  deriving DecidableEq, Repr

/-- oracle.rs:148-158 `check_confidence_and_maybe_staleness`, 160-190 `check_staleness` (`now` is timestamp and slot) -/
def checkStaleness (st : OState) (c : Cfg) (nowTs nowSlot : Int) : Res Unit :=
  if c.maxStaleness < 0 then .ok ()
  else if min (st.slot + c.maxStaleness) U64MAX < nowSlot then .error .oracleStale
  else match st.time with
    | none => .ok ()
    | some t => do
      let cur ← cku64 (nowTs * 1000)
      let last ← cku64 (t * 1000)
      let age ← cku64 (c.maxStaleness * 450)
      if last < max (cur - age) 0 then .error .oracleStale else .ok ()

/-- oracle.rs:192-197 `check_confidence` -/
def checkConfidence (st : OState) (c : Cfg) : Res Unit := do
  let m ← Fx.mul c.confFilter st.price
  if st.deviation > m then .error .oracleConfidence else .ok ()

/-- oracle.rs:148-158 -/
def check (st : OState) (c : Cfg) (now : Option (Int × Int)) : Res Unit := do
  let _ ← (match now with
    | some (ts, slot) => checkStaleness st c ts slot
    | none => .ok ())
  checkConfidence st c

/-- oracle.rs:295-316 `get_pyth_state` (with 265-293 `pyth_get_price`) -/
def pythState (p : Pyth) (baseDecimals : Int) : Res OState := do
  let (pr, cf, sl) := if p.trading then (p.price, p.conf, p.pubSlot) else (p.prevPrice, p.prevConf, p.prevSlot)
  let adj ← powerOfTen (p.expo + QUOTE_DECIMALS - baseDecimals)
  let price ← Fx.mul (Fx.ofInt pr) adj
  let dev ← Fx.mul (Fx.ofInt cf) adj
  require (price ≥ 0) .requireFailed
  .ok { price := price, deviation := dev, slot := sl, time := none }

/-- amm_cpi.rs:36-40 `is_inverted` -/
def isInverted (a b : Mint) : Bool := decide (a = .usdc) || (decide (a = .sol) && decide (b ≠ .usdc))

/-- amm_cpi.rs:42-52 `get_clmm_price`: exact unless inverted -/
def clmmPrice (inv : Nat → Res I80F48) (sqrtPrice : Nat) (a b : Mint) : Res I80F48 :=
  if isInverted a b then inv sqrtPrice
  else do
    let sq := sqrtPrice * sqrtPrice / 2 ^ 64
    require (sq < 2 ^ 128) .panic
    .ok ((sq / 2 ^ 16 : Nat) : Int)

/-- a quote feed must be a legacy Pyth account (oracle.rs:300 `unwrap`) -/
def pythOf (a : OAcc) (dec : Int) : Res OState :=
  match a.src with
  | .pyth p => pythState p dec
  | _ => .error .panic

/-- amm_cpi.rs:54-85 `quote_state_unchecked`, `quote_state_inner` -/
def quoteState (i : Infos) (a b : Mint) : Res OState :=
  match (if isInverted a b then a else b) with
  | .usdc => (match i.usdc with
      | some u => pythOf u QUOTE_DECIMALS
      | none => .error .missingFeed)
  | .sol => (match i.sol with
      | some u => pythOf u SOL_DECIMALS
      | none => .error .missingFeed)
  | .other _ => .error .missingFeed

/-- oracle.rs:391-523 `oracle_state_unchecked_inner` for the account already chosen -/
def stateOf (inv : Nat → Res I80F48) (i : Infos) (acc : OAcc) (baseDecimals : Int) : Res OState :=
  match acc.src with
  | .stub price dev slot =>
      .ok { price := price, deviation := if dev = 0 then I128MIN else dev, slot := if slot = 0 then U64MAX else slot, time := none }
  | .pyth p => pythState p baseDecimals
  | .pythV2 full pr cf expo slot time => do
      require (full = true) .oracleConfidence
      let adj ← powerOfTen (expo + QUOTE_DECIMALS - baseDecimals)
      let price ← Fx.mul (Fx.ofInt pr) adj
      let dev ← Fx.mul (Fx.ofInt cf) adj
      require (price ≥ 0) .requireFailed
      .ok { price := price, deviation := dev, slot := slot, time := some time }
  | .feed readable ui dev slot => do
      require (readable = true) .someError
      let adj ← powerOfTen (QUOTE_DECIMALS - baseDecimals)
      let price ← Fx.mul ui adj
      let dev ← Fx.mul dev adj
      require (price ≥ 0) .requireFailed
      .ok { price := price, deviation := dev, slot := slot, time := none }
  | .pool valid sqrt a b => do
      require (valid = true) .invalidCLMMOracle
      let c ← clmmPrice inv sqrt a b
      let q ← quoteState i a b
      let price ← Fx.mul c q.price
      .ok { price := price, deviation := q.deviation, slot := q.slot, time := none }
  | .unknown => .error .unknownOracleType

/-- the oracle fields of a bank -/
structure BankO where
  oracle : Nat
  fallback : Nat
  decimals : Int
  cfg : Cfg
  deriving DecidableEq, Repr

/-- error.rs:174-182 `is_oracle_error` -/
def isOracleError : Res Unit → Bool
  | .error .oracleConfidence => true
  | .error .oracleStale => true
  | _ => false

/-- bank.rs:1190-1220 `oracle_price` -/
def bankPrice (inv : Nat → Res I80F48) (b : BankO) (i : Infos) (now : Option (Int × Int)) : Res I80F48 := do
  require (b.oracle = i.oracle.key) .requireFailed
  let st ← stateOf inv i i.oracle b.decimals
  let ok := check st b.cfg now
  match i.fallback with
  | some f =>
    if isOracleError ok then do
      require (b.fallback = f.key) .requireFailed
      let fs ← stateOf inv i f b.decimals
      let _ ← check fs b.cfg now
      .ok fs.price
    else do
      let _ ← ok
      .ok st.price
  | none => do
      let _ ← ok
      .ok st.price

/-- perp_market.rs:285-296 `oracle_state` (277-283 `oracle_price` returns its price); `oracle` and `decimals` are the market's -/
def perpState (inv : Nat → Res I80F48) (oracle : Nat) (decimals : Int) (c : Cfg) (i : Infos) (now : Option (Int × Int)) : Res OState := do
  require (oracle = i.oracle.key) .requireFailed
  let st ← stateOf inv i i.oracle decimals
  let _ ← check st c now
  .ok st

end Oracle
end Mango
