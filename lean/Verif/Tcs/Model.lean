import Verif.Bank.System
import Verif.Account.HealthCheck
import Mathlib.Algebra.Order.Field.Rat
import Mathlib.Data.Rat.Floor
/-!
# Token conditional swaps

Models state/token_conditional_swap.rs and the instructions token_conditional_swap_{create,start,trigger,cancel}.rs.

f64 values are rationals; every f64 operation is the exact operation followed by a rounding function `rnd`. Infinities and
NaN are errors here: in the code they make the conversion to I80F48 panic.
-/
namespace Mango.Swap
open Bank

/-- token_conditional_swap.rs:36-43 `TokenConditionalSwapType` -/
inductive Kind where
  | fixedPremium | premiumAuction | linearAuction
  deriving DecidableEq, Repr

/-- token_conditional_swap.rs:45-146 `TokenConditionalSwap`; display-only fields are omitted. -/
structure Tcs where
  configured : Bool := true
  kind : Kind
  maxBuy : Int            -- u64
  maxSell : Int           -- u64
  bought : Int := 0       -- u64
  sold : Int := 0         -- u64
  expiry : Int            -- u64
  lower : ℚ
  upper : ℚ
  premiumRate : ℚ
  takerFeeRate : ℚ        -- f32
  makerFeeRate : ℚ        -- f32
  allowDeposits : Bool
  allowBorrows : Bool
  start : Int             -- u64
  duration : Int          -- u64
  deriving DecidableEq, Repr

/-- Round half to even. -/
def roundEven (x : ℚ) : Int :=
  if x + 1 / 2 = (⌊x + 1 / 2⌋ : ℚ) ∧ ⌊x + 1 / 2⌋ % 2 = 1 then ⌊x + 1 / 2⌋ - 1 else ⌊x + 1 / 2⌋

/-- `I80F48::from_num` of a float: nearest, ties to even; panics on overflow. -/
def toFx (x : ℚ) : Res I80F48 := Fx.ck (roundEven (x * S))

/-- `to_num::<f64>()` -/
def toF (rnd : ℚ → ℚ) (x : I80F48) : ℚ := rnd ((x : ℚ) / S)

/-- `f as u64`: truncation, saturating at both ends. -/
def castU64 (x : ℚ) : Int := if x ≤ 0 then 0 else min ⌊x⌋ U64MAX

namespace Tcs

/-- token_conditional_swap.rs:201-203 -/
def isExpired (t : Tcs) (now : Int) : Prop := now ≥ t.expiry
instance (t : Tcs) (now : Int) : Decidable (t.isExpired now) := by unfold isExpired; infer_instance

/-- token_conditional_swap.rs:205-207 -/
def passedStart (t : Tcs) (now : Int) : Prop := t.start > 0 ∧ now ≥ t.start
instance (t : Tcs) (now : Int) : Decidable (t.passedStart now) := by unfold passedStart; infer_instance

/-- token_conditional_swap.rs:223-229 `remaining_buy`, `remaining_sell`: u64 subtraction -/
def remainingBuy (t : Tcs) : Res Int := cku64 (t.maxBuy - t.bought)
def remainingSell (t : Tcs) : Res Int := cku64 (t.maxSell - t.sold)

/-- token_conditional_swap.rs:231-237 -/
def startOrNow (t : Tcs) (now : Int) : Int := if t.start > 0 then t.start else now

/-- token_conditional_swap.rs:239-274 `premium_price`. A duration of zero (excluded at creation) makes the progress
0/0 or x/0, both of which `min(1.0)` turns into 1. -/
def premiumPrice (rnd : ℚ → ℚ) (t : Tcs) (base : ℚ) (now : Int) : Res ℚ :=
  match t.kind with
  | .fixedPremium => .ok (rnd (base * rnd (1 + t.premiumRate)))
  | .premiumAuction => do
      require (t.startOrNow now ≤ now) .panic
      let progress := if t.duration = 0 then 1 else min (rnd (rnd (now - t.startOrNow now : Int) / rnd t.duration)) 1
      .ok (rnd (base * rnd (1 + rnd (progress * t.premiumRate))))
  | .linearAuction => do
      require (t.passedStart now) .panic
      if now - t.start < t.duration then
        let progress := rnd (rnd (now - t.start : Int) / rnd t.duration)
        .ok (rnd (t.lower + rnd (progress * rnd (t.upper - t.lower))))
      else .ok t.upper

/-- token_conditional_swap.rs:276-279 -/
def makerPrice (rnd : ℚ → ℚ) (t : Tcs) (premium : ℚ) : ℚ := rnd (premium * rnd (1 + t.makerFeeRate))
/-- token_conditional_swap.rs:281-284 -/
def takerPrice (rnd : ℚ → ℚ) (t : Tcs) (premium : ℚ) : ℚ := rnd (premium * rnd (1 - t.takerFeeRate))

/-- token_conditional_swap.rs:292-296 `taker_fee` (`maker_fee`, 286-290, is not used by the program) -/
def takerFee (t : Tcs) (amount : I80F48) : Res Int := do
  let r ← toFx t.takerFeeRate
  let f ← Fx.mul amount r
  let f ← Fx.floor f
  cku64 (Fx.toInt f)

/-- token_conditional_swap.rs:298-300 -/
def priceInRange (t : Tcs) (price : ℚ) : Prop := t.lower ≤ price ∧ price ≤ t.upper
instance (t : Tcs) (price : ℚ) : Decidable (t.priceInRange price) := by unfold priceInRange; infer_instance

/-- token_conditional_swap.rs:303-321 -/
def checkStartable (t : Tcs) (price : ℚ) (now : Int) : Res Unit := do
  require (¬ t.isExpired now) .tcsExpired
  require (t.start = 0) .tcsAlreadyStarted
  require (t.kind = .premiumAuction) .tcsTypeNotStartable
  require (t.priceInRange price) .tcsPriceNotInRange

/-- token_conditional_swap.rs:327-347 -/
def checkTriggerable (t : Tcs) (price : ℚ) (now : Int) : Res Unit := do
  require (¬ t.isExpired now) .tcsExpired
  match t.kind with
  | .fixedPremium => require (t.priceInRange price) .tcsPriceNotInRange
  | _ => require (t.passedStart now) .tcsNotStarted

/-- token_conditional_swap.rs:357-366 `max_buy_for_position` -/
def maxBuyForPosition (t : Tcs) (pos : I80F48) (b : Bank) : Res Int := do
  let r ← t.remainingBuy
  let m ← (if t.allowDeposits = true ∧ b.areDepositsReduceOnly = false then .ok U64MAX else do
    let n ← Fx.neg pos
    let c ← Fx.ceil n
    .ok (Fx.clampToU64 c))
  .ok (min r m)

/-- token_conditional_swap.rs:372-381 `max_sell_for_position` -/
def maxSellForPosition (t : Tcs) (pos : I80F48) (b : Bank) : Res Int := do
  let r ← t.remainingSell
  let m ← (if t.allowBorrows = true ∧ b.areBorrowsReduceOnly = false then .ok U64MAX else do
    let f ← Fx.floor pos
    .ok (Fx.clampToU64 f))
  .ok (min r m)

end Tcs

/-- token_conditional_swap_trigger.rs:171-201 `trade_amount_inner` -/
def tradeAmountInner (maxBuy maxSell : Int) (price : I80F48) : Res (Int × Int) := do
  let buyForSell ← (if price > Fx.ONE then do
      let x ← Fx.add (Fx.ofInt maxSell) Fx.ONE
      let x ← Fx.sub x Fx.DELTA
      let q ← Fx.div x price
      let q ← Fx.floor q
      cku64 (Fx.toInt q)
    else do
      let x ← Fx.mul (Fx.ofInt maxBuy) price
      let x ← Fx.floor x
      let q ← Fx.div (min x (Fx.ofInt maxSell)) price
      let q ← Fx.ceil q
      cku64 (Fx.toInt q))
  let buy := min maxBuy buyForSell
  let s ← Fx.mul (Fx.ofInt buy) price
  let s ← Fx.floor s
  let sellForBuy ← cku64 (Fx.toInt s)
  let sell := min maxSell sellForBuy
  require (buy > 0 ↔ sell > 0) .panic
  .ok (buy, sell)

/-- token_conditional_swap_trigger.rs:138-169 `trade_amount` -/
def tradeAmount (t : Tcs) (price : I80F48) (maxBuyToLiqee maxSellToLiqor : Int)
    (liqeeBuy liqeeSell liqorBuy liqorSell : I80F48) (buyBank sellBank : Bank) : Res (Int × Int) := do
  let mb ← t.maxBuyForPosition liqeeBuy buyBank
  let rb ← (if buyBank.areBorrowsReduceOnly = true then do
      let f ← Fx.floor liqorBuy
      .ok (Fx.clampToU64 f)
    else .ok U64MAX)
  let ms ← t.maxSellForPosition liqeeSell sellBank
  let rs ← (if sellBank.areDepositsReduceOnly = true then do
      let n ← Fx.neg liqorSell
      let c ← Fx.ceil n
      .ok (Fx.clampToU64 c)
    else .ok U64MAX)
  tradeAmountInner (min (min maxBuyToLiqee mb) rb) (min (min maxSellToLiqor ms) rs) price

/-- The two banks, the swap, and the positions of the swap's owner (liqee) and of the triggerer (liqor) in the two tokens. -/
structure State where
  tcs : Tcs
  buyBank : Bank
  sellBank : Bank
  liqeeBuy : TokenPosition
  liqeeSell : TokenPosition
  liqorBuy : TokenPosition
  liqorSell : TokenPosition
  liqeeFlag : Account.Liq := ⟨false⟩
  deriving DecidableEq, Repr

/-- What comes from outside: time, oracle prices, f64 rounding, and the liqee's init health as a function of the changes of
its buy and sell token balances (`adjust_token_balance` on the health cache), its liquidation end health, and the liqor's
init health at the end. -/
structure Env where
  now : Int
  rnd : ℚ → ℚ
  buyPrice : I80F48
  sellPrice : I80F48
  health : I80F48 → I80F48 → Res I80F48
  liqEnd : Res I80F48
  liqorHealth : Res I80F48

/-- The oracle price in sell token per buy token (token_conditional_swap_trigger.rs:222-223). -/
def Env.price (e : Env) : Res ℚ :=
  if toF e.rnd e.sellPrice = 0 then .error .panic else .ok (e.rnd (toF e.rnd e.buyPrice / toF e.rnd e.sellPrice))

/-- What a trigger did; the first four components are logged (486-503). -/
structure Trade where
  buy : Int
  sell : Int
  makerFee : Int
  takerFee : Int
  closed : Bool
  deriving DecidableEq, Repr

/-- token_conditional_swap_trigger.rs:250-286: the amounts of a trade -/
def amounts (s : State) (premium : ℚ) (maker : I80F48) (maxBuyToLiqee maxSellToLiqor : Int) : Res Trade := do
  let nb ← s.liqeeBuy.native s.buyBank
  let ns ← s.liqeeSell.native s.sellBank
  let ob ← s.liqorBuy.native s.buyBank
  let os ← s.liqorSell.native s.sellBank
  let (buy, sell) ← tradeAmount s.tcs maker maxBuyToLiqee maxSellToLiqor nb ns ob os s.buyBank s.sellBank
  let p ← toFx premium
  let x ← Fx.mul (Fx.ofInt buy) p
  let x ← Fx.floor x
  let base ← cku64 (Fx.toInt x)
  let makerFee ← cku64 (sell - base)
  let takerFee ← s.tcs.takerFee x
  let _ ← cku64 (base - takerFee)
  .ok ⟨buy, sell, makerFee, takerFee, false⟩

/-- token_conditional_swap_trigger.rs:288-327: the two transfers and the collected fees -/
def exchange (s : State) (t : Trade) (now : Int) (buyPrice sellPrice : I80F48) : Res State := do
  let (bb, ob, eb, _) ← s.buyBank.checkedTransferWithFee s.liqorBuy (Fx.ofInt t.buy) s.liqeeBuy (Fx.ofInt t.buy) now buyPrice
  let (sb, es, os, _) ← s.sellBank.checkedTransferWithFee s.liqeeSell (Fx.ofInt t.sell) s.liqorSell
    (Fx.ofInt (t.sell - t.makerFee - t.takerFee)) now sellPrice
  let fees ← cku64 (t.makerFee + t.takerFee)
  let cf ← Fx.add sb.collectedFeesNative (Fx.ofInt fees)
  .ok { s with buyBank := bb, sellBank := { sb with collectedFeesNative := cf },
               liqeeBuy := eb, liqorBuy := ob, liqeeSell := es, liqorSell := os }

/-- token_conditional_swap_trigger.rs:447-466: is the remaining trade too small? -/
def maxTradeReached (rnd : ℚ → ℚ) (maker : ℚ) (futureBuy futureSell : Int) : Res Bool :=
  if maker > 1 then do
    let m ← cku64 (2 * castU64 maker)
    .ok (decide (futureSell < m))
  else do
    let m ← cku64 (2 * castU64 (rnd (1 / maker)))
    .ok (decide (futureBuy < m))

/-- token_conditional_swap_trigger.rs:413-479: record the amounts, decide whether the swap is done -/
def record (e : Env) (s : State) (t : Trade) (maker : ℚ) (makerFx preHealth postHealth : I80F48) : Res (Tcs × Bool) := do
  let bought ← cku64 (s.tcs.bought + t.buy)
  let sold ← cku64 (s.tcs.sold + t.sell)
  require (bought ≤ s.tcs.maxBuy) .panic
  require (sold ≤ s.tcs.maxSell) .panic
  let tcs := { s.tcs with bought := bought, sold := sold }
  let tcs := if tcs.passedStart e.now then tcs else { tcs with start := e.now }
  let nb ← s.liqeeBuy.native s.buyBank
  let ns ← s.liqeeSell.native s.sellBank
  let (fb, fs) ← tradeAmount tcs makerFx U64MAX U64MAX nb ns Fx.MAX Fx.MIN s.buyBank s.sellBank
  let reached ← maxTradeReached e.rnd maker fb fs
  let low := decide (postHealth < preHealth ∧ postHealth < Fx.ofInt 1000000)
  .ok (tcs, decide (fb = 0) || decide (fs = 0) || low || reached)

/-- token_conditional_swap_trigger.rs:203-508 `action` with the checks around it (24-131), for a swap that has not expired.
When the swap is done its slot is cleared (`configured := false`); releasing and closing the token positions of the slot (481-485)
and closing the liqor's positions (333-339) is in Account/Slots. -/
def trigger (e : Env) (s : State) (maxBuyToLiqee maxSellToLiqor minBuy : Int) (minTakerPrice : ℚ) : Res (State × Trade) := do
  require (s.tcs.configured = true) .tcsNotSet
  require (¬ s.tcs.isExpired e.now) .tcsExpired
  let pre ← e.health 0 0
  let flag ← s.liqeeFlag.checkPre pre e.liqEnd
  let price ← e.price
  s.tcs.checkTriggerable price e.now
  let premium ← s.tcs.premiumPrice e.rnd price e.now
  let maker := s.tcs.makerPrice e.rnd premium
  let makerFx ← toFx maker
  require (minTakerPrice ≤ s.tcs.takerPrice e.rnd premium) .tcsTakerPriceTooLow
  let preSell ← s.liqeeSell.native s.sellBank
  let t ← amounts s premium makerFx maxBuyToLiqee maxSellToLiqor
  let s1 ← exchange s t e.now e.buyPrice e.sellPrice
  let postSell ← s1.liqeeSell.native s1.sellBank
  let sellChange ← Fx.sub postSell preSell
  let post ← e.health (Fx.ofInt t.buy) sellChange
  Account.checkPost pre post
  let (tcs, closed) ← record e s1 t maker makerFx pre post
  require (t.buy ≥ minBuy) .tcsMinTake
  let lh ← e.liqorHealth
  require (lh ≥ 0) .healthMustBePositive
  .ok ({ s1 with tcs := { tcs with configured := !closed }, liqeeFlag := flag }, { t with closed := closed })

/-- token_conditional_swap_start.rs:64-77: the incentive for starting, in I80F48 bits -/
def incentive (t : Tcs) (sellBank : Bank) (sellPrice : I80F48) : Res I80F48 := do
  let q ← Fx.div (Fx.ofInt 1000) sellPrice
  let r ← t.remainingSell
  let d ← sellBank.remainingDepositsUntilLimit
  .ok (max (min (min q (Fx.ofInt r)) d) 0)

/-- token_conditional_swap_start.rs:11-139. Returns the incentive paid. -/
def start (e : Env) (s : State) : Res (State × I80F48) := do
  require (s.liqeeFlag.being = false) .beingLiquidated
  require (s.tcs.configured = true) .tcsNotSet
  require (s.tcs.kind = .premiumAuction) .tcsTypeNotStartable
  let pre ← e.health 0 0
  let flag ← s.liqeeFlag.checkPre pre e.liqEnd
  let price ← e.price
  s.tcs.checkStartable price e.now
  let inc ← incentive s.tcs s.sellBank e.sellPrice
  let preSell ← s.liqeeSell.native s.sellBank
  let (sb, es, os, _) ← s.sellBank.checkedTransferWithFee s.liqeeSell inc s.liqorSell inc e.now e.sellPrice
  let postSell ← es.native sb
  require (postSell < 0 → s.tcs.allowBorrows = true) .tcsCantPayIncentive
  let change ← Fx.sub postSell preSell
  let tcs := { s.tcs with start := e.now }
  require (tcs.passedStart e.now) .panic
  let sold ← cku64 (tcs.sold + Fx.clampToU64 inc)
  require (sold ≤ tcs.maxSell) .panic
  let post ← e.health 0 change
  Account.checkPost pre post
  .ok ({ s with tcs := { tcs with sold := sold }, sellBank := sb, liqeeSell := es, liqorSell := os, liqeeFlag := flag }, inc)

/-- token_conditional_swap_create.rs:8-83: the stored swap. `arg` are the user's parameters (lib.rs:1416-1586), the fee rates are the
larger ones of the two banks. `none`: already expired, nothing is created. -/
def create (arg : Tcs) (makerRate takerRate : ℚ) (now : Int) : Res (Option Tcs) :=
  if arg.isExpired now then .ok none else do
    let t := { arg with configured := true, bought := 0, sold := 0, takerFeeRate := takerRate, makerFeeRate := makerRate }
    require (t.premiumRate ≥ 0) .requireFailed
    require (t.makerFeeRate ≥ 0) .requireFailed
    require (t.takerFeeRate ≥ 0) .requireFailed
    require (t.lower ≥ 0) .requireFailed
    require (t.upper ≥ 0) .requireFailed
    .ok (some t)

/-- lib.rs:1416-1586: the three ways to create a swap fix the type and the start time, and auctions have a positive duration. -/
def CreateArgs (arg : Tcs) : Prop :=
  0 ≤ arg.maxBuy ∧ arg.maxBuy ≤ U64MAX ∧ 0 ≤ arg.maxSell ∧ arg.maxSell ≤ U64MAX ∧ 0 ≤ arg.start ∧
  match arg.kind with
  | .fixedPremium => arg.start = 0
  | .premiumAuction => arg.start = 0 ∧ 1 ≤ arg.duration
  | .linearAuction => 1 ≤ arg.duration

end Mango.Swap
