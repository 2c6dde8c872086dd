import Verif.Tcs.Model
import Verif.Client.Search
/-!
# How the liquidator selects and sizes conditional swaps

Models bin/liquidator/src/trigger_tcs.rs: `tcs_has_plausible_price` (379-406), `tcs_pair_is_allowed` (408-437), `tcs_is_interesting` (439-455), `tcs_max_volume` (457-475),
`tcs_max_liqee_execution` (477-632), `find_interesting_tcs_for_account` (634-663) and the sizing in `prepare_token_conditional_swap_inner2` (740-984).
The result of the health search (`util::max_swap_source_ignoring_limits`, 517-527; the search is modelled in `Verif.Client.Model`) and the positions are inputs. f64 and f32 values are rationals, the rounding of each
operation is an arbitrary function `rnd`. Not modelled: fetching accounts again, building and sending the transaction.
-/
namespace Mango
namespace Trigger
open Fx Swap

/-- 36-57 `Mode` -/
inductive Mode where
  | borrowBuy
  | swapSell
  | swapCollateral
  deriving DecidableEq, Repr

/-- 59-83 `Config`, the parts used here -/
structure Cfg where
  mode : Mode := .borrowBuy
  collateral : Nat := 0
  maxTrigger : Int := 0
  profitFraction : ℚ := 0
  minBuyFraction : ℚ := 0
  onlyTokens : List Nat := []
  forbiddenTokens : List Nat := []

/-- 408-437 `tcs_pair_is_allowed` -/
def pairAllowed (c : Cfg) (buy sell : Nat) : Bool :=
  if buy ∈ c.forbiddenTokens then false
  else if sell ∈ c.forbiddenTokens then false
  else if c.onlyTokens = [] then true
  else if buy ∈ c.onlyTokens then true
  else if sell ∈ c.onlyTokens then true
  else false

/-- 379-406 `tcs_has_plausible_price`; `buyCost`, `sellCost` are `buy_over_oracle` and `sell_over_oracle` of the two tokens, absent if there is no swap info -/
def plausible (rnd : ℚ → ℚ) (c : Cfg) (t : Tcs) (base : ℚ) (now : Int) (buyCost sellCost : Option ℚ) : Res Bool := do
  let premium ← t.premiumPrice rnd base now
  let taker := t.takerPrice rnd premium
  if taker < base then .ok false
  else
    match buyCost, sellCost with
    | some bc, some sc => .ok (decide (taker ≥ rnd (rnd (base * rnd (bc * sc)) * rnd (1 + c.profitFraction))))
    | _, _ => .error .someError

/-- 439-455 `tcs_is_interesting`; `buyTok`, `sellTok` are the swap's token indexes. (The code passes the buy token twice.) -/
def interesting (rnd : ℚ → ℚ) (c : Cfg) (t : Tcs) (buyTok _sellTok : Nat) (base : ℚ) (now : Int) (buyCost sellCost : Option ℚ) : Res Bool :=
  if t.isExpired now then .ok true
  else if pairAllowed c buyTok buyTok = false then .ok false
  else
    match t.checkTriggerable base now with
    | .error _ => .ok false
    | .ok _ => plausible rnd c t base now buyCost sellCost

/-- 564-568 `available_borrows` -/
def availableBorrows (b : Bank) (price : I80F48) : Res Int := do
  let r ← b.remainingNetBorrowsQuote price
  let q ← Client.satDiv r price
  .ok (Fx.clampToU64 q)

/-- `.ceil().clamp_to_u64()` -/
def ceilU64 (x : I80F48) : Res Int := do
  let c ← Fx.ceil x
  .ok (Fx.clampToU64 c)

/-- what the sizing looks at: the banks, oracle prices and the owner's positions of the bought and the sold token -/
structure View where
  buyTok : Nat
  sellTok : Nat
  buyBank : Bank
  sellBank : Bank
  buyPrice : I80F48
  sellPrice : I80F48
  buyPos : I80F48
  sellPos : I80F48

/-- `max − (need − need.min(available))` on u64 values -/
def reduce (m need available : Int) : Res Int := do
  let over ← cku64 (need - min need available)
  cku64 (m - over)

/-- 34, 622-623: one dollar's worth of a token -/
def threshold (price : I80F48) : Res I80F48 := Fx.div (Fx.ofInt 1000000) price

/-- 548-560: buy tokens that the liquidator borrows -/
def liqorBorrows (c : Cfg) (v : View) (maxBuy : Int) : Int :=
  match c.mode with
  | .borrowBuy => if v.buyTok = c.collateral then 0 else maxBuy
  | .swapCollateral => 0
  | .swapSell => 0

/-- 532-632, the part of `tcs_max_liqee_execution` that applies the limits to the amounts `maxSell0`, `maxBuy0` that ignore them -/
def limited (c : Cfg) (v : View) (maxBuy0 maxSell0 : Int) : Res (Option (Int × Int)) := do
  let lb := liqorBorrows c v maxBuy0
  -- 562-590: net borrow limits
  let availBuyBorrows ← availableBorrows v.buyBank v.buyPrice
  let availSellBorrows ← availableBorrows v.sellBank v.sellPrice
  let sb ← Fx.sub (Fx.ofInt maxSell0) (max v.sellPos 0)
  let sellBorrows ← ceilU64 sb
  let bb ← Fx.add (Fx.ofInt lb) (min v.buyPos 0)
  let buyBorrows ← ceilU64 bb
  let maxSell1 ← reduce maxSell0 sellBorrows availSellBorrows
  let maxBuy1 ← reduce maxBuy0 buyBorrows availBuyBorrows
  let lb1 := min lb maxBuy1
  -- 592-619: deposit limits
  let rb ← v.buyBank.remainingDepositsUntilLimit
  let rs ← v.sellBank.remainingDepositsUntilLimit
  let bd ← Fx.add (Fx.ofInt maxBuy1) (min v.buyPos 0)
  let liqeeBuyDeposits ← ceilU64 bd
  let buyDeposits := min liqeeBuyDeposits lb1
  let sd ← Fx.sub (Fx.ofInt maxSell1) (max v.sellPos 0)
  let sellDeposits ← ceilU64 sd
  let maxSell ← reduce maxSell1 sellDeposits (Fx.clampToU64 rs)
  let maxBuy ← reduce maxBuy1 buyDeposits (Fx.clampToU64 rb)
  -- 621-631: too little because of the limits?
  let bt ← threshold v.buyPrice
  let st ← threshold v.sellPrice
  if (maxBuy * S < bt ∧ maxBuy0 * S > bt) ∨ (maxSell * S < st ∧ maxSell0 * S > st) then .ok none
  else .ok (some (maxBuy, maxSell))

/-- 497-632 `tcs_max_liqee_execution`; `search` is the result of `max_swap_source_ignoring_limits` -/
def maxLiqeeExecution (c : Cfg) (t : Tcs) (v : View) (search : I80F48) : Res (Option (Int × Int)) := do
  let f ← Fx.floor search
  let m ← cku64 (Fx.toInt f)
  let ms ← t.maxSellForPosition v.sellPos v.sellBank
  let mb ← t.maxBuyForPosition v.buyPos v.buyBank
  limited c v mb (min m ms)

/-- 969-971, 457-475: the lower of the two amounts' values -/
def quoteVolume (v : View) (buy sell : Int) : Res I80F48 := do
  let b ← Fx.mul (Fx.ofInt buy) v.buyPrice
  let s ← Fx.mul (Fx.ofInt sell) v.sellPrice
  .ok (min b s)

/-- 457-475 `tcs_max_volume` -/
def maxVolume (c : Cfg) (t : Tcs) (v : View) (search : I80F48) : Res (Option Int) := do
  match ← maxLiqeeExecution c t v search with
  | none => .ok none
  | some (buy, sell) => do
    let q ← quoteVolume v buy sell
    let f ← Fx.floor q
    .ok (some (Fx.clampToU64 f))

/-- 634-663 `find_interesting_tcs_for_account` for one of the account's swaps: nothing, an error, or its volume -/
def listed (rnd : ℚ → ℚ) (c : Cfg) (t : Tcs) (v : View) (base : ℚ) (now : Int) (buyCost sellCost : Option ℚ) (search : I80F48) : Res (Option Int) := do
  if ← interesting rnd c t v.buyTok v.sellTok base now buyCost sellCost then maxVolume c t v search
  else .ok none

/-- 776-797: falls back on swapping collateral if the sell token cannot be borrowed -/
def effectiveMode (c : Cfg) (v : View) (liqeeBuy liqeeSell : Int) : Res Mode :=
  match c.mode with
  | .swapSell => do
    let available ← v.sellBank.remainingNetBorrowsQuote v.sellPrice
    let q ← quoteVolume v liqeeBuy liqeeSell
    let needed := min q (Fx.ofInt c.maxTrigger)
    if v.sellBank.areBorrowsReduceOnly = true ∨ needed > available then .ok .swapCollateral else .ok .swapSell
  | m => .ok m

/-- 337-348 `PreparedExecution` -/
structure Prepared where
  mode : Mode
  volume : Int
  maxBuy : Int
  maxSell : Int
  minBuy : Int
  minTakerPrice : ℚ
  deriving DecidableEq, Repr

/-- the answer of the quote cache, 85-88: an acceptable price, or one above the given maximum -/
inductive Quote where
  | quote (price : ℚ)
  | bad (price : ℚ)

/-- 740-984 `prepare_token_conditional_swap_inner2`. `avail m`: buy tokens that the liquidator can provide in mode `m` (806-851); `taker`: the taker price; `ask m a p`: the quotes of mode `m` for the sold amount `a` and
maximum price `p` (876-950); `rnd32` rounds to f32. -/
def prepare (rnd rnd32 : ℚ → ℚ) (c : Cfg) (v : View) (exec : Option (Int × Int)) (taker : I80F48)
    (avail : Mode → Res I80F48) (ask : Mode → I80F48 → ℚ → Res Quote) : Res (Option Prepared) := do
  match exec with
  | none => .ok none
  | some (liqeeBuy, liqeeSell) => do
    let mode ← effectiveMode c v liqeeBuy liqeeSell
    let a ← avail mode
    let mt ← Fx.div (Fx.ofInt c.maxTrigger) v.buyPrice
    let maxBuy := min (Fx.clampToU64 (min a mt)) liqeeBuy
    if liqeeSell = 0 ∨ maxBuy = 0 then .ok none
    else do
      let volume ← quoteVolume v maxBuy liqeeSell
      let limit := rnd (toF rnd taker / rnd (1 + c.profitFraction))
      let amount ← Fx.div volume v.sellPrice
      match ← ask mode amount limit with
      | .bad _ => .ok none
      | .quote price => do
        let minTaker := rnd32 (rnd (price * rnd (1 + c.profitFraction)))
        if rnd32 ((taker : ℚ) / S) < minTaker then .ok none
        else do
          let b ← Fx.div volume v.buyPrice
          .ok (some ⟨mode, Fx.clampToU64 volume, maxBuy, liqeeSell, castU64 (rnd (toF rnd b * c.minBuyFraction)), minTaker⟩)

end Trigger
end Mango
