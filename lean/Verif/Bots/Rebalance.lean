import Verif.Perp.Types
import Verif.Tcs.Model
import Verif.Account.Slots
import Mathlib.Data.List.Sort
/-!
# The liquidator's rebalancer

Models bin/liquidator/src/rebalance.rs: what is decided for a perp position (`rebalance_perp`), for a token balance (`unwind_using_swap`, `unwind_using_limit_orders`, the withdrawal), which swap route is taken
(`determine_best_swap_tx`), and closing and settling spot open orders accounts. Line numbers refer to that file. Not modelled: requests for quotes, building and sending the transactions, the sequence check, timestamps.
-/
namespace Mango
namespace Rebalance
open Fx Book

/-! ## Perp positions -/

/-- what is sent for a perp position: an IOC reduce-only order, a pnl settlement (with the bot's account as the profitable one or not) with a counterparty, closing the position, or nothing -/
inductive PerpAct where
  | reduce (side : Side) (price lots : Int)
  | settle (selfProfits : Bool) (counterparty : Nat)
  | deactivate
  | nothing
  deriving DecidableEq, Repr

/-- 888-900: side, limit price, lots of the bot's own open orders on that side -/
def orderOf (liqFee oracle : I80F48) (p : Perp.Pos) (eff : Int) : Res (Side × I80F48 × Int) :=
  if eff > 0 then do
    let f ← Fx.sub ONE liqFee
    let x ← Fx.mul oracle f
    .ok (.ask, x, p.asks)
  else do
    let f ← Fx.add ONE liqFee
    let x ← Fx.mul oracle f
    .ok (.bid, x, p.bids)

/-- 866-1028 `rebalance_perp`. `book sd`: the side `sd` of the market's order book; `top maxNegative`: the counterparties `fetch_top` finds (C88), largest first; `now`: seconds -/
def perpAct (m : Perp.Market) (liqFee oracle : I80F48) (p : Perp.Pos) (book : Side → BookSide) (now : Nat) (top : Bool → Res (List Nat)) : Res PerpAct := do
  let eff ← ck64 (p.base + p.takerBase)
  if eff ≠ 0 then do
    let oracleLots ← m.nativePriceToLot oracle
    let (side, orderPrice, oo) ← orderOf liqFee oracle p eff
    let price ← m.nativePriceToLot orderPrice
    let a ← Perp.abs64 eff
    let lots ← ck64 (a - oo)
    if lots ≤ 0 then .ok .nothing
    else do
      let q ← (book side.invert).quantityAtPrice price now oracleLots
      if q ≤ 0 then .ok .nothing else .ok (.reduce side price lots)
  else if p.base = 0 ∧ p.quote ≠ 0 then do
    let cs ← top (decide (p.quote > 0))
    match cs with
    | [] => .ok .nothing
    | c :: _ => .ok (.settle (decide (p.quote > 0)) c)
  else if p.base = 0 ∧ p.quote = 0 then .ok .deactivate
  else .ok .nothing

/-! ## Token balances -/

/-- 832: `I80F48::from_num(0.99)` -/
def C099 : I80F48 := 278660226943549

/-- 493: two quote units' worth of the token -/
def dustSwap (price : I80F48) : Res I80F48 := Fx.div (ofInt 2) price

/-- 804-808: the amount of quote tokens to spend when buying back a borrow -/
def buyInput (amount price dust excess : I80F48) : Res Int := do
  let a ← Fx.abs amount
  let c ← Fx.ceil a
  let d ← Fx.sub dust ONE
  let b ← Fx.add c (max d 0)
  let x ← Fx.mul b price
  let y ← Fx.mul x excess
  Perp.toU64 y

/-- 831-835: the amount to sell -/
def sellInput (amount : I80F48) : Res Int := do
  let x ← Fx.mul amount C099
  Perp.toU64 x

/-- what is done for a token -/
inductive TokenAct where
  | buy (quoteIn : Int)
  | sell (tokenIn : Int)
  | limit (bid : Bool) (price lots maxQuote : Int)
  | withdrawAll
  deriving DecidableEq, Repr

/-- 792-853 `unwind_using_swap`: the swap, and the balance the caller goes on with. `fresh`: the balance read again after the transaction; `none`: the account could not be refreshed, so the old one is used -/
def unwindSwap (amount price dust excess : I80F48) (fresh : Option I80F48) : Res (List TokenAct × I80F48) :=
  if amount < 0 then do
    let n ← buyInput amount price dust excess
    .ok ([.buy n], fresh.getD amount)
  else if amount > dust then do
    let n ← sellInput amount
    .ok ([.sell n], fresh.getD amount)
  else .ok ([], fresh.getD amount)

/-- 684: `((..) as f64 * 1.01) as u64` -/
def margin (rnd : ℚ → ℚ) (q : Int) : Int := min (max ⌊rnd (rnd q * rnd (101 / 100))⌋ 0) U64MAX

/-- 590-720 `unwind_using_limit_orders`: `dist`: `limit_order_distance_from_oracle_price_bps`, lot sizes of the token's market against USDC (`none`: there is none) -/
def limitOrder (rnd : ℚ → ℚ) (dist : Int) (market : Option (Int × Int)) (amount price dust : I80F48) : Res (List TokenAct) :=
  if 0 ≤ amount ∧ amount < dust then .ok []
  else
    match market with
    | none => .error .someError
    | some (coinLot, pcLot) => do
      let bid := decide (amount < 0)
      let d ← Fx.mulInt (ofInt dist) (if bid then 1 else -1)
      let s ← Fx.add (ofInt 10000) d
      let f ← Fx.div s (ofInt 10000)
      let x ← Fx.mul price f
      let y ← Fx.mul x (ofInt coinLot)
      let n ← Perp.toU64 y
      require (pcLot ≠ 0) .panic
      let limit := n / pcLot
      let a ← Fx.abs amount
      let b ← Fx.div a (ofInt coinLot)
      let l ← Perp.toU64 b
      let lots := if l = 0 ∧ amount < 0 then 1 else l
      if lots = 0 then .ok []
      else do
        let q ← cku64 (limit * lots)
        let q ← cku64 (q * pcLot)
        .ok [.limit bid limit lots (margin rnd q)]

/-- the parts of `Config` used here -/
structure Cfg where
  useLimit : Bool
  allowWithdraws : Bool
  excess : I80F48
  dist : Int
  skip : List Nat

/-- a token position of the bot and what is read for it: oracle price, lot sizes of its market against USDC, balance, balance after a swap (`none`: not refreshed) -/
structure Tok where
  index : Nat
  inUse : Bool
  price : I80F48
  market : Option (Int × Int)
  amount : I80F48
  fresh : Option I80F48

/-- 466-567: the loop body for one token; an error of the dust threshold skips the token -/
def tokenActs (rnd : ℚ → ℚ) (c : Cfg) (quote : Nat) (t : Tok) : Res (List TokenAct) :=
  if t.index = quote ∨ t.index ∈ c.skip then .ok []
  else if c.useLimit then
    match t.market with
    | none => .ok []
    | some (coinLot, _) => do
      let dl ← cku64 (coinLot - 1)
      let acts ← limitOrder rnd c.dist t.market t.amount t.price (ofInt dl)
      .ok (acts ++ (if t.amount > 0 ∧ t.amount ≤ ofInt dl ∧ t.inUse = false ∧ c.allowWithdraws = true then [.withdrawAll] else []))
  else do
    let dust ← dustSwap t.price
    let (acts, amount) ← unwindSwap t.amount t.price dust c.excess t.fresh
    .ok (acts ++ (if amount > 0 ∧ amount ≤ dust ∧ t.inUse = false ∧ c.allowWithdraws = true then [.withdrawAll] else []))

/-! ## Swap routes -/

/-- a quote: amounts, the oracle prices of its tokens -/
structure Route where
  id : Nat
  inAmount : Int
  outAmount : Int
  inPrice : I80F48
  outPrice : I80F48
  deriving DecidableEq, Repr

/-- 396-401: what the swap gains at oracle prices -/
def Route.gain (r : Route) : Res I80F48 := do
  let a ← Fx.mul r.outPrice (ofInt r.outAmount)
  let b ← Fx.mul r.inPrice (ofInt r.inAmount)
  Fx.sub a b

/-- the keys of `sort_by_cached_key` -/
def gains : List Route → Res (List (Route × I80F48))
  | [] => .ok []
  | r :: rs => do
    let g ← r.gain
    let l ← gains rs
    .ok ((r, g) :: l)

/-- 423-451: the first route that fits; `fits r`: an error if the transaction could not be prepared -/
def firstFit (fits : Route → Res Bool) : List Route → Res Route
  | [] => .error .someError
  | r :: rs => do
    let ok ← fits r
    if ok = true then .ok r else firstFit fits rs

/-- 374-452 `determine_best_swap_tx`; the sort is stable -/
def bestRoute (fits : Route → Res Bool) (routes : List Route) : Res Route := do
  let l ← gains routes
  firstFit fits ((l.insertionSort (fun a b => b.2 ≤ a.2)).map (·.1))

/-- 201-228, 282-308, 349-372: the alternative routes are used if that fails -/
def swapRoute (fits : Route → Res Bool) (simple alternative : List Route) : Res Route :=
  match bestRoute fits simple with
  | .ok r => .ok r
  | .error _ => bestRoute fits alternative

/-! ## Spot open orders accounts -/

/-- serum3_settle_funds.rs:30-43: the first check of the settlement, that the account has an open orders account for the market -/
def settleCheck (a : Slots.Acc) (m : Nat) : Res Unit :=
  if a.serums.any (fun p => p.market == m) then .ok () else .error .serum3OrdersDoNotExist

/-- 742-790 `close_and_settle_openbook_orders`: one transaction, first the close instruction, then the settle instruction. `settle`: the rest of the settle instruction -/
def closeAndSettle (mk : Slots.Markets) (settle : Slots.Acc → Res Slots.Acc) (a : Slots.Acc) (m : Nat) : Res Slots.Acc := do
  let a ← Slots.closeSerum mk a m
  settleCheck a m
  settle a

/-- 722-739 `close_and_settle_all_openbook_orders` in the shuffled order: markets with the reserved amounts of their open orders accounts. A transaction that fails is rejected by the preflight check (client.rs:94, 135) -/
def closeAll (mk : Slots.Markets) (settle : Slots.Acc → Res Slots.Acc) : Slots.Acc → List (Nat × Int × Int) → Res Slots.Acc
  | a, [] => .ok a
  | a, (m, base, quote) :: l =>
    if base ≠ 0 ∨ quote ≠ 0 then closeAll mk settle a l
    else do
      let a ← closeAndSettle mk settle a m
      closeAll mk settle a l

/-- 460-570 `rebalance_tokens`: first the open orders accounts, then the tokens in the shuffled order (each read when it is its turn) -/
def rebalanceTokens (rnd : ℚ → ℚ) (mk : Slots.Markets) (settle : Slots.Acc → Res Slots.Acc) (c : Cfg) (quote : Nat) (a : Slots.Acc) (oos : List (Nat × Int × Int)) (ts : List Tok) : Res (List (Nat × List TokenAct)) := do
  let _ ← closeAll mk settle a oos
  ts.foldlM (init := []) (fun acc t => do
    let x ← tokenActs rnd c quote t
    .ok (acc ++ [(t.index, x)]))

end Rebalance
end Mango
