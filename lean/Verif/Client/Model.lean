import Verif.Client.Search
import Verif.Health.Update
import Verif.Bank.Model
/-!
# Maximum amounts computed by the client library

Models health/client.rs:13-492 and cache.rs:624-633 (`health_ratio`): how much can be swapped, borrowed or traded on a perp market until a health ratio is reached. The system time is an input.
Panics and returned errors are both errors here; both end the computation.
-/
namespace Mango
namespace Client
open Fx Health

/-- cache.rs:624-633 `health_ratio` -/
def healthRatio (fd : FDiv) (c : Cache) (h : HT) : Res I80F48 := do
  let (a, l) ← c.assetsAndLiabs fd h false
  if l > 0 then do
    let d ← Fx.sub a l
    let n ← Fx.mul (Fx.ofInt 100) d
    satDiv n l
  else .ok Fx.MAX

/-- client.rs:14-20 `is_liquidatable` -/
def isLiquidatable (fd : FDiv) (c : Cache) (being : Bool) : Res Bool := do
  let h ← c.health fd (if being then .liqEnd else .maint)
  .ok (decide (h < 0))

/-- a token of the account: its bank and the account's position -/
structure Tok where
  ti : Nat
  bank : BankIn
  pos : TokenPosition

/-- what the computations read: f64 rounding, 30-bit division, system time -/
structure Env where
  rnd : ℚ → ℚ
  fd : FDiv
  now : Int

/-- client.rs:27-51 `cache_after_swap` -/
def cacheAfterSwap (e : Env) (c : Cache) (src tgt : Tok) (price amount : I80F48) : Res Cache := do
  let ta ← Fx.mul amount price
  let (sb, _, _) ← src.bank.bank.withdrawWithFee src.pos amount e.now
  let (tb, _, _) ← tgt.bank.bank.deposit tgt.pos ta e.now
  let n ← Fx.neg amount
  let c ← c.adjustBank e.rnd src.ti { src.bank with bank := sb } n
  c.adjustBank e.rnd tgt.ti { tgt.bank with bank := tb } ta

/-- client.rs:649-656 `ignore_net_borrow_limit_errors` together with `.map(target_fn).unwrap_or(I80F48::MIN)` -/
def valueOf (target : Cache → Res I80F48) (r : Res Cache) : Res I80F48 :=
  match r with
  | .ok c => target c
  | .error e => if e = .bankNetBorrowsLimitReached then .ok Fx.MIN else .error e

/-- client.rs:197-216: the searched function of a swap -/
def swapValue (e : Env) (c : Cache) (src tgt : Tok) (price : I80F48) (target : Cache → Res I80F48) (amount : I80F48) : Res I80F48 :=
  valueOf target (cacheAfterSwap e c src tgt price amount)

/-- the token info of a token, its effective balance and the reserved funds (client.rs:163-178) -/
def tokenParts (e : Env) (c : Cache) (ti : Nat) : Res (TokenInfo × I80F48 × I80F48) :=
  match c.tokenIdx ti with
  | none => .error .tokenPositionDoesNotExist
  | some i => do
    let t ← Serum3Info.at_ c.tokens i
    let (mr, _) ← c.reservations e.fd .init
    let bs ← c.balances .init
    let r ← Serum3Info.at_ mr i
    let b ← Serum3Info.at_ bs i
    .ok (t, b, r)

/-- client.rs:186-191: the slope of health for large amounts -/
def finalSlope (s t : TokenInfo) (price : I80F48) : Res I80F48 := do
  let nw ← Fx.neg s.initScaledLiabWeight
  let a ← Fx.mul nw (s.prices.liab .init)
  let b ← Fx.mul t.initAssetWeight (t.prices.asset .init)
  let b ← Fx.mul b price
  Fx.add a b

/-- client.rs:228-230: the largest amount that the maximum could be at -/
def rightmost (sb sr tb tr price : I80F48) : Res I80F48 := do
  let a ← Fx.abs sb
  let x ← Fx.add a sr
  let b ← Fx.abs tb
  let y ← Fx.add b tr
  let q ← Fx.div y price
  .ok (max x q)

/-- client.rs:244-283: the search to the right of the maximum -/
def swapRight (e : Env) (c : Cache) (src tgt : Tok) (price minValue slope : I80F48) (target : Cache → Res I80F48) (am av : I80F48) : Res I80F48 := do
  let f := swapValue e c src tgt price target
  let h ← valueOf (fun c => c.health e.fd .init) (cacheAfterSwap e c src tgt price am)
  if h = 0 then .ok am
  else if h < 0 then .ok 0
  else do
    let q ← Fx.div h slope
    let z ← Fx.sub am q
    let r ← scanRight f z minValue
    if r = z then binarySearch f am av r minValue TENTH
    else do
      let zv ← f z
      binarySearch f z zv r minValue TENTH

/-- client.rs:144-288 `max_swap_source_for_health_fn` -/
def maxSwapSource (e : Env) (c : Cache) (src tgt : Tok) (price minValue : I80F48) (target : Cache → Res I80F48) : Res I80F48 := do
  let (s, sb, sr) ← tokenParts e c src.ti
  let (t, tb, tr) ← tokenParts e c tgt.ti
  let slope ← finalSlope s t price
  if slope ≥ 0 then .ok Fx.MAX
  else do
    let rm ← rightmost sb sr tb tr price
    match findMaximum (swapValue e c src tgt price target) 0 rm TENTH with
    | none => .error .panic
    | some x => do
      let (am, av) ← x
      require (am ≥ 0) .panic
      if av ≤ minValue then .ok am
      else do
        let a ← swapRight e c src tgt price minValue slope target am av
        require (a ≥ 0) .panic
        .ok a

/-- client.rs:53-82 `apply_limits_to_swap` -/
def applyLimits (src tgt : Tok) (srcPrice price unlimited : I80F48) : Res I80F48 := do
  let sp ← src.pos.native src.bank.bank
  let tp ← tgt.pos.native tgt.bank.bank
  let nb ← src.bank.bank.remainingNetBorrowsQuote srcPrice
  let anb ← satDiv nb srcPrice
  let ps := min unlimited (satAdd anb (max sp 0))
  let ad ← tgt.bank.bank.remainingDepositsUntilLimit
  let ntp ← Fx.neg (min tp 0)
  let pt := min (satMul ps price) (satAdd ad ntp)
  let q ← satDiv pt price
  .ok (min ps q)

/-- client.rs:85-104 `max_swap_source_for_health_ratio_ignoring_limits` -/
def maxSwapIgnoringLimits (e : Env) (c : Cache) (src tgt : Tok) (price minRatio : I80F48) : Res I80F48 :=
  maxSwapSource e c src tgt price minRatio (fun c => healthRatio e.fd c .init)

/-- client.rs:106-133 `max_swap_source_for_health_ratio_with_limits` -/
def maxSwapWithLimits (e : Env) (c : Cache) (src tgt : Tok) (srcPrice price minRatio : I80F48) : Res I80F48 := do
  let u ← maxSwapIgnoringLimits e c src tgt price minRatio
  applyLimits src tgt srcPrice price u

/-- client.rs:447-459: the cache after borrowing -/
def cacheAfterBorrow (e : Env) (c : Cache) (src : Tok) (oracle amount : I80F48) : Res Cache := do
  let (b, _, _) ← src.bank.bank.withdrawWithFee src.pos amount e.now
  b.checkNetBorrows oracle
  let n ← Fx.neg amount
  c.adjustBank e.rnd src.ti { src.bank with bank := b } n

/-- client.rs:460-465 -/
def borrowValue (e : Env) (c : Cache) (src : Tok) (oracle : I80F48) (target : Cache → Res I80F48) (amount : I80F48) : Res I80F48 :=
  valueOf target (cacheAfterBorrow e c src oracle amount)

/-- client.rs:469-470: at most the deposits plus health divided by the liability weight -/
def borrowLimit (e : Env) (c : Cache) (t : TokenInfo) (balance : I80F48) : Res I80F48 := do
  let h ← c.health e.fd .init
  let q ← Fx.div (max h 0) t.initScaledLiabWeight
  Fx.add (max balance 0) q

/-- client.rs:423-482 `max_borrow_for_health_fn` -/
def maxBorrow (e : Env) (c : Cache) (src : Tok) (minValue : I80F48) (target : Cache → Res I80F48) : Res I80F48 := do
  let v ← target c
  if v ≤ minValue then .ok 0
  else do
    let (t, b, _) ← tokenParts e c src.ti
    let limit ← borrowLimit e c t b
    if limit ≤ 0 then .ok 0
    else binarySearch (borrowValue e c src t.prices.oracle target) 0 v limit minValue Fx.ONE

/-- client.rs:484-492 `max_borrow_for_health_ratio` -/
def maxBorrowForRatio (e : Env) (c : Cache) (src : Tok) (minRatio : I80F48) : Res I80F48 :=
  maxBorrow e c src minRatio (fun c => healthRatio e.fd c .init)

/-- client.rs:296-299: 1 for bids, -1 for asks -/
def direction (bid : Bool) : Int := if bid then 1 else -1

/-- client.rs:328-334: the cache after trading `lots` base lots at `price` -/
def cacheAfterTrade (c : Cache) (k : Nat) (p : PerpInfo) (price : I80F48) (bid : Bool) (lots : Int) : Res Cache := do
  let dl ← ck64 (direction bid * lots)
  let b ← ck64 (p.baseLots + dl)
  let x ← Fx.mul (Fx.ofInt (direction bid)) (Fx.ofInt lots)
  let x ← Fx.mul x (Fx.ofInt p.baseLotSize)
  let x ← Fx.mul x price
  let q ← Fx.sub p.quote x
  .ok { c with perps := c.perps.set k { p with baseLots := b, quote := q } }

/-- client.rs:335-336 -/
def tradeRatio (e : Env) (c : Cache) (k : Nat) (p : PerpInfo) (price : I80F48) (bid : Bool) (lots : Int) : Res I80F48 := do
  let c' ← cacheAfterTrade c k p price bid lots
  healthRatio e.fd c' .init

/-- client.rs:337-338: the searched function, on the integer part of its argument -/
def tradeRatioTrunc (e : Env) (c : Cache) (k : Nat) (p : PerpInfo) (price : I80F48) (bid : Bool) (lots : I80F48) : Res I80F48 := do
  let n ← ck64 (Int.tdiv lots S)
  tradeRatio e c k p price bid n

/-- client.rs:312-320: the slope of health per lot size for large amounts, without the weight of the settle token -/
def perpSlope (p : PerpInfo) (price : I80F48) (bid : Bool) : Res I80F48 :=
  if bid then do
    let x ← Fx.mul p.initBaseAssetWeight (p.basePrices.asset .init)
    Fx.sub x price
  else do
    let nw ← Fx.neg p.initBaseLiabWeight
    let x ← Fx.mul nw (p.basePrices.liab .init)
    Fx.add x price

/-- client.rs:372-385: health at the start of case 1, with the overall weight and the settle token's asset weight lifted -/
def startHealth (e : Env) (c : Cache) (k si : Nat) (p : PerpInfo) (price : I80F48) (bid : Bool) (start : Int) : Res I80F48 := do
  let c' ← cacheAfterTrade c k p price bid start
  let p' ← Serum3Info.at_ c'.perps k
  let t ← Serum3Info.at_ c'.tokens si
  let c' := { c' with perps := c'.perps.set k { p' with initOverallAssetWeight := Fx.ONE },
                      tokens := c'.tokens.set si { t with initAssetWeight := t.initLiabWeight, initScaledAssetWeight := t.initScaledLiabWeight } }
  c'.health e.fd .init

/-- client.rs:357-407: the search of case 1, to the right of `start` -/
def perpCase1 (e : Env) (c : Cache) (k si : Nat) (p : PerpInfo) (price slope minRatio : I80F48) (bid : Bool) (start : Int) (sr : I80F48) : Res I80F48 := do
  let h ← startHealth e c k si p price bid start
  if h ≤ 0 then .ok 0
  else do
    let x ← Fx.mul slope (Fx.ofInt p.baseLotSize)
    let x ← Fx.mul x N99
    let q ← Fx.div h x
    let z ← Fx.sub (Fx.ofInt start) q
    let z ← Fx.add z Fx.ONE
    let zr ← tradeRatioTrunc e c k p price bid z
    require (zr ≤ 0) .panic
    binarySearch (tradeRatioTrunc e c k p price bid) (Fx.ofInt start) sr z minRatio Fx.ONE

/-- client.rs:340-353: where case 1 begins and the ratio there -/
def caseOne (e : Env) (c : Cache) (k : Nat) (p : PerpInfo) (price : I80F48) (bid : Bool) (r0 : I80F48) : Res (Int × I80F48) :=
  if (p.baseLots > 0 ∧ bid = false) ∨ (p.baseLots < 0 ∧ bid = true) then do
    let st ← ck64 (if p.baseLots < 0 then -p.baseLots else p.baseLots)
    let sr ← tradeRatio e c k p price bid st
    .ok (st, sr)
  else .ok (0, r0)

/-- client.rs:291-421 `max_perp_for_health_ratio` -/
def maxPerp (e : Env) (c : Cache) (market : Nat) (price : I80F48) (bid : Bool) (minRatio : I80F48) : Res Int := do
  let r0 ← healthRatio e.fd c .init
  if r0 < 0 then .ok 0
  else
    match c.perps.findIdx? (fun p => p.perpMarketIndex == market) with
    | none => .error .perpPositionDoesNotExist
    | some k => do
      let p ← Serum3Info.at_ c.perps k
      match c.tokenIdx p.settleTokenIndex with
      | none => .error .tokenPositionDoesNotExist
      | some si => do
        let t ← Serum3Info.at_ c.tokens si
        let sl ← perpSlope p price bid
        if sl ≥ 0 then .ok I64MAX
        else do
          let lw ← t.liabWeightedPrice .init
          let sl ← Fx.mul sl lw
          let (st, sr) ← caseOne e c k p price bid r0
          let lots ← (if r0 ≤ minRatio ∧ sr < minRatio then
              .ok (if sr ≥ r0 then Fx.ofInt st else 0)
            else if sr ≥ minRatio then perpCase1 e c k si p price sl minRatio bid st sr
            else binarySearch (tradeRatioTrunc e c k p price bid) 0 r0 (Fx.ofInt st) minRatio Fx.ONE)
          ck64 (Int.tdiv lots S)

end Client
end Mango
