import Verif.Basic
import Verif.Fixed
/-!
# Account health

Models health/cache.rs: `Prices`, `TokenInfo`, `Serum3Info`, `PerpInfo`, `HealthCache` and the computations on them.

* Amounts, prices and weights are I80F48 bit patterns; every operation has its overflow check (a panic in Rust).
* `checked_div_f64_precision` (i80f48.rs:130-132) converts to f64 and back; it is the parameter `fd` of the functions that use it.
  Theorems hold for every `fd` with the stated monotonicity.
* The construction of a cache from accounts (new_health_cache_impl) is modelled in `Verif.Health.Build`.
-/
namespace Mango
namespace Health
open Fx

/-- cache.rs:80-85 `HealthType` -/
inductive HT where
  | init
  | maint
  | liqEnd
  deriving DecidableEq, Repr

/-- cache.rs:33-40 `Prices` -/
structure Prices where
  oracle : I80F48
  stable : I80F48
  deriving DecidableEq, Repr

/-- cache.rs:53-58 -/
def Prices.liab (p : Prices) : HT → I80F48
  | .maint | .liqEnd => p.oracle
  | .init => max p.oracle p.stable

/-- cache.rs:62-67 -/
def Prices.asset (p : Prices) : HT → I80F48
  | .maint | .liqEnd => p.oracle
  | .init => min p.oracle p.stable

/-- cache.rs:161-179 `TokenInfo` -/
structure TokenInfo where
  tokenIndex : Nat
  maintAssetWeight : I80F48
  initAssetWeight : I80F48
  initScaledAssetWeight : I80F48
  maintLiabWeight : I80F48
  initLiabWeight : I80F48
  initScaledLiabWeight : I80F48
  prices : Prices
  balanceSpot : I80F48
  allowAssetLiquidation : Bool := true
  deriving DecidableEq, Repr

namespace TokenInfo
/-- cache.rs:196-202 -/
def assetWeight (t : TokenInfo) : HT → I80F48
  | .init => t.initScaledAssetWeight
  | .liqEnd => t.initAssetWeight
  | .maint => t.maintAssetWeight
/-- cache.rs:205-207 -/
def assetWeightedPrice (t : TokenInfo) (h : HT) : Res I80F48 := Fx.mul (t.assetWeight h) (t.prices.asset h)
/-- cache.rs:210-216 -/
def liabWeight (t : TokenInfo) : HT → I80F48
  | .init => t.initScaledLiabWeight
  | .liqEnd => t.initLiabWeight
  | .maint => t.maintLiabWeight
/-- cache.rs:219-221 -/
def liabWeightedPrice (t : TokenInfo) (h : HT) : Res I80F48 := Fx.mul (t.liabWeight h) (t.prices.liab h)
/-- cache.rs:224-231 `health_contribution` -/
def contribution (t : TokenInfo) (h : HT) (balance : I80F48) : Res I80F48 := do
  let wp ← (if balance < 0 then t.liabWeightedPrice h else t.assetWeightedPrice h)
  Fx.mul balance wp
end TokenInfo

/-- `checked_div_f64_precision(..).unwrap()` -/
abbrev FDiv := I80F48 → I80F48 → Res I80F48

/-- cache.rs:241-260 `Serum3Info` -/
structure Serum3Info where
  reservedBase : I80F48
  reservedQuote : I80F48
  reservedBaseAsQuoteLowestAsk : I80F48
  reservedQuoteAsBaseHighestBid : I80F48
  baseIdx : Nat
  quoteIdx : Nat
  marketIndex : Nat := 0
  hasZeroFunds : Bool := false
  deriving DecidableEq, Repr

/-- cache.rs:415-420 `Serum3Reserved` -/
structure Serum3Reserved where
  asBase : I80F48
  asQuote : I80F48
  deriving DecidableEq, Repr

namespace Serum3Info
/-- cache.rs:296-315 `all_reserved_as_base` -/
def allReservedAsBase (fd : FDiv) (s : Serum3Info) (h : HT) (quote base : TokenInfo) : Res I80F48 := do
  let v ← Fx.mul s.reservedQuote (quote.prices.asset h)
  let o ← fd v (base.prices.liab h)
  (if s.reservedQuoteAsBaseHighestBid ≠ 0 then Fx.add s.reservedBase (min o s.reservedQuoteAsBaseHighestBid)
   else Fx.add s.reservedBase o)

/-- cache.rs:318-336 `all_reserved_as_quote` -/
def allReservedAsQuote (fd : FDiv) (s : Serum3Info) (h : HT) (quote base : TokenInfo) : Res I80F48 := do
  let v ← Fx.mul s.reservedBase (base.prices.asset h)
  let o ← fd v (quote.prices.liab h)
  (if s.reservedBaseAsQuoteLowestAsk ≠ 0 then Fx.add s.reservedQuote (min o s.reservedBaseAsQuoteLowestAsk)
   else Fx.add s.reservedQuote o)

/-- cache.rs:379-404 `compute_health_effect` -/
def effect (t : TokenInfo) (h : HT) (balance maxReserved reserved : I80F48) : Res I80F48 := do
  let mb ← Fx.add balance maxReserved
  let (a, l) ← (if mb ≥ reserved then .ok (reserved, 0)
    else if mb < 0 then .ok (0, reserved)
    else do
      let l ← Fx.sub reserved mb
      .ok (mb, l))
  let x ← Fx.mul a (t.assetWeight h)
  let x ← Fx.mul x (t.prices.asset h)
  let y ← Fx.mul l (t.liabWeight h)
  let y ← Fx.mul y (t.prices.liab h)
  Fx.add x y

/-- slice indexing: out of bounds panics -/
def at_ {α : Type} (l : List α) (i : Nat) : Res α :=
  match l[i]? with
  | some x => .ok x
  | none => .error .panic

/-- cache.rs:361-413 `health_contribution` -/
def contribution (s : Serum3Info) (h : HT) (tokens : List TokenInfo) (balances maxReserved : List I80F48) (r : Serum3Reserved) : Res I80F48 :=
  if r.asBase = 0 ∨ r.asQuote = 0 then .ok 0
  else do
    let base ← at_ tokens s.baseIdx
    let quote ← at_ tokens s.quoteIdx
    let bb ← at_ balances s.baseIdx
    let bm ← at_ maxReserved s.baseIdx
    let qb ← at_ balances s.quoteIdx
    let qm ← at_ maxReserved s.quoteIdx
    let hb ← effect base h bb bm r.asBase
    let hq ← effect quote h qb qm r.asQuote
    .ok (min hb hq)
end Serum3Info

/-- cache.rs:427-446 `PerpInfo` -/
structure PerpInfo where
  perpMarketIndex : Nat
  settleTokenIndex : Nat
  maintBaseAssetWeight : I80F48
  initBaseAssetWeight : I80F48
  maintBaseLiabWeight : I80F48
  initBaseLiabWeight : I80F48
  maintOverallAssetWeight : I80F48
  initOverallAssetWeight : I80F48
  baseLotSize : Int
  baseLots : Int
  bidsBaseLots : Int
  asksBaseLots : Int
  quote : I80F48
  basePrices : Prices
  hasOpenOrders : Bool := false
  hasOpenFills : Bool := false
  deriving DecidableEq, Repr

namespace PerpInfo
/-- cache.rs:551-562: base weight by health type and sign -/
def baseWeight (p : PerpInfo) (h : HT) (neg : Bool) : I80F48 :=
  match h, neg with
  | .init, true | .liqEnd, true => p.initBaseLiabWeight
  | .init, false | .liqEnd, false => p.initBaseAssetWeight
  | .maint, true => p.maintBaseLiabWeight
  | .maint, false => p.maintBaseAssetWeight

/-- cache.rs:547-578 `order_execution_case` -/
def execCase (p : PerpInfo) (h : HT) (orderLots : Int) (orderPrice : I80F48) : Res I80F48 := do
  let lots ← ck64 (p.baseLots + orderLots)
  let nat ← ck64 (lots * p.baseLotSize)
  let net := Fx.ofInt nat
  let x ← Fx.mul net (p.baseWeight h (decide (net < 0)))
  let bh ← Fx.mul x (if net < 0 then p.basePrices.liab h else p.basePrices.asset h)
  let onat ← ck64 (orderLots * p.baseLotSize)
  let neg ← Fx.neg (Fx.ofInt onat)
  let oq ← Fx.mul neg orderPrice
  Fx.add bh oq

/-- cache.rs:546-589 `unweighted_health_unsettled_pnl` -/
def uhupnl (p : PerpInfo) (h : HT) : Res I80F48 := do
  let b ← p.execCase h p.bidsBaseLots (p.basePrices.liab h)
  let na ← ck64 (-p.asksBaseLots)
  let a ← p.execCase h na (p.basePrices.asset h)
  Fx.add p.quote (min b a)

/-- cache.rs:518-528 -/
def overallWeight (p : PerpInfo) : HT → I80F48
  | .init | .liqEnd => p.initOverallAssetWeight
  | .maint => p.maintOverallAssetWeight

/-- cache.rs:517-529 `weigh_uhupnl_overall` -/
def weigh (p : PerpInfo) (u : I80F48) (h : HT) : Res I80F48 :=
  if u > 0 then Fx.mul (p.overallWeight h) u else .ok u

/-- cache.rs:510-514 `health_unsettled_pnl` -/
def hupnl (p : PerpInfo) (h : HT) : Res I80F48 := do
  let u ← p.uhupnl h
  p.weigh u h
end PerpInfo

/-- cache.rs:606-613 `HealthCache` (without `being_liquidated`, which no computation reads) -/
structure Cache where
  tokens : List TokenInfo
  serums : List Serum3Info := []
  perps : List PerpInfo := []
  deriving DecidableEq, Repr

/-- sum of the results of `f`, added one after the other to `acc` -/
def sumM {α : Type} (f : α → Res I80F48) : I80F48 → List α → Res I80F48
  | acc, [] => .ok acc
  | acc, x :: xs => do
      let v ← f x
      let acc ← Fx.add acc v
      sumM f acc xs

namespace Cache

/-- cache.rs:810-820 `token_info_index` -/
def tokenIdx (c : Cache) (ti : Nat) : Option Nat := c.tokens.findIdx? (fun t => t.tokenIndex == ti)

/-- cache.rs:1104-1113: perp part of the effective balances -/
def perpBalances (c : Cache) (h : HT) (ignoreNeg : Bool) : List I80F48 → List PerpInfo → Res (List I80F48)
  | bs, [] => .ok bs
  | bs, p :: ps =>
    match c.tokenIdx p.settleTokenIndex with
    | none => .error .panic
    | some i => do
      let b ← Serum3Info.at_ bs i
      let u ← p.hupnl h
      let bs ← (if ignoreNeg = false ∨ u > 0 then do
          let b ← Fx.add b u
          .ok (bs.set i b)
        else .ok bs)
      perpBalances c h ignoreNeg bs ps

/-- cache.rs:1115-1117: spot part -/
def spotBalances : List TokenInfo → List I80F48 → Res (List I80F48)
  | t :: ts, b :: bs => do
      let x ← Fx.add b t.balanceSpot
      let r ← spotBalances ts bs
      .ok (x :: r)
  | _, _ => .ok []

/-- cache.rs:1096-1121 `effective_token_balances_internal` -/
def balancesI (c : Cache) (h : HT) (ignoreNeg : Bool) : Res (List I80F48) := do
  let bs ← c.perpBalances h ignoreNeg (List.replicate c.tokens.length 0) c.perps
  spotBalances c.tokens bs

/-- cache.rs:1086-1088 `effective_token_balances` -/
def balances (c : Cache) (h : HT) : Res (List I80F48) := c.balancesI h false

/-- cache.rs:1055-1075: one market's reservations, added to the token sums -/
def reserveStep (fd : FDiv) (c : Cache) (h : HT) (mr : List I80F48) (s : Serum3Info) : Res (List I80F48 × Serum3Reserved) := do
  let quote ← Serum3Info.at_ c.tokens s.quoteIdx
  let base ← Serum3Info.at_ c.tokens s.baseIdx
  let rb ← s.allReservedAsBase fd h quote base
  let rq ← s.allReservedAsQuote fd h quote base
  let x ← Serum3Info.at_ mr s.baseIdx
  let x ← Fx.add x rb
  let mr := mr.set s.baseIdx x
  let y ← Serum3Info.at_ mr s.quoteIdx
  let y ← Fx.add y rq
  .ok (mr.set s.quoteIdx y, ⟨rb, rq⟩)

def reserveLoop (fd : FDiv) (c : Cache) (h : HT) : List I80F48 → List Serum3Info → Res (List I80F48 × List Serum3Reserved)
  | mr, [] => .ok (mr, [])
  | mr, s :: ss => do
      let (mr, r) ← reserveStep fd c h mr s
      let (mr, rs) ← reserveLoop fd c h mr ss
      .ok (mr, r :: rs)

/-- cache.rs:1045-1079 `compute_serum3_reservations` -/
def reservations (fd : FDiv) (c : Cache) (h : HT) : Res (List I80F48 × List Serum3Reserved) :=
  reserveLoop fd c h (List.replicate c.tokens.length 0) c.serums

/-- cache.rs:1123-1145 `health_sum` with the summing action of `health` -/
def healthSum (fd : FDiv) (c : Cache) (h : HT) (bs : List I80F48) : Res I80F48 := do
  let acc ← sumM (fun (x : TokenInfo × I80F48) => x.1.contribution h x.2) 0 (c.tokens.zip bs)
  let (mr, rs) ← c.reservations fd h
  sumM (fun (x : Serum3Info × Serum3Reserved) => x.1.contribution h c.tokens bs mr x.2) acc (c.serums.zip rs)

/-- cache.rs:616-624 `health` -/
def health (fd : FDiv) (c : Cache) (h : HT) : Res I80F48 := do
  let bs ← c.balances h
  c.healthSum fd h bs

/-- cache.rs:682-688: `add` closure of `health_assets_and_liabs` -/
def addSplit (al : I80F48 × I80F48) (v : I80F48) : Res (I80F48 × I80F48) :=
  if v > 0 then do
    let a ← Fx.add al.1 v
    .ok (a, al.2)
  else do
    let n ← Fx.neg v
    let l ← Fx.add al.2 n
    .ok (al.1, l)

/-- cache.rs:704-710 -/
def splitPerps (h : HT) (ti : Nat) : I80F48 × I80F48 → List PerpInfo → Res (I80F48 × I80F48)
  | al, [] => .ok al
  | al, p :: ps =>
    if p.settleTokenIndex ≠ ti then splitPerps h ti al ps
    else do
      let u ← p.hupnl h
      let al ← addSplit al u
      splitPerps h ti al ps

/-- cache.rs:691-737: one token -/
def splitToken (c : Cache) (h : HT) (stableAssets : Bool) (tot : I80F48 × I80F48) (t : TokenInfo) : Res (I80F48 × I80F48) := do
  let al ← addSplit (0, 0) t.balanceSpot
  let (a, l) ← splitPerps h t.tokenIndex al c.perps
  (if stableAssets = true then do
    let aw ← t.assetWeightedPrice h
    let assets ← Fx.mul a aw
    let ta ← Fx.add tot.1 assets
    (if a ≥ l then do
      let x ← Fx.mul l aw
      let tl ← Fx.add tot.2 x
      .ok (ta, tl)
    else do
      let lw ← t.liabWeightedPrice h
      let d ← Fx.sub l a
      let x ← Fx.mul d lw
      let y ← Fx.add assets x
      let tl ← Fx.add tot.2 y
      .ok (ta, tl))
  else do
    let lw ← t.liabWeightedPrice h
    let liabs ← Fx.mul l lw
    let tl ← Fx.add tot.2 liabs
    (if a ≥ l then do
      let aw ← t.assetWeightedPrice h
      let d ← Fx.sub a l
      let x ← Fx.mul d aw
      let y ← Fx.add liabs x
      let ta ← Fx.add tot.1 y
      .ok (ta, tl)
    else do
      let x ← Fx.mul a lw
      let ta ← Fx.add tot.1 x
      .ok (ta, tl)))

def splitTokens (c : Cache) (h : HT) (sa : Bool) : I80F48 × I80F48 → List TokenInfo → Res (I80F48 × I80F48)
  | tot, [] => .ok tot
  | tot, t :: ts => do
      let tot ← c.splitToken h sa tot t
      splitTokens c h sa tot ts

def splitSerums (c : Cache) (h : HT) (bs mr : List I80F48) : I80F48 × I80F48 → List (Serum3Info × Serum3Reserved) → Res (I80F48 × I80F48)
  | tot, [] => .ok tot
  | tot, (s, r) :: xs => do
      let v ← s.contribution h c.tokens bs mr r
      let tot ← addSplit tot v
      splitSerums c h bs mr tot xs

/-- cache.rs:674-752 `health_assets_and_liabs` -/
def assetsAndLiabs (fd : FDiv) (c : Cache) (h : HT) (stableAssets : Bool) : Res (I80F48 × I80F48) := do
  let tot ← c.splitTokens h stableAssets (0, 0) c.tokens
  let bs ← c.balances h
  let (mr, rs) ← c.reservations fd h
  c.splitSerums h bs mr tot (c.serums.zip rs)

end Cache

/-- cache.rs:118-143 `spot_amount_taken_for_health_zero` -/
def spotTaken (health spot awp lwp : I80F48) : Res I80F48 :=
  if health ≤ 0 then .ok 0
  else
    let liabPart (taken health : I80F48) : Res I80F48 :=
      if health > 0 then do
        require (lwp > 0) .requireFailed
        let q ← Fx.div health lwp
        Fx.add taken q
      else .ok taken
    if spot > 0 then do
      let am ← (if awp > 0 then do
          let q ← Fx.div health awp
          .ok (some q)
        else .ok none)
      match am with
      | some q =>
        if q ≤ spot then .ok q
        else do
          let x ← Fx.mul spot awp
          let h ← Fx.sub health x
          liabPart spot h
      | none => do
        let x ← Fx.mul spot awp
        let h ← Fx.sub health x
        liabPart spot h
    else liabPart 0 health

/-- cache.rs:148-161 `spot_amount_given_for_health_zero` -/
def spotGiven (health spot awp lwp : I80F48) : Res I80F48 := do
  let nh ← Fx.neg health
  let ns ← Fx.neg spot
  spotTaken nh ns lwp awp

/-- cache.rs:1173-1194 `perp_max_settle` -/
def Cache.perpMaxSettle (fd : FDiv) (c : Cache) (settleToken : Nat) : Res I80F48 := do
  let bs ← c.balancesI .maint true
  let h ← c.healthSum fd .maint bs
  match c.tokenIdx settleToken with
  | none => .error .tokenPositionDoesNotExist
  | some i => do
    let t ← Serum3Info.at_ c.tokens i
    let b ← Serum3Info.at_ bs i
    let aw ← t.assetWeightedPrice .maint
    let lw ← t.liabWeightedPrice .maint
    spotTaken h b aw lw

end Health
end Mango
