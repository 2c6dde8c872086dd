import Verif.Health.Model
/-!
# Building a health cache from an account

Models health/cache.rs:1226-1238, 1284-1425 (`find_token_info_index`, `new_health_cache_impl`) and 266-293 (`Serum3Info::new`).
The account retriever is the function `view`: it gives bank and oracle data by token index. `bad` says that the bank was not passed to the
instruction or that its oracle is stale or not confident (`is_oracle_error`, error.rs:174-181); other retriever errors abort either way
and are left out. Perp infos are taken as given (`PerpInfo::new` reads market and position only).
-/
namespace Mango
namespace Health
open Fx

/-- what the retriever knows about a token: weights and prices (`info`, balance unused), the bank's indexes and whether it is usable -/
structure View where
  info : TokenInfo
  depositIndex : I80F48
  borrowIndex : I80F48
  bad : Bool
  deriving DecidableEq, Repr

/-- an active token position -/
structure Pos where
  tokenIndex : Nat
  indexed : I80F48
  deriving DecidableEq, Repr

/-- an active spot market of the account together with its open orders account (native amounts) -/
structure OpenOrd where
  base : Nat
  quote : Nat
  baseFree : Int
  quoteFree : Int
  baseReserved : Int
  quoteReserved : Int
  lowestAsk : I80F48
  highestBidInv : I80F48
  marketIndex : Nat := 0
  hasZeroFunds : Bool := false
  deriving DecidableEq, Repr

/-- mango_account_components.rs:80-86 `native` and cache.rs:1334-1361: the token info of a position -/
def posInfo (view : Nat → View) (p : Pos) : Res TokenInfo := do
  let v := view p.tokenIndex
  let n ← Fx.mul p.indexed (if p.indexed > 0 then v.depositIndex else v.borrowIndex)
  .ok { v.info with tokenIndex := p.tokenIndex, balanceSpot := n }

/-- cache.rs:1303-1362: token positions; with `skip`, unusable banks of non-negative positions are left out -/
def buildTokens (view : Nat → View) (skip : Bool) : List Pos → Res (List TokenInfo)
  | [] => .ok []
  | p :: ps =>
    if skip = true ∧ (view p.tokenIndex).bad = true then do
      require (p.indexed ≥ 0) .invalidBank
      buildTokens view skip ps
    else do
      let t ← posInfo view p
      let ts ← buildTokens view skip ps
      .ok (t :: ts)

/-- cache.rs:1226-1237 `find_token_info_index` -/
def findToken (ts : List TokenInfo) (ti : Nat) : Option Nat := ts.findIdx? (fun t => t.tokenIndex == ti)

/-- cache.rs:266-293 `Serum3Info::new` -/
def OpenOrd.info (o : OpenOrd) (bi qi : Nat) : Res Serum3Info := do
  let ask ← Fx.mul (ofInt o.baseReserved) o.lowestAsk
  let bid ← Fx.mul (ofInt o.quoteReserved) o.highestBidInv
  .ok { reservedBase := ofInt o.baseReserved, reservedQuote := ofInt o.quoteReserved, reservedBaseAsQuoteLowestAsk := ask,
        reservedQuoteAsBaseHighestBid := bid, baseIdx := bi, quoteIdx := qi, marketIndex := o.marketIndex, hasZeroFunds := o.hasZeroFunds }

/-- cache.rs:1390-1395: add free funds to a balance -/
def addFree (ts : List TokenInfo) (i : Nat) (amount : Int) : Res (List TokenInfo) := do
  let t ← Serum3Info.at_ ts i
  let b ← Fx.add t.balanceSpot (ofInt amount)
  .ok (ts.set i { t with balanceSpot := b })

/-- cache.rs:1364-1403: spot markets -/
def buildSerums (skip : Bool) : List TokenInfo → List OpenOrd → Res (List TokenInfo × List Serum3Info)
  | ts, [] => .ok (ts, [])
  | ts, o :: os =>
    match findToken ts o.base, findToken ts o.quote with
    | some bi, some qi => do
      let ts ← addFree ts bi o.baseFree
      let ts ← addFree ts qi o.quoteFree
      let s ← o.info bi qi
      let (ts, ss) ← buildSerums skip ts os
      .ok (ts, s :: ss)
    | _, _ => do
      require (skip = true) .invalidBank
      buildSerums skip ts os

/-- cache.rs:1407-1420: perp positions; with `skip` their settle token must be present -/
def buildPerps (skip : Bool) (ts : List TokenInfo) : List PerpInfo → Res (List PerpInfo)
  | [] => .ok []
  | p :: ps => do
    (if skip = true then
      match findToken ts p.settleTokenIndex with
      | some _ => (.ok () : Res Unit)
      | none => .error .tokenPositionDoesNotExist
     else .ok ())
    let r ← buildPerps skip ts ps
    .ok (p :: r)

/-- cache.rs:1284-1430 `new_health_cache_impl` -/
def buildCache (view : Nat → View) (skip : Bool) (ps : List Pos) (os : List OpenOrd) (perps : List PerpInfo) : Res Cache := do
  let ts ← buildTokens view skip ps
  let (ts, ss) ← buildSerums skip ts os
  let pp ← buildPerps skip ts perps
  .ok { tokens := ts, serums := ss, perps := pp }

end Health
end Mango
