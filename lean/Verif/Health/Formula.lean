import Verif.Health.Model
import Verif.ListSum
/-!
# The health formula (specification)

What account health is, written as plain arithmetic on the data of the account: no overflow, no loops with running sums. `x * y / S` is the product of two fixed point
numbers, rounded down. Used to state C55.
-/
namespace Mango
namespace Health
namespace Formula

/-- price at which an asset counts: the lower of oracle and stable price for init health, else the oracle price -/
def assetPrice (p : Prices) : HT → Int
  | .init => if p.oracle ≤ p.stable then p.oracle else p.stable
  | .liqEnd => p.oracle
  | .maint => p.oracle
/-- price at which a liability counts: the higher of the two for init health, else the oracle price -/
def liabPrice (p : Prices) : HT → Int
  | .init => if p.oracle ≤ p.stable then p.stable else p.oracle
  | .liqEnd => p.oracle
  | .maint => p.oracle

/-- init health scales the init weights, liquidation-end health uses them unscaled -/
def assetWeight (t : TokenInfo) : HT → Int
  | .init => t.initScaledAssetWeight
  | .liqEnd => t.initAssetWeight
  | .maint => t.maintAssetWeight
def liabWeight (t : TokenInfo) : HT → Int
  | .init => t.initScaledLiabWeight
  | .liqEnd => t.initLiabWeight
  | .maint => t.maintLiabWeight

/-- a balance of `b` native tokens -/
def tokenValue (t : TokenInfo) (h : HT) (b : Int) : Int :=
  if b ≥ 0 then b * (assetWeight t h * assetPrice t.prices h / S) / S else b * (liabWeight t h * liabPrice t.prices h / S) / S

/-- base lots valued at weighted price (asset or liability by sign), after `order` more lots are bought at `price` each -/
def ifExecuted (p : PerpInfo) (h : HT) (order : Int) (price : Int) : Int :=
  let native := (p.baseLots + order) * p.baseLotSize
  let base := if native ≥ 0
    then native * (if h = .maint then p.maintBaseAssetWeight else p.initBaseAssetWeight) * assetPrice p.basePrices h / S
    else native * (if h = .maint then p.maintBaseLiabWeight else p.initBaseLiabWeight) * liabPrice p.basePrices h / S
  base - order * p.baseLotSize * price

/-- pnl of a perp position for health: the quote part plus the worse of all bids or all asks being executed; positive pnl is weighted again -/
def perpValue (p : PerpInfo) (h : HT) : Int :=
  let u := p.quote + min (ifExecuted p h p.bidsBaseLots (liabPrice p.basePrices h)) (ifExecuted p h (-p.asksBaseLots) (assetPrice p.basePrices h))
  if u > 0 then (if h = .maint then p.maintOverallAssetWeight else p.initOverallAssetWeight) * u / S else u

/-- the balance of a token: spot plus the pnl of the perp positions that settle in it -/
def balance (c : Cache) (h : HT) (t : TokenInfo) : Int :=
  t.balanceSpot + sumOf (fun p => if p.settleTokenIndex = t.tokenIndex then perpValue p h else 0) c.perps

/-- all of a market's reserved funds as base tokens: bought at the oracle price, but (if known) not better than at the highest bid -/
def asBase (fd : Int → Int → Int) (s : Serum3Info) (h : HT) (base quote : TokenInfo) : Int :=
  let o := fd (s.reservedQuote * assetPrice quote.prices h / S) (liabPrice base.prices h)
  s.reservedBase + (if s.reservedQuoteAsBaseHighestBid = 0 then o else min o s.reservedQuoteAsBaseHighestBid)
def asQuote (fd : Int → Int → Int) (s : Serum3Info) (h : HT) (base quote : TokenInfo) : Int :=
  let o := fd (s.reservedBase * assetPrice base.prices h / S) (liabPrice quote.prices h)
  s.reservedQuote + (if s.reservedBaseAsQuoteLowestAsk = 0 then o else min o s.reservedBaseAsQuoteLowestAsk)

/-- base and quote token of a market -/
def tokensOf (c : Cache) (s : Serum3Info) : Option (TokenInfo × TokenInfo) :=
  match c.tokens[s.baseIdx]?, c.tokens[s.quoteIdx]? with
  | some b, some q => some (b, q)
  | _, _ => none

/-- the most a token's balance can grow by reserved funds becoming this token: at position `k` of the token list -/
def maxReserved (fd : Int → Int → Int) (c : Cache) (h : HT) (k : Nat) : Int :=
  sumOf (fun s => match tokensOf c s with
    | some (b, q) => (if s.baseIdx = k then asBase fd s h b q else 0) + (if s.quoteIdx = k then asQuote fd s h b q else 0)
    | none => 0) c.serums

/-- value of `reserved` tokens arriving last on top of `bal` plus all other reserved funds: what still fills a debt counts as liability reduction -/
def arriving (t : TokenInfo) (h : HT) (bal maxRes reserved : Int) : Int :=
  let asset := if bal + maxRes ≥ reserved then reserved else if bal + maxRes < 0 then 0 else bal + maxRes
  asset * assetWeight t h / S * assetPrice t.prices h / S + (reserved - asset) * liabWeight t h / S * liabPrice t.prices h / S

/-- a spot market's part: the worse of everything becoming base or everything becoming quote -/
def marketValue (fd : Int → Int → Int) (c : Cache) (h : HT) (s : Serum3Info) : Int :=
  match tokensOf c s with
  | none => 0
  | some (b, q) =>
    if asBase fd s h b q = 0 ∨ asQuote fd s h b q = 0 then 0
    else min (arriving b h (balance c h b) (maxReserved fd c h s.baseIdx) (asBase fd s h b q))
             (arriving q h (balance c h q) (maxReserved fd c h s.quoteIdx) (asQuote fd s h b q))

/-- **health**: the tokens at their balances, and the spot markets -/
def health (fd : Int → Int → Int) (c : Cache) (h : HT) : Int :=
  sumOf (fun t => tokenValue t h (balance c h t)) c.tokens + sumOf (marketValue fd c h) c.serums

end Formula
end Health
end Mango
