import Verif.Props.HealthSettle
/-!
# Concrete accounts for the health theorems, and accounts that break the unrestricted claims
-/
namespace Mango
namespace Health
open Fx

/-- quote token: all weights one, price one -/
def exQuote : TokenInfo :=
  { tokenIndex := 0, maintAssetWeight := ONE, initAssetWeight := ONE, initScaledAssetWeight := ONE, maintLiabWeight := ONE, initLiabWeight := ONE,
    initScaledLiabWeight := ONE, prices := ⟨ONE, ONE⟩, balanceSpot := ofInt (-300) }

/-- a volatile token: weights 0.8/0.9 and 1.2/1.1 (in eighths of 2^48: 0.75, 0.875, 1.25, 1.125), price 5, stable price 4 -/
def exToken (ti : Nat) (bal : Int) : TokenInfo :=
  { tokenIndex := ti, maintAssetWeight := S / 8 * 7, initAssetWeight := S / 4 * 3, initScaledAssetWeight := S / 8 * 5,
    maintLiabWeight := S / 8 * 9, initLiabWeight := S / 4 * 5, initScaledLiabWeight := S / 8 * 11, prices := ⟨ofInt 5, ofInt 4⟩,
    balanceSpot := ofInt bal }

def exPerp : PerpInfo :=
  { perpMarketIndex := 0, settleTokenIndex := 0, maintBaseAssetWeight := S / 8 * 7, initBaseAssetWeight := S / 4 * 3,
    maintBaseLiabWeight := S / 8 * 9, initBaseLiabWeight := S / 4 * 5, maintOverallAssetWeight := ONE, initOverallAssetWeight := S / 2,
    baseLotSize := 10, baseLots := -3, bidsBaseLots := 2, asksBaseLots := 4, quote := ofInt 900, basePrices := ⟨ofInt 20, ofInt 22⟩ }

def exMarket : Serum3Info :=
  { reservedBase := ofInt 10, reservedQuote := ofInt 50, reservedBaseAsQuoteLowestAsk := 0, reservedQuoteAsBaseHighestBid := ofInt 9,
    baseIdx := 1, quoteIdx := 0 }

/-- an account with borrows, a volatile deposit, a short perp position with orders on both sides and a spot market with reserved funds -/
def exCache : Cache := { tokens := [exQuote, exToken 1 100], serums := [exMarket], perps := [exPerp] }

theorem exCache_ordered : exCache.Ordered := by
  refine ⟨?_, ?_, ?_⟩
  · intro t ht
    simp only [exCache, List.mem_cons, List.not_mem_nil, or_false] at ht
    rcases ht with rfl | rfl <;> constructor <;> decide
  · intro p hp
    simp only [exCache, List.mem_cons, List.not_mem_nil, or_false] at hp
    subst hp; constructor <;> decide
  · intro s hs
    simp only [exCache, List.mem_cons, List.not_mem_nil, or_false] at hs
    subst hs; constructor <;> decide

/-- The account meets the hypotheses of C37b, C38, C39c, C41 and C51 (`exCache_ordered`; distinct tokens; a single market, so no token is
shared): its healths are -227.5, 96.25 and 345.625. -/
theorem exCache_healths : (exCache.tokens.map (·.tokenIndex)).Nodup ∧
    (exCache.health Fx.div .init, exCache.health Fx.div .liqEnd, exCache.health Fx.div .maint) =
      ((.ok (S / 8 * (-1820)), .ok (S / 8 * 770), .ok (S / 8 * 2765)) : Res Int × Res Int × Res Int) ∧
    exCache.assetsAndLiabs Fx.div .init true = .ok (S / 8 * 2380, S / 8 * 4200) ∧
    exPerp.hupnl .init = .ok (ofInt (-225)) ∧ exPerp.hupnl .maint = .ok (ofInt 125) ∧
    exCache.perpMaxSettle Fx.div 0 = .ok (S / 8 * 2765) := by
  decide +kernel

example (h : HT) (rs : List Serum3Reserved) : Unshared exCache.tokens h (exCache.serums.zip rs) := by
  intro k
  right
  cases rs <;> simp [exCache]

/-- the division rounds zero to zero (hypothesis of C37a) -/
example : ∀ p x, Fx.div 0 p = .ok x → x = 0 := by
  intro p x h; rw [div_ok] at h; simpa using h.2.1

/-! ## Two markets that share a token with different asset and liability weights -/

def shQ : TokenInfo :=
  { tokenIndex := 0, maintAssetWeight := S / 4 * 3, initAssetWeight := S / 4 * 3, initScaledAssetWeight := S / 4 * 3,
    maintLiabWeight := S / 4 * 5, initLiabWeight := S / 4 * 5, initScaledLiabWeight := S / 4 * 5, prices := ⟨ONE, ONE⟩, balanceSpot := ofInt (-100) }
def shA : TokenInfo := { shQ with tokenIndex := 1, balanceSpot := ofInt (-1000) }
/-- a token that counts nothing as collateral, whose stable price is a quarter of the oracle price -/
def shB : TokenInfo :=
  { shQ with tokenIndex := 2, maintAssetWeight := 0, initAssetWeight := 0, initScaledAssetWeight := 0, balanceSpot := 0, prices := ⟨ofInt 4, ONE⟩ }
def shC : TokenInfo :=
  { shQ with tokenIndex := 3, maintAssetWeight := ONE, initAssetWeight := ONE, initScaledAssetWeight := ONE, balanceSpot := ofInt 1280 }
/-- bids for A worth 100 Q -/
def shM1 : Serum3Info :=
  { reservedBase := 0, reservedQuote := ofInt 100, reservedBaseAsQuoteLowestAsk := 0, reservedQuoteAsBaseHighestBid := 0, baseIdx := 1, quoteIdx := 0 }
/-- asks of 25 B -/
def shM2 : Serum3Info :=
  { reservedBase := ofInt 25, reservedQuote := 0, reservedBaseAsQuoteLowestAsk := 0, reservedQuoteAsBaseHighestBid := 0, baseIdx := 2, quoteIdx := 0 }
def shCache : Cache := { tokens := [shQ, shA, shB, shC], serums := [shM1, shM2] }

theorem shCache_ordered : shCache.Ordered := by
  refine ⟨?_, ?_, ?_⟩
  · intro t ht
    simp only [shCache, List.mem_cons, List.not_mem_nil, or_false] at ht
    rcases ht with rfl | rfl | rfl | rfl <;> constructor <;> decide
  · intro p hp; simp [shCache] at hp
  · intro s hs
    simp only [shCache, List.mem_cons, List.not_mem_nil, or_false] at hs
    rcases hs with rfl | rfl <;> constructor <;> decide

/-- **C37 is false without the restriction on shared tokens**: all risk parameters are consistently ordered, yet init health is positive
(17.5) while liquidation-end and maintenance health are negative (-20): the larger conversion value of the orders on the second market makes
the first market's funds count at the lower asset weight. -/
theorem C37_can_fail_with_shared_token :
    shCache.health Fx.div .init = .ok (S / 8 * 140) ∧ shCache.health Fx.div .liqEnd = .ok (ofInt (-20)) ∧
      shCache.health Fx.div .maint = .ok (ofInt (-20)) := by
  decide +kernel

end Health
end Mango
