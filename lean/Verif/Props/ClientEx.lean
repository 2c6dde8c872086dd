import Verif.Props.Client
import Verif.Props.TokenLiqEx
import Verif.Props.SerumEx
/-!
# Concrete cases for C70, and what the computed maxima leave out
-/
namespace Mango
namespace Client
open Fx Health Liquidation Serum

def cEnv : Env := ⟨id, Fx.div, 90000⟩
def cBank : Bank := exLiqBank S S
def cTok (ti : Nat) (price nat : Int) : TokenInfo := exLiqTok ti price nat
/-- 1000 of token 1 at price 1.5, nothing of token 2 at price 4 -/
def cCache : Cache := { tokens := [cTok 1 (S / 10 * 15) (1000 * S), cTok 2 (4 * S) 0], serums := [], perps := [] }
def t1 : Tok := ⟨1, { bank := cBank, oracle := S / 10 * 15 }, { indexed := 1000 * S }⟩
def t2 : Tok := ⟨2, { bank := cBank, oracle := 4 * S }, { indexed := 0 }⟩

/-- 1000 of a settle token 0 and a position of `lots` lots of 10, entered at the price 20 -/
def cPerpCache (lots : Int) : Cache :=
  { tokens := [cTok 0 S (1000 * S)], serums := [],
    perps := [{ perpMarketIndex := 0, settleTokenIndex := 0, maintBaseAssetWeight := S / 8 * 7, initBaseAssetWeight := S / 4 * 3, maintBaseLiabWeight := S / 8 * 9, initBaseLiabWeight := S / 4 * 5,
                maintOverallAssetWeight := ONE, initOverallAssetWeight := S / 2, baseLotSize := 10, baseLots := lots, bidsBaseLots := 0, asksBaseLots := 0, quote := ofInt (-200 * lots),
                basePrices := ⟨ofInt 20, ofInt 20⟩ }] }
/-- token 2 at price 0.01 -/
def lowCache : Cache := { tokens := [cTok 1 (S / 10 * 15) (1000 * S), cTok 2 (S / 100) 0], serums := [], perps := [] }
/-- the stable price (1) of the bank is above the oracle price (0.5), 100 in net borrows are allowed -/
def limBank : Bank := { cBank with netBorrowLimitPerWindowQuote := 100 }
def limTok : Tok := ⟨2, { bank := limBank, oracle := S / 2 }, { indexed := 0 }⟩
/-- the balance of the position after the actual withdrawal of the computed maximum -/
def realBalance (a : Int) : Res I80F48 := do
  let (b, p, _) ← cBank.withdrawWithFee t2.pos a 90000
  p.native b

/-- `C70_max_borrow`: with initial health 1200, just under 125 of token 2 (price 4, weight 1.2) can be borrowed at the ratio 100 -/
theorem cBorrow : maxBorrowForRatio cEnv cCache t2 (100 * S) = .ok 35184372088831166 := by decide +kernel
example : (∃ v, BorrowLeaves cEnv cCache t2 35184372088831166 v ∧ 100 * S < v) :=
  (C70_max_borrow cEnv cCache t2 (100 * S) _ (by decide) cBorrow).2.1 (by decide)

/-- `C70_max_swap`: buying token 1 with borrowed token 2, and the reverse, at prices a little worse than the market's -/
theorem cSwap : maxSwapIgnoringLimits cEnv cCache t2 t1 (S / 10 * 26) (20 * S) = .ok 127818226728946159 ∧ maxSwapIgnoringLimits cEnv cCache t1 t2 (S / 100 * 37) (20 * S) = .ok 622780521218294239 := by
  constructor <;> decide +kernel
example : 0 ≤ (127818226728946159 : Int) ∧ SwapAnswer cEnv cCache t2 t1 (S / 10 * 26) (20 * S) (fun c => healthRatio cEnv.fd c .init) 127818226728946159 :=
  C70_max_swap cEnv cCache t2 t1 (S / 10 * 26) (20 * S) _ _ (by decide) cSwap.1

/-- `C70_max_perp`: without a position 7 lots, with a position in the other direction three more, in the same direction three less -/
theorem cPerp : maxPerp cEnv (cPerpCache 0) 0 (20 * S) true (100 * S) = .ok 7 ∧ maxPerp cEnv (cPerpCache 3) 0 (20 * S) false (100 * S) = .ok 10 ∧
    maxPerp cEnv (cPerpCache 3) 0 (20 * S) true (100 * S) = .ok 4 ∧ maxPerp cEnv (cPerpCache (-3)) 0 (20 * S) true (100 * S) = .ok 10 := by
  refine ⟨?_, ?_, ?_, ?_⟩ <;> decide +kernel
example : 0 ≤ (10 : Int) ∧ PerpAnswer cEnv (cPerpCache 3) 0 (20 * S) false (100 * S) 10 := by
  refine C70_max_perp cEnv (cPerpCache 3) 0 (20 * S) (100 * S) false 10 (by decide) ?_ ?_ cPerp.2.1
  · intro p hp
    simp only [cPerpCache, List.mem_singleton] at hp
    subst hp
    exact ⟨by decide, by unfold inRange; decide, by decide⟩
  · intro t ht
    simp only [cPerpCache, List.mem_singleton] at ht
    subst ht
    decide +kernel

/-- the doubling scan and the bisection on a falling line: the bisection ends within 0.1 of the target -/
example : scanRight (fun x => .ok (1000 * S - x)) (10 * S) (100 * S) = .ok (1280 * S) ∧
    isOk (binarySearch (fun x => .ok (1000 * S - x)) (10 * S) (990 * S) (1280 * S) (100 * S) S) = true := by decide +kernel

/-- `C70_find_maximum_hill`: a roof with a flat top from 250 to 350 -/
def roof (x : Int) : Int := min (min (400 * S + 2 * x) (1600 * S - 2 * x)) (900 * S)
theorem roof_hill : Hill roof 0 (1000 * S) (250 * S) (350 * S) := by
  have hS : (S : Int) = 281474976710656 := rfl
  refine ⟨by decide, ?_, ?_, ?_⟩
  all_goals
    intros
    unfold roof
    rw [hS] at *
    omega
example : ∃ a v, findMaximum (fun x => .ok (roof x)) 0 (1000 * S) TENTH = some (.ok (a, v)) ∧ v = roof a ∧ 0 ≤ a ∧ a ≤ 1000 * S ∧ |a - 350 * S| ≤ TENTH ∧
    ∀ y, 0 ≤ y → y ≤ 1000 * S → TENTH < |y - a| → roof y ≤ v :=
  C70_find_maximum_hill (fun x => .ok (roof x)) roof 0 (1000 * S) (250 * S) (350 * S) TENTH (by decide) (fun _ _ _ => rfl) roof_hill (by decide) (by decide)

/-- **Finding (maximum borrow of low-priced tokens)**: the upper end of the search is health divided by the weight but not by the price (client.rs:469-470). For a token with a native price
below 1 the ratio is still above the wanted one there and the call fails, although borrowing is possible: here a token of price 0.01, of which 50000 could be borrowed at the ratio 100 -/
theorem C70_low_price_fails : ¬ isOk (maxBorrowForRatio cEnv lowCache t2 (100 * S)) ∧ isOk (cacheAfterBorrow cEnv lowCache t2 (S / 100) (1000 * S)) = true := by
  constructor <;> decide +kernel

/-- **Finding (fees are left out)**: the ratio is computed as if no loan origination fee was charged; after the borrow of the computed maximum the ratio is about 99.9, not above 100 -/
theorem C70_borrow_fee_left_out : ∃ n v, realBalance 35184372088831166 = .ok n ∧
    healthRatio Fx.div { cCache with tokens := [cTok 1 (S / 10 * 15) (1000 * S), cTok 2 (4 * S) n] } .init = .ok v ∧ v < 100 * S := by
  refine ⟨got 0 (realBalance 35184372088831166), got 0 (healthRatio Fx.div { cCache with tokens := [cTok 1 (S / 10 * 15) (1000 * S), cTok 2 (4 * S) (got 0 (realBalance 35184372088831166))] } .init), ?_, ?_, ?_⟩
  · exact got_eq (by decide +kernel)
  · exact got_eq (by decide +kernel)
  · decide +kernel

/-- **Finding (net borrow limit of swaps)**: the remaining limit is divided by the oracle price, but the limit is checked with the larger of oracle and stable price: the amount with limits applied is
200 here, and withdrawing it is refused -/
theorem C70_swap_limit_exceeded : applyLimits limTok t1 (S / 2) S (1000 * S) = .ok (200 * S) ∧
    (do let (b, _, _) ← limBank.withdrawWithFee limTok.pos (200 * S) 90000; b.checkNetBorrows (S / 2)) = (.error .bankNetBorrowsLimitReached : Res Unit) := by
  constructor <;> decide +kernel
example : ∃ sp tp nb ad, limTok.pos.native limTok.bank.bank = .ok sp ∧ t1.pos.native t1.bank.bank = .ok tp ∧ limTok.bank.bank.remainingNetBorrowsQuote (S / 2) = .ok nb ∧
    t1.bank.bank.remainingDepositsUntilLimit = .ok ad ∧ 200 * S ≤ 1000 * S ∧ (0 ≤ nb → (200 * S - max sp 0) * (S / 2) ≤ nb * S) ∧ (0 < 200 * S → 200 * S * S / S ≤ ad + max (-tp) 0) :=
  C70_swap_limits limTok t1 (S / 2) S (1000 * S) (200 * S) (by decide) (by decide) C70_swap_limit_exceeded.1

/-- the account is not liquidatable -/
example : isLiquidatable Fx.div cCache false = .ok false ∧ isLiquidatable Fx.div { cCache with tokens := [cTok 1 S (10 * S), cTok 2 (4 * S) (-3 * S)] } true = .ok true := by
  constructor <;> decide +kernel
/-- `C70_borrow_limit`: with 1000 deposited there is something to search for even if health is negative -/
example : ∃ hh, cCache.health cEnv.fd .init = .ok hh ∧ (got 0 (borrowLimit cEnv cCache (cTok 1 S (1000 * S)) (1000 * S)) ≤ 0 ↔ 1000 * S ≤ 0 ∧ hh * S < (cTok 1 S (1000 * S)).initScaledLiabWeight) :=
  C70_borrow_limit cEnv cCache (cTok 1 S (1000 * S)) (1000 * S) _ (by decide +kernel) (got_eq (by decide +kernel))

/-- `C70_max_swap_with_limits`: the swap of `cSwap` with limits -/
example : isOk (maxSwapWithLimits cEnv cCache t2 t1 (4 * S) (S / 10 * 26) (20 * S)) = true ∧ 0 < got 0 (maxSwapWithLimits cEnv cCache t2 t1 (4 * S) (S / 10 * 26) (20 * S)) := by
  constructor <;> decide +kernel
end Client
end Mango
