import Verif.Props.HealthUpdate
import Verif.Props.HealthStateEx
/-!
# Concrete cases for C57
-/
namespace Mango
namespace Health
open Fx Swap

def exState : AcctState := ⟨exBank, exPs, exOs, exPerps⟩

def updMarket : Perp.Market :=
  { baseLotSize := 10, maintBaseAssetWeight := S / 8 * 7, initBaseAssetWeight := S / 4 * 3, maintBaseLiabWeight := S / 8 * 9, initBaseLiabWeight := S / 4 * 5,
    initOverallAssetWeight := S / 2, stablePrice := 22 * S, shortFunding := S, longFunding := 3 * S }

/-- a withdrawal of 10 indexed units of token 1, an order placed in the spot market, a perp order -/
def exUpds : List Upd :=
  [.token 1 { exBank 1 with bank := { (exBank 1).bank with indexedDeposits := 490 * S } } (40 * S),
   .serum 0 { base := 1, quote := 0, baseFree := 1, quoteFree := 0, baseReserved := 12, quoteReserved := 70, lowestAsk := 0, highestBidInv := S / 5 },
   .perp 0 updMarket { base := -3, quote := 900 * S, bids := 5, asks := 4, takerBase := 1 }]

/-- health by updating in place and from scratch -/
def bothWays (st0 : AcctState) (us : List Upd) (h : HT) : Res (Int × Int) := do
  let c0 ← accountCache (fun x => x) 164 st0.banks st0.ps st0.os st0.perps
  let (st, c) ← updates (fun x => x) st0 c0 us
  let v ← c.health Fx.div h
  let w ← accountHealth (fun x => x) Fx.div 164 st.banks st.ps st.os st.perps h
  .ok (v, w)

theorem exUpds_ok : AllOk 164 exState exUpds := by
  refine ⟨?_, ?_, ?_, trivial⟩
  · intro p hp
    have : p = ⟨1, 50 * S⟩ := by
      have : exState.ps[1]? = some ⟨1, 50 * S⟩ := rfl
      rw [this] at hp
      exact (Option.some.inj hp).symm
    subst this
    exact ⟨rfl, rfl, rfl, rfl, rfl, rfl, rfl, rfl, rfl⟩
  · intro o ho
    have e : o = { base := 1, quote := 0, baseFree := 3, quoteFree := 20, baseReserved := 10, quoteReserved := 50, lowestAsk := 0, highestBidInv := S / 5 } := (Option.some.inj ho).symm
    subst e
    exact ⟨rfl, rfl, rfl⟩
  · exact ⟨_, rfl, rfl, rfl⟩



/-- the hypotheses of C57 are met; maintenance and liquidation-end health agree -/
theorem exBoth : (bothWays exState exUpds .maint).toOption = some (137271827704577988, 137271827704577988) ∧
    (bothWays exState exUpds .liqEnd).toOption = some (57069051528085449, 57069051528085449) := by decide +kernel

/-- a token with oracle price 10 and stable price 1, 500 of them deposited, asset weight scaled down above a value of 1000; the account owes 100 quote tokens and holds 250 -/
def gapBank (ti : Nat) : BankIn :=
  if ti = 0 then exBank 0
  else
    { bank := { depositIndex := S, borrowIndex := S, indexedDeposits := 500 * S, indexedBorrows := 0, stablePrice := S,
                maintAssetWeight := S / 8 * 7, initAssetWeight := S / 4 * 3, maintLiabWeight := S / 8 * 9, initLiabWeight := S / 4 * 5 },
      depositScaleStart := 1000, oracle := 10 * S }
def gapState : AcctState := ⟨gapBank, [⟨0, 0⟩, ⟨1, 250 * S⟩], [], []⟩
/-- withdraw 50 of the token, borrow 100 quote tokens -/
def gapUpds : List Upd :=
  [.token 0 { exBank 0 with bank := { (exBank 0).bank with indexedBorrows := 200 * S } } (-100 / 3 * S),
   .token 1 { gapBank 1 with bank := { (gapBank 1).bank with indexedDeposits := 450 * S } } (200 * S)]

/-- **C57, the gap** Where the lower and the higher price give different scaling, the check at the end of an instruction is more lenient than the one of the next instruction: here the init health
in place is positive and the same account's init health from scratch is negative. -/
theorem C57_post_check_more_lenient : (bothWays gapState gapUpds .init).toOption.any (fun x => decide (x.1 > 0 ∧ x.2 < 0)) = true := by decide +kernel

end Health
end Mango
