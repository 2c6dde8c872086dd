import Verif.Props.Match3
/-! # Concrete markets for C18–C22, C27, and two refutations

`exSt` has two resting bids (100 × 5 and 40 × 5, by accounts 1 and 2).  It meets `Setup` for the orders below. -/
namespace Mango
namespace Perp
open Book Fx

def exMk : Market :=
  { maintBaseAssetWeight := 0, maintBaseLiabWeight := 100 * S, seqNum := 2, takerFee := S / 1000, makerFee := S / 2000, makerFeeF32 := S / 2000, feePenalty := S }
def exBid (p seq : Nat) (q : Int) (ow : Nat) : Leaf :=
  { ownerSlot := 0, orderType := 0, timeInForce := 0, key := newNodeKey .bid p seq, owner := ow, quantity := q, timestamp := 0, pegLimit := -1, clientOrderId := 0 }
def exBidOps : List TOp := [.insert .fixed (exBid 100 1 5 1), .insert .fixed (exBid 40 2 5 2)]
def exBids : BookSide := (trun (BookSide.init true 10) exBidOps).2
def exQ : Queue := EventQueue.init (.out ⟨.bid, 0, 0, 0, 0, 0, 0⟩) 8
def exSt : NOState :=
  { market := exMk, acct := { pos := some {}, oos := [{}] }, book := ⟨exBids, BookSide.init false 10⟩, queue := exQ }
def exSp : Side → SpecSide
  | .bid => ⟨[exBid 40 2 5 2, exBid 100 1 5 1], []⟩
  | .ask => ⟨[], []⟩

theorem exQ_inv : EventQueue.Inv exQ := (EventQueue.init_rel _ 8 (by omega)).1

theorem exLive : LiveBook exSt.book exSp := by
  have h := (trun_sim (sim_init true 10 (by decide)) exBidOps (by
    intro op hop
    simp only [exBidOps, List.mem_cons, List.not_mem_nil, or_false] at hop
    rcases hop with rfl | rfl <;> (simp only [TOp.ok]; decide +kernel))).2
  have e : (specRun (BookSide.init true 10).nodes.nodes.length ⟨[], []⟩ exBidOps).2 = exSp .bid := by decide +kernel
  rw [e] at h
  refine ⟨⟨?_, ?_, ?_⟩, ?_, ?_⟩
  · intro sd
    cases sd
    · exact h.1
    · exact sim_init false 10 (by decide)
  · intro sd; cases sd <;> rfl
  · intro sd; cases sd <;> simp [exSp, SpecSide.good, goodFixed] <;> decide +kernel
  · intro sd c; cases sd <;> cases c <;> simp [exSp, SpecSide.get, exBid]
  · intro sd; cases sd <;> simp [exSp] <;> decide +kernel

/-- the setup of C18–C22, C27 holds for every well-typed order against this market -/
theorem exSetup {o : Order} (ht : o.Typed) (hb : 0 ≤ o.maxBase) (hq : 0 ≤ o.maxQuote) : Setup o exSt exSp :=
  ⟨ht, hb, hq, exLive, exQ_inv⟩

def exSell : Order := { side := .ask, maxBase := 7, maxQuote := 1000, params := .fixed 30 .limit }
def exIoc : Order := { side := .ask, maxBase := 7, maxQuote := 1000, params := .ioc 30 }
def exPostOnly : Order := { side := .ask, maxBase := 7, maxQuote := 1000, params := .fixed 30 .postOnly }
def exSlide : Order := { side := .ask, maxBase := 7, maxQuote := 1000, params := .fixed 30 .postOnlySlide }
def exDeep : Order := { side := .ask, maxBase := 20, maxQuote := 10000, params := .fixed 50 .limit }
def exTight : Order := { side := .ask, maxBase := 10, maxQuote := 150, params := .market }
def exTightPost : Order := { side := .ask, maxBase := 10, maxQuote := 150, params := .fixed 45 .limit }

/-- what an order does: its result id, its fills as (maker, price, quantity, makerOut), its taker lots, the fees -/
structure ExFill where
  maker : Nat
  price : Int
  quantity : Int
  makerOut : Bool
  deriving DecidableEq, Repr
structure ExPos where
  takerBase : Int
  takerQuote : Int
  quote : Int
  deriving DecidableEq, Repr
structure ExRes where
  id : Option Nat
  fills : List ExFill
  pos : Option ExPos
  fees : Int
  deriving DecidableEq, Repr
def exResult (o : Order) (taker : Nat) : Option ExRes :=
  match newOrder o (100 * S) taker 7 10 exSt with
  | .ok (r, s') => some ⟨r, (fillsOf s'.queue.toList).map (fun f => ⟨f.maker, f.price, f.quantity, f.makerOut⟩),
      s'.acct.pos.map (fun p => ⟨p.takerBase, p.takerQuote, p.quote⟩), s'.market.feesAccrued⟩
  | .error _ => none

-- C18, C19, C21: two fills, best price first, nothing left to post
example : exSell.Typed ∧ exResult exSell 3 =
    some ⟨none, [⟨1, 100, 5, true⟩, ⟨2, 40, 2, false⟩], some ⟨-7, 580, -163255486491800⟩, 163255486491800 + 580 * (S / 2000)⟩ := by
  refine ⟨⟨by decide, by decide, by simp only [exSell]; decide⟩, by decide +kernel⟩
-- C27: the penalty of an immediate-or-cancel order
example : exIoc.Typed ∧ exResult exIoc 3 =
    some ⟨none, [⟨1, 100, 5, true⟩, ⟨2, 40, 2, false⟩], some ⟨-7, 580, -163255486491800 - S⟩, 163255486491800 + 580 * (S / 2000) + S⟩ := by
  refine ⟨⟨by decide, by decide, by simp only [exIoc]; decide⟩, by decide +kernel⟩
-- C20: a crossing post-only order is not posted and nothing trades; a sliding one is posted just above the best bid
example : exPostOnly.Typed ∧ exResult exPostOnly 3 = some ⟨none, [], some ⟨0, 0, 0⟩, 0⟩ := by
  refine ⟨⟨by decide, by decide, by simp only [exPostOnly]; decide⟩, by decide +kernel⟩
example : exSlide.Typed ∧ exResult exSlide 3 = some ⟨some (newNodeKey .ask 101 3), [], some ⟨0, 0, 0⟩, 0⟩ := by
  refine ⟨⟨by decide, by decide, by simp only [exSlide]; decide⟩, by decide +kernel⟩
-- C21: partial fill, the rest is posted
example : exDeep.Typed ∧ exResult exDeep 3 = some ⟨some (newNodeKey .ask 50 3), [⟨1, 100, 5, true⟩], some ⟨-5, 500, -140737488355000⟩, 140737488355000 + 500 * (S / 2000)⟩ := by
  refine ⟨⟨by decide, by decide, by simp only [exDeep]; decide⟩, by decide +kernel⟩
-- C22: account 1 sells into its own bid: aborted, cancelled, or traded without fees
example : exResult { exSell with selfTrade := .abortTransaction } 1 = none ∧
    exResult { exSell with selfTrade := .cancelProvide } 1 =
      some ⟨some (newNodeKey .ask 30 3), [⟨2, 40, 5, true⟩], some ⟨-5, 200, -56294995342000⟩, 56294995342000 + 200 * (S / 2000)⟩ ∧
    exResult { exSell with selfTrade := .decrementTake } 1 =
      some ⟨none, [⟨1, 100, 5, true⟩, ⟨2, 40, 2, false⟩], some ⟨-7, 580, -22517998136800⟩, 22517998136800 + 80 * (S / 2000)⟩ := by
  decide +kernel
-- hypotheses of C22_abort for account 1's order against its own best bid
example : offerAt (exSp .bid) .bid 7 100 .fixed (exBid 100 1 5 1) 100 ∧
    (∀ c' x q, offerAt (exSp .bid) .bid 7 100 c' x q → (c' = .fixed ∧ x = exBid 100 1 5 1) ∨ before .bid 100 q (exBid 100 1 5 1) x) ∧
    acceptable exSell 100 100 := by
  refine ⟨⟨by simp [exSp, SpecSide.get], ?_, by decide +kernel⟩, ?_, ?_⟩
  · simp [timedOut, exBid]
  · rintro c' x q ⟨hx, _, hq⟩
    cases c'
    · simp only [exSp, SpecSide.get, List.mem_cons, List.not_mem_nil, or_false] at hx
      rcases hx with rfl | rfl
      · right
        left
        have : ((exBid 40 2 5 2).priceData : Int) = 40 := by decide +kernel
        simp only at hq
        rw [hq, this]; rfl
      · exact .inl ⟨rfl, rfl⟩
    · simp [exSp, SpecSide.get] at hx
  · unfold acceptable exSell limitOf; decide

/-- C19, refutation for sell orders: with a quote limit that binds, a sell order can leave the best bid standing and trade
with a worse one.  Selling with at most 150 quote lots against bids 100 × 5 and 40 × 5 trades one lot with each. -/
theorem C19_sell_can_skip : exTight.Typed ∧ Setup exTight exSt exSp ∧
    exResult exTight 3 = some ⟨none, [⟨1, 100, 1, false⟩, ⟨2, 40, 1, false⟩], some ⟨-2, 140, -39406496739400⟩, 39406496739400 + 140 * (S / 2000)⟩ := by
  have ht : exTight.Typed := ⟨by decide, by decide, by simp [exTight]⟩
  exact ⟨ht, exSetup ht (by decide) (by decide), by decide +kernel⟩

/-- C20, refutation for plain limit sell orders: with a quote limit that binds, the remainder can be posted at 45 although a
bid at 100 is still standing.  (Buy orders, post-only and sliding orders never cross: `C20_no_cross`, `C20_slide`.) -/
theorem C20_sell_can_cross : exTightPost.Typed ∧ Setup exTightPost exSt exSp ∧
    exResult exTightPost 3 = some ⟨some (newNodeKey .ask 45 3), [⟨1, 100, 1, false⟩], some ⟨-1, 100, -28147497671000⟩, 28147497671000 + 100 * (S / 2000)⟩ := by
  have ht : exTightPost.Typed := ⟨by decide, by decide, by simp only [exTightPost]; decide⟩
  exact ⟨ht, exSetup ht (by decide) (by decide), by decide +kernel⟩

end Perp
end Mango
