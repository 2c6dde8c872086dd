import Verif.Props.Posting
import Verif.Props.MatchEx
/-! # Concrete cases for C19 (complete), C21 (posting) and C75 -/
namespace Mango
namespace Perp
open Book Fx

-- C21_posted_exact: 5 of 20 lots trade at 100, the rest of the base limit rests at 50
example : (match newOrder exDeep (100 * S) 3 7 10 exSt with
    | .ok (r, s') => (r.isSome, tradedBase s'.queue.toList, tradedQuote s'.queue.toList, (Option.getD ((s'.book.get .ask).items 7 100).toOption []).map (fun i => (i.price, i.leaf.quantity)))
    | .error _ => (false, 0, 0, [])) = (true, 5, 500, [(50, 15)]) := by decide +kernel

-- C19_complete: selling for at most 150 leaves the best bid standing because 10 is less than its price
example : acceptable exTight 100 100 ∧ (match newOrder exTight (100 * S) 3 7 10 exSt with
    | .ok (_, s') => (exTight.maxQuote - tradedQuote s'.queue.toList, (Option.getD ((s'.book.get .bid).items 7 100).toOption []).map (fun i => (i.price, i.leaf.quantity)))
    | .error _ => (0, [])) = (10, [(100, 4), (40, 4)]) := by
  refine ⟨by unfold acceptable exTight limitOf; trivial, by decide +kernel⟩

/-- a bid side with three nodes, all used by two orders; the second runs out at time 6 -/
def pxBid2 : Leaf := { exBid 40 2 5 2 with timeInForce := 6 }
def pxOps : List TOp := [.insert .fixed (exBid 100 1 5 1), .insert .fixed pxBid2]
def pxSt : NOState := { exSt with book := ⟨(trun (BookSide.init true 3) pxOps).2, BookSide.init false 10⟩ }
def pxSp : Side → SpecSide
  | .bid => ⟨[pxBid2, exBid 100 1 5 1], []⟩
  | .ask => ⟨[], []⟩

theorem pxLive : LiveBook pxSt.book pxSp := by
  have h := (trun_sim (sim_init true 3 (by decide)) pxOps (by
    intro op hop
    simp only [pxOps, List.mem_cons, List.not_mem_nil, or_false] at hop
    rcases hop with rfl | rfl <;> (simp only [TOp.ok]; decide +kernel))).2
  have e : (specRun (BookSide.init true 3).nodes.nodes.length ⟨[], []⟩ pxOps).2 = pxSp .bid := by decide +kernel
  rw [e] at h
  refine ⟨⟨?_, ?_, ?_⟩, ?_, ?_⟩
  · intro sd
    cases sd
    · exact h.1
    · exact sim_init false 10 (by decide)
  · intro sd; cases sd <;> rfl
  · intro sd; cases sd <;> simp [pxSp, SpecSide.good, goodFixed] <;> decide +kernel
  · intro sd c; cases sd <;> cases c <;> simp [pxSp, pxBid2, SpecSide.get, exBid]
  · intro sd; cases sd <;> simp [pxSp] <;> decide +kernel

def pxBuy : Order := { side := .bid, maxBase := 3, maxQuote := 1000, params := .fixed 60 .limit }
theorem pxTyped : pxBuy.Typed := ⟨by decide, by decide, by simp only [pxBuy]; decide⟩
theorem pxSetup : Setup pxBuy pxSt pxSp := ⟨pxTyped, by decide, by decide, pxLive, exQ_inv⟩

/-- bids after the order, and (side, owner, quantity) of the out events -/
def pxResult (o : Order) (now : Nat) (st : NOState) : Option (List (Int × Int) × List (Nat × Int)) :=
  match newOrder o (100 * S) 3 now 10 st with
  | .ok (_, s') => some ((Option.getD ((s'.book.get .bid).items now 100).toOption []).map (fun i => (i.price, i.leaf.quantity)),
      (outsOf s'.queue.toList).map (fun e => (e.owner, e.quantity)))
  | .error _ => none

-- C75: at time 5 the side is full and the worst bid is evicted, at time 7 it leaves because its time is up
example : pxResult pxBuy 5 pxSt = some ([(100, 5), (60, 3)], [(2, 5)]) ∧ pxResult pxBuy 7 pxSt = some ([(100, 5), (60, 3)], [(2, 5)]) := by decide +kernel
-- a bid worse than the worst is refused while the side is full, and accepted when the expired order makes room
example : pxResult { pxBuy with params := .fixed 30 .limit } 5 pxSt = none ∧
    pxResult { pxBuy with params := .fixed 30 .limit } 7 pxSt = some ([(100, 5), (30, 3)], [(2, 5)]) := by decide +kernel
-- the new id is not on the book
example : ∀ c, ∀ l ∈ (pxSp .bid).get c, l.key ≠ newNodeKey .bid 60 3 := by
  intro c l hl
  cases c
  · simp only [pxSp, SpecSide.get, List.mem_cons, List.not_mem_nil, or_false] at hl
    rcases hl with rfl | rfl <;> decide +kernel
  · simp [pxSp, SpecSide.get] at hl

end Perp
end Mango
