import Verif.Props.Ledger
/-! # Concrete histories for C24–C26, C48 and counterexamples -/
namespace Mango
namespace Perp
open Book Fx

def txMk : Market :=
  { idx := 3, maintBaseAssetWeight := 0, maintBaseLiabWeight := 100 * S, takerFee := S / 1000, makerFee := S / 2000, makerFeeF32 := S / 2000, feePenalty := S }
def txFill : Event := .out ⟨.bid, 0, 0, 0, 0, 0, 0⟩
def txRun (ops : List POp) : PSys := prun (PSys.init txMk 12 8 txFill) ops

theorem ordersPlaced_le (ops : List POp) : ordersPlaced ops ≤ ops.length := by
  induction ops with
  | nil => simp [ordersPlaced]
  | cons o os ih =>
    have : o.orders ≤ 1 := by cases o <;> simp [POp.orders]
    simp only [ordersPlaced, List.map_cons, List.sum_cons, List.length_cons] at ih ⊢
    omega

theorem txReach {ops : List POp} (h1 : ∀ op ∈ ops, op.Typed) (h2 : ops.length < 100) : Reachable (txRun ops) :=
  ⟨txMk, 12, 8, txFill, ops, by decide, by decide, by decide, h1, by have := ordersPlaced_le ops; omega, rfl⟩

def txLimit (side : Side) (q p : Int) (cid : Nat) : Order := { side, maxBase := q, maxQuote := 100000, params := .fixed p .limit, clientId := cid }
def txIoc (side : Side) (q p : Int) : Order := { side, maxBase := q, maxQuote := 100000, params := .ioc p }
def txPlace (u : Nat) (o : Order) : POp := .place u o (100 * S) 7 10 true

theorem txPlace_typed (u : Nat) (side : Side) (q p : Int) (cid : Nat) (h : q ≤ 1000 ∧ -1000 ≤ p ∧ p ≤ 1000) : (txPlace u (txLimit side q p cid)).Typed := by
  refine ⟨?_, ?_, ?_⟩
  · simp only [txLimit]; unfold I64MAX; omega
  · simp only [txLimit]; decide
  · simp only [txLimit]; unfold I64MIN I64MAX; omega

/-- accounts 0 and 1 with 4 and 2 slots; 0 bids 10@100, 1 sells 4 into it, 0 cancels, 1 bids 3@90 -/
def txOps : List POp :=
  [.create 4, .create 2, txPlace 0 (txLimit .bid 10 100 11), txPlace 1 (txLimit .ask 4 100 12), .cancelClient 0 11, txPlace 1 (txLimit .bid 3 90 13)]

theorem txReach1 : Reachable (txRun txOps) := by
  apply txReach
  · intro op hop
    simp only [txOps, List.mem_cons, List.not_mem_nil, or_false] at hop
    rcases hop with rfl | rfl | rfl | rfl | rfl | rfl
    · exact True.intro
    · exact True.intro
    · exact txPlace_typed _ _ _ _ _ (by omega)
    · exact txPlace_typed _ _ _ _ _ (by omega)
    · exact True.intro
    · exact txPlace_typed _ _ _ _ _ (by omega)
  · decide

-- C24: account 0 has cancelled its order but 4 lots are still in a pending fill; account 1 has 3 lots resting and -4 taker lots
example : (pget (txRun txOps).accts 0).bids = 4 ∧ restingLots (txRun txOps) 0 .bid = 0 ∧ pendingFillLots (txRun txOps) 0 .bid = 4 ∧
    (pget (txRun txOps).accts 1).bids = 3 ∧ restingLots (txRun txOps) 1 .bid = 3 ∧ (pget (txRun txOps).accts 1).takerBase = -4 ∧
    (pget (txRun txOps).accts 1).takerQuote = 400 := by decide +kernel

/-- account 0 reuses the freed slot for another order before the fill is consumed -/
def txOps2 : List POp := txOps ++ [txPlace 0 (txLimit .ask 2 200 14)]

-- C26: the pending fill names slot 0 of account 0, which now holds another order; consuming leaves it alone, and applies the trade
example : (∃ f, (txRun txOps2).queue.peekFront = some (.fill f) ∧ f.maker = 0 ∧ f.makerSlot = 0 ∧ f.makerOut = false) ∧
    ((txRun txOps2).accts[0]?.map (fun a => a.oos.map OO.quantity)) = some [2, 0, 0, 0] ∧
    ((txRun (txOps2 ++ [.consume 8 [0, 1]])).accts[0]?.map (fun a => a.oos.map OO.quantity)) = some [2, 0, 0, 0] ∧
    (txRun (txOps2 ++ [.consume 8 [0, 1]])).accts.map (fun a => (posD a).base) = [4, -4] ∧
    (txRun (txOps2 ++ [.consume 8 [0, 1]])).market.openInterest = 8 := by
  refine ⟨?_, by decide +kernel⟩
  have h : (match (txRun txOps2).queue.peekFront with | some (.fill f) => decide (f.maker = 0 ∧ f.makerSlot = 0 ∧ f.makerOut = false) | _ => false) = true := by decide +kernel
  split at h
  · next f hf => exact ⟨f, hf, by simpa using h⟩
  · simp at h

-- C25: netQuote is the same before and after consumption, while positions change
example : netQuote (txRun txOps2) = netQuote (txRun (txOps2 ++ [.consume 8 [0, 1]])) ∧
    (txRun txOps2).accts.map (fun a => (posD a).quote) ≠ (txRun (txOps2 ++ [.consume 8 [0, 1]])).accts.map (fun a => (posD a).quote) ∧
    0 < (txRun txOps2).market.feesAccrued := by decide +kernel

/-- **Finding (C48).** A taker whose pending fills cancel out (bought 5 and sold 5 at 100) can deactivate its perp position although
its fills have not been consumed: consumption then fails on the first of them, for every set of accounts passed, and the event
queue of the market is stuck. -/
def txStuck : List POp :=
  [.create 4, .create 4, .create 4, txPlace 0 (txLimit .ask 5 100 1), txPlace 1 (txLimit .bid 5 100 2), txPlace 0 (txLimit .bid 5 100 3), txPlace 1 (txLimit .ask 5 100 4),
    .market { txMk with takerFee := 0 }, .deactivate 1]

def txFree : List POp := .market { txMk with takerFee := 0, makerFee := 0, makerFeeF32 := 0 } :: txStuck

theorem C48_deactivate_blocks_queue :
    ((txRun txFree).accts.map PAcct.pos)[1]? = some none ∧ (txRun txFree).queue.count = 2 ∧
    pstep (txRun txFree) (.consume 8 [0, 1, 2]) = .error .perpPositionDoesNotExist ∧
    pstep (txRun (txFree ++ [.close 1])) (.consume 8 [0, 1, 2]) = .error .perpPositionDoesNotExist ∧
    ((txRun (txFree ++ [.close 1])).accts[1]?.map (fun a => a.oos.length)) = some 0 := by decide +kernel

/-- **Finding (C48).** Shrinking an account below a slot that is free again but still named by a pending event makes
consumption of that event fail (an out-of-range slot access). -/
def txShrink : List POp :=
  [.create 4, .create 2, txPlace 0 (txLimit .bid 1 50 1), txPlace 0 (txLimit .bid 10 100 11), txPlace 1 (txLimit .ask 4 100 12), .cancelClient 0 11, .resize 0 1]

theorem C48_shrink_blocks_queue :
    (txRun txShrink).queue.count = 1 ∧ pstep (txRun txShrink) (.consume 8 [0, 1]) = .error .panic ∧
    (∃ s, pstep (txRun (txShrink.dropLast)) (.consume 8 [0, 1]) = .ok s) := by
  refine ⟨by decide +kernel, by decide +kernel, ?_⟩
  have h : (match pstep (txRun (txShrink.dropLast)) (.consume 8 [0, 1]) with | .ok _ => true | .error _ => false) = true := by decide +kernel
  split at h
  · next s hs => exact ⟨s, hs⟩
  · simp at h

/-- **Finding (C25).** Force-closing does not settle funding first: two opposite positions of 4 lots with unsettled funding of one
unit per lot (long pays, short receives twice as much) lose it: `netQuote` changes. -/
def txForce : List POp :=
  [.create 4, .create 2, txPlace 0 (txLimit .bid 4 100 11), txPlace 1 (txLimit .ask 4 100 12), .consume 8 [0, 1],
    .market { txMk with forceClose := true, longFunding := S, shortFunding := 2 * S }]

theorem C25_force_close_loses_funding :
    netQuote (txRun (txForce ++ [.forceClose 0 1 (100 * S)])) = netQuote (txRun txForce) - 4 * S ∧
    (txRun txForce).accts.map (fun a => owed (txRun txForce).market (posD a)) = [4 * S, -8 * S] ∧
    (txRun (txForce ++ [.forceClose 0 1 (100 * S)])).accts.map (fun a => (posD a).base) = [0, 0] := by decide +kernel

end Perp
end Mango
