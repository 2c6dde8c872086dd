import Verif.Props.SerumPotential
import Verif.Props.HealthUpdate
/-!
# Concrete cases for C58, C59 and C60, and two flaws of the program
-/
namespace Mango
namespace Serum
open Fx Health

/-- result of a computation that succeeds -/
def got {α : Type} (d : α) : Res α → α
  | .ok x => x
  | .error _ => d
def isOk {α : Type} : Res α → Bool
  | .ok _ => true
  | .error _ => false
theorem got_eq {α : Type} {d : α} {r : Res α} (h : isOk r = true) : r = .ok (got d r) := by
  cases r with
  | ok x => rfl
  | error e => simp [isOk] at h

/-- token 0: quote, price 1; token 1: base, price 5; fee rate 1/128 -/
def exQ : BankIn :=
  { bank := { depositIndex := S, borrowIndex := S, indexedDeposits := 10000 * S, indexedBorrows := 100 * S, stablePrice := S, loanOriginationFeeRate := S / 128,
              maintAssetWeight := S, initAssetWeight := S, maintLiabWeight := S, initLiabWeight := S, depositLimit := 50000 },
    oracle := S }
def exB : BankIn :=
  { bank := { depositIndex := S, borrowIndex := S, indexedDeposits := 3000 * S, indexedBorrows := 100 * S, stablePrice := 5 * S, loanOriginationFeeRate := S / 128,
              maintAssetWeight := S / 8 * 7, initAssetWeight := S / 4 * 3, maintLiabWeight := S / 8 * 9, initLiabWeight := S / 4 * 5, depositLimit := 5000 },
    oracle := 5 * S }
/-- 100 base tokens, 50 quote tokens, an empty open orders account -/
def ex0 : Acct :=
  { baseBank := exB, quoteBank := exQ, basePos := ⟨100 * S, 1, 0⟩, quotePos := ⟨50 * S, 1, 0⟩, orders := { base := 1, quote := 0, market := 7 }, oo := {}, baseVault := 2900, quoteVault := 9900 }
/-- health cache of an account with nothing else -/
def cacheOf (a : Acct) : Res Cache := do
  let o ← view a.orders a.oo
  accountCache id 0 (fun t => if t = 0 then a.quoteBank else a.baseBank) [⟨0, a.quotePos.indexed⟩, ⟨1, a.basePos.indexed⟩] [o] []
/-- the cache if it can be computed -/
def cch (a : Acct) : Cache := got ⟨[], [], []⟩ (cacheOf a)
/-- a bid for 20 base tokens at price 5: 100 quote tokens, 50 of them borrowed -/
def exBid : PlaceArgs := { side := .bid, lots := 5, maxBase := 20, maxQuote := 100, baseLot := 1, quoteLot := 1, v2 := true, now := 1000, band := some 1, receiverMarkets := [7] }
def exBidDex : PlaceDex := { hadBids := false, hadAsks := false, oo := { quoteTotal := 100 }, vault := 9800, onBook := true }
def exR1 : Res (Acct × Account.Liq × Cache) := placeOrder id Fx.div false (cch ex0) ⟨false⟩ ex0 exBid exBidDex
def ex1 : Acct := (got (ex0, ⟨false⟩, cch ex0) exR1).1
theorem exR1_ok : exR1 = .ok (got (ex0, ⟨false⟩, cch ex0) exR1) := got_eq (by decide +kernel)
/-- an ask for 30 base tokens at price 6 -/
def exAsk : PlaceArgs := { side := .ask, lots := 6, maxBase := 30, maxQuote := 1000, baseLot := 1, quoteLot := 1, v2 := true, now := 1010, band := some 1, receiverMarkets := [7] }
def exAskDex : PlaceDex := { hadBids := true, hadAsks := false, oo := { quoteTotal := 100, baseTotal := 30 }, vault := 2870, onBook := true }
def exR2 : Res (Acct × Account.Liq × Cache) := placeOrder id Fx.div false (cch ex1) ⟨false⟩ ex1 exAsk exAskDex
def ex2 : Acct := (got (ex1, ⟨false⟩, cch ex1) exR2).1
theorem exR2_ok : exR2 = .ok (got (ex1, ⟨false⟩, cch ex1) exR2) := got_eq (by decide +kernel)
/-- 16 of the 20 base tokens are bought; a rebate of 3 -/
def ex3 : Acct := { ex2 with oo := { baseFree := 16, baseTotal := 46, quoteTotal := 20, rebates := 3 } }
/-- settling pays 16 base tokens; the rebate goes to the fees -/
def exR4 : Res (Acct × Buyback.BB) := settleFunds id ex3 ⟨0, 0, 0⟩ true none { baseTotal := 30, quoteTotal := 20 } 2886 9803 1020
def ex4 : Acct := (got (ex3, ⟨0, 0, 0⟩) exR4).1
theorem exR4_ok : exR4 = .ok (got (ex3, ⟨0, 0, 0⟩) exR4) := got_eq (by decide +kernel)


theorem exBanks (a : Acct) (h : (a.baseBank.bank.depositIndex > 0 ∧ a.baseBank.bank.borrowIndex > 0 ∧ 0 ≤ a.baseBank.bank.loanOriginationFeeRate) ∧
    a.quoteBank.bank.depositIndex > 0 ∧ a.quoteBank.bank.borrowIndex > 0 ∧ 0 ≤ a.quoteBank.bank.loanOriginationFeeRate) : BanksOk a := by
  intro t
  obtain ⟨⟨h1, h2, h3⟩, h4, h5, h6⟩ := h
  cases t
  · exact ⟨⟨h1, h2⟩, h3⟩
  · exact ⟨⟨h4, h5⟩, h6⟩

theorem allTok {P : Tok → Prop} (h1 : P .base) (h2 : P .quote) (t : Tok) : P t := by cases t <;> assumption

/-- **C58, a case.** 50 borrowed; when 80 of the 100 quote tokens have been spent, the fee is due on the 30 of the loan that are not covered by the 20 left; the rest stays open. -/
theorem exHistory : ∃ l, History id (fun _ _ => True) (fun _ _ => True) ex4 l ∧ l.borrowed .quote = 50 ∧ l.charged .quote = 30 ∧ ex4.counter .quote = 20 ∧ l.borrowed .base = 0 ∧
    ex4.quoteBank.bank.collectedFeesNative = 30 * (S / 128) + 3 * S := by
  have h0 : History id (fun _ _ => True) (fun _ _ => True) ex0 ⟨fun _ => 0, fun _ => 0, fun _ => 0⟩ :=
    .opened ex0 (exBanks _ (by decide)) (allTok (by decide) (by decide)) (allTok rfl rfl)
  have h1 := h0.place exR1_ok (allTok (by decide +kernel) (by decide +kernel)) trivial
  have h2 := h1.place exR2_ok (allTok (by decide +kernel) (by decide +kernel)) trivial
  have h3 : History id (fun _ _ => True) (fun _ _ => True) ex3 _ :=
    h2.other (a' := ex3) (exBanks _ (by decide +kernel)) (allTok (by decide +kernel) (by decide +kernel)) (allTok rfl rfl) trivial
  have h4 := h3.settle exR4_ok (allTok (by decide +kernel) (by decide +kernel)) trivial
  refine ⟨_, h4, ?_, ?_, ?_, ?_, ?_⟩ <;> decide +kernel

/-- orders after the two placements, and after the trade -/
def exOrders : List Rest := [⟨.ask, 6, 30⟩, ⟨.bid, 5, 100⟩]
def exLeft : List Rest := [⟨.ask, 6, 30⟩, ⟨.bid, 5, 20⟩]

/-- **C59, a case.** A bid at 5 and an ask at 6 are on the book; after settling, the worst prices are remembered, the reserved amounts are those of the orders, and the banks know what may still arrive. -/
theorem exTrace : Trace id 1 1 ex4 exLeft exOrders ∧ ex4.orders.lowestAsk = 6 ∧ ex4.orders.highestBidInv = 1 / 5 ∧
    ex4.oo.baseTotal - ex4.oo.baseFree = reservedOf .ask exLeft ∧ ex4.oo.quoteTotal - ex4.oo.quoteFree = reservedOf .bid exLeft ∧ delivers id 1 1 .bid exLeft = 4 ∧
    (newPotentialBase id ex4.orders ex4.oo).toOption = some 34 ∧ (view ex4.orders ex4.oo).toOption.isSome = true := by
  have n : ∀ s, ¬ HasSide [] s := by intro s ⟨o, ho, _⟩; simp at ho
  have h0 : Trace id 1 1 ex0 [] [] := .opened ex0 (exBanks _ (by decide)) ⟨rfl, rfl, rfl, rfl⟩
  have h1 := h0.place (q := 100) (x := exBid) (d := exBidDex) rfl rfl (by simp [exBidDex, n]) (by simp [exBidDex, n]) exR1_ok
  have h2 := h1.place (q := 30) (x := exAsk) (d := exAskDex) rfl rfl
    (by simp [exAskDex, HasSide, exBidDex, exBid]) (by simp [exAskDex, HasSide, exBidDex, exBid]) exR2_ok
  have h3 : Trace id 1 1 ex3 exLeft exOrders := by
    refine h2.other (a' := ex3) (exBanks _ (by decide +kernel)) ⟨rfl, rfl, rfl, rfl⟩ ?_
    intro o ho
    simp only [exLeft, List.mem_cons, List.not_mem_nil, or_false] at ho
    rcases ho with rfl | rfl
    · exact ⟨⟨.ask, 6, 30⟩, by simp [exBidDex, exAskDex, exAsk], rfl, rfl⟩
    · exact ⟨⟨.bid, 5, 100⟩, by simp [exBidDex, exAskDex, exAsk, exBid], rfl, rfl⟩
  have h4 : Trace id 1 1 ex4 exLeft exOrders := h3.settle exR4_ok
  refine ⟨h4, ?_, ?_, ?_, ?_, ?_, ?_, ?_⟩ <;> decide +kernel

theorem ex1_toks : ex1.orders.base = 1 ∧ ex1.orders.quote = 0 := by decide +kernel

/-- the group with the account after its first order -/
theorem exReach1 : Reach id ⟨[(0, ex1.quoteBank.bank), (1, ex1.baseBank.bank)], [ex1.orders]⟩ := by
  have h : Reach id ⟨[(0, exQ.bank), (1, exB.bank)], [ex0.orders]⟩ := ((Reach.start.bank (tok := 0) (b := exQ.bank) rfl).bank (tok := 1) (b := exB.bank) rfl).opens (s := ex0.orders) (allTok rfl rfl)
  have := Reach.instr (a := ex0) (a' := ex1) (i := 0) (bi := 1) (qi := 0) h (exBanks _ (by decide)) rfl (by decide) rfl rfl (.place _ _ _ _ _ _ _ _ exR1_ok)
  simpa [Sys.write, ex1_toks] using this

/-- **C60, a case.** The bid counts with the 100 quote tokens that may come back and the 20 base tokens that may arrive. -/
theorem exReach1_pots : Sys.counted ⟨[(0, ex1.quoteBank.bank), (1, ex1.baseBank.bank)], [ex1.orders]⟩ 0 = 100 ∧
    Sys.counted ⟨[(0, ex1.quoteBank.bank), (1, ex1.baseBank.bank)], [ex1.orders]⟩ 1 = 20 := by decide +kernel

/-! ## A token with two banks -/

/-- the order is cancelled; the funds are then settled through the second bank of the quote token -/
def ex5 : Acct := { ex1 with oo := { quoteFree := 100, quoteTotal := 100 }, quoteBank := exQ, quotePos := ex1.quotePos }
def exR6 : Res (Acct × Buyback.BB) := settleFunds id ex5 ⟨0, 0, 0⟩ true none {} 2900 10000 1020
def ex6 : Acct := (got (ex5, ⟨0, 0, 0⟩) exR6).1
theorem exR6_ok : exR6 = .ok (got (ex5, ⟨0, 0, 0⟩) exR6) := got_eq (by decide +kernel)

/-- **C60, the limit of the claim.** With two banks for a token the counters can stay above what the open orders accounts hold, here 100 against 0, and no later instruction on these accounts brings
the first bank down again: its deposit limit stays used up. -/
theorem C60_two_banks_drift : ∃ σ : Sys, Reach id σ ∧ σ.actual 0 = 0 ∧ σ.counted 0 = 100 := by
  have h : Reach id ⟨[(0, exQ.bank), (1, exB.bank), (0, exQ.bank)], [ex0.orders]⟩ :=
    (((Reach.start.bank (tok := 0) (b := exQ.bank) rfl).bank (tok := 1) (b := exB.bank) rfl).bank (tok := 0) (b := exQ.bank) rfl).opens (s := ex0.orders) (allTok rfl rfl)
  have h1 : Reach id ⟨[(0, ex1.quoteBank.bank), (1, ex1.baseBank.bank), (0, exQ.bank)], [ex1.orders]⟩ := by
    have := Reach.instr (a := ex0) (a' := ex1) (i := 0) (bi := 1) (qi := 0) h (exBanks _ (by decide)) rfl (by decide) rfl rfl (.place _ _ _ _ _ _ _ _ exR1_ok)
    simpa [Sys.write, ex1_toks] using this
  have h2 : Reach id ⟨[(0, ex1.quoteBank.bank), (1, ex6.baseBank.bank), (0, ex6.quoteBank.bank)], [ex6.orders]⟩ := by
    have e : ex6.orders.base = 1 ∧ ex6.orders.quote = 0 := by decide +kernel
    have := Reach.instr (a := ex5) (a' := ex6) (i := 0) (bi := 1) (qi := 2) h1 (exBanks _ (by decide +kernel)) rfl (by decide) (by simp [ex5, ex1_toks]) (by simp [ex5, ex1_toks])
      (.settle _ _ _ _ _ _ _ _ exR6_ok)
    simpa [Sys.write, e] using this
  exact ⟨_, h2, by decide +kernel, by decide +kernel⟩

/-! ## Finding 18: cancelling for a liquidation does not see the fee it charges -/

/-- 70 base tokens, 30 more reserved in asks at price 1, a debt of 374.8; a loan of 50 whose tokens have been spent -/
def liq0 : Acct :=
  { baseBank := exB, quoteBank := { exQ with bank := { exQ.bank with indexedBorrows := 1000 * S } }, basePos := ⟨70 * S, 1, 0⟩, quotePos := ⟨-(3748 * S / 10), 1, 0⟩,
    orders := { base := 1, quote := 0, market := 7, quoteBorrows := 50, lowestAsk := 1, highestAsk := 1, potentialBase := 30, potentialQuote := 30 }, oo := { baseTotal := 30 }, baseVault := 2900, quoteVault := 9900 }
def liqR : Res (Account.Liq × Option (Acct × Cache)) := forceCancel id Fx.div (cch liq0) ⟨true⟩ false false liq0 ⟨0, 0, 0⟩ {} 2930 9900 1020

/-- health for the end of liquidation before, as the instruction sees it at its end, and as the next instruction computes it; and whether the account is still marked as being liquidated -/
def liqHealths : Res (Int × Int × Int × Bool) := do
  let c0 ← cacheOf liq0
  let h0 ← c0.health Fx.div .liqEnd
  let (f, r) ← liqR
  match r with
  | none => .error .someError
  | some (a, c) => do
    let h1 ← c.health Fx.div .liqEnd
    let d ← cacheOf a
    let h2 ← d.health Fx.div .liqEnd
    .ok (h0, h1, h2, f.being)

/-- **Finding 18.** serum3_liq_force_cancel_orders computes the health before charging the loan fees and never subtracts them: the account leaves liquidation although its health is below zero. -/
theorem forceCancel_misses_fee : liqHealths.toOption.any (fun x => decide (x.1 < 0 ∧ 0 ≤ x.2.1 ∧ x.2.2.1 < 0 ∧ x.2.2.2 = false)) = true := by decide +kernel

end Serum
end Mango
