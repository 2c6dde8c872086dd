import Verif.Props.SerumLoans
import Verif.Props.StablePrice
import Verif.Tcs.Lemmas
import Mathlib.Tactic.FieldSimp
/-!
# C59: spot orders are valued at the worst price they were placed at
-/
namespace Mango
namespace Serum
open Fx Bank

/-- an order in the open orders account: limit price in lots and the reserved native tokens (quote for a bid, base for an ask) -/
structure Rest where
  side : Side
  lots : Int
  reserved : Int

/-- limit price as the program computes it, native quote per native base -/
def Rest.price (rnd : ℚ → ℚ) (bl ql : Int) (o : Rest) : ℚ := limitPrice rnd o.lots bl ql
/-- its inverse as the program computes it -/
def Rest.inv (rnd : ℚ → ℚ) (bl ql : Int) (o : Rest) : ℚ := rnd (1 / o.price rnd bl ql)

def SamePrices (s s' : Orders) : Prop :=
  s'.highestBidInv = s.highestBidInv ∧ s'.lowestBidInv = s.lowestBidInv ∧ s'.lowestAsk = s.lowestAsk ∧ s'.highestAsk = s.highestAsk

/-- orders can be filled and cancelled but keep side and price, and no order appears -/
def Shrinks (os os' : List Rest) : Prop := ∀ o ∈ os', ∃ p ∈ os, p.side = o.side ∧ p.lots = o.lots

def HasSide (os : List Rest) (s : Side) : Prop := ∃ o ∈ os, o.side = s

/-- History of one open orders account. `os`: the orders in it; `placed`: the orders that went on the book since its side was last empty when an order was placed. -/
inductive Trace (rnd : ℚ → ℚ) (bl ql : Int) : Acct → List Rest → List Rest → Prop
  | opened (a : Acct) : BanksOk a → SamePrices { base := 0, quote := 0, market := 0 } a.orders → Trace rnd bl ql a [] []
  | place {a a' : Acct} {os placed : List Rest} {fd : Health.FDiv} {reg : Bool} {c c' : Health.Cache} {f f' : Account.Liq} {x : PlaceArgs} {d : PlaceDex} {q : Int} :
      Trace rnd bl ql a os placed → x.baseLot = bl → x.quoteLot = ql → (d.hadBids = true ↔ HasSide os .bid) → (d.hadAsks = true ↔ HasSide os .ask) →
      placeOrder rnd fd reg c f a x d = .ok (a', f', c') →
      Trace rnd bl ql a' ((if d.onBook then [⟨x.side, x.lots, q⟩] else []) ++ os)
        ((if d.onBook then [⟨x.side, x.lots, q⟩] else []) ++ placed.filter (fun o => match o.side with | .bid => d.hadBids | .ask => d.hadAsks))
  | settle {a a' : Acct} {os placed : List Rest} {bb bb' : Buyback.BB} {dao : Bool} {price : Option (I80F48 × Int)} {after : OO} {vb vq now : Int} :
      Trace rnd bl ql a os placed → settleFunds rnd a bb dao price after vb vq now = .ok (a', bb') → Trace rnd bl ql a' os placed
  | cancel {a a' : Acct} {os os' placed : List Rest} {fd : Health.FDiv} {c c' : Health.Cache} {f f' : Account.Liq} {fr fc : Bool} {bb : Buyback.BB} {after : OO} {vb vq now : Int} :
      Trace rnd bl ql a os placed → forceCancel rnd fd c f fr fc a bb after vb vq now = .ok (f', some (a', c')) → Shrinks os os' → Trace rnd bl ql a' os' placed
  | other {a a' : Acct} {os os' placed : List Rest} : Trace rnd bl ql a os placed → BanksOk a' → SamePrices a.orders a'.orders → Shrinks os os' → Trace rnd bl ql a' os' placed

/-! ## Prices -/

theorem rnd_pos {rnd : ℚ → ℚ} {ε x : ℚ} (R : Stable.IsRnd rnd ε) (h : 0 < x) : 0 < rnd x := by
  have := Stable.rnd_ge R h.le
  have := mul_pos h (show 0 < 1 - ε by linarith [R.eps1])
  linarith

theorem limitPrice_pos {rnd : ℚ → ℚ} {ε : ℚ} (R : Stable.IsRnd rnd ε) {lots bl ql : Int} (hl : 0 < lots) (hb : 0 < bl) (hq : 0 < ql) : 0 < limitPrice rnd lots bl ql := by
  have h1 := rnd_pos R (show (0 : ℚ) < (lots : ℚ) by exact_mod_cast hl)
  have h2 := rnd_pos R (show (0 : ℚ) < (bl : ℚ) by exact_mod_cast hb)
  have h3 := rnd_pos R (show (0 : ℚ) < (ql : ℚ) by exact_mod_cast hq)
  exact rnd_pos R (div_pos (rnd_pos R (mul_pos h1 h3)) h2)

theorem rnd_inv_pos {rnd : ℚ → ℚ} {ε x : ℚ} (R : Stable.IsRnd rnd ε) (h : 0 < x) : 0 < rnd (1 / x) := rnd_pos R (one_div_pos.mpr h)

/-- what the tracked prices say about the orders -/
structure Tracked (rnd : ℚ → ℚ) (bl ql : Int) (s : Orders) (os placed : List Rest) : Prop where
  lots : ∀ o ∈ os ++ placed, 0 < o.lots
  sub : ∀ o ∈ os, ∃ p ∈ placed, p.side = o.side ∧ p.lots = o.lots
  ask : ∀ o ∈ placed, o.side = .ask → 0 < s.lowestAsk ∧ s.lowestAsk ≤ o.price rnd bl ql ∧ o.price rnd bl ql ≤ s.highestAsk
  bid : ∀ o ∈ placed, o.side = .bid → 0 < s.highestBidInv ∧ s.highestBidInv ≤ o.inv rnd bl ql ∧ o.inv rnd bl ql ≤ s.lowestBidInv
  lowestAsk : s.lowestAsk = 0 ∧ (∀ o ∈ placed, o.side ≠ .ask) ∨ ∃ o ∈ placed, o.side = .ask ∧ s.lowestAsk = o.price rnd bl ql
  highestAsk : s.highestAsk = 0 ∧ (∀ o ∈ placed, o.side ≠ .ask) ∨ ∃ o ∈ placed, o.side = .ask ∧ s.highestAsk = o.price rnd bl ql
  highestBid : s.highestBidInv = 0 ∧ (∀ o ∈ placed, o.side ≠ .bid) ∨ ∃ o ∈ placed, o.side = .bid ∧ s.highestBidInv = o.inv rnd bl ql
  lowestBid : s.lowestBidInv = 0 ∧ (∀ o ∈ placed, o.side ≠ .bid) ∨ ∃ o ∈ placed, o.side = .bid ∧ s.lowestBidInv = o.inv rnd bl ql

theorem Tracked.congr {rnd : ℚ → ℚ} {bl ql : Int} {s s' : Orders} {os placed : List Rest} (h : Tracked rnd bl ql s os placed) (e : SamePrices s s') : Tracked rnd bl ql s' os placed := by
  obtain ⟨e1, e2, e3, e4⟩ := e
  obtain ⟨h1, h2, h3, h4, h5, h6, h7, h8⟩ := h
  refine ⟨h1, h2, ?_, ?_, ?_, ?_, ?_, ?_⟩ <;> (simp only [e1, e2, e3, e4]; assumption)

theorem Tracked.shrink {rnd : ℚ → ℚ} {bl ql : Int} {s : Orders} {os os' placed : List Rest} (h : Tracked rnd bl ql s os placed) (e : Shrinks os os') : Tracked rnd bl ql s os' placed := by
  refine ⟨?_, ?_, h.ask, h.bid, h.lowestAsk, h.highestAsk, h.highestBid, h.lowestBid⟩
  · intro o ho
    rcases List.mem_append.mp ho with ho | ho
    · obtain ⟨p, hp, e1, e2⟩ := e o ho
      rw [← e2]
      exact h.lots p (List.mem_append_left _ hp)
    · exact h.lots o (List.mem_append_right _ ho)
  · intro o ho
    obtain ⟨p, hp, e1, e2⟩ := e o ho
    obtain ⟨r, hr, e3, e4⟩ := h.sub p hp
    exact ⟨r, hr, e3.trans e1, e4.trans e2⟩

/-- the extreme prices of a side without orders are forgotten -/
def resetPrices (s : Orders) (hb ha : Bool) : Orders :=
  { s with highestBidInv := if hb then s.highestBidInv else 0, lowestBidInv := if hb then s.lowestBidInv else 0, lowestAsk := if ha then s.lowestAsk else 0, highestAsk := if ha then s.highestAsk else 0 }

/-- prices after an order was placed; `hb`, `ha`: there were bids, asks before -/
theorem Tracked.place {rnd : ℚ → ℚ} {ε : ℚ} {bl ql : Int} {s : Orders} {os placed : List Rest} (R : Stable.IsRnd rnd ε) (hbl : 0 < bl) (hql : 0 < ql) (h : Tracked rnd bl ql s os placed)
    {hb ha : Bool} (eb : hb = true ↔ HasSide os .bid) (ea : ha = true ↔ HasSide os .ask) (on : Bool) (side : Side) (lots q : Int) (hl : 0 < lots) :
    Tracked rnd bl ql (trackPrices rnd s hb ha on side (limitPrice rnd lots bl ql)) ((if on then [⟨side, lots, q⟩] else []) ++ os)
      ((if on then [⟨side, lots, q⟩] else []) ++ placed.filter (fun o => match o.side with | .bid => hb | .ask => ha)) := by
  -- first the reset
  have reset : Tracked rnd bl ql (resetPrices s hb ha) os (placed.filter (fun o => match o.side with | .bid => hb | .ask => ha)) := by
    have fmem : ∀ o, o ∈ placed.filter (fun o => match o.side with | .bid => hb | .ask => ha) ↔ o ∈ placed ∧ (match o.side with | .bid => hb | .ask => ha) = true := fun o => List.mem_filter
    generalize placed.filter (fun o => match o.side with | .bid => hb | .ask => ha) = fl at *
    have fask : ∀ o ∈ fl, o.side = .ask → o ∈ placed ∧ ha = true := by
      intro o ho hs
      have := (fmem o).mp ho
      rw [hs] at this
      exact this
    have fbid : ∀ o ∈ fl, o.side = .bid → o ∈ placed ∧ hb = true := by
      intro o ho hs
      have := (fmem o).mp ho
      rw [hs] at this
      exact this
    have fask' : ∀ o ∈ placed, o.side = .ask → ha = true → o ∈ fl := by
      intro o ho hs hh
      rw [fmem]
      exact ⟨ho, by rw [hs]; exact hh⟩
    have fbid' : ∀ o ∈ placed, o.side = .bid → hb = true → o ∈ fl := by
      intro o ho hs hh
      rw [fmem]
      exact ⟨ho, by rw [hs]; exact hh⟩
    refine ⟨?_, ?_, ?_, ?_, ?_, ?_, ?_, ?_⟩
    · intro o ho
      rcases List.mem_append.mp ho with ho | ho
      · exact h.lots o (List.mem_append_left _ ho)
      · exact h.lots o (List.mem_append_right _ ((fmem o).mp ho).1)
    · intro o ho
      obtain ⟨p, hp, e1, e2⟩ := h.sub o ho
      refine ⟨p, ?_, e1, e2⟩
      cases hs : o.side with
      | bid => exact fbid' p hp (e1.trans hs) (eb.mpr ⟨o, ho, hs⟩)
      | ask => exact fask' p hp (e1.trans hs) (ea.mpr ⟨o, ho, hs⟩)
    · intro o ho hs
      obtain ⟨hp, hh⟩ := fask o ho hs
      simp only [resetPrices, hh, if_true]
      exact h.ask o hp hs
    · intro o ho hs
      obtain ⟨hp, hh⟩ := fbid o ho hs
      simp only [resetPrices, hh, if_true]
      exact h.bid o hp hs
    · cases hh : ha with
      | false => left; exact ⟨by simp [resetPrices], fun o ho hs => by have := (fask o ho hs).2; simp [hh] at this⟩
      | true =>
        simp only [resetPrices, if_true]
        rcases h.lowestAsk with ⟨g1, g2⟩ | ⟨o, ho, hs, g⟩
        · left; exact ⟨g1, fun o ho hs => g2 o (fask o ho hs).1 hs⟩
        · right; exact ⟨o, fask' o ho hs hh, hs, g⟩
    · cases hh : ha with
      | false => left; exact ⟨by simp [resetPrices], fun o ho hs => by have := (fask o ho hs).2; simp [hh] at this⟩
      | true =>
        simp only [resetPrices, if_true]
        rcases h.highestAsk with ⟨g1, g2⟩ | ⟨o, ho, hs, g⟩
        · left; exact ⟨g1, fun o ho hs => g2 o (fask o ho hs).1 hs⟩
        · right; exact ⟨o, fask' o ho hs hh, hs, g⟩
    · cases hh : hb with
      | false => left; exact ⟨by simp [resetPrices], fun o ho hs => by have := (fbid o ho hs).2; simp [hh] at this⟩
      | true =>
        simp only [resetPrices, if_true]
        rcases h.highestBid with ⟨g1, g2⟩ | ⟨o, ho, hs, g⟩
        · left; exact ⟨g1, fun o ho hs => g2 o (fbid o ho hs).1 hs⟩
        · right; exact ⟨o, fbid' o ho hs hh, hs, g⟩
    · cases hh : hb with
      | false => left; exact ⟨by simp [resetPrices], fun o ho hs => by have := (fbid o ho hs).2; simp [hh] at this⟩
      | true =>
        simp only [resetPrices, if_true]
        rcases h.lowestBid with ⟨g1, g2⟩ | ⟨o, ho, hs, g⟩
        · left; exact ⟨g1, fun o ho hs => g2 o (fbid o ho hs).1 hs⟩
        · right; exact ⟨o, fbid' o ho hs hh, hs, g⟩
  generalize placed.filter (fun o => match o.side with | .bid => hb | .ask => ha) = fl at *
  have et : ∀ on, trackPrices rnd s hb ha on side (limitPrice rnd lots bl ql) = trackPrices rnd (resetPrices s hb ha) true true on side (limitPrice rnd lots bl ql) := by
    intro on
    cases hb <;> cases ha <;> cases on <;> cases side <;> rfl
  rw [et]
  generalize (resetPrices s hb ha) = r at *
  cases on with
  | false =>
    exact reset
  | true =>
    have hpp := limitPrice_pos R hl hbl hql
    have hip := rnd_inv_pos R hpp
    simp only [if_true, List.singleton_append]
    have lotsc : ∀ o ∈ (⟨side, lots, q⟩ :: os) ++ (⟨side, lots, q⟩ :: fl), 0 < o.lots := by
      intro o ho
      simp only [List.cons_append, List.mem_cons, List.mem_append] at ho
      rcases ho with rfl | ho | rfl | ho
      · exact hl
      · exact reset.lots o (List.mem_append_left _ ho)
      · exact hl
      · exact reset.lots o (List.mem_append_right _ ho)
    have subc : ∀ o ∈ (⟨side, lots, q⟩ :: os : List Rest), ∃ p ∈ (⟨side, lots, q⟩ :: fl : List Rest), p.side = o.side ∧ p.lots = o.lots := by
      intro o ho
      rcases List.mem_cons.mp ho with rfl | ho
      · exact ⟨_, List.mem_cons_self, rfl, rfl⟩
      · obtain ⟨p, hp, e⟩ := reset.sub o ho
        exact ⟨p, List.mem_cons_of_mem _ hp, e⟩
    cases side with
    | ask =>
      have hlo : (trackPrices rnd r true true true .ask (limitPrice rnd lots bl ql)).lowestAsk = minOr r.lowestAsk (limitPrice rnd lots bl ql) := rfl
      have hhi : (trackPrices rnd r true true true .ask (limitPrice rnd lots bl ql)).highestAsk = maxOr r.highestAsk (limitPrice rnd lots bl ql) := rfl
      have hb1 : (trackPrices rnd r true true true .ask (limitPrice rnd lots bl ql)).highestBidInv = r.highestBidInv := rfl
      have hb2 : (trackPrices rnd r true true true .ask (limitPrice rnd lots bl ql)).lowestBidInv = r.lowestBidInv := rfl
      have hpr : ∀ o ∈ fl, o.side = .ask → r.lowestAsk ≠ 0 ∧ r.highestAsk ≠ 0 := by
        intro o ho hs
        have := reset.ask o ho hs
        exact ⟨by intro hh; linarith [this.1], by intro hh; linarith [this.1, this.2.1, this.2.2]⟩
      generalize trackPrices rnd r true true true .ask (limitPrice rnd lots bl ql) = s' at *
      refine ⟨lotsc, subc, ?_, ?_, ?_, ?_, ?_, ?_⟩
      · intro o ho hs
        rw [hlo, hhi]
        unfold minOr maxOr
        rcases List.mem_cons.mp ho with rfl | ho
        · change _ ∧ _ ≤ limitPrice rnd lots bl ql ∧ limitPrice rnd lots bl ql ≤ _
          have l0 : r.lowestAsk ≠ 0 → 0 < r.lowestAsk := by
            intro h0
            rcases reset.lowestAsk with g | ⟨o, ho, hs, g⟩
            · exact absurd g.1 h0
            · exact (reset.ask o ho hs).1
          by_cases z1 : r.lowestAsk = 0 <;> by_cases z2 : r.highestAsk = 0 <;>
            simp only [z1, z2, if_true, if_false, le_refl, and_true, min_le_right, le_max_right, lt_min_iff, hpp, l0, ne_eq, not_false_eq_true]
        · have g := reset.ask o ho hs
          obtain ⟨z1, z2⟩ := hpr o ho hs
          rw [if_neg z1, if_neg z2]
          exact ⟨lt_min g.1 hpp, le_trans (min_le_left _ _) g.2.1, le_trans g.2.2 (le_max_left _ _)⟩
      · intro o ho hs
        rw [hb1, hb2]
        rcases List.mem_cons.mp ho with rfl | ho
        · exact absurd hs (by simp)
        · exact reset.bid o ho hs
      · right
        rw [hlo]
        unfold minOr
        rcases reset.lowestAsk with ⟨g1, _⟩ | ⟨o, ho, hs, g⟩
        · rw [if_pos g1]
          exact ⟨_, List.mem_cons_self, rfl, rfl⟩
        · rw [if_neg (hpr o ho hs).1]
          rcases min_choice r.lowestAsk (limitPrice rnd lots bl ql) with e | e
          · exact ⟨o, List.mem_cons_of_mem _ ho, hs, by rw [e, g]⟩
          · exact ⟨_, List.mem_cons_self, rfl, by rw [e]; rfl⟩
      · right
        rw [hhi]
        unfold maxOr
        rcases reset.highestAsk with ⟨g1, _⟩ | ⟨o, ho, hs, g⟩
        · rw [if_pos g1]
          exact ⟨_, List.mem_cons_self, rfl, rfl⟩
        · rw [if_neg (hpr o ho hs).2]
          rcases max_choice r.highestAsk (limitPrice rnd lots bl ql) with e | e
          · exact ⟨o, List.mem_cons_of_mem _ ho, hs, by rw [e, g]⟩
          · exact ⟨_, List.mem_cons_self, rfl, by rw [e]; rfl⟩
      · rw [hb1]
        rcases reset.highestBid with ⟨g1, g2⟩ | ⟨o, ho, hs, g⟩
        · left
          refine ⟨g1, fun o ho => ?_⟩
          rcases List.mem_cons.mp ho with rfl | ho
          · simp
          · exact g2 o ho
        · right; exact ⟨o, List.mem_cons_of_mem _ ho, hs, g⟩
      · rw [hb2]
        rcases reset.lowestBid with ⟨g1, g2⟩ | ⟨o, ho, hs, g⟩
        · left
          refine ⟨g1, fun o ho => ?_⟩
          rcases List.mem_cons.mp ho with rfl | ho
          · simp
          · exact g2 o ho
        · right; exact ⟨o, List.mem_cons_of_mem _ ho, hs, g⟩
    | bid =>
      have hlo : (trackPrices rnd r true true true .bid (limitPrice rnd lots bl ql)).highestBidInv = minOr r.highestBidInv (rnd (1 / limitPrice rnd lots bl ql)) := rfl
      have hhi : (trackPrices rnd r true true true .bid (limitPrice rnd lots bl ql)).lowestBidInv = maxOr r.lowestBidInv (rnd (1 / limitPrice rnd lots bl ql)) := rfl
      have hb1 : (trackPrices rnd r true true true .bid (limitPrice rnd lots bl ql)).lowestAsk = r.lowestAsk := rfl
      have hb2 : (trackPrices rnd r true true true .bid (limitPrice rnd lots bl ql)).highestAsk = r.highestAsk := rfl
      have hpr : ∀ o ∈ fl, o.side = .bid → r.highestBidInv ≠ 0 ∧ r.lowestBidInv ≠ 0 := by
        intro o ho hs
        have := reset.bid o ho hs
        exact ⟨by intro hh; linarith [this.1], by intro hh; linarith [this.1, this.2.1, this.2.2]⟩
      generalize trackPrices rnd r true true true .bid (limitPrice rnd lots bl ql) = s' at *
      refine ⟨lotsc, subc, ?_, ?_, ?_, ?_, ?_, ?_⟩
      · intro o ho hs
        rw [hb1, hb2]
        rcases List.mem_cons.mp ho with rfl | ho
        · exact absurd hs (by simp)
        · exact reset.ask o ho hs
      · intro o ho hs
        rw [hlo, hhi]
        unfold minOr maxOr
        rcases List.mem_cons.mp ho with rfl | ho
        · change _ ∧ _ ≤ rnd (1 / limitPrice rnd lots bl ql) ∧ rnd (1 / limitPrice rnd lots bl ql) ≤ _
          have l0 : r.highestBidInv ≠ 0 → 0 < r.highestBidInv := by
            intro h0
            rcases reset.highestBid with g | ⟨o, ho, hs, g⟩
            · exact absurd g.1 h0
            · exact (reset.bid o ho hs).1
          by_cases z1 : r.highestBidInv = 0 <;> by_cases z2 : r.lowestBidInv = 0 <;>
            simp only [z1, z2, if_true, if_false, le_refl, and_true, min_le_right, le_max_right, lt_min_iff, hip, l0, ne_eq, not_false_eq_true]
        · have g := reset.bid o ho hs
          obtain ⟨z1, z2⟩ := hpr o ho hs
          rw [if_neg z1, if_neg z2]
          exact ⟨lt_min g.1 hip, le_trans (min_le_left _ _) g.2.1, le_trans g.2.2 (le_max_left _ _)⟩
      · rw [hb1]
        rcases reset.lowestAsk with ⟨g1, g2⟩ | ⟨o, ho, hs, g⟩
        · left
          refine ⟨g1, fun o ho => ?_⟩
          rcases List.mem_cons.mp ho with rfl | ho
          · simp
          · exact g2 o ho
        · right; exact ⟨o, List.mem_cons_of_mem _ ho, hs, g⟩
      · rw [hb2]
        rcases reset.highestAsk with ⟨g1, g2⟩ | ⟨o, ho, hs, g⟩
        · left
          refine ⟨g1, fun o ho => ?_⟩
          rcases List.mem_cons.mp ho with rfl | ho
          · simp
          · exact g2 o ho
        · right; exact ⟨o, List.mem_cons_of_mem _ ho, hs, g⟩
      · right
        rw [hlo]
        unfold minOr
        rcases reset.highestBid with ⟨g1, _⟩ | ⟨o, ho, hs, g⟩
        · rw [if_pos g1]
          exact ⟨_, List.mem_cons_self, rfl, rfl⟩
        · rw [if_neg (hpr o ho hs).1]
          rcases min_choice r.highestBidInv (rnd (1 / limitPrice rnd lots bl ql)) with e | e
          · exact ⟨o, List.mem_cons_of_mem _ ho, hs, by rw [e, g]⟩
          · exact ⟨_, List.mem_cons_self, rfl, by rw [e]; rfl⟩
      · right
        rw [hhi]
        unfold maxOr
        rcases reset.lowestBid with ⟨g1, _⟩ | ⟨o, ho, hs, g⟩
        · rw [if_pos g1]
          exact ⟨_, List.mem_cons_self, rfl, rfl⟩
        · rw [if_neg (hpr o ho hs).2]
          rcases max_choice r.lowestBidInv (rnd (1 / limitPrice rnd lots bl ql)) with e | e
          · exact ⟨o, List.mem_cons_of_mem _ ho, hs, by rw [e, g]⟩
          · exact ⟨_, List.mem_cons_self, rfl, by rw [e]; rfl⟩

/-! ## Histories -/

theorem placeBook_orders {rnd : ℚ → ℚ} {a a' : Acct} {x : PlaceArgs} {d : PlaceDex} {before change : I80F48} (h : placeBook rnd a x d = .ok (a', before, change)) :
    SamePrices (trackPrices rnd a.orders d.hadBids d.hadAsks d.onBook x.side (limitPrice rnd x.lots x.baseLot x.quoteLot)) a'.orders ∧ a'.oo = d.oo := by
  unfold placeBook at h
  dsimp only at h
  revert h
  generalize trackPrices rnd a.orders d.hadBids d.hadAsks d.onBook x.side (limitPrice rnd x.lots x.baseLot x.quoteLot) = s
  intro h
  cases hs : x.side with
  | bid =>
    simp only [hs, bind_ok, require_ok] at h
    obtain ⟨_, hv, ⟨s1, bb, qb⟩, hu, n, hn, ⟨qb', qp, br, ch⟩, hd, h⟩ := h
    simp only [ok_inj, Prod.mk.injEq] at h
    obtain ⟨rfl, rfl, rfl⟩ := h
    obtain ⟨es, eb, eq⟩ := updatePotential_ok hu
    unfold SamePrices
    rw [es]
    exact ⟨⟨rfl, rfl, rfl, rfl⟩, rfl⟩
  | ask =>
    simp only [hs, bind_ok, require_ok] at h
    obtain ⟨_, hv, ⟨s1, bb, qb⟩, hu, n, hn, ⟨qb', qp, br, ch⟩, hd, h⟩ := h
    simp only [ok_inj, Prod.mk.injEq] at h
    obtain ⟨rfl, rfl, rfl⟩ := h
    obtain ⟨es, eb, eq⟩ := updatePotential_ok hu
    unfold SamePrices
    rw [es]
    exact ⟨⟨rfl, rfl, rfl, rfl⟩, rfl⟩

theorem placeOrder_lots {rnd : ℚ → ℚ} {fd : Health.FDiv} {reg : Bool} {c c' : Health.Cache} {f f' : Account.Liq} {a a' : Acct} {x : PlaceArgs} {d : PlaceDex}
    (h : placeOrder rnd fd reg c f a x d = .ok (a', f', c')) : 0 < x.lots := by
  simp only [placeOrder, bind_ok, require_ok] at h
  obtain ⟨_, h, _⟩ := h
  exact h

theorem chargeFees_prices {a a1 : Acct} {now : Int} (h : chargeFees a now = .ok a1) : SamePrices a.orders a1.orders := by
  simp only [chargeFees, bind_ok] at h
  obtain ⟨⟨b1, p1, c1, l1⟩, h1, ⟨b2, p2, c2, l2⟩, h2, h⟩ := h
  simp only [ok_inj] at h
  subst h
  exact ⟨rfl, rfl, rfl, rfl⟩

theorem applySettle_prices {rnd : ℚ → ℚ} {a a' : Acct} {bb bb' : Buyback.BB} {dao : Bool} {price : Option (I80F48 × Int)} {after : OO} {vb vq now : Int} {c1 c2 : I80F48}
    (h : applySettle rnd a bb dao price after vb vq now = .ok (a', bb', c1, c2)) : SamePrices a.orders a'.orders := by
  simp only [applySettle, bind_ok, require_ok] at h
  obtain ⟨cf, hcf, bb1, _, qa, hqa, _, hv1, _, hv2, ⟨b1, p1, br1, ch1⟩, h1, ⟨b2, p2, br2, ch2⟩, h2, ⟨s, b1', b2'⟩, hu, h⟩ := h
  simp only [ok_inj, Prod.mk.injEq] at h
  obtain ⟨rfl, rfl, rfl, rfl⟩ := h
  obtain ⟨es, eb, eq⟩ := updatePotential_ok hu
  unfold SamePrices
  rw [es]
  exact ⟨rfl, rfl, rfl, rfl⟩

theorem SamePrices.trans {a b c : Orders} (h : SamePrices a b) (g : SamePrices b c) : SamePrices a c :=
  ⟨g.1.trans h.1, g.2.1.trans h.2.1, g.2.2.1.trans h.2.2.1, g.2.2.2.trans h.2.2.2⟩

theorem settleFunds_prices {rnd : ℚ → ℚ} {a a' : Acct} {bb bb' : Buyback.BB} {dao : Bool} {price : Option (I80F48 × Int)} {after : OO} {vb vq now : Int}
    (h : settleFunds rnd a bb dao price after vb vq now = .ok (a', bb')) : SamePrices a.orders a'.orders := by
  simp only [settleFunds, bind_ok] at h
  obtain ⟨a1, h1, ⟨a2, bb2, c1, c2⟩, h2, h⟩ := h
  simp only [ok_inj, Prod.mk.injEq] at h
  obtain ⟨rfl, rfl⟩ := h
  exact (chargeFees_prices h1).trans (applySettle_prices h2)

theorem forceCancel_parts {rnd : ℚ → ℚ} {fd : Health.FDiv} {c c' : Health.Cache} {f f' : Account.Liq} {fr fc : Bool} {a a' : Acct} {bb : Buyback.BB} {after : OO} {vb vq now : Int}
    (h : forceCancel rnd fd c f fr fc a bb after vb vq now = .ok (f', some (a', c'))) :
    ∃ a1 bb2 c1 c2, chargeFees a now = .ok a1 ∧ applySettle rnd a1 bb true none after vb vq now = .ok (a', bb2, c1, c2) := by
  simp only [forceCancel, bind_ok] at h
  obtain ⟨⟨fl, st⟩, _, h⟩ := h
  dsimp only at h
  by_cases hc : ¬ (fr = true ∨ st = .liquidatable ∨ fc = true)
  · rw [if_pos hc] at h
    simp only [ok_inj, Prod.mk.injEq] at h
    exact absurd h.2 (by simp)
  · rw [if_neg hc] at h
    simp only [bind_ok] at h
    obtain ⟨a1, h1, ⟨a2, bb2, c1, c2⟩, h2, _, _, _, _, _, _, _, _, _, _, _, _, _, _, h⟩ := h
    simp only [ok_inj, Prod.mk.injEq, Option.some.injEq] at h
    obtain ⟨_, rfl, _⟩ := h
    exact ⟨_, _, _, _, h1, h2⟩

theorem Trace.inv {rnd : ℚ → ℚ} {ε : ℚ} {bl ql : Int} {a : Acct} {os placed : List Rest} (R : Stable.IsRnd rnd ε) (hbl : 0 < bl) (hql : 0 < ql) (h : Trace rnd bl ql a os placed) :
    BanksOk a ∧ Tracked rnd bl ql a.orders os placed := by
  induction h with
  | opened a hb e =>
    obtain ⟨e1, e2, e3, e4⟩ := e
    refine ⟨hb, by simp, by simp, by simp, by simp, ?_, ?_, ?_, ?_⟩ <;> left <;> simp [e1, e2, e3, e4]
  | @place a a' os placed fd reg c c' f f' x d q _ e1 e2 eb ea h ih =>
    have hl := placeOrder_lots h
    obtain ⟨_, _, h⟩ := placeOrder_book h
    have hp := placeBook_tok ih.1 h
    refine ⟨PlaceTok.ok ih.1 hp, Tracked.congr ?_ (placeBook_orders h).1⟩
    rw [e1, e2]
    exact ih.2.place R hbl hql eb ea d.onBook x.side x.lots q hl
  | settle _ h ih => exact ⟨SettleTok.ok ih.1 (settleFunds_tok ih.1 h).1, ih.2.congr (settleFunds_prices h)⟩
  | cancel _ h hs ih =>
    refine ⟨SettleTok.ok ih.1 (forceCancel_tok ih.1 h).1, ?_⟩
    obtain ⟨a1, bb2, c1, c2, h1, h2⟩ := forceCancel_parts h
    exact (ih.2.congr ((chargeFees_prices h1).trans (applySettle_prices h2))).shrink hs
  | other _ hb e hs ih => exact ⟨hb, (ih.2.congr e).shrink hs⟩

/-- **C59.** At any time every ask in the open orders account has a price between the tracked lowest and highest ask, every bid a price between the tracked lowest and highest bid (inverse prices, so the
other way round); the tracked prices are not 0 then. -/
theorem C59_extremes {rnd : ℚ → ℚ} {ε : ℚ} {bl ql : Int} {a : Acct} {os placed : List Rest} (R : Stable.IsRnd rnd ε) (hbl : 0 < bl) (hql : 0 < ql) (h : Trace rnd bl ql a os placed) {o : Rest} (ho : o ∈ os) :
    (o.side = .ask → 0 < a.orders.lowestAsk ∧ a.orders.lowestAsk ≤ o.price rnd bl ql ∧ o.price rnd bl ql ≤ a.orders.highestAsk) ∧
    (o.side = .bid → 0 < a.orders.highestBidInv ∧ a.orders.highestBidInv ≤ o.inv rnd bl ql ∧ o.inv rnd bl ql ≤ a.orders.lowestBidInv) := by
  obtain ⟨_, T⟩ := h.inv R hbl hql
  obtain ⟨p, hp, e1, e2⟩ := T.sub o ho
  have ep : o.price rnd bl ql = p.price rnd bl ql := by unfold Rest.price; rw [e2]
  have ei : o.inv rnd bl ql = p.inv rnd bl ql := by unfold Rest.inv; rw [ep]
  rw [ep, ei]
  exact ⟨fun hs => T.ask p hp (e1.trans hs), fun hs => T.bid p hp (e1.trans hs)⟩

/-- **C59.** The tracked prices are prices of orders that were placed since the side was last found empty. -/
theorem C59_attained {rnd : ℚ → ℚ} {ε : ℚ} {bl ql : Int} {a : Acct} {os placed : List Rest} (R : Stable.IsRnd rnd ε) (hbl : 0 < bl) (hql : 0 < ql) (h : Trace rnd bl ql a os placed) :
    (a.orders.lowestAsk ≠ 0 → ∃ o ∈ placed, o.side = .ask ∧ a.orders.lowestAsk = o.price rnd bl ql) ∧
    (a.orders.highestAsk ≠ 0 → ∃ o ∈ placed, o.side = .ask ∧ a.orders.highestAsk = o.price rnd bl ql) ∧
    (a.orders.highestBidInv ≠ 0 → ∃ o ∈ placed, o.side = .bid ∧ a.orders.highestBidInv = o.inv rnd bl ql) ∧
    (a.orders.lowestBidInv ≠ 0 → ∃ o ∈ placed, o.side = .bid ∧ a.orders.lowestBidInv = o.inv rnd bl ql) := by
  obtain ⟨_, T⟩ := h.inv R hbl hql
  refine ⟨fun h0 => ?_, fun h0 => ?_, fun h0 => ?_, fun h0 => ?_⟩
  · exact T.lowestAsk.resolve_left (fun g => h0 g.1)
  · exact T.highestAsk.resolve_left (fun g => h0 g.1)
  · exact T.highestBid.resolve_left (fun g => h0 g.1)
  · exact T.lowestBid.resolve_left (fun g => h0 g.1)

/-! ## Valuation in health and potential tokens -/

/-- reserved tokens of one side -/
def reservedOf (side : Side) (os : List Rest) : Int := ((os.filter (fun o => decide (o.side = side))).map (fun o => o.reserved)).sum

/-- what the orders of one side deliver when they are filled at their limits: base for bids, quote for asks -/
def delivers (rnd : ℚ → ℚ) (bl ql : Int) (side : Side) (os : List Rest) : ℚ :=
  ((os.filter (fun o => decide (o.side = side))).map (fun o => (o.reserved : ℚ) * (match side with | .bid => o.inv rnd bl ql | .ask => o.price rnd bl ql))).sum

theorem weighted {l : List Rest} {w : Rest → ℚ} {lo hi : ℚ} (h0 : ∀ o ∈ l, 0 ≤ o.reserved) (hw : ∀ o ∈ l, lo ≤ w o ∧ w o ≤ hi) :
    (((l.map (fun o => o.reserved)).sum : Int) : ℚ) * lo ≤ (l.map (fun o => (o.reserved : ℚ) * w o)).sum ∧
    (l.map (fun o => (o.reserved : ℚ) * w o)).sum ≤ (((l.map (fun o => o.reserved)).sum : Int) : ℚ) * hi := by
  induction l with
  | nil => simp
  | cons o l ih =>
    have g := ih (fun o ho => h0 o (List.mem_cons_of_mem _ ho)) (fun o ho => hw o (List.mem_cons_of_mem _ ho))
    have r : (0 : ℚ) ≤ o.reserved := by exact_mod_cast h0 o List.mem_cons_self
    have b := hw o List.mem_cons_self
    have b1 := mul_le_mul_of_nonneg_left b.1 r
    have b2 := mul_le_mul_of_nonneg_left b.2 r
    simp only [List.map_cons, List.sum_cons, Int.cast_add, add_mul]
    constructor <;> linarith [g.1, g.2]

theorem delivers_bounds {rnd : ℚ → ℚ} {ε : ℚ} {bl ql : Int} {a : Acct} {os placed : List Rest} (R : Stable.IsRnd rnd ε) (hbl : 0 < bl) (hql : 0 < ql) (h : Trace rnd bl ql a os placed)
    (h0 : ∀ o ∈ os, 0 ≤ o.reserved) :
    (reservedOf .bid os : ℚ) * a.orders.highestBidInv ≤ delivers rnd bl ql .bid os ∧ delivers rnd bl ql .bid os ≤ (reservedOf .bid os : ℚ) * a.orders.lowestBidInv ∧
    (reservedOf .ask os : ℚ) * a.orders.lowestAsk ≤ delivers rnd bl ql .ask os ∧ delivers rnd bl ql .ask os ≤ (reservedOf .ask os : ℚ) * a.orders.highestAsk := by
  have key := fun (o : Rest) (ho : o ∈ os) => C59_extremes R hbl hql h ho
  have m : ∀ s o, o ∈ os.filter (fun o => decide (o.side = s)) → o ∈ os ∧ o.side = s := by
    intro s o ho
    have := List.mem_filter.mp ho
    exact ⟨this.1, by simpa using this.2⟩
  have b := weighted (l := os.filter (fun o => decide (o.side = .bid))) (w := fun o => o.inv rnd bl ql) (fun o ho => h0 o (m _ o ho).1) (fun o ho => ((key o (m _ o ho).1).2 (m _ o ho).2).2)
  have k := weighted (l := os.filter (fun o => decide (o.side = .ask))) (w := fun o => o.price rnd bl ql) (fun o ho => h0 o (m _ o ho).1) (fun o ho => ((key o (m _ o ho).1).1 (m _ o ho).2).2)
  exact ⟨b.1, b.2, k.1, k.2⟩

theorem roundEven_le (x : ℚ) : (Swap.roundEven x : ℚ) ≤ x + 1 / 2 := by
  have := Int.floor_le (x + 1 / 2)
  unfold Swap.roundEven
  split
  · push_cast; linarith
  · exact this

theorem mul_valued {n : Int} {x : ℚ} {y z : I80F48} (hn : 0 ≤ n) (hy : Swap.toFx x = .ok y) (hz : Fx.mul (ofInt n) y = .ok z) : (z : ℚ) / S ≤ n * (x + 1 / 2 ^ 49) := by
  have hS : (0 : ℚ) < S := by norm_num [S]
  rw [Swap.toFx_ok] at hy
  simp only [mul_ok] at hz
  have e : z = n * y := by
    rw [hz.1]
    unfold ofInt
    rw [show n * S * y = n * y * S by ring]
    exact Int.mul_ediv_cancel _ (by have := S_pos; omega)
  rw [e]
  have hy2 : (y : ℚ) ≤ x * S + 1 / 2 := by rw [hy.1]; exact roundEven_le _
  have hn' : (0 : ℚ) ≤ n := by exact_mod_cast hn
  have : (n : ℚ) * y ≤ n * (x * S + 1 / 2) := mul_le_mul_of_nonneg_left hy2 hn'
  rw [div_le_iff₀ hS]
  push_cast
  have e2 : (n : ℚ) * (x + 1 / 2 ^ 49) * S = n * (x * S + 1 / 2) := by
    norm_num [S]
    ring
  rw [e2]
  exact this

/-- **C59.** Health never counts on more than the orders deliver at their limit prices: what it assumes the account ends up with if all bids (or all asks) are filled is at most the reserved base (quote)
plus what the bids (asks) deliver at their limits, up to 2^-49 per reserved unit for the conversion of the tracked price. Only if that price rounds to zero does health use the oracle price alone. -/
theorem C59_health {rnd : ℚ → ℚ} {ε : ℚ} {bl ql : Int} {a : Acct} {os placed : List Rest} (R : Stable.IsRnd rnd ε) (hbl : 0 < bl) (hql : 0 < ql) (h : Trace rnd bl ql a os placed)
    (h0 : ∀ o ∈ os, 0 ≤ o.reserved) {v : Health.OpenOrd} (hv : view a.orders a.oo = .ok v)
    (hbr : a.oo.baseTotal - a.oo.baseFree = reservedOf .ask os) (hqr : a.oo.quoteTotal - a.oo.quoteFree = reservedOf .bid os)
    {bi qi : Nat} {s : Health.Serum3Info} (hs : v.info bi qi = .ok s) {fd : Health.FDiv} {ht : Health.HT} {q b : Health.TokenInfo} {x : I80F48} :
    (s.allReservedAsBase fd ht q b = .ok x → s.reservedQuoteAsBaseHighestBid ≠ 0 →
      (x : ℚ) / S ≤ reservedOf .ask os + delivers rnd bl ql .bid os + reservedOf .bid os * (1 / 2 ^ 49)) ∧
    (s.allReservedAsQuote fd ht q b = .ok x → s.reservedBaseAsQuoteLowestAsk ≠ 0 →
      (x : ℚ) / S ≤ reservedOf .bid os + delivers rnd bl ql .ask os + reservedOf .ask os * (1 / 2 ^ 49)) := by
  have D := delivers_bounds R hbl hql h h0
  have hS : (0 : ℚ) < S := by norm_num [S]
  simp only [view, OO.baseReserved, OO.quoteReserved, bind_ok, cku64_ok] at hv
  obtain ⟨br, ⟨rfl, rb⟩, qr, ⟨rfl, rq⟩, ask, hask, bid, hbid, hv⟩ := hv
  simp only [ok_inj] at hv
  subst hv
  simp only [Health.OpenOrd.info, bind_ok] at hs
  obtain ⟨va, ha, vb, hb, hs⟩ := hs
  simp only [ok_inj] at hs
  subst hs
  rw [hbr] at ha
  rw [hqr] at hb
  rw [hbr] at rb
  rw [hqr] at rq
  have m1 := mul_valued (by omega) hask ha
  have m2 := mul_valued (by omega) hbid hb
  have cast : ∀ n : Int, ((ofInt n : Int) : ℚ) / S = n := by
    intro n
    unfold ofInt
    push_cast
    exact mul_div_cancel_right₀ _ hS.ne'
  constructor
  · intro hx hne
    simp only [Health.Serum3Info.allReservedAsBase, bind_ok] at hx
    obtain ⟨w, _, o, _, hx⟩ := hx
    rw [if_pos hne] at hx
    simp only [add_ok] at hx
    rw [hx.1, hbr]
    push_cast
    rw [add_div, cast]
    have : ((min o vb : Int) : ℚ) / S ≤ (vb : ℚ) / S := by
      apply div_le_div_of_nonneg_right _ hS.le
      exact_mod_cast min_le_right o vb
    push_cast at this
    linarith [D.1]
  · intro hx hne
    simp only [Health.Serum3Info.allReservedAsQuote, bind_ok] at hx
    obtain ⟨w, _, o, _, hx⟩ := hx
    rw [if_pos hne] at hx
    simp only [add_ok] at hx
    rw [hx.1, hqr]
    push_cast
    rw [add_div, cast]
    have : ((min o va : Int) : ℚ) / S ≤ (va : ℚ) / S := by
      apply div_le_div_of_nonneg_right _ hS.le
      exact_mod_cast min_le_right o va
    push_cast at this
    linarith [D.2.2.1]

theorem castU64_ge {x : ℚ} : x - 1 < Swap.castU64 x ∨ Swap.castU64 x = U64MAX := by
  unfold Swap.castU64
  split
  · left; push_cast; linarith
  · rcases min_choice ⌊x⌋ U64MAX with e | e
    · left; rw [e]; linarith [Int.lt_floor_add_one x]
    · right; exact e

/-- **C59.** The potential tokens the banks count for deposit limits and weight scaling overestimate what can come out of the open orders account: at least the tokens in it plus, up to float rounding and one native unit, what
the orders of the other side deliver at their limits (or the largest u64). -/
theorem C59_potential {rnd : ℚ → ℚ} {ε : ℚ} {bl ql : Int} {a : Acct} {os placed : List Rest} (R : Stable.IsRnd rnd ε) (hbl : 0 < bl) (hql : 0 < ql) (h : Trace rnd bl ql a os placed)
    (h0 : ∀ o ∈ os, 0 ≤ o.reserved)
    (hbr : a.oo.baseTotal - a.oo.baseFree = reservedOf .ask os) (hqr : a.oo.quoteTotal - a.oo.quoteFree = reservedOf .bid os) {nb nq : Int}
    (h1 : newPotentialBase rnd a.orders a.oo = .ok nb) (h2 : newPotentialQuote rnd a.orders a.oo = .ok nq) :
    (a.oo.baseTotal + delivers rnd bl ql .bid os * (1 - ε) ^ 2 - 1 < nb ∨ nb = a.oo.baseTotal + U64MAX) ∧
    (a.oo.quoteTotal + delivers rnd bl ql .ask os * (1 - ε) ^ 2 - 1 < nq ∨ nq = a.oo.quoteTotal + U64MAX) := by
  have D := delivers_bounds R hbl hql h h0
  have e0 := R.eps
  have e1 := R.eps1
  have T := (h.inv R hbl hql).2
  simp only [newPotentialBase, newPotentialQuote, OO.baseReserved, OO.quoteReserved, bind_ok, cku64_ok] at h1 h2
  obtain ⟨r1, ⟨rfl, g1⟩, h1, _⟩ := h1
  obtain ⟨r2, ⟨rfl, g2⟩, h2, _⟩ := h2
  rw [hqr] at g1 h1
  rw [hbr] at g2 h2
  have low : 0 ≤ a.orders.lowestBidInv := by
    rcases T.lowestBid with ⟨g, _⟩ | ⟨o, ho, hs, g⟩
    · rw [g]
    · have := T.bid o ho hs; linarith [this.1, this.2.1, this.2.2]
  have high : 0 ≤ a.orders.highestAsk := by
    rcases T.highestAsk with ⟨g, _⟩ | ⟨o, ho, hs, g⟩
    · rw [g]
    · have := T.ask o ho hs; linarith [this.1, this.2.1, this.2.2]
  have key : ∀ {n : Int} {w : ℚ}, 0 ≤ n → 0 ≤ w → (n : ℚ) * w * (1 - ε) ^ 2 ≤ rnd (rnd n * w) := by
    intro n w hn hw
    have hn' : (0 : ℚ) ≤ n := by exact_mod_cast hn
    have k1 := Stable.rnd_ge R hn'
    have k0 := Stable.rnd_nonneg R hn'
    have k2 := Stable.rnd_ge R (mul_nonneg k0 hw)
    have k3 : (n : ℚ) * (1 - ε) * w ≤ rnd n * w := mul_le_mul_of_nonneg_right k1 hw
    have k4 := mul_le_mul_of_nonneg_right k3 (show 0 ≤ 1 - ε by linarith)
    have e : (n : ℚ) * w * (1 - ε) ^ 2 = n * (1 - ε) * w * (1 - ε) := by ring
    rw [e]
    linarith
  have sq : 0 ≤ (1 - ε) ^ 2 := sq_nonneg _
  constructor
  · rcases castU64_ge (x := rnd (rnd (reservedOf .bid os) * a.orders.lowestBidInv)) with g | g
    · left
      rw [h1]
      push_cast
      have k := key g1.1 low
      have := mul_le_mul_of_nonneg_right D.2.1 sq
      linarith
    · right; rw [h1, g]
  · rcases castU64_ge (x := rnd (rnd (reservedOf .ask os) * a.orders.highestAsk)) with g | g
    · left
      rw [h2]
      push_cast
      have k := key g2.1 high
      have := mul_le_mul_of_nonneg_right D.2.2.2 sq
      linarith
    · right; rw [h2, g]

/-- **C59.** The program's limit price and its inverse are the exact ones up to float rounding. -/
theorem C59_price {rnd : ℚ → ℚ} {ε : ℚ} (R : Stable.IsRnd rnd ε) {bl ql : Int} {o : Rest} (hl : 0 < o.lots) (hbl : 0 < bl) (hql : 0 < ql) :
    ((o.lots : ℚ) * ql / bl) * ((1 - ε) ^ 4 / (1 + ε)) ≤ o.price rnd bl ql ∧ o.price rnd bl ql ≤ ((o.lots : ℚ) * ql / bl) * ((1 + ε) ^ 4 / (1 - ε)) ∧
    (1 - ε) / o.price rnd bl ql ≤ o.inv rnd bl ql ∧ o.inv rnd bl ql ≤ (1 + ε) / o.price rnd bl ql := by
  have e0 := R.eps
  have e1 := R.eps1
  have p1 : (0 : ℚ) < 1 - ε := by linarith
  have p2 : (0 : ℚ) < 1 + ε := by linarith
  have hl' : (0 : ℚ) < o.lots := by exact_mod_cast hl
  have hb' : (0 : ℚ) < bl := by exact_mod_cast hbl
  have hq' : (0 : ℚ) < ql := by exact_mod_cast hql
  have hp := limitPrice_pos R hl hbl hql
  have inv1 : (0 : ℚ) ≤ 1 / o.price rnd bl ql := (one_div_pos.mpr hp).le
  have rl := rnd_pos R hl'
  have rb := rnd_pos R hb'
  have rq := rnd_pos R hq'
  have rp := rnd_pos R (mul_pos rl rq)
  refine ⟨?_, ?_, ?_, ?_⟩
  · have h4 := Stable.rnd_ge R (div_pos rp rb).le
    have h3 := Stable.rnd_ge R (mul_pos rl rq).le
    have h12 : (o.lots : ℚ) * (1 - ε) * (ql * (1 - ε)) ≤ rnd o.lots * rnd ql :=
      mul_le_mul (Stable.rnd_ge R hl'.le) (Stable.rnd_ge R hq'.le) (mul_pos hq' p1).le rl.le
    have hb1 := Stable.rnd_le R hb'.le
    have hnum : (o.lots : ℚ) * (1 - ε) * (ql * (1 - ε)) * (1 - ε) ≤ rnd (rnd o.lots * rnd ql) := le_trans (mul_le_mul_of_nonneg_right h12 p1.le) h3
    have hdiv : (o.lots : ℚ) * (1 - ε) * (ql * (1 - ε)) * (1 - ε) / (bl * (1 + ε)) ≤ rnd (rnd o.lots * rnd ql) / rnd bl :=
      div_le_div₀ rp.le hnum rb hb1
    have := le_trans (mul_le_mul_of_nonneg_right hdiv p1.le) h4
    refine le_trans (le_of_eq ?_) this
    field_simp
  · have h4 := Stable.rnd_le R (div_pos rp rb).le
    have h3 := Stable.rnd_le R (mul_pos rl rq).le
    have h12 : rnd o.lots * rnd ql ≤ (o.lots : ℚ) * (1 + ε) * (ql * (1 + ε)) :=
      mul_le_mul (Stable.rnd_le R hl'.le) (Stable.rnd_le R hq'.le) rq.le (mul_pos hl' p2).le
    have hb1 := Stable.rnd_ge R hb'.le
    have hnum : rnd (rnd o.lots * rnd ql) ≤ (o.lots : ℚ) * (1 + ε) * (ql * (1 + ε)) * (1 + ε) := le_trans h3 (mul_le_mul_of_nonneg_right h12 p2.le)
    have hdiv : rnd (rnd o.lots * rnd ql) / rnd bl ≤ (o.lots : ℚ) * (1 + ε) * (ql * (1 + ε)) * (1 + ε) / (bl * (1 - ε)) :=
      div_le_div₀ (le_trans rp.le hnum) hnum (mul_pos hb' p1) hb1
    have := le_trans h4 (mul_le_mul_of_nonneg_right hdiv p2.le)
    refine le_trans this (le_of_eq ?_)
    field_simp
  · have := Stable.rnd_ge R inv1
    have e : 1 / o.price rnd bl ql * (1 - ε) = (1 - ε) / o.price rnd bl ql := by ring
    rw [e] at this
    exact this
  · have := Stable.rnd_le R inv1
    have e : 1 / o.price rnd bl ql * (1 + ε) = (1 + ε) / o.price rnd bl ql := by ring
    rw [e] at this
    exact this

end Serum
end Mango
