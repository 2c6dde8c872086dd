import Verif.Perp.OrderIx
import Verif.Props.Match3
import Verif.Props.SettleLedger
import Verif.Props.HealthCheck
/-!
# C68: perp orders as whole instructions — reduce-only rules, health
-/
namespace Mango
namespace PerpOrder
open Fx Health Perp Book

/-- base lots of a position with the fills that are not consumed yet -/
def effective (p : Perp.Pos) : Int := p.base + p.takerBase

/-- what the parts of a successful order did -/
structure Parts (e : Env) (s : PSys) (u : Nat) (t : Rest) (o : Order) (limit : Nat) (s' : PSys) (t' : Rest) (r : Option Nat) (m : Market) (a : PAcct) (p p' : Perp.Pos) (o' : Order) (n : NOState)
    (pre : Option (Cache × I80F48)) : Prop where
  base : 0 ≤ o.maxBase
  quote : 0 ≤ o.maxQuote
  funding : s.market.updateFunding s.book e.price e.now e.stable = .ok m
  before : before e t m p = .ok (t'.flag, pre)
  reduce : reduceOrder o p m = .ok o'
  order : newOrder o' e.price u e.now limit { market := m, acct := a, book := s.book, queue := s.queue } = .ok (r, n)
  pos : a.pos = some p
  pos' : n.acct.pos = some p'
  after : after e pre n.market p' = .ok ()
  state : s' = { market := n.market, accts := s.accts.set u n.acct, book := n.book, queue := n.queue }
  rest : t' = { t with flag := t'.flag }
  acct : ∃ a0 room, s.accts[u]? = some a0 ∧ ensurePos a0 room = .ok a
  step : ∃ room, pstep { s with market := m } (.place u o e.price e.now limit room) = .ok s'

theorem place_parts {e : Env} {s s' : PSys} {u : Nat} {t t' : Rest} {o : Order} {limit : Nat} {room : Bool} {r : Option Nat} (h : place e s u t o limit room = .ok (s', t', r)) :
    ∃ m a p p' o' n pre, Parts e s u t o limit s' t' r m a p p' o' n pre := by
  have h0 := h
  simp only [place, bind_ok, require_ok] at h
  obtain ⟨_, hb, _, hq, m, hm, h⟩ := h
  split at h
  · simp at h
  · rename_i a0 ha0
    simp only [bind_ok, Prod.exists, ok_inj, Prod.mk.injEq, getPos_ok] at h
    obtain ⟨a, ha, p, hp, f, pre, hpre, o', ho, r', n, hn, p', hp', _, haf, rfl, rfl, rfl⟩ := h
    refine ⟨m, a, p, p', o', n, pre, hb, hq, hm, hpre, ho, hn, hp, hp', haf, rfl, rfl, ⟨a0, room, ha0, ha⟩, room, ?_⟩
    simp only [pstep, placeOp, bind_ok, require_ok]
    refine ⟨(), hb, (), hq, ?_⟩
    simp only [ha0, bind_ok, Prod.exists, ok_inj, getPos_ok]
    exact ⟨a, ha, p, hp, o', ho, r', n, hn, rfl⟩

/-- the funding update changes only funding and stable price -/
theorem funding_same {m m' : Market} {b : OBook} {oracle stable : I80F48} {now : Nat} (h : m.updateFunding b oracle now stable = .ok m') :
    m' = { m with longFunding := m'.longFunding, shortFunding := m'.shortFunding, fundingLastUpdated := m'.fundingLastUpdated, stablePrice := m'.stablePrice } := by
  unfold Market.updateFunding at h
  split at h
  · rw [ok_inj] at h; subst h; rfl
  · simp only [bind_ok, ok_inj] at h
    obtain ⟨_, _, _, _, _, _, _, _, _, _, _, _, _, _, _, _, _, _, _, _, rfl⟩ := h
    rfl

/-- what an order does to the taker's position -/
theorem order_effect {s : PSys} {sp : Side → SpecSide} (hI : PInv s sp) {u : Nat} {a : PAcct} {p : Perp.Pos} (hp : a.pos = some p) {o : Order} (ht : o.Typed)
    (hb : 0 ≤ o.maxBase) (hq : 0 ≤ o.maxQuote) {oracle : I80F48} {now limit : Nat} {r : Option Nat} {n : NOState}
    (hn : newOrder o oracle u now limit { market := s.market, acct := a, book := s.book, queue := s.queue } = .ok (r, n)) :
    ∃ p' filled posted, n.acct.pos = some p' ∧ 0 ≤ filled ∧ 0 ≤ posted ∧ filled + posted ≤ o.maxBase ∧ p'.base = p.base ∧ p'.takerBase = p.takerBase + Side.sgn o.side * filled ∧
      (∀ sd, p'.lots sd = p.lots sd + if sd = o.side then posted else 0) ∧
      ∃ x y, n.market = { s.market with feesAccrued := x, seqNum := y } := by
  have hS : Setup o { market := s.market, acct := a, book := s.book, queue := s.queue } sp := ⟨ht, hb, hq, hI.live, hI.queue⟩
  obtain ⟨P⟩ := Perp.place hS hn
  have hlive := P.live ht hI.live hb hq
  obtain ⟨oracle', evs, e1, e2, f1, f2, _⟩ := C18_limits hS hn
  obtain ⟨evs', p0, p', g1, g2, g3, g4, _, g6, g7⟩ := C21_taker hS hn P.e_oracle hlive.is
  have : evs' = evs := by
    rw [e2] at g1
    exact (List.append_cancel_left g1).symm
  subst this
  dsimp only at g2
  rw [hp, Option.some.injEq] at g2
  subst g2
  have hf0 : 0 ≤ sumOf FillEv.quantity (fillsOf evs') := sumOf_nonneg_mem (fun f hf => by have := (f1 f hf).2.2.1; omega)
  obtain ⟨⟨⟨sn, hm2⟩, _⟩, _⟩ := P.charged hI.live hb hq
  have hmk : n.market = P.m2 := by
    rcases P.fin with ⟨_, hs, _⟩ | ⟨_, t, _, _, _, _, ⟨W⟩⟩
    · rw [← P.s1_market, ← hs]
    · rw [W.market, P.s1_market]
  rcases g7 with ⟨_, _, b1, b2⟩ | ⟨id, t, l, pr, _, _, _, _, _, b0, b1, _, b2, b3, _⟩
  · refine ⟨p', _, 0, g3, hf0, by omega, by omega, g6, g4, ?_, ?_⟩
    · intro sd; cases sd <;> simp [Pos.lots, b1, b2]
    · exact ⟨_, _, hmk.trans hm2⟩
  · refine ⟨p', _, l.quantity, g3, hf0, by omega, by omega, g6, g4, ?_, ?_⟩
    · intro sd
      cases sd
      · simp only [Pos.lots, b2]; congr 1; cases o.side <;> rfl
      · simp only [Pos.lots, b3]; congr 1; cases o.side <;> rfl
    · exact ⟨_, _, hmk.trans hm2⟩

/-- the reduce-only rules on the size of an order -/
theorem reduce_bound {o o' : Order} {p : Perp.Pos} {m : Market} (h : reduceOrder o p m = .ok o') (hb : 0 ≤ o.maxBase) (hl : 0 ≤ p.lots o.side) :
    o' = { o with maxBase := o'.maxBase } ∧ 0 ≤ o'.maxBase ∧ o'.maxBase ≤ o.maxBase ∧
    (o.reduceOnly = true ∨ m.reduceOnly = true → o'.maxBase ≤ max 0 (-(Side.sgn o.side * effective p))) ∧
    (m.reduceOnly = true → o'.maxBase ≤ max 0 (-(Side.sgn o.side * effective p + p.lots o.side))) ∧
    (m.reduceOnly = true → o.reduceOnly = false → o'.maxBase = o.maxBase) ∧
    (o.reduceOnly = false → m.reduceOnly = false → o'.maxBase = o.maxBase) := by
  unfold reduceOrder at h
  simp only [bind_ok, require_ok, ok_inj] at h
  obtain ⟨eff, _, mb, h1, _, h2, rfl⟩ := h
  refine ⟨rfl, ?_⟩
  dsimp only
  have heff : ∀ e, p.effectiveBase = .ok e → e = effective p := by
    intro e he
    simp only [Perp.Pos.effectiveBase, ck64_ok] at he
    exact he.1
  by_cases hro : o.reduceOnly = true ∨ m.reduceOnly = true
  · rw [if_pos hro] at h1
    unfold reduceOnlyMax at h1
    simp only [bind_ok, ok_inj] at h1
    obtain ⟨e, he, al, h3, rfl⟩ := h1
    have := heff e he
    subst this
    have key : 0 ≤ al ∧ al ≤ max 0 (-(Side.sgn o.side * effective p)) ∧ (m.reduceOnly = true → al ≤ max 0 (-(Side.sgn o.side * effective p + p.lots o.side)) ) := by
      by_cases hc : (o.side = .bid ∧ effective p ≥ 0) ∨ (o.side = .ask ∧ effective p ≤ 0)
      · rw [if_pos hc, ok_inj] at h3
        subst h3
        exact ⟨le_refl _, le_max_left _ _, fun _ => le_max_left _ _⟩
      · rw [if_neg hc] at h3
        by_cases hm : m.reduceOnly = true
        · rw [if_pos hm] at h3
          cases hs : o.side <;> rw [hs] at h3 hc <;> simp only [bind_ok, ck64_ok, abs64_ok, ok_inj] at h3
          · obtain ⟨x, ⟨rfl, _⟩, rfl, _⟩ := h3
            simp at hc
            simp only [Side.sgn, Pos.lots]
            rw [hs] at hl
            simp only [Pos.lots] at hl
            refine ⟨abs_nonneg _, ?_, fun _ => ?_⟩ <;> rw [abs_of_nonpos (by omega)] <;> omega
          · obtain ⟨x, ⟨rfl, _⟩, rfl⟩ := h3
            simp at hc
            simp only [Side.sgn, Pos.lots]
            rw [hs] at hl
            simp only [Pos.lots] at hl
            exact ⟨by omega, by omega, fun _ => by omega⟩
        · rw [if_neg hm, abs64_ok] at h3
          rw [h3.1]
          refine ⟨abs_nonneg _, ?_, fun h => absurd h hm⟩
          cases hs : o.side <;> rw [hs] at hc <;> simp at hc <;> simp only [Side.sgn]
          · rw [abs_of_neg hc]; omega
          · rw [abs_of_pos hc]; omega
    refine ⟨by omega, by omega, fun _ => by omega, fun hm => by have := key.2.2 hm; omega, ?_, ?_⟩
    · intro hm ho
      rcases h2 hm with h | h
      · rw [ho] at h; simp at h
      · exact h
    · intro h4 h5; rw [h4, h5] at hro; simp at hro
  · rw [if_neg hro, ok_inj] at h1
    subst h1
    exact ⟨hb, le_refl _, fun h => absurd h hro, fun h => absurd (Or.inr h) hro, fun _ _ => rfl, fun _ _ => rfl⟩

theorem funding_core {m m' : Market} {b : OBook} {oracle stable : I80F48} {now : Nat} (h : m.updateFunding b oracle now stable = .ok m') : SameCore m m' := by
  have e := funding_same h
  unfold SameCore
  rw [e]
  exact ⟨rfl, rfl, rfl, rfl, rfl⟩

theorem lots_nonneg {s : PSys} {sp : Side → SpecSide} (h : PInv s sp) (u : Nat) (sd : Side) : 0 ≤ (pget s.accts u).lots sd := by
  rw [h.lots u sd]
  have h1 := restLots_nonneg (P := ownedBy u sd) h.live.pos
  have h2 := pendLots_nonneg (P := ownedBy u sd) (E := s.queue.toList) h.slots.pos
  omega

/-- an order, seen from the position of its owner -/
theorem placed_position {s s' : PSys} {sp : Side → SpecSide} (hI : PInv s sp) {u : Nat} {o : Order} (ht : o.TypedArgs) {oracle : I80F48} {now limit : Nat} {room : Bool}
    (h : pstep s (.place u o oracle now limit room) = .ok s') :
    let p := pget s.accts u
    let p' := pget s'.accts u
    ∃ size filled posted, 0 ≤ filled ∧ 0 ≤ posted ∧ filled + posted ≤ size ∧ size ≤ o.maxBase ∧
      effective p' = effective p + Side.sgn o.side * filled ∧ (∀ sd, p'.lots sd = p.lots sd + if sd = o.side then posted else 0) ∧
      (∀ v, v ≠ u → pget s'.accts v = pget s.accts v) ∧
      (o.reduceOnly = true ∨ s.market.reduceOnly = true → size ≤ max 0 (-(Side.sgn o.side * effective p))) ∧
      (s.market.reduceOnly = true → size ≤ max 0 (-(Side.sgn o.side * effective p + p.lots o.side))) ∧
      (s.market.reduceOnly = true → o.reduceOnly = false → size = o.maxBase) ∧ s'.market.reduceOnly = s.market.reduceOnly ∧ p'.base = p.base := by
  intro p p'
  simp only [pstep, placeOp, bind_ok, require_ok] at h
  obtain ⟨_, hb, _, hq, h⟩ := h
  split at h
  · simp at h
  · rename_i a0 ha0
    simp only [bind_ok, getPos_ok, Prod.exists, ok_inj] at h
    obtain ⟨a1, h1, p1, hp1, o', h2, r, n, h3, rfl⟩ := h
    obtain ⟨hI1, e1, _, _⟩ := hI.ensure ha0 h1
    have hp : p = p1 := by
      show pget s.accts u = p1
      rw [pget_some ha0, ← e1, posD_some hp1]
    obtain ⟨mb, e, hmb, _, ho'⟩ := reduceOrder_ok h2 ht hb hq
    have hq' : 0 ≤ o'.maxQuote := by rw [e]; exact hq
    have hb' : 0 ≤ o'.maxBase := by rw [e]; exact hmb
    obtain ⟨p2, filled, posted, g1, g2, g3, g4, g5, g6, g7, x, y, g8⟩ := order_effect hI1 hp1 ho' hb' hq' h3
    have hside : o'.side = o.side := by rw [e]
    rw [hside] at g6 g7
    have hl := lots_nonneg hI u o.side
    change 0 ≤ p.lots o.side at hl
    rw [hp] at hl
    obtain ⟨_, _, r1, r2, r3, r4, _⟩ := reduce_bound h2 hb hl
    have hp' : p' = p2 := by
      show pget (s.accts.set u n.acct) u = p2
      rw [pget_set ha0, if_pos rfl, posD_some g1]
    rw [hp, hp']
    refine ⟨o'.maxBase, filled, posted, g2, g3, g4, r1, ?_, g7, ?_, r2, r3, r4, ?_, g5⟩
    · unfold effective; rw [g5, g6]; omega
    · intro v hv
      show pget (s.accts.set u n.acct) v = _
      rw [pget_set ha0, if_neg hv]
    · show n.market.reduceOnly = _
      rw [g8]

variable {e : Env} {s s' : PSys} {u : Nat} {t t' : Rest} {o : Order} {limit : Nat} {room : Bool} {r : Option Nat}

/-- **C68.** Placing an order is a funding update of the market followed by the order step of C24, C25, C26, C48: everything proved about histories of those steps holds for it. -/
theorem C68_is_step (h : place e s u t o limit room = .ok (s', t', r)) :
    ∃ m room', s.market.updateFunding s.book e.price e.now e.stable = .ok m ∧ pstep s (.market m) = .ok { s with market := m } ∧
      pstep { s with market := m } (.place u o e.price e.now limit room') = .ok s' := by
  obtain ⟨m, a, p, p', o', n, pre, P⟩ := place_parts h
  obtain ⟨room', hs⟩ := P.step
  refine ⟨m, room', P.funding, ?_, hs⟩
  obtain ⟨h1, h2, h3, h4, h5⟩ := funding_core P.funding
  simp only [pstep, ok_inj]
  rw [← h1, ← h2, ← h3, ← h4, ← h5]

/-- **C68.** No other account changes, and the owner's settled base lots do not change either. What is traded at once changes the pending lots in the direction of the order, what is posted the open lots of its
side, together by at most the size of the order. -/
theorem C68_only_owner (hR : Reachable s) (ht : o.TypedArgs) (h : place e s u t o limit room = .ok (s', t', r)) :
    let p := pget s.accts u
    let p' := pget s'.accts u
    (∀ v, v ≠ u → s'.accts[v]? = s.accts[v]?) ∧ p'.base = p.base ∧
    ∃ filled posted, 0 ≤ filled ∧ 0 ≤ posted ∧ filled + posted ≤ o.maxBase ∧ p'.takerBase = p.takerBase + (match o.side with | .bid => filled | .ask => -filled) ∧
      p'.bids = p.bids + (match o.side with | .bid => posted | .ask => 0) ∧ p'.asks = p.asks + (match o.side with | .bid => 0 | .ask => posted) := by
  intro p p'
  obtain ⟨m, room', hm, _, hs⟩ := C68_is_step h
  obtain ⟨sp, hI⟩ := (hR.setMarket (funding_core hm)).inv
  obtain ⟨size, filled, posted, g1, g2, g3, g4, g5, g6, _, _, _, _, _, g7⟩ := placed_position hI ht hs
  change effective p' = effective p + _ at g5
  change p'.base = p.base at g7
  have g6b := g6 .bid
  have g6a := g6 .ask
  change p'.bids = p.bids + _ at g6b
  change p'.asks = p.asks + _ at g6a
  refine ⟨?_, g7, filled, posted, g1, g2, by omega, ?_, ?_, ?_⟩
  · intro v hv
    obtain ⟨m, a, p, p', o', n, pre, P⟩ := place_parts h
    rw [P.state]
    exact List.getElem?_set_ne (by omega)
  · unfold effective at g5
    rw [g7] at g5
    cases hs : o.side <;> simp only [hs, Side.sgn] at g5 ⊢ <;> omega
  · cases hs : o.side <;> simp [hs] at g6b ⊢ <;> omega
  · cases hs : o.side <;> simp [hs] at g6a ⊢ <;> omega

/-- **C68.** A reduce-only order, and every order in a reduce-only market, only brings the position (with the fills not consumed yet) closer to zero: it never grows, never changes its sign, and what is left on the book
and what was traded at once are together at most the position. On the side that would increase the position nothing happens at all. -/
theorem C68_reduce_only (hR : Reachable s) (ht : o.TypedArgs) (h : place e s u t o limit room = .ok (s', t', r)) (hro : o.reduceOnly = true ∨ s.market.reduceOnly = true) :
    let p := pget s.accts u
    let p' := pget s'.accts u
    |effective p'| ≤ |effective p| ∧ 0 ≤ effective p * effective p' ∧ |effective p' - effective p| + (p'.bids - p.bids) + (p'.asks - p.asks) ≤ |effective p| ∧
    p.bids ≤ p'.bids ∧ p.asks ≤ p'.asks ∧
    ((o.side = .bid ∧ 0 ≤ effective p) ∨ (o.side = .ask ∧ effective p ≤ 0) → effective p' = effective p ∧ p'.bids = p.bids ∧ p'.asks = p.asks) := by
  intro p p'
  obtain ⟨m, room', hm, _, hs⟩ := C68_is_step h
  obtain ⟨sp, hI⟩ := (hR.setMarket (funding_core hm)).inv
  have hmr : m.reduceOnly = s.market.reduceOnly := by rw [funding_same hm]
  obtain ⟨size, filled, posted, g1, g2, g3, _, g5, g6, _, g8, _⟩ := placed_position hI ht hs
  change effective p' = effective p + _ at g5
  have g6b := g6 .bid
  have g6a := g6 .ask
  change p'.bids = p.bids + _ at g6b
  change p'.asks = p.asks + _ at g6a
  have g8 := g8 (by dsimp only; rw [hmr]; exact hro)
  change size ≤ max 0 (-(Side.sgn o.side * effective p)) at g8
  generalize effective p' = y at *
  generalize effective p = x at *
  generalize p'.bids = b' at *
  generalize p'.asks = a' at *
  cases hs : o.side <;> simp only [hs, Side.sgn] at * <;> simp at g6a g6b
  · by_cases hx : 0 ≤ x
    · have hy : y = x := by omega
      subst hy
      refine ⟨le_refl _, mul_self_nonneg _, ?_, by omega, by omega, fun _ => ⟨rfl, by omega, by omega⟩⟩
      rw [sub_self, abs_zero]; have := abs_nonneg y; omega
    · have hy : y ≤ 0 := by omega
      refine ⟨?_, ?_, ?_, by omega, by omega, ?_⟩
      · rw [abs_of_nonpos hy, abs_of_neg (by omega)]; omega
      · exact mul_nonneg_of_nonpos_of_nonpos (by omega) hy
      · rw [abs_of_nonneg (by omega), abs_of_neg (by omega)]; omega
      · rintro (⟨_, h⟩ | ⟨h, _⟩)
        · exact absurd h hx
        · simp at h
  · by_cases hx : x ≤ 0
    · have hy : y = x := by omega
      subst hy
      refine ⟨le_refl _, mul_self_nonneg _, ?_, by omega, by omega, fun _ => ⟨rfl, by omega, by omega⟩⟩
      rw [sub_self, abs_zero]; have := abs_nonneg y; omega
    · have hy : 0 ≤ y := by omega
      refine ⟨?_, ?_, ?_, by omega, by omega, ?_⟩
      · rw [abs_of_nonneg hy, abs_of_pos (by omega)]; omega
      · exact mul_nonneg (by omega) hy
      · rw [abs_of_nonpos (by omega), abs_of_pos (by omega)]; omega
      · rintro (⟨h, _⟩ | ⟨_, h⟩)
        · simp at h
        · exact absurd h hx

/-- **C68.** In a reduce-only market an order that does anything leaves the position on its side of zero even if all open orders of the owner on the same side are executed; and an order that is not marked
reduce-only is refused, not cut: its whole size fits. -/
theorem C68_market_reduce_only (hR : Reachable s) (ht : o.TypedArgs) (h : place e s u t o limit room = .ok (s', t', r)) (hro : s.market.reduceOnly = true) :
    let p := pget s.accts u
    let p' := pget s'.accts u
    (o.side = .bid → (effective p' = effective p ∧ p'.bids = p.bids) ∨ effective p' + p'.bids ≤ 0) ∧
    (o.side = .ask → (effective p' = effective p ∧ p'.asks = p.asks) ∨ 0 ≤ effective p' - p'.asks) ∧
    (o.reduceOnly = false → o.maxBase = 0 ∨ (o.side = .bid ∧ effective p + p.bids + o.maxBase ≤ 0) ∨ (o.side = .ask ∧ 0 ≤ effective p - p.asks - o.maxBase)) := by
  intro p p'
  obtain ⟨m, room', hm, _, hs⟩ := C68_is_step h
  obtain ⟨sp, hI⟩ := (hR.setMarket (funding_core hm)).inv
  have hmr : m.reduceOnly = true := by rw [funding_same hm]; exact hro
  obtain ⟨size, filled, posted, g1, g2, g3, g4, g5, g6, _, _, g9, g10, _⟩ := placed_position hI ht hs
  change effective p' = effective p + _ at g5
  have g6b := g6 .bid
  have g6a := g6 .ask
  change p'.bids = p.bids + _ at g6b
  change p'.asks = p.asks + _ at g6a
  have g9 := g9 hmr
  have g10 := g10 hmr
  change size ≤ max 0 (-(Side.sgn o.side * effective p + p.lots o.side)) at g9
  have hmb : 0 ≤ o.maxBase := by
    obtain ⟨m, a, p, p', o', n, pre, P⟩ := place_parts h
    exact P.base
  generalize effective p' = y at *
  generalize effective p = x at *
  cases hs : o.side <;> simp only [hs, Side.sgn, Pos.lots] at * <;> simp at g6a g6b
  · refine ⟨fun _ => by omega, fun h => by simp at h, fun h => ?_⟩
    have := g10 h
    by_cases h0 : o.maxBase = 0
    · exact Or.inl h0
    · exact Or.inr (Or.inl ⟨trivial, by omega⟩)
  · refine ⟨fun h => by simp at h, fun _ => by omega, fun h => ?_⟩
    have := g10 h
    by_cases h0 : o.maxBase = 0
    · exact Or.inl h0
    · exact Or.inr (Or.inr ⟨trivial, by omega⟩)

/-! ## Health -/

theorem mapRes_append {α β : Type} {f : α → Res β} : ∀ {l l' : List α} {r : List β}, mapRes f (l ++ l') = .ok r ↔ ∃ x y, mapRes f l = .ok x ∧ mapRes f l' = .ok y ∧ r = x ++ y := by
  intro l
  induction l with
  | nil => intro l' r; simp [mapRes]
  | cons a l ih =>
    intro l' r
    simp only [List.cons_append, mapRes, bind_ok, ok_inj]
    constructor
    · rintro ⟨b, hb, bs, hbs, rfl⟩
      obtain ⟨x, y, h1, h2, rfl⟩ := ih.mp hbs
      exact ⟨b :: x, y, ⟨b, hb, x, h1, rfl⟩, h2, rfl⟩
    · rintro ⟨x, y, ⟨b, hb, x', h1, rfl⟩, h2, rfl⟩
      exact ⟨b, hb, x' ++ y, ih.mpr ⟨x', y, h1, h2, rfl⟩, rfl⟩

theorem buildPerps_iff {ts : List TokenInfo} : ∀ {l r : List PerpInfo}, buildPerps true ts l = .ok r ↔ r = l ∧ ∀ p ∈ l, (findToken ts p.settleTokenIndex).isSome = true := by
  intro l
  induction l with
  | nil =>
    intro r
    simp only [buildPerps, ok_inj]
    exact ⟨fun h => ⟨h.symm, by simp⟩, fun h => h.1.symm⟩
  | cons a l ih =>
    intro r
    simp only [buildPerps, if_true, bind_ok, ok_inj]
    constructor
    · rintro ⟨_, h1, r', h2, rfl⟩
      obtain ⟨rfl, h3⟩ := ih.mp h2
      refine ⟨rfl, ?_⟩
      intro p hp
      rw [List.mem_cons] at hp
      rcases hp with rfl | hp
      · split at h1
        · rename_i h; rw [h]; rfl
        · simp at h1
      · exact h3 p hp
    · rintro ⟨rfl, h⟩
      refine ⟨(), ?_, l, ih.mpr ⟨rfl, fun p hp => h p (by simp [hp])⟩, rfl⟩
      have := h a (by simp)
      split
      · rfl
      · rename_i h; rw [h] at this; simp at this

/-- the cache after the order is the cache of the account after the order -/
theorem recompute_fresh {rnd : ℚ → ℚ} {now : Int} {st : AcctState} {above below : List (Market × Perp.Pos × I80F48)} {m m' : Market} {p p' : Perp.Pos} {price : I80F48} {c c' : Cache}
    (hd : ((above ++ (m, p, price) :: below).map (·.1.idx)).Nodup)
    (h : accountCacheSkipping rnd now st.banks st.ps st.os (above ++ (m, p, price) :: below) = .ok c) (h' : c.recomputePerp m' p' = .ok c')
    (e1 : m'.idx = m.idx) (e2 : m'.settleTokenIndex = m.settleTokenIndex) (e3 : m'.stablePrice = m.stablePrice) :
    accountCacheSkipping rnd now st.banks st.ps st.os (above ++ (m', p', price) :: below) = .ok c' := by
  simp only [accountCacheSkipping, buildCache, bind_ok, ok_inj, buildPerps_iff] at h ⊢
  obtain ⟨vs, h1, pp, h2, ts, h3, ⟨ts', ss⟩, h4, pp', ⟨rfl, h5⟩, rfl⟩ := h
  dsimp only at h5
  refine ⟨vs, h1, ?_⟩
  obtain ⟨x, y, hx, hy, rfl⟩ := mapRes_append.mp h2
  simp only [mapRes, bind_ok, ok_inj] at hy
  obtain ⟨i, hi, z, hz, rfl⟩ := hy
  have Fi := perpInfoOf_ok (x := (m, p, price)) hi
  have em : (x ++ i :: z).map (·.perpMarketIndex) = (above ++ (m, p, price) :: below).map (·.1.idx) := by
    have := mapRes_ok h2
    generalize above ++ (m, p, price) :: below = l at this
    generalize x ++ i :: z = q at this
    clear * - this
    induction this with
    | nil => rfl
    | cons hr _ ih => simp only [List.map_cons]; rw [ih, (perpInfoOf_ok hr).market]
  have hlen : x.length = above.length := (mapRes_ok hx).length_eq.symm
  unfold Cache.recomputePerp at h'
  split at h'
  · simp at h'
  · rename_i k hk
    have hget : (x ++ i :: z)[x.length]? = some i := by simp
    have hkx : k = x.length := findIdx_key (by rw [em]; exact hd) hk hget (by rw [Fi.market]; exact e1.symm)
    subst hkx
    simp only [bind_ok, ok_inj] at h'
    obtain ⟨old, ho, j, hj, rfl⟩ := h'
    have ho := Liquidation.at_ok ho
    rw [hget, Option.some.injEq] at ho
    subst ho
    have Fj := perpInfoOf_ok (x := (m', p', i.basePrices.oracle)) hj
    have ej : { j with basePrices := i.basePrices } = j := by
      have f1 := Fj.oracle
      have f2 := Fj.stable
      have f3 := Fi.stable
      dsimp only at f1 f2 f3
      have : i.basePrices = j.basePrices := by
        rw [show i.basePrices = ⟨i.basePrices.oracle, i.basePrices.stable⟩ from rfl, show j.basePrices = ⟨j.basePrices.oracle, j.basePrices.stable⟩ from rfl, f1, f2, f3, e3]
      rw [this]
    rw [ej]
    have hset : (x ++ i :: z).set x.length j = x ++ j :: z := by simp
    rw [hset]
    have f0 := Fi.oracle
    dsimp only at f0
    rw [f0] at hj
    refine ⟨x ++ j :: z, mapRes_append.mpr ⟨x, j :: z, hx, ?_, rfl⟩, ts, h3, (ts', ss), h4, x ++ j :: z, ⟨rfl, ?_⟩, rfl⟩
    · simp only [mapRes, bind_ok, ok_inj]
      exact ⟨j, hj, z, hz, rfl⟩
    · intro q hq
      rw [List.mem_append, List.mem_cons] at hq
      rcases hq with hq | rfl | hq
      · exact h5 q (by simp [hq])
      · rw [Fj.settle]
        have := h5 i (by simp)
        rw [Fi.settle] at this
        dsimp only at this ⊢
        rw [e2]; exact this
      · exact h5 q (by simp [hq])

/-- health of the account, without the banks that are not passed or whose oracle is bad, with position `p` in market `m` -/
def healthWith (e : Env) (t : Rest) (m : Market) (p : Perp.Pos) (ht : HT) : Res I80F48 :=
  let st := (t.st e m p).used
  accountHealth e.rnd e.fd e.now st.banks st.ps st.os st.perps ht

/-- **C68.** Health of an order outside a health region. It needs a good oracle and a usable bank of the settle token; an account being liquidated must have recovered before. `pre` and `post` are the init healths before and
after the order computed afresh from the account (with the funding update already made, and without unusable banks, which can only lower them, C40): the order is accepted only if `post` is not negative or not
worse than `pre`, up to the rounding of C36. -/
theorem C68_health (hR : Reachable s) (ht : o.TypedArgs) (hreg : e.inRegion = false) (h : place e s u t o limit room = .ok (s', t', r))
    (hps : (t.ps.map (·.tokenIndex)).Nodup) (hd : ((t.above ++ t.below).map (·.1.idx)).Nodup ∧ s.market.idx ∉ (t.above ++ t.below).map (·.1.idx)) :
    ∃ m pre post, s.market.updateFunding s.book e.price e.now e.stable = .ok m ∧
      healthWith e t m (pget s.accts u) .init = .ok pre ∧ healthWith e t' s'.market (pget s'.accts u) .init = .ok post ∧
      (0 ≤ post ∨ (Account.ceilUnit pre ≤ Account.ceilUnit post ∧ pre - S < post ∧ (ofInt (-1000) ≤ post → pre ≤ post))) ∧ (0 ≤ pre → 0 ≤ post) ∧
      e.priceOk = true ∧ (∃ q ∈ t.ps, q.tokenIndex = s.market.settleTokenIndex ∧ (t.banks q.tokenIndex).bad = false) ∧
      t'.flag.being = false ∧
      (t.flag.being = true → ∃ v, (healthWith e t m (pget s.accts u) .init = .ok v ∨ healthWith e t m (pget s.accts u) .liqEnd = .ok v) ∧ -S < v) := by
  obtain ⟨m, a, p, p', o', n, pre, P⟩ := place_parts h
  obtain ⟨a0, rm, ha0, hens⟩ := P.acct
  have hcore := funding_core P.funding
  obtain ⟨sp, hI⟩ := (hR.setMarket hcore).inv
  obtain ⟨hI1, e1, _, _⟩ := hI.ensure ha0 hens
  have hp : pget s.accts u = p := by rw [pget_some ha0, ← e1, posD_some P.pos]
  have hp' : pget s'.accts u = p' := by
    rw [P.state]
    show pget (s.accts.set u n.acct) u = p'
    rw [pget_set ha0, if_pos rfl, posD_some P.pos']
  obtain ⟨mb, eo, hmb, _, ho'⟩ := reduceOrder_ok P.reduce ht P.base P.quote
  obtain ⟨p2, _, _, _, _, _, _, _, _, _, x, y, g8⟩ := order_effect hI1 P.pos ho' (by rw [eo]; exact hmb) (by rw [eo]; exact P.quote) P.order
  dsimp only at g8
  have hm' : s'.market = n.market := by rw [P.state]
  rw [hp, hp', hm']
  have hb := P.before
  unfold before at hb
  rw [hreg] at hb
  simp only [Bool.false_eq_true, if_false, bind_ok, require_ok, ok_inj, Prod.mk.injEq] at hb
  obtain ⟨_, hok, c, hc, _, hsettle, v, hv, f, hf, hff, rfl⟩ := hb
  have hc' := C57_skipping (st := t.st e m p) hc
  have key : ∀ ht w, c.health e.fd ht = .ok w → healthWith e t m p ht = .ok w := by
    intro ht w hw
    simp only [healthWith, accountHealth, bind_ok]
    exact ⟨c, hc', hw⟩
  have haf := P.after
  simp only [after, bind_ok] at haf
  obtain ⟨c2, h2, post, hpost, hchk⟩ := haf
  have hnd : ((t.above ++ (m, p, e.price) :: t.below).map (·.1.idx)).Nodup := by
    rw [(List.perm_middle.map _).nodup_iff, List.map_cons, List.nodup_cons]
    dsimp only
    rw [hcore.1]
    exact ⟨hd.2, hd.1⟩
  have hfresh := recompute_fresh (st := t.st e m p) hnd hc h2 (by rw [g8]) (by rw [g8]) (by rw [g8])
  have hrest := P.rest
  have hst : t'.st e n.market p' = { t.st e m p with perps := t.above ++ (n.market, p', e.price) :: t.below } := by
    rw [hrest]; rfl
  have hpost' : healthWith e t' n.market p' .init = .ok post := by
    simp only [healthWith, accountHealth, bind_ok]
    rw [hst]
    exact ⟨c2, C57_skipping (st := { t.st e m p with perps := t.above ++ (n.market, p', e.price) :: t.below }) hfresh, hpost⟩
  have hms : m.settleTokenIndex = s.market.settleTokenIndex := by rw [funding_same P.funding]
  refine ⟨m, v, post, P.funding, key _ _ hv, hpost', Account.C36_post_check hchk, Account.C36_stays_nonnegative hchk, hok, ?_, ?_, ?_⟩
  · have f := (accountCache_for (filter_nodup _ hps) hc').1
    have ei : c.tokens.map (·.tokenIndex) = (t.st e m p).used.ps.map (·.tokenIndex) := tokenFor_index (List.Forall₂.imp (fun _ _ h => h.tracks) f)
    have hmem := findToken_isSome.mp hsettle
    rw [ei, List.mem_map] at hmem
    obtain ⟨q, hq, hqe⟩ := hmem
    obtain ⟨hq1, hq2⟩ := List.mem_filter.mp hq
    have hq2' : (!(t.banks q.tokenIndex).bad) = true := hq2
    exact ⟨q, hq1, by rw [hqe, hms], by simpa using hq2'⟩
  · rw [← hff]; exact (Account.checkPre_recovers hf).1
  · intro hfl
    rcases (Account.checkPre_recovers hf).2 hfl with g2 | ⟨l, hl, g2⟩
    · exact ⟨v, Or.inl (key _ _ hv), g2⟩
    · exact ⟨l, Or.inr (key _ _ hl), g2⟩

end PerpOrder
end Mango
