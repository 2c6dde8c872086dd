import Verif.Perp.System
import Verif.Perp.SlotInv
import Mathlib.Algebra.Order.Ring.Abs
/-! Helper: closed forms of the account updates of event execution, cancelling and funding settlement. -/
namespace Mango
namespace Perp
open Book Fx

theorem getOO_ok {a : PAcct} {i : Nat} {o : OO} : a.getOO i = .ok o ↔ a.oos[i]? = some o := by
  unfold PAcct.getOO
  cases a.oos[i]? <;> simp

theorem fxabs_ok {x y : I80F48} (h : Fx.abs x = .ok y) : y = |x| := by
  unfold Fx.abs at h
  rw [ck_ok] at h
  rw [h.1]
  · split
    · rw [abs_of_neg (by assumption)]
    · rw [abs_of_nonneg (by omega)]

theorem abs64_ok {x y : Int} : abs64 x = .ok y ↔ y = |x| ∧ I64MIN ≤ |x| ∧ |x| ≤ I64MAX := by
  unfold abs64
  rw [ck64_ok]
  have : (if x < 0 then -x else x) = |x| := by
    split
    · rw [abs_of_neg (by assumption)]
    · rw [abs_of_nonneg (by omega)]
  rw [this]

/-- what `record_trade` does -/
structure Traded (p : Pos) (m : Market) (b : Int) (q : I80F48) (p' : Pos) (m' : Market) : Prop where
  pos : ∃ r, p' = { p with base := p.base + b, quote := p.quote + q, recurring := r }
  market : m' = { m with openInterest := m.openInterest + (|p.base + b| - |p.base|) }

theorem updateTradeStats_ok {p p' : Pos} {m : Market} {b : Int} (h : p.updateTradeStats m b = .ok p') :
    ∃ r, p' = { p with recurring := r } := by
  unfold Pos.updateTradeStats at h
  split at h
  · rw [ok_inj] at h; exact ⟨p.recurring, h.symm⟩
  · simp only [bind_ok, ok_inj] at h
    obtain ⟨_, _, _, _, _, _, _, _, _, _, _, _, r, _, rfl⟩ := h
    exact ⟨_, rfl⟩

theorem applyRecurring_ok {p p' : Pos} {m : Market} {d : Int} (h : p.applyRecurringConstraint m = .ok (p', d)) :
    ∃ r, p' = { p with recurring := r } := by
  unfold Pos.applyRecurringConstraint at h
  simp only [bind_ok, ok_inj, Prod.mk.injEq] at h
  obtain ⟨_, _, _, _, _, _, _, _, _, _, _, _, rfl, _⟩ := h
  exact ⟨_, rfl⟩

theorem recordTrade_ok {p p' : Pos} {m m' : Market} {b : Int} {q : I80F48} (h : p.recordTrade m b q = .ok (p', m')) :
    Traded p m b q p' m' := by
  unfold Pos.recordTrade Pos.changeBase Pos.changeQuote at h
  simp only [bind_ok, ok_inj, ck64_ok, abs64_ok, add_ok, Prod.mk.injEq, Prod.exists] at h
  obtain ⟨p1, h1, p2, m2, ⟨b1, ⟨rfl, _⟩, a1, ⟨rfl, _⟩, a0, ⟨rfl, _⟩, d, ⟨rfl, _⟩, oi, ⟨rfl, _⟩, rfl, rfl⟩, p3, ⟨q3, ⟨rfl, _⟩, rfl⟩, p4, dd, h4, rfl, rfl⟩ := h
  obtain ⟨r1, rfl⟩ := updateTradeStats_ok h1
  obtain ⟨r2, rfl⟩ := applyRecurring_ok h4
  exact ⟨⟨r2, rfl⟩, rfl⟩

theorem unsettledFunding_ok {p : Pos} {m : Market} {f : I80F48} (h : p.unsettledFunding m = .ok f) :
    f = (if p.base > 0 then p.base * (m.longFunding - p.longSettled) else if p.base < 0 then p.base * (m.shortFunding - p.shortSettled) else 0) := by
  unfold Pos.unsettledFunding at h
  have key : ∀ d : Int, d * Fx.ofInt p.base / S = p.base * d := by
    intro d; rw [mul_comm d, mul_ofInt]
  split at h
  · next h0 =>
    simp only [bind_ok, sub_ok, mul_ok] at h
    obtain ⟨d, ⟨rfl, _⟩, rfl, _⟩ := h
    rw [key, if_pos h0]
  · next h0 =>
    split at h
    · next h1 =>
      simp only [bind_ok, sub_ok, mul_ok] at h
      obtain ⟨d, ⟨rfl, _⟩, rfl, _⟩ := h
      rw [key, if_neg h0, if_pos h1]
    · next h1 =>
      rw [ok_inj] at h
      rw [if_neg h0, if_neg h1, h]

theorem settleFunding_ok {p p' : Pos} {m : Market} (h : p.settleFunding m = .ok p') :
    ∃ f, p.unsettledFunding m = .ok f ∧ p' = { p with
      quote := p.quote - f, oneshot := p.oneshot - f, longSettled := m.longFunding, shortSettled := m.shortFunding } := by
  unfold Pos.settleFunding at h
  simp only [bind_ok, sub_ok, ok_inj] at h
  obtain ⟨f, h1, q, ⟨rfl, _⟩, o, ⟨rfl, _⟩, rfl⟩ := h
  exact ⟨f, h1, rfl⟩

theorem baseQuoteChange_ok {f : FillEv} {side : Side} {b q : Int} (h : f.baseQuoteChange side = .ok (b, q)) :
    b = Side.sgn side * f.quantity ∧ q = - (Side.sgn side * (f.price * f.quantity)) := by
  unfold FillEv.baseQuoteChange at h
  cases side <;> simp only [bind_ok, ck64_ok, ok_inj, Prod.mk.injEq] at h
  · obtain ⟨np, ⟨rfl, _⟩, q', ⟨rfl, _⟩, rfl, rfl⟩ := h
    simp [Side.sgn]
  · obtain ⟨np, ⟨rfl, _⟩, q', ⟨rfl, _⟩, rfl, rfl⟩ := h
    simp [Side.sgn]

theorem sgn_invert (sd : Side) : Side.sgn sd.invert = - Side.sgn sd := by cases sd <;> rfl
theorem abs_sgn (sd : Side) (x : Int) : |Side.sgn sd * x| = |x| := by cases sd <;> simp [Side.sgn]

/-- lots of a position on one side -/
def Pos.lots (p : Pos) : Side → Int
  | .bid => p.bids
  | .ask => p.asks

theorem adjust_lots {p p' : Pos} {side : Side} {n : Int} (h : p.adjustMakerLots side n = .ok p') :
    (∀ sd, p'.lots sd = p.lots sd + (if sd = side then n else 0)) ∧ p'.base = p.base ∧ p'.quote = p.quote ∧ p'.takerBase = p.takerBase ∧
    p'.takerQuote = p.takerQuote ∧ p'.longSettled = p.longSettled ∧ p'.shortSettled = p.shortSettled ∧ p'.oneshot = p.oneshot := by
  have := adjustMakerLots_ok h
  subst this
  refine ⟨?_, rfl, rfl, rfl, rfl, rfl, rfl, rfl⟩
  intro sd; cases sd <;> cases side <;> simp [Pos.lots]

/-- the slot update of an event about order `key`, `slot` -/
def slotAfter (idx : Nat) (oos : List OO) (key slot : Nat) (last : Bool) (qty : Int) : List OO :=
  match oos[slot]? with
  | none => oos
  | some oo =>
    if oo.market = idx ∧ (key = 0 ∨ oo.id = key) then
      oos.set slot (if last = true then {} else { oo with quantity := max (oo.quantity - qty) 0 })
    else oos

/-- value of a fill in quote native units -/
def FillEv.value (m : Market) (f : FillEv) : Int := m.quoteLotSize * (f.price * f.quantity)

/-- what executing a fill on the maker's account does -/
structure MakerDone (a : PAcct) (m : Market) (f : FillEv) (a' : PAcct) (m' : Market) : Prop where
  pos : ∃ p p' uf, a.pos = some p ∧ a'.pos = some p' ∧ p.unsettledFunding m = .ok uf ∧
    (∀ sd, p'.lots sd = p.lots sd - (if sd = f.takerSide.invert then |f.quantity| else 0)) ∧
    p'.base = p.base - Side.sgn f.takerSide * f.quantity ∧
    p'.quote = p.quote - uf - |f.value m| * f.makerFee + Side.sgn f.takerSide * f.value m * S ∧
    p'.oneshot = p.oneshot - uf - |f.value m| * f.makerFee ∧
    p'.takerBase = p.takerBase ∧ p'.takerQuote = p.takerQuote ∧
    p'.longSettled = m.longFunding ∧ p'.shortSettled = m.shortFunding ∧
    m' = { m with openInterest := m.openInterest + (|p'.base| - |p.base|) }
  slot : ∃ oo, a.oos[f.makerSlot]? = some oo
  oos : a'.oos = slotAfter m.idx a.oos f.makerOrderId f.makerSlot f.makerOut |f.quantity|

theorem executeMaker_ok {a a' : PAcct} {m m' : Market} {f : FillEv} (h : a.executeMaker m f = .ok (a', m')) : MakerDone a m f a' m' := by
  unfold PAcct.executeMaker at h
  simp only [bind_ok, mul_ok, Prod.exists, getPos_ok, getOO_ok, abs64_ok, ck64_ok] at h
  obtain ⟨bc, qc, hb, q, ⟨rfl, _⟩, qa, hqa, fees, ⟨rfl, _⟩, a1, ha1, p, hp, p1, hp1, p2, hp2, p3, m3, hp3, fl, ⟨rfl, _⟩, nf, ⟨rfl, _⟩, p4, hp4, oo, hoo, h⟩ := h
  have := fxabs_ok hqa
  subst this
  have ha1' : a1.pos = a.pos ∧ a1.oos = a.oos := by
    split at ha1
    · simp only [bind_ok, ok_inj] at ha1
      obtain ⟨_, _, _, _, rfl⟩ := ha1; exact ⟨rfl, rfl⟩
    · rw [ok_inj] at ha1; subst ha1; exact ⟨rfl, rfl⟩
  obtain ⟨e1, e2⟩ := ha1'
  obtain ⟨rfl, rfl⟩ := baseQuoteChange_ok hb
  obtain ⟨uf, hu, rfl⟩ := settleFunding_ok hp1
  have := recordTradingFee_ok hp2
  subst this
  obtain ⟨⟨r, rfl⟩, rfl⟩ := recordTrade_ok hp3
  obtain ⟨l1, l2, l3, l4, l5, l6, l7, l8⟩ := adjust_lots hp4
  have hval : (Fx.ofInt m.quoteLotSize) * (Fx.ofInt (-(Side.sgn f.takerSide.invert * (f.price * f.quantity)))) / S = Side.sgn f.takerSide * f.value m * S := by
    rw [mul_ofInt, sgn_invert]; unfold Fx.ofInt FillEv.value; ring
  have hfee : |(Fx.ofInt m.quoteLotSize) * (Fx.ofInt (-(Side.sgn f.takerSide.invert * (f.price * f.quantity)))) / S| * f.makerFee / S = |f.value m| * f.makerFee := by
    rw [hval, abs_mul, abs_sgn, abs_of_pos S_pos, show |f.value m| * S * f.makerFee = |f.value m| * f.makerFee * S by ring]
    exact Int.mul_ediv_cancel _ (by have := S_pos; omega)
  simp only [hfee] at l3 l8
  simp only [hval] at l3
  have hq : |Side.sgn f.takerSide.invert * f.quantity| = |f.quantity| := abs_sgn _ _
  rw [hq] at l1 h
  simp only [PAcct.setPos, e2] at hoo h
  have common : ∀ x : PAcct, x.pos = some p4 → x.oos = slotAfter m.idx a.oos f.makerOrderId f.makerSlot f.makerOut |f.quantity| →
      MakerDone a m f x { m with openInterest := m.openInterest + (|p.base + Side.sgn f.takerSide.invert * f.quantity| - |p.base|) } := by
    intro x hx hxo
    refine ⟨⟨p, p4, uf, e1 ▸ hp, hx, hu, ?_, ?_, ?_, ?_, l4, l5, l6, l7, ?_⟩, ⟨oo, hoo⟩, hxo⟩
    · intro sd; rw [l1 sd]; split <;> cases sd <;> simp [Pos.lots] <;> omega
    · rw [l2, sgn_invert]; ring
    · rw [l3]
    · rw [l8]
    · rw [l2]
  split at h
  · next hc =>
    simp only [bind_ok, ck64_ok] at h
    obtain ⟨q, ⟨rfl, _⟩, h⟩ := h
    have hc' : oo.market = m.idx ∧ (f.makerOrderId = 0 ∨ oo.id = f.makerOrderId) := by
      refine ⟨?_, hc.2⟩; have := hc.1; simpa [OO.isActiveForMarket] using this
    split at h
    · next hout =>
      simp only [ok_inj, Prod.mk.injEq] at h
      obtain ⟨rfl, rfl⟩ := h
      refine common _ rfl ?_
      unfold slotAfter; simp only [hoo]
      rw [if_pos hc', if_pos hout]; rfl
    · next hout =>
      simp only [ok_inj, Prod.mk.injEq] at h
      obtain ⟨rfl, rfl⟩ := h
      refine common _ rfl ?_
      unfold slotAfter; simp only [hoo]
      rw [if_pos hc', if_neg hout]; rfl
  · next hc =>
    simp only [ok_inj, Prod.mk.injEq] at h
    obtain ⟨rfl, rfl⟩ := h
    refine common _ rfl ?_
    unfold slotAfter; simp only [hoo]
    rw [if_neg]
    intro hc'; exact hc ⟨by simpa [OO.isActiveForMarket] using hc'.1, hc'.2⟩

/-- what executing a fill on the taker's account does -/
structure TakerDone (a : PAcct) (m : Market) (f : FillEv) (a' : PAcct) (m' : Market) : Prop where
  pos : ∃ p p' uf, a.pos = some p ∧ a'.pos = some p' ∧ p.unsettledFunding m = .ok uf ∧
    (∀ sd, p'.lots sd = p.lots sd) ∧
    p'.base = p.base + Side.sgn f.takerSide * f.quantity ∧
    p'.quote = p.quote - uf - Side.sgn f.takerSide * f.value m * S ∧
    p'.oneshot = p.oneshot - uf ∧
    p'.takerBase = p.takerBase - Side.sgn f.takerSide * f.quantity ∧
    p'.takerQuote = p.takerQuote + Side.sgn f.takerSide * (f.price * f.quantity) ∧
    p'.longSettled = m.longFunding ∧ p'.shortSettled = m.shortFunding ∧
    m' = { m with openInterest := m.openInterest + (|p'.base| - |p.base|) }
  oos : a'.oos = a.oos

theorem executeTaker_ok {a a' : PAcct} {m m' : Market} {f : FillEv} (h : a.executeTaker m f = .ok (a', m')) : TakerDone a m f a' m' := by
  unfold PAcct.executeTaker Pos.removeTakerTrade at h
  simp only [bind_ok, mul_ok, Prod.exists, getPos_ok, ck64_ok, ok_inj, Prod.mk.injEq] at h
  obtain ⟨p, hp, p1, hp1, bc, qc, hb, p2, ⟨x, ⟨rfl, _⟩, y, ⟨rfl, _⟩, rfl⟩, q, ⟨rfl, _⟩, p3, m3, hp3, rfl, rfl⟩ := h
  obtain ⟨rfl, rfl⟩ := baseQuoteChange_ok hb
  obtain ⟨uf, hu, rfl⟩ := settleFunding_ok hp1
  obtain ⟨⟨r, rfl⟩, rfl⟩ := recordTrade_ok hp3
  have hval : (Fx.ofInt m.quoteLotSize) * (Fx.ofInt (-(Side.sgn f.takerSide * (f.price * f.quantity)))) / S = - (Side.sgn f.takerSide * f.value m * S) := by
    rw [mul_ofInt]; unfold Fx.ofInt FillEv.value; ring
  refine ⟨⟨p, _, uf, hp, rfl, hu, ?_, rfl, ?_, rfl, rfl, ?_, rfl, rfl, rfl⟩, rfl⟩
  · intro sd; cases sd <;> rfl
  · simp only [hval]; ring
  · simp only; ring

/-- what executing an out event does -/
theorem executeOut_ok {a a' : PAcct} {idx : Nat} {e : OutEv} (h : a.executeOut idx e = .ok a') :
    (∃ p p', a.pos = some p ∧ a'.pos = some p' ∧ (∀ sd, p'.lots sd = p.lots sd - (if sd = e.side then e.quantity else 0)) ∧
      p'.base = p.base ∧ p'.quote = p.quote ∧ p'.takerBase = p.takerBase ∧ p'.takerQuote = p.takerQuote ∧
      p'.longSettled = p.longSettled ∧ p'.shortSettled = p.shortSettled ∧ p'.oneshot = p.oneshot) ∧
    (∃ oo, a.oos[e.ownerSlot]? = some oo) ∧
    a'.oos = slotAfter idx a.oos e.orderId e.ownerSlot true e.quantity := by
  unfold PAcct.executeOut at h
  simp only [bind_ok, getPos_ok, ck64_ok, getOO_ok, PAcct.setPos] at h
  obtain ⟨p, hp, nq, ⟨rfl, _⟩, p', hp', oo, hoo, h⟩ := h
  obtain ⟨l1, l2⟩ := adjust_lots hp'
  have common : ∀ x : PAcct, x.pos = some p' → x.oos = slotAfter idx a.oos e.orderId e.ownerSlot true e.quantity → a' = x →
      a'.pos = some p' ∧ a'.oos = slotAfter idx a.oos e.orderId e.ownerSlot true e.quantity := by
    intro x hx hxo hxa
    subst hxa
    exact ⟨hx, hxo⟩
  suffices hs : a'.pos = some p' ∧ a'.oos = slotAfter idx a.oos e.orderId e.ownerSlot true e.quantity from
    ⟨⟨p, p', hp, hs.1, fun sd => by rw [l1 sd]; split <;> omega, l2⟩, ⟨oo, hoo⟩, hs.2⟩
  split at h
  · next hc =>
    rw [ok_inj] at h
    refine common _ rfl ?_ h.symm
    unfold slotAfter; simp only [hoo]
    rw [if_pos ⟨by simpa [OO.isActiveForMarket] using hc.1, hc.2⟩]; rfl
  · next hc =>
    rw [ok_inj] at h
    refine common _ rfl ?_ h.symm
    unfold slotAfter; simp only [hoo]
    rw [if_neg]
    intro hc'; exact hc ⟨by simpa [OO.isActiveForMarket] using hc'.1, hc'.2⟩

theorem removePerpOrder_ok {a a' : PAcct} {slot : Nat} {q : Int} (h : a.removePerpOrder slot q = .ok a') :
    ∃ oo p p', a.oos[slot]? = some oo ∧ a.pos = some p ∧ a'.pos = some p' ∧ (∀ sd, p'.lots sd = p.lots sd - (if sd = oo.side then q else 0)) ∧
      p'.base = p.base ∧ p'.quote = p.quote ∧ p'.takerBase = p.takerBase ∧ p'.takerQuote = p.takerQuote ∧
      p'.longSettled = p.longSettled ∧ p'.shortSettled = p.shortSettled ∧ p'.oneshot = p.oneshot ∧
      a'.oos = a.oos.set slot {} := by
  unfold PAcct.removePerpOrder at h
  simp only [bind_ok, getPos_ok, ck64_ok, getOO_ok, require_ok, ok_inj] at h
  obtain ⟨oo, hoo, _, _, p, hp, nq, ⟨rfl, _⟩, p', hp', rfl⟩ := h
  obtain ⟨l1, l2, l3, l4, l5, l6, l7, l8⟩ := adjust_lots hp'
  exact ⟨oo, p, p', hoo, hp, rfl, fun sd => by rw [l1 sd]; split <;> omega, l2, l3, l4, l5, l6, l7, l8, rfl⟩

end Perp
end Mango
