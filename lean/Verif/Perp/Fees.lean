import Verif.Perp.PlaceFacts
/-! Helper: closed forms of the account and market updates of a new order. -/
namespace Mango
namespace Perp
open Book Fx

theorem mul_ofInt (n : Int) (x : I80F48) : (Fx.ofInt n) * x / S = n * x := by
  unfold Fx.ofInt
  rw [show n * S * x = n * x * S by ring]
  exact Int.mul_ediv_cancel _ (by have := S_pos; omega)

theorem getPos_ok {a : PAcct} {p : Pos} : a.getPos = .ok p ↔ a.pos = some p := by
  unfold PAcct.getPos
  cases a.pos <;> simp

theorem recordTradingFee_ok {p p' : Pos} {fee : I80F48} (h : p.recordTradingFee fee = .ok p') :
    p' = { p with quote := p.quote - fee, oneshot := p.oneshot - fee } := by
  unfold Pos.recordTradingFee Pos.changeQuote at h
  simp only [bind_ok, neg_ok, add_ok, sub_ok, ok_inj] at h
  obtain ⟨nf, ⟨rfl, _⟩, p1, ⟨q, ⟨rfl, _⟩, rfl⟩, o, ⟨rfl, _⟩, rfl⟩ := h
  simp only [Int.sub_eq_add_neg]

/-- what one fee charge does -/
structure FeeStep (m : Market) (a : PAcct) (fee credit : I80F48) (m' : Market) (a' : PAcct) : Prop where
  market : m' = { m with feesAccrued := m.feesAccrued + credit }
  pos : ∃ p, a.pos = some p ∧ a'.pos = some { p with quote := p.quote - fee, oneshot := p.oneshot - fee }
  oos : a'.oos = a.oos

theorem applyPenalty_ok {m m' : Market} {a a' : PAcct} {f : I80F48} (h : applyPenalty m a = .ok (f, m', a')) :
    f = m.feePenalty ∧ FeeStep m a m.feePenalty m.feePenalty m' a' := by
  unfold applyPenalty at h
  simp only [bind_ok, getPos_ok, add_ok, ok_inj, Prod.mk.injEq] at h
  obtain ⟨fl, _, u, _, p, hp, p', hr, fa, ⟨rfl, _⟩, rfl, rfl, rfl⟩ := h
  refine ⟨rfl, rfl, ⟨p, hp, ?_⟩, rfl⟩
  rw [recordTradingFee_ok hr]; rfl

theorem penaltyStep_ok {o : Order} {m m' : Market} {a a' : PAcct} (h : penaltyStep o m a = .ok (m', a')) :
    (o.needsPenalty = true ∧ FeeStep m a m.feePenalty m.feePenalty m' a') ∨ (o.needsPenalty = false ∧ m' = m ∧ a' = a) := by
  unfold penaltyStep at h
  cases hp : o.needsPenalty
  · simp only [hp, Bool.false_eq_true, if_false, ok_inj, Prod.mk.injEq] at h
    exact .inr ⟨rfl, h.1.symm, h.2.symm⟩
  · simp only [hp, if_true, bind_ok, ok_inj, Prod.mk.injEq] at h
    obtain ⟨⟨f, m1, a1⟩, h1, rfl, rfl⟩ := h
    exact .inl ⟨rfl, (applyPenalty_ok h1).2⟩

theorem applyFees_ok {m m' : Market} {a a' : PAcct} {q : Int} {f : I80F48} (h : applyFees m a q = .ok (f, m', a')) :
    0 ≤ q ∧ FeeStep m a (m.quoteLotSize * q * m.takerFee) (m.quoteLotSize * q * m.takerFee + m.quoteLotSize * q * m.makerFee) m' a' := by
  unfold applyFees at h
  simp only [bind_ok, require_ok, ck64_ok, mul_ok, getPos_ok, add_ok, ok_inj, Prod.mk.injEq] at h
  obtain ⟨_, hq, n, ⟨rfl, _⟩, mf, ⟨rfl, _⟩, tf, ⟨rfl, _⟩, _, htf, t, _, fl, _, u, _, p, hp, p', hr, tot, ⟨rfl, _⟩, fa, ⟨rfl, _⟩, rfl, rfl, rfl⟩ := h
  rw [mul_ofInt, mul_ofInt] at *
  refine ⟨hq, rfl, ⟨p, hp, ?_⟩, rfl⟩
  rw [recordTradingFee_ok hr]; rfl

/-- +1 for buys, -1 for sells -/
def Side.sgn : Side → Int
  | .bid => 1
  | .ask => -1

theorem addTakerTrade_ok {p p' : Pos} {side : Side} {b q : Int} (h : p.addTakerTrade side b q = .ok p') :
    p' = { p with takerBase := p.takerBase + Side.sgn side * b, takerQuote := p.takerQuote - Side.sgn side * q } := by
  unfold Pos.addTakerTrade at h
  cases side
  · simp only [bind_ok, ck64_ok, ok_inj] at h
    obtain ⟨x, ⟨rfl, _⟩, y, ⟨rfl, _⟩, rfl⟩ := h
    simp [Side.sgn]
  · simp only [bind_ok, ck64_ok, ok_inj] at h
    obtain ⟨x, ⟨rfl, _⟩, y, ⟨rfl, _⟩, rfl⟩ := h
    simp [Side.sgn, Int.sub_eq_add_neg]

theorem takerStep_ok {o : Order} {m m' : Market} {a a' : PAcct} {base quote dec : Int} (h : takerStep o m a base quote dec = .ok (m', a')) :
    0 ≤ quote ∧ 0 ≤ base ∧
    ((base = 0 ∧ quote = 0 ∧ m' = m ∧ a' = a) ∨
     (0 ≤ quote - dec ∧
      m' = { m with feesAccrued := m.feesAccrued + (m.quoteLotSize * (quote - dec) * m.takerFee + m.quoteLotSize * (quote - dec) * m.makerFee) } ∧
      (∃ p, a.pos = some p ∧ a'.pos = some { p with
          takerBase := p.takerBase + Side.sgn o.side * base, takerQuote := p.takerQuote - Side.sgn o.side * quote,
          quote := p.quote - m.quoteLotSize * (quote - dec) * m.takerFee,
          oneshot := p.oneshot - m.quoteLotSize * (quote - dec) * m.takerFee }) ∧
      a'.oos = a.oos)) := by
  unfold takerStep at h
  simp only [bind_ok, require_ok] at h
  obtain ⟨_, h1, _, h2, h⟩ := h
  refine ⟨h1, h2, ?_⟩
  by_cases hc : quote > 0 ∨ base > 0
  · rw [if_pos hc] at h
    simp only [bind_ok, getPos_ok, ck64_ok, ok_inj, Prod.mk.injEq] at h
    obtain ⟨p, hp, p1, ht, d, ⟨rfl, _⟩, ⟨f, m1, a1⟩, hf, rfl, rfl⟩ := h
    obtain ⟨g1, g2, ⟨pp, g3, g4⟩, g5⟩ := applyFees_ok hf
    right
    simp only [PAcct.setPos, Option.some.injEq] at g3
    subst g3
    refine ⟨g1, g2, ⟨p, hp, ?_⟩, g5⟩
    rw [g4, addTakerTrade_ok ht]
  · rw [if_neg hc, ok_inj, Prod.mk.injEq] at h
    exact .inl ⟨by omega, by omega, h.1.symm, h.2.symm⟩

theorem adjustMakerLots_ok {p p' : Pos} {side : Side} {n : Int} (h : p.adjustMakerLots side n = .ok p') :
    p' = { p with bids := p.bids + (if side = .bid then n else 0), asks := p.asks + (if side = .ask then n else 0) } := by
  unfold Pos.adjustMakerLots at h
  cases side <;> simp only [bind_ok, ck64_ok, ok_inj] at h <;> obtain ⟨x, ⟨rfl, _⟩, rfl⟩ := h <;> simp

theorem Posted.mem {c : MCtx} {target : Comp} {oracle : Int} {id : Nat} {qty : Int} {s s' : NOState} {own own' : SpecSide}
    (W : Posted c target oracle id qty s s' own own') : W.leaf ∈ own'.get target := by
  have h := W.own_eq
  have : ∀ l, own' = W.mid.set target (sInsert l (W.mid.get target)) → l ∈ own'.get target := by
    intro l e; rw [e, get_set_same, C13_spec_insert]; left; rfl
  exact this _ h

/-- The account and the market after a new order, before posting, in closed form. -/
structure Charged (o : Order) (m : Market) (a : PAcct) (base quote feeQuote : Int) (m' : Market) (a' : PAcct) : Prop where
  market : ∃ sn, m' = { m with
      seqNum := sn,
      feesAccrued := m.feesAccrued + (if o.needsPenalty = true then m.feePenalty else 0) +
        m.quoteLotSize * feeQuote * (m.takerFee + m.makerFee) }
  pos : ∃ p, a.pos = some p ∧ a'.pos = some { p with
      takerBase := p.takerBase + Side.sgn o.side * base, takerQuote := p.takerQuote - Side.sgn o.side * quote,
      quote := p.quote - (if o.needsPenalty = true then m.feePenalty else 0) - m.quoteLotSize * feeQuote * m.takerFee,
      oneshot := p.oneshot - (if o.needsPenalty = true then m.feePenalty else 0) - m.quoteLotSize * feeQuote * m.takerFee }
  oos : a'.oos = a.oos

theorem decQuote_zero {taker : Nat} {acts : List Act} (h : sumOf Act.base acts = 0) (hp : ∀ a ∈ acts, 0 ≤ a.base ∧ (a.base = 0 → a.isFill = false)) :
    sumOf (Act.decQuote taker) acts = 0 ∧ sumOf Act.quote acts = 0 := by
  induction acts with
  | nil => simp
  | cons a acts ih =>
    rw [sumOf_cons] at h
    have h0 : 0 ≤ sumOf Act.base acts := sumOf_nonneg_mem (fun x hx => (hp x (by simp [hx])).1)
    have h1 := hp a (by simp)
    have ha : a.isFill = false := h1.2 (by omega)
    obtain ⟨i1, i2⟩ := ih (by omega) (fun x hx => hp x (by simp [hx]))
    rw [sumOf_cons, sumOf_cons, i1, i2]
    cases a <;> simp_all [Act.decQuote, Act.quote, Act.isFill]

namespace Placed
variable {o : Order} {oracleNative : I80F48} {taker now limit : Nat} {s s' : NOState} {sp : Side → SpecSide} {r : Option Nat}

theorem charged (P : Placed o oracleNative taker now limit s sp r s') (hL : LiveBook s.book sp) (h1 : 0 ≤ o.maxBase)
    (h2 : 0 ≤ o.maxQuote) :
    Charged o s.market s.acct (sumOf Act.base P.acts) (sumOf Act.quote P.acts)
      (sumOf Act.quote P.acts - sumOf (Act.decQuote taker) P.acts) P.m2 P.a2 ∧ P.m2.seqNum = s.market.seqNum + 1 := by
  obtain ⟨g1, g2, g3⟩ := genOrderId_ok P.e_gen
  obtain ⟨hacts, _⟩ := P.acts_ok hL h1 h2
  have hfill : ∀ a ∈ P.acts, 0 ≤ a.base ∧ (a.base = 0 → a.isFill = false) := by
    intro a ha
    have := hacts a ha
    cases a <;> simp [Act.base, Act.isFill]
    simp only [actOK] at this
    omega
  obtain ⟨t1, t2, ht⟩ := takerStep_ok P.e_taker
  have hpen := penaltyStep_ok P.e_pen
  have hpos1 : ∃ p, s.acct.pos = some p ∧ P.a1.pos = some { p with
      quote := p.quote - (if o.needsPenalty = true then s.market.feePenalty else 0),
      oneshot := p.oneshot - (if o.needsPenalty = true then s.market.feePenalty else 0) } ∧ P.a1.oos = s.acct.oos ∧
      P.m1 = { s.market with
          seqNum := s.market.seqNum + 1,
          feesAccrued := s.market.feesAccrued + (if o.needsPenalty = true then s.market.feePenalty else 0) } := by
    rcases hpen with ⟨hn, f1, ⟨p, f2, f3⟩, f4⟩ | ⟨hn, e1, e2⟩
    · refine ⟨p, f2, ?_, f4, ?_⟩
      · rw [f3, if_pos hn, g3]
      · rw [f1, if_pos hn, g3]
    · obtain ⟨p, hp⟩ := P.e_pos
      rw [e2] at hp
      refine ⟨p, hp, ?_, ?_, ?_⟩
      · rw [e2, hp]; simp [hn]
      · rw [e2]
      · rw [e1, g3]; simp [hn]
  obtain ⟨p, hp, hp1, ho1, hm1⟩ := hpos1
  rcases ht with ⟨z1, z2, e1, e2⟩ | ⟨_, e1, ⟨p', hp', e2⟩, e3⟩
  · obtain ⟨d1, d2⟩ := decQuote_zero (taker := taker) z1 hfill
    refine ⟨⟨⟨s.market.seqNum + 1, ?_⟩, ⟨p, hp, ?_⟩, ?_⟩, ?_⟩
    · rw [e1, hm1, d1, d2]; simp
    · rw [e2, hp1, d1, d2, z1]; simp
    · rw [e2, ho1]
    · rw [e1, hm1]
  · rw [hp1, Option.some.injEq] at hp'
    subst hp'
    refine ⟨⟨⟨s.market.seqNum + 1, ?_⟩, ⟨p, hp, ?_⟩, ?_⟩, ?_⟩
    · rw [e1, hm1]; simp only [Market.mk.injEq, true_and, and_true]; ring
    · rw [e2, hm1]
    · rw [e3, ho1]
    · rw [e1, hm1]

end Placed
end Perp
end Mango
