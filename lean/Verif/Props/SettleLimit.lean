import Verif.Props.Settle
/-!
# C29: settled pnl respects the settle limit, over every history inside a window
-/
namespace Mango
namespace Perp
open Book Fx

/-! ## Specification -/

/-- whole native units, rounded up -/
def unitsUp (x : I80F48) : Int := -((-x) / S)

/-- the profit a position may still settle in its window beyond the share of its position value: the recurring and the positive
one-shot allowance less what was settled in the window already -/
def gainRoom (p : Pos) : Int := |p.recurring| + unitsUp (max p.oneshot 0) - p.settledInWindow

/-- the same for losses -/
def lossRoom (p : Pos) : Int := |p.recurring| + unitsUp (max (-p.oneshot) 0) + p.settledInWindow

/-! ## rounding facts -/

theorem unitsUp_bounds (x : Int) : x ≤ unitsUp x * S ∧ unitsUp x * S < x + S := by
  unfold unitsUp S; omega

theorem unitsUp_mono {x y : Int} (h : x ≤ y) : unitsUp x ≤ unitsUp y := by
  unfold unitsUp S; omega

theorem unitsUp_add (x y : Int) : unitsUp (x + y) ≤ unitsUp x + unitsUp y := by
  unfold unitsUp S; omega

theorem unitsUp_nonneg {x : Int} (h : 0 ≤ x) : 0 ≤ unitsUp x := by
  unfold unitsUp S; omega

theorem clamp_trunc {x : Int} : (0 ≤ x → Fx.clampToI64 (Fx.roundToZero x) = min I64MAX (x / S)) ∧
    (x ≤ 0 → Fx.clampToI64 (Fx.roundToZero x) = max I64MIN (-((-x) / S))) := by
  constructor
  · intro h
    unfold Fx.clampToI64 Fx.roundToZero
    rw [Int.tdiv_eq_ediv_of_nonneg h]
    unfold I64MIN I64MAX S
    split
    · omega
    · split <;> omega
  · intro h
    unfold Fx.clampToI64 Fx.roundToZero
    have : x.tdiv S = -((-x) / S) := by
      conv_lhs => rw [← neg_neg x]
      rw [Int.neg_tdiv, Int.tdiv_eq_ediv_of_nonneg (by omega)]
    rw [this]
    unfold I64MIN I64MAX S
    split
    · omega
    · split <;> omega

/-! ## what `record_settle` does -/

/-- the part of a settlement covered by the one-shot allowance -/
def oneshotPart (p : Pos) (s : I80F48) : I80F48 := if s > 0 then max (min s p.oneshot) 0 else min (max s p.oneshot) 0

/-- Effect of `record_settle`: the settled amount leaves the quote position; the one-shot allowance pays first, the shrinking of the
recurring allowance second, the rest is booked as used limit. -/
structure Settled (p : Pos) (s : I80F48) (p' : Pos) : Prop where
  pos : p' = { p with quote := p.quote - s, oneshot := p.oneshot - oneshotPart p s, recurring := p'.recurring, settledInWindow := p'.settledInWindow }
  rec_nonneg : 0 ≤ p'.recurring
  rec_le : p'.recurring ≤ |p.recurring|
  used_pos : 0 < s → p'.settledInWindow = p.settledInWindow + max 0 (min I64MAX ((s - oneshotPart p s) / S) - (|p.recurring| - p'.recurring))
  used_neg : s ≤ 0 → p'.settledInWindow = p.settledInWindow + min 0 (max I64MIN (-((oneshotPart p s - s) / S)) + (|p.recurring| - p'.recurring))

theorem unsettledPnl_ok {p : Pos} {m : Market} {x y : I80F48} (h : p.unsettledPnl m x = .ok y) : inRange y := by
  unfold Pos.unsettledPnl at h
  simp only [bind_ok, add_ok] at h
  obtain ⟨_, _, _, _, rfl, h⟩ := h
  exact h

theorem recordSettle_ok {p p' : Pos} {m : Market} {s : I80F48} (h : p.recordSettle m s = .ok p') : Settled p s p' := by
  unfold Pos.recordSettle Pos.changeQuote Pos.applyRecurringConstraint at h
  simp only [bind_ok, ok_inj, ck64_ok, abs64_ok, add_ok, sub_ok, neg_ok, Prod.mk.injEq, Prod.exists] at h
  obtain ⟨n, ⟨rfl, _⟩, p1, ⟨q, ⟨rfl, _⟩, rfl⟩, os, ⟨rfl, _⟩, d, ⟨rfl, _⟩, p2, rc, ⟨ra, ⟨rfl, _⟩, up, hup, a, ha, c, hc, ua, hua, rd, ⟨rfl, _⟩, rfl, rfl⟩, used, hu, w, ⟨rfl, _⟩, rfl⟩ := h
  simp only at hu ⊢
  have hua0 : 0 ≤ ua := by
    have e1 := fxabs_ok ha
    rw [ceil_ok] at hc
    unfold toI64 at hua
    rw [ck64_ok] at hua
    have : 0 ≤ a := by rw [e1]; exact abs_nonneg _
    rw [hua.1, hc.1]
    unfold toInt S; omega
  have hab := abs_nonneg p.recurring
  have hopp : s > 0 → oneshotPart p s ≤ s := by
    intro h; unfold oneshotPart; rw [if_pos h]; omega
  have hopn : ¬ s > 0 → s ≤ oneshotPart p s := by
    intro h; unfold oneshotPart; rw [if_neg h]; omega
  have hop : (if s > 0 then max (min s p.oneshot) 0 else min (max s p.oneshot) 0) = oneshotPart p s := rfl
  rw [hop] at hu ⊢
  have key : used = if s > 0 then max 0 (min I64MAX ((s - oneshotPart p s) / S) - (|p.recurring| - max (min |p.recurring| ua) 0))
      else min 0 (max I64MIN (-((oneshotPart p s - s) / S)) + (|p.recurring| - max (min |p.recurring| ua) 0)) := by
    by_cases hs : s > 0
    · rw [if_pos hs]
      have hcl := (clamp_trunc (x := s - oneshotPart p s)).1 (by have := hopp hs; omega)
      have hnn : 0 ≤ (s - oneshotPart p s) / S := floor_nonneg (by have := hopp hs; omega)
      rw [hcl] at hu
      have h64 : (0:Int) < I64MAX := by decide
      by_cases hrc : max (min |p.recurring| ua) 0 - |p.recurring| < 0
      · rw [if_pos hrc] at hu
        split at hu
        · simp only [bind_ok, ck64_ok, ok_inj] at hu
          obtain ⟨x, ⟨rfl, _⟩, rfl⟩ := hu
          omega
        · simp only [bind_ok, ck64_ok, ok_inj] at hu
          obtain ⟨x, ⟨rfl, _⟩, rfl⟩ := hu
          omega
      · rw [if_neg hrc, ok_inj] at hu
        omega
    · rw [if_neg hs]
      have hcl := (clamp_trunc (x := s - oneshotPart p s)).2 (by have := hopn hs; omega)
      have e : -(s - oneshotPart p s) = oneshotPart p s - s := by omega
      rw [e] at hcl
      have hnn : 0 ≤ (oneshotPart p s - s) / S := floor_nonneg (by have := hopn hs; omega)
      rw [hcl] at hu
      have h64 : I64MIN < (0:Int) := by decide
      by_cases hrc : max (min |p.recurring| ua) 0 - |p.recurring| < 0
      · rw [if_pos hrc] at hu
        split at hu
        · omega
        · simp only [bind_ok, ck64_ok, ok_inj] at hu
          obtain ⟨x, ⟨rfl, _⟩, rfl⟩ := hu
          omega
      · rw [if_neg hrc, ok_inj] at hu
        omega
  refine ⟨by simp only [Int.sub_eq_add_neg], by simp only; omega, by simp only; omega, ?_, ?_⟩
  · intro hs; simp only; rw [key, if_pos hs]
  · intro hs; simp only; rw [key, if_neg (by omega)]

/-- settling a profit uses up profit room and adds at most as much loss room -/
theorem settle_gain {p p' : Pos} {s : I80F48} (h : Settled p s p') (hs : 0 < s) (hb : s ≤ I64MAX * S) :
    gainRoom p' ≤ gainRoom p - s / S ∧ lossRoom p' ≤ lossRoom p + s / S := by
  have hu := h.used_pos hs
  have e1 : p'.oneshot = p.oneshot - oneshotPart p s := by rw [h.pos]
  have hn := h.rec_nonneg
  have hl := h.rec_le
  have hop : oneshotPart p s = max (min s p.oneshot) 0 := by unfold oneshotPart; rw [if_pos hs]
  unfold gainRoom lossRoom
  rw [abs_of_nonneg hn, hu, e1]
  generalize |p.recurring| = r at *
  generalize p'.recurring = r' at *
  generalize p.settledInWindow = w
  generalize oneshotPart p s = o at *
  have hm : (s - o) / S ≤ I64MAX := by
    have : s - o ≤ I64MAX * S := by omega
    have := floor_mono this
    rwa [Int.mul_ediv_cancel _ (by have := S_pos; omega)] at this
  have hmin : min I64MAX ((s - o) / S) = (s - o) / S := by omega
  rw [hmin]
  unfold unitsUp
  unfold S
  constructor <;> omega

/-- settling a loss uses up loss room and adds at most as much profit room -/
theorem settle_loss {p p' : Pos} {t : I80F48} (h : Settled p (-t) p') (ht : 0 ≤ t) (hb : t ≤ -I64MIN * S) :
    gainRoom p' ≤ gainRoom p + t / S ∧ lossRoom p' ≤ lossRoom p - t / S := by
  have hu := h.used_neg (by omega)
  have e1 : p'.oneshot = p.oneshot - oneshotPart p (-t) := by rw [h.pos]
  have hn := h.rec_nonneg
  have hl := h.rec_le
  have hop : oneshotPart p (-t) = min (max (-t) p.oneshot) 0 := by unfold oneshotPart; rw [if_neg (by omega)]
  unfold gainRoom lossRoom
  rw [abs_of_nonneg hn, hu, e1]
  generalize |p.recurring| = r at *
  generalize p'.recurring = r' at *
  generalize p.settledInWindow = w
  generalize oneshotPart p (-t) = o at *
  have hm : (o - -t) / S ≤ -I64MIN := by
    have : o - -t ≤ -I64MIN * S := by omega
    have := floor_mono this
    rwa [Int.mul_ediv_cancel _ (by have := S_pos; omega)] at this
  have hmin : max I64MIN (-((o - -t) / S)) = -((o - -t) / S) := by omega
  rw [hmin]
  unfold unitsUp
  unfold S
  constructor <;> omega

/-! ## the limit itself -/

theorem clamp_le {x : Int} (h : 0 ≤ x) : Fx.clampToI64 x ≤ x / S ∧ 0 ≤ Fx.clampToI64 x := by
  unfold Fx.clampToI64 I64MIN I64MAX S
  split
  · omega
  · split <;> omega

theorem clamp_ge {x : Int} (h : x ≤ 0) : x / S ≤ Fx.clampToI64 x ∧ Fx.clampToI64 x ≤ 0 := by
  unfold Fx.clampToI64 I64MIN I64MAX S
  split
  · omega
  · split <;> omega

theorem sat64_le {x : Int} : max (sat64 x) 0 ≤ max x 0 ∧ min x 0 ≤ min (sat64 x) 0 ∧ I64MIN ≤ sat64 x ∧ sat64 x ≤ I64MAX := by
  unfold sat64 I64MIN I64MAX; omega

/-- **C29 (limits).** The available settle limit is a range around zero, of 64 bit amounts; above it is at most the position-value
limit plus the profit room, below at most the position-value limit plus the loss room. -/
theorem C29_available_limit {lim : I80F48 → Int} {U : Int} (hU : ∀ v, 0 ≤ v → 0 ≤ lim v ∧ lim v ≤ U) {p : Pos} {m : Market} (hf : 0 ≤ m.settlePnlLimitFactor)
    {lo hi : Int} (h : p.availableSettleLimit lim m = .ok (lo, hi)) :
    lo ≤ 0 ∧ 0 ≤ hi ∧ I64MIN ≤ lo ∧ hi ≤ I64MAX ∧ hi ≤ max 0 (U + gainRoom p) ∧ -lo ≤ max 0 (U + lossRoom p) := by
  unfold Pos.availableSettleLimit at h
  rw [if_neg (by omega)] at h
  unfold Pos.settleLimit at h
  rw [if_neg (by omega)] at h
  simp only [bind_ok, ok_inj, ck64_ok, abs64_ok, Prod.mk.injEq, Prod.exists] at h
  obtain ⟨l0, h0, ⟨bn, _, pv, _, pva, hpva, u, _, ua, hua, uc, huc, up, hup, ra, ⟨rfl, _⟩, mp, ⟨rfl, _⟩, mn, ⟨rfl, _⟩, h⟩, rfl, rfl⟩ := h
  have hpv0 : 0 ≤ pva := by rw [fxabs_ok hpva]; exact abs_nonneg _
  obtain ⟨hl0, hlU⟩ := hU pva hpv0
  have hup0 : 0 ≤ up := by
    have e1 := fxabs_ok hua
    rw [ceil_ok] at huc
    unfold toI64 at hup
    rw [ck64_ok] at hup
    have : 0 ≤ ua := by rw [e1]; exact abs_nonneg _
    rw [hup.1, huc.1]
    unfold toInt S; omega
  have hab := abs_nonneg p.recurring
  have hs1 := sat64_le (x := l0 - p.settledInWindow)
  have hs2 := sat64_le (x := h0 - p.settledInWindow)
  have h64 : I64MIN < 0 ∧ 0 < I64MAX := by decide
  have hb : -l0 ≤ U + |p.recurring| + unitsUp (max (-p.oneshot) 0) ∧ h0 ≤ U + |p.recurring| + unitsUp (max p.oneshot 0) := by
    split at h
    · next ho =>
      simp only [bind_ok, ok_inj, ceil_ok, Prod.mk.injEq] at h
      obtain ⟨c, ⟨rfl, _⟩, rfl, rfl⟩ := h
      have hc0 : 0 ≤ -(-p.oneshot / S) * S := by unfold S; omega
      have hc := clamp_le hc0
      have e : -(-p.oneshot / S) * S / S = -(-p.oneshot / S) := Int.mul_ediv_cancel _ (by have := S_pos; omega)
      rw [e] at hc
      have hs3 := sat64_le (x := lim pva + min |p.recurring| up + clampToI64 (-(-p.oneshot / S) * S))
      have e2 : unitsUp (max p.oneshot 0) = -(-p.oneshot / S) := by unfold unitsUp; rw [max_eq_left ho]
      have e3 := unitsUp_nonneg (x := max (-p.oneshot) 0) (by omega)
      rw [e2]
      constructor
      · omega
      · omega
    · next ho =>
      simp only [bind_ok, ok_inj, floor_ok, Prod.mk.injEq] at h
      obtain ⟨c, ⟨rfl, _⟩, rfl, rfl⟩ := h
      have hc0 : p.oneshot / S * S ≤ 0 := by unfold S; omega
      have hc := clamp_ge hc0
      have e : p.oneshot / S * S / S = p.oneshot / S := Int.mul_ediv_cancel _ (by have := S_pos; omega)
      rw [e] at hc
      have hs3 := sat64_le (x := -(lim pva + min |p.recurring| up) + clampToI64 (p.oneshot / S * S))
      have e2 : unitsUp (max (-p.oneshot) 0) = -(p.oneshot / S) := by
        unfold unitsUp; rw [max_eq_left (by omega), neg_neg]
      have e3 := unitsUp_nonneg (x := max p.oneshot 0) (by omega)
      rw [e2]
      constructor
      · omega
      · omega
  unfold gainRoom lossRoom
  omega

/-! ## histories inside a window -/

/-- What can happen to a position inside a settle window.  `settle lim m s` is a settlement of `s` (negative: a loss) made under the
available settle limit. -/
inductive WOp
  | settle (lim : I80F48 → Int) (m : Market) (s : I80F48)
  | funding (m : Market)
  | fee (f : I80F48)
  | trade (m : Market) (baseChange : Int) (quoteChange : I80F48)
  | liqQuote (c : I80F48)
  | takeover (c : I80F48) (recurringLimit oneshotLimit : Int)

/-- the operation on the position; a settlement beyond the available limit is rejected -/
def WOp.apply (p : Pos) : WOp → Res Pos
  | .settle lim m s => do
      let (lo, hi) ← p.availableSettleLimit lim m
      require (Fx.ofInt lo ≤ s ∧ s ≤ Fx.ofInt hi) .panic
      p.recordSettle m s
  | .funding m => p.settleFunding m
  | .fee f => p.recordTradingFee f
  | .trade m b q => do
      let (p', _) ← p.recordTrade m b q
      .ok p'
  | .liqQuote c => p.recordLiquidationQuoteChange c
  | .takeover c r o => p.recordLiquidationPnlTakeover c r o

/-- profit settled by the operation in whole native units (negative for losses) -/
def WOp.settled : WOp → Int
  | .settle _ _ s => s.tdiv S
  | _ => 0

/-- allowance to settle profits granted by an operation: funding received, fees received, pnl taken over, or the allowance of the
closed part of a position -/
def WOp.gain (p : Pos) : WOp → Int
  | .settle _ _ _ => 0
  | .funding m => unitsUp (max (-owed m p) 0)
  | .fee f => unitsUp (max (-f) 0)
  | .trade m b _ => max 0 (unitsUp (-((|p.base + b| - |p.base|) * m.baseLotSize * m.stablePrice * m.settlePnlLimitFactor / S)))
  | .liqQuote c => unitsUp (max c 0)
  | .takeover _ r o => |r| + max o 0

/-- allowance to settle losses granted by an operation -/
def WOp.loss (p : Pos) : WOp → Int
  | .settle _ _ _ => 0
  | .funding m => unitsUp (max (owed m p) 0)
  | .fee f => unitsUp (max f 0)
  | .trade m b _ => max 0 (unitsUp (-((|p.base + b| - |p.base|) * m.baseLotSize * m.stablePrice * m.settlePnlLimitFactor / S)))
  | .liqQuote c => unitsUp (max (-c) 0)
  | .takeover _ r o => |r| + max (-o) 0

/-- position, net profit settled, profit allowance granted, loss allowance granted -/
structure WState where
  pos : Pos
  net : Int
  gain : Int
  loss : Int

def wstep (w : WState) (o : WOp) : Res WState := do
  let p ← o.apply w.pos
  .ok ⟨p, w.net + o.settled, w.gain + o.gain w.pos, w.loss + o.loss w.pos⟩

def wrun : WState → List WOp → Res WState
  | w, [] => .ok w
  | w, o :: os => do
      let w ← wstep w o
      wrun w os

/-- the position-value limit of a settlement is at most `U`, and the market does limit settlement -/
def WOp.within (U : Int) : WOp → Prop
  | .settle lim m _ => 0 ≤ m.settlePnlLimitFactor ∧ ∀ v, 0 ≤ v → 0 ≤ lim v ∧ lim v ≤ U
  | _ => True

theorem tdiv_pos {s : Int} (h : 0 ≤ s) : s.tdiv S = s / S := Int.tdiv_eq_ediv_of_nonneg h
theorem tdiv_neg {s : Int} (h : s ≤ 0) : s.tdiv S = -((-s) / S) := by
  conv_lhs => rw [← neg_neg s]
  rw [Int.neg_tdiv, Int.tdiv_eq_ediv_of_nonneg (by omega)]

theorem lotChange_net (old change : Int) : (Pos.lotChange old (old + change) change).2 - (Pos.lotChange old (old + change) change).1 = |old + change| - |old| := by
  have s0 : ∀ x : Int, (x.natAbs : Int) = |x| := fun x => Int.natCast_natAbs x
  unfold Pos.lotChange
  split
  · next h => rw [h]; simp
  · next h =>
    split
    · simp
    · next hs =>
      push Not at hs
      split
      · next hc =>
        simp only [s0]
        rcases lt_trichotomy old 0 with h1 | h1 | h1 <;> rcases lt_trichotomy change 0 with h2 | h2 | h2 <;>
          rcases lt_trichotomy (old + change) 0 with h3 | h3 | h3 <;>
          simp_all [Int.sign_eq_neg_one_of_neg, Int.sign_eq_one_of_pos, abs_of_neg, abs_of_pos] <;> omega
      · next hc =>
        simp only [s0]
        rcases lt_trichotomy old 0 with h1 | h1 | h1 <;> rcases lt_trichotomy change 0 with h2 | h2 | h2 <;>
          rcases lt_trichotomy (old + change) 0 with h3 | h3 | h3 <;>
          simp_all [Int.sign_eq_neg_one_of_neg, Int.sign_eq_one_of_pos, abs_of_neg, abs_of_pos] <;> omega

theorem trade_grant {p p' : Pos} {m m' : Market} {b : Int} {q : I80F48} (h : p.recordTrade m b q = .ok (p', m')) :
    |p'.recurring| ≤ |p.recurring| + max 0 (unitsUp (-((|p.base + b| - |p.base|) * m.baseLotSize * m.stablePrice * m.settlePnlLimitFactor / S))) := by
  unfold Pos.recordTrade Pos.changeBase Pos.changeQuote Pos.applyRecurringConstraint at h
  simp only [bind_ok, ok_inj, ck64_ok, abs64_ok, add_ok, Prod.mk.injEq, Prod.exists] at h
  obtain ⟨p1, h1, p2, m2, ⟨b1, ⟨rfl, _⟩, a1, ⟨rfl, _⟩, a0, ⟨rfl, _⟩, d, ⟨rfl, _⟩, oi, ⟨rfl, _⟩, rfl, rfl⟩, p3, ⟨q3, ⟨rfl, _⟩, rfl⟩, p4, dd,
    ⟨ra, ⟨rfl, _⟩, up, hup, a, ha, c, hc, ua, hua, rd, ⟨rfl, _⟩, rfl, rfl⟩, rfl, rfl⟩ := h
  simp only
  rw [abs_of_nonneg (a := max (min |p1.recurring| ua) 0) (by omega)]
  have hab := abs_nonneg p.recurring
  have key : |p1.recurring| ≤ |p.recurring| + max 0 (unitsUp (-((|p.base + b| - |p.base|) * m.baseLotSize * m.stablePrice * m.settlePnlLimitFactor / S))) := by
    unfold Pos.updateTradeStats at h1
    split at h1
    · rw [ok_inj] at h1; subst h1; omega
    · simp only [bind_ok, ok_inj, ck64_ok, abs64_ok, mul_ok] at h1
      obtain ⟨nw, ⟨rfl, _⟩, net, ⟨rfl, _⟩, r0, ⟨rfl, _⟩, nl, ⟨rfl, _⟩, v, ⟨rfl, _⟩, w, ⟨rfl, _⟩, r1, ⟨rfl, _⟩, rfl⟩ := h1
      simp only
      rw [lotChange_net, mul_ofInt]
      rw [abs_of_nonneg (a := max _ 0) (by omega)]
      generalize (|p.base + b| - |p.base|) * m.baseLotSize * m.stablePrice * m.settlePnlLimitFactor / S = w
      have : -(Fx.clampToI64 w) ≤ max 0 (unitsUp (-w)) := by
        unfold unitsUp Fx.clampToI64 I64MIN I64MAX S
        split
        · omega
        · split <;> omega
      omega
  omega

/-- each operation changes the room by what it settles and grants -/
theorem wop_room {p p' : Pos} {o : WOp} {U : Int} (hU : o.within U) (h : o.apply p = .ok p') :
    gainRoom p' ≤ gainRoom p - o.settled + o.gain p ∧ lossRoom p' ≤ lossRoom p + o.settled + o.loss p ∧ 0 ≤ o.gain p ∧ 0 ≤ o.loss p ∧
    o.settled ≤ max 0 (U + gainRoom p) ∧ -o.settled ≤ max 0 (U + lossRoom p) := by
  cases o with
  | settle lim m s =>
    unfold WOp.apply at h
    simp only [bind_ok, require_ok, Prod.exists] at h
    obtain ⟨lo, hi, hl, _, ⟨h1, h2⟩, h⟩ := h
    have hs := recordSettle_ok h
    obtain ⟨_, _, h64, h64', hg, hlo⟩ := C29_available_limit hU.2 hU.1 hl
    simp only [WOp.settled, WOp.gain, WOp.loss]
    unfold Fx.ofInt at h1 h2
    have hle : s ≤ I64MAX * S := by unfold S at *; unfold I64MAX at *; omega
    have hge : -s ≤ -I64MIN * S := by unfold S at *; unfold I64MIN I64MAX at *; omega
    rcases lt_or_ge 0 s with hp | hn
    · rw [tdiv_pos (by omega)]
      have := settle_gain hs hp hle
      have hh : s / S ≤ hi := by
        have := floor_mono h2; rwa [Int.mul_ediv_cancel _ (by have := S_pos; omega)] at this
      have := floor_nonneg (x := s) (by omega)
      omega
    · rw [tdiv_neg hn]
      have := settle_loss (t := -s) (by rw [neg_neg]; exact hs) (by omega) hge
      have hh : (-s) / S ≤ -lo := by
        have h3 : -s ≤ -lo * S := by rw [Int.neg_mul]; omega
        have := floor_mono h3; rwa [Int.mul_ediv_cancel _ (by have := S_pos; omega)] at this
      have := floor_nonneg (x := -s) (by omega)
      omega
  | funding m =>
    obtain ⟨f, hf, e⟩ := settleFunding_ok h
    have hfo := owed_of hf
    simp only [WOp.settled, WOp.gain, WOp.loss]
    rw [← hfo, e]
    unfold gainRoom lossRoom
    simp only
    unfold unitsUp S
    omega
  | fee f =>
    unfold WOp.apply Pos.recordTradingFee Pos.changeQuote at h
    simp only [bind_ok, ok_inj, add_ok, neg_ok, sub_ok] at h
    obtain ⟨_, _, _, ⟨q, _, rfl⟩, o, ⟨rfl, _⟩, rfl⟩ := h
    simp only [WOp.settled, WOp.gain, WOp.loss]
    unfold gainRoom lossRoom
    simp only
    unfold unitsUp S
    omega
  | trade m b q =>
    unfold WOp.apply at h
    simp only [bind_ok, ok_inj, Prod.exists] at h
    obtain ⟨p1, m1, h, rfl⟩ := h
    have hg := trade_grant h
    obtain ⟨r, e⟩ := (recordTrade_ok h).pos
    simp only [WOp.settled, WOp.gain, WOp.loss]
    have e1 : p1.oneshot = p.oneshot := by rw [e]
    have e2 : p1.settledInWindow = p.settledInWindow := by rw [e]
    unfold gainRoom lossRoom
    rw [e1, e2]
    omega
  | liqQuote c =>
    unfold WOp.apply Pos.recordLiquidationQuoteChange Pos.changeQuote at h
    simp only [bind_ok, ok_inj, add_ok] at h
    obtain ⟨_, ⟨q, _, rfl⟩, o, ⟨rfl, _⟩, rfl⟩ := h
    simp only [WOp.settled, WOp.gain, WOp.loss]
    unfold gainRoom lossRoom
    simp only
    unfold unitsUp S
    omega
  | takeover c r o =>
    unfold WOp.apply Pos.recordLiquidationPnlTakeover Pos.changeQuote at h
    simp only [bind_ok, ok_inj, add_ok, ck64_ok] at h
    obtain ⟨_, ⟨q, _, rfl⟩, _, ⟨rfl, _⟩, _, ⟨rfl, _⟩, rfl⟩ := h
    simp only [WOp.settled, WOp.gain, WOp.loss]
    have := abs_add_le p.recurring r
    have := abs_nonneg r
    unfold gainRoom lossRoom
    simp only
    unfold unitsUp Fx.ofInt S
    omega

theorem wrun_room {U : Int} : ∀ {ops : List WOp} {w w' : WState}, (∀ o ∈ ops, o.within U) → wrun w ops = .ok w' →
    gainRoom w'.pos + w'.net - w'.gain ≤ gainRoom w.pos + w.net - w.gain ∧ lossRoom w'.pos - w'.net - w'.loss ≤ lossRoom w.pos - w.net - w.loss ∧
    w.gain ≤ w'.gain ∧ w.loss ≤ w'.loss ∧
    w'.net ≤ max w.net (U + gainRoom w.pos + w.net - w.gain + w'.gain) ∧ -w'.net ≤ max (-w.net) (U + lossRoom w.pos - w.net - w.loss + w'.loss) := by
  intro ops
  induction ops with
  | nil => intro w w' _ h; simp only [wrun, ok_inj] at h; subst h; omega
  | cons o os ih =>
    intro w w' hU h
    simp only [wrun, bind_ok] at h
    obtain ⟨w1, h1, h⟩ := h
    obtain ⟨i1, i2, i3, i4, i5, i6⟩ := ih (fun o ho => hU o (List.mem_cons_of_mem _ ho)) h
    unfold wstep at h1
    simp only [bind_ok, ok_inj] at h1
    obtain ⟨p, hp, rfl⟩ := h1
    obtain ⟨j1, j2, j3, j4, j5, j6⟩ := wop_room (hU o List.mem_cons_self) hp
    simp only at i1 i2 i3 i4 i5 i6
    omega

/-- **C29 (history).** Over every history of settlements, funding payments, fees, trades and liquidations inside one settle window,
with any market states and prices, the net profit settled is at most `U` (the largest position-value limit that applied to a
settlement) plus the allowance held at the start plus the allowance granted since; and the net loss settled likewise. -/
theorem C29_window {U : Int} {p : Pos} {ops : List WOp} {w : WState} (hU : ∀ o ∈ ops, o.within U) (h : wrun ⟨p, 0, 0, 0⟩ ops = .ok w) :
    w.net ≤ max 0 (U + gainRoom p + w.gain) ∧ -w.net ≤ max 0 (U + lossRoom p + w.loss) := by
  obtain ⟨_, _, _, _, h1, h2⟩ := wrun_room hU h
  simp only at h1 h2
  omega

/-- `update_settle_limit`: inside the window nothing changes; in a new window the used amount starts at zero again -/
theorem C29_new_window {p p' : Pos} {m : Market} {now : Int} (h : p.updateSettleLimit m now = .ok p') :
    (p.window * m.settlePnlLimitWindowSizeTs ≤ now ∧ now < (p.window + 1) * m.settlePnlLimitWindowSizeTs → p' = p) ∧
    (¬ (p.window * m.settlePnlLimitWindowSizeTs ≤ now ∧ now < (p.window + 1) * m.settlePnlLimitWindowSizeTs) →
      p' = { p with window := now / m.settlePnlLimitWindowSizeTs, settledInWindow := 0 }) := by
  unfold Pos.updateSettleLimit at h
  simp only [bind_ok, cku64_ok] at h
  obtain ⟨st, ⟨rfl, _⟩, en, ⟨rfl, _⟩, h⟩ := h
  have e : (p.window + 1) * m.settlePnlLimitWindowSizeTs = p.window * m.settlePnlLimitWindowSizeTs + m.settlePnlLimitWindowSizeTs := by ring
  rw [e]
  split at h
  · next hc =>
    refine ⟨fun h => by omega, fun _ => ?_⟩
    split at h
    · simp at h
    · split at h
      · simp at h
      · rw [ok_inj] at h; exact h.symm
  · next hc =>
    refine ⟨fun _ => by rw [ok_inj] at h; exact h.symm, fun h' => by omega⟩

/-- `apply_pnl_settle_limit` only ever shrinks the pnl towards zero, into the available limit -/
theorem C29_apply_limit {lim : I80F48 → Int} {p : Pos} {m : Market} {pnl s : I80F48} (hf : 0 ≤ m.settlePnlLimitFactor) (hl0 : ∀ v, 0 ≤ v → 0 ≤ lim v ∧ lim v ≤ I64MAX)
    (h : p.applyPnlSettleLimit lim m pnl = .ok s) :
    ∃ lo hi, p.availableSettleLimit lim m = .ok (lo, hi) ∧ Fx.ofInt lo ≤ s ∧ s ≤ Fx.ofInt hi ∧ min pnl 0 ≤ s ∧ s ≤ max pnl 0 ∧
      s = max (Fx.ofInt lo) (min (Fx.ofInt hi) pnl) := by
  unfold Pos.applyPnlSettleLimit at h
  rw [if_neg (by omega)] at h
  simp only [bind_ok, ok_inj, Prod.exists] at h
  obtain ⟨lo, hi, hl, h⟩ := h
  obtain ⟨h1, h2, _⟩ := C29_available_limit hl0 hf hl
  refine ⟨lo, hi, hl, ?_⟩
  unfold Fx.ofInt at h ⊢
  have e1 : lo * S ≤ 0 := by unfold S; omega
  have e2 : 0 ≤ hi * S := by unfold S; omega
  split at h <;> omega

/-- **C29 (settle pnl).** A successful pnl settlement settles a positive amount, the smallest of the profit of `a`, the loss of `b`, what
`b`'s health allows, and the available settle limits of both positions in the current window. -/
theorem C29_settle_pnl {lim : I80F48 → Int} {m : Market} {a b a' b' : Pos} {oracle price bMax liqEnd maint s fee : I80F48} {now : Int}
    (hf : 0 ≤ m.settlePnlLimitFactor) (hl0 : ∀ v, 0 ≤ v → 0 ≤ lim v ∧ lim v ≤ I64MAX)
    (h : settlePnl lim m a b oracle price now bMax liqEnd maint = .ok (a', b', s, fee)) :
    ∃ a0 a1 b0 b1 aPnl bPnl aLo aHi bLo bHi,
      a.settleFunding m = .ok a0 ∧ a0.unsettledPnl m oracle = .ok aPnl ∧ a0.updateSettleLimit m now = .ok a1 ∧ a1.availableSettleLimit lim m = .ok (aLo, aHi) ∧
      b.settleFunding m = .ok b0 ∧ b0.unsettledPnl m oracle = .ok bPnl ∧ b0.updateSettleLimit m now = .ok b1 ∧ b1.availableSettleLimit lim m = .ok (bLo, bHi) ∧
      0 < s ∧ s = min (min (min aPnl (Fx.ofInt aHi)) (min (-bPnl) (-Fx.ofInt bLo))) bMax ∧
      a1.recordSettle m s = .ok a' ∧ b1.recordSettle m (-s) = .ok b' := by
  unfold settlePnl at h
  simp only [bind_ok, require_ok, neg_ok, ok_inj, Prod.mk.injEq] at h
  obtain ⟨a0, h1, b0, h2, ap, h3, bp, h4, _, h5, _, h6, a1, h7, aS, h8, b1, h9, bS, h10, _, h11, _, h12, _, h13, nb, ⟨rfl, _⟩, _, h14, a2, h15, ns, ⟨rfl, _⟩, b2, h16,
    _, _, _, _, _, _, _, _, f, _, rfl, rfl, rfl, rfl⟩ := h
  obtain ⟨aLo, aHi, k1, k2, k3, k4, k5, k6⟩ := C29_apply_limit hf hl0 h8
  obtain ⟨bLo, bHi, l1, l2, l3, l4, l5, l6⟩ := C29_apply_limit hf hl0 h10
  exact ⟨a0, a1, b0, b1, ap, bp, aLo, aHi, bLo, bHi, h1, h3, h7, k1, h2, h4, h9, l1, by omega, by omega, h15, h16⟩

/-- **C29 (settle fees).** A fee settlement takes the smallest of the account's loss, its available limit, the fees accrued and the
requested amount; it takes nothing only if one of these is zero. -/
theorem C29_settle_fees {lim : I80F48 → Int} {m m' : Market} {p p' : Pos} {oracle s : I80F48} {maxAmount : Int}
    (hf : 0 ≤ m.settlePnlLimitFactor) (hl0 : ∀ v, 0 ≤ v → 0 ≤ lim v ∧ lim v ≤ I64MAX)
    (h : settleFees lim m p oracle maxAmount = .ok (p', m', s)) :
    ∃ p0 pnl lo hi, p.settleFunding m = .ok p0 ∧ p0.unsettledPnl m oracle = .ok pnl ∧ p0.availableSettleLimit lim m = .ok (lo, hi) ∧
      0 ≤ s ∧ s = max 0 (min (min (min (-pnl) (-Fx.ofInt lo)) m.feesAccrued) (Fx.ofInt maxAmount)) ∧
      (s ≠ 0 → p0.recordSettle m (-s) = .ok p') := by
  unfold settleFees at h
  simp only [bind_ok] at h
  obtain ⟨p0, h1, pnl, h2, x, h3, h⟩ := h
  obtain ⟨lo, hi, k1, k2, k3, k4, k5, k6⟩ := C29_apply_limit hf hl0 h3
  have hlo : lo ≤ 0 ∧ 0 ≤ hi := ⟨(C29_available_limit hl0 hf k1).1, (C29_available_limit hl0 hf k1).2.1⟩
  have e1 : Fx.ofInt lo ≤ 0 := by unfold Fx.ofInt S; omega
  have e2 : 0 ≤ Fx.ofInt hi := by unfold Fx.ofInt S; omega
  split at h
  · simp only [ok_inj, Prod.mk.injEq] at h
    obtain ⟨rfl, rfl, rfl⟩ := h
    exact ⟨p0, pnl, lo, hi, h1, h2, k1, by omega, by omega, fun h => absurd rfl h⟩
  · next hc =>
    simp only [bind_ok, require_ok, neg_ok, ok_inj, Prod.mk.injEq] at h
    obtain ⟨sa, h4, fa, h5, _, h6, ns, ⟨rfl, _⟩, p1, h7, fees, _, st, _, rfl, rfl, rfl⟩ := h
    have e1 := fxabs_ok h4
    have e2 := fxabs_ok h5
    have hx : x < 0 := by omega
    have hfee : 0 < m.feesAccrued := by omega
    rw [abs_of_neg hx] at e1
    rw [abs_of_pos hfee] at e2
    exact ⟨p0, pnl, lo, hi, h1, h2, k1, by omega, by omega, fun _ => h7⟩

/-- what of the recurring allowance may be used: at most the absolute unrealized pnl at the stable price, rounded up -/
def recurringRoom (p : Pos) (m : Market) : Int :=
  min |p.recurring| (unitsUp |p.quote + m.stablePrice * (p.base * m.baseLotSize * S) / S|)

/-- **C29 (limits, exactly).** While a limit is configured and the limit is at most 2^60 and no allowance exceeds 2^61, the amounts that can be settled now
are: the position-value limit plus the usable recurring allowance plus the one-shot allowance (rounded up), less what has
been settled in this window; with the sign of the one-shot allowance deciding whether it counts for profits or losses. -/
theorem C29_limit_exact {lim : I80F48 → Int} {p : Pos} {m : Market} {lo hi : Int} (hf : 0 ≤ m.settlePnlLimitFactor)
    (hl0 : ∀ v, 0 ≤ v → 0 ≤ lim v ∧ lim v ≤ 2 ^ 60) (ho : -(2 ^ 61 * S) ≤ p.oneshot ∧ p.oneshot ≤ 2 ^ 61 * S)
    (hs : -2 ^ 61 ≤ p.settledInWindow ∧ p.settledInWindow ≤ 2 ^ 61) (hr : |p.recurring| ≤ 2 ^ 61)
    (h : p.availableSettleLimit lim m = .ok (lo, hi)) :
    hi = max 0 (lim |m.stablePrice * (p.base * m.baseLotSize * S) / S| + recurringRoom p m + unitsUp (max p.oneshot 0) - p.settledInWindow) ∧
    -lo = max 0 (lim |m.stablePrice * (p.base * m.baseLotSize * S) / S| + recurringRoom p m + unitsUp (max (-p.oneshot) 0) + p.settledInWindow) := by
  have hS := S_pos
  unfold Pos.availableSettleLimit Pos.settleLimit at h
  rw [if_neg (by omega), if_neg (by omega)] at h
  simp only [bind_ok, ok_inj, Prod.exists, Prod.mk.injEq, Pos.baseNative, mul_ok, add_ok, ck64_ok, ceil_ok, toI64, abs64_ok] at h
  obtain ⟨l, u, ⟨bn, ⟨x, ⟨rfl, _⟩, rfl⟩, pv, ⟨rfl, _⟩, pva, hpva, uu, ⟨rfl, _⟩, ua, hua, uc, ⟨rfl, _⟩, n, ⟨rfl, _⟩, ra, ⟨rfl, _⟩, mp, ⟨rfl, hmp⟩, mn, ⟨rfl, hmn⟩, h⟩, rfl, rfl⟩ := h
  have e1 := fxabs_ok hpva
  have e2 := fxabs_ok hua
  subst e1
  subst e2
  unfold Fx.ofInt at *
  have hlv := hl0 |m.stablePrice * (p.base * m.baseLotSize * S) / S| (abs_nonneg _)
  have hrr : min |p.recurring| (Fx.toInt (-(-|p.quote + m.stablePrice * (p.base * m.baseLotSize * S) / S| / S) * S)) = recurringRoom p m := by
    unfold recurringRoom unitsUp Fx.toInt
    rw [Int.mul_ediv_cancel _ (by omega)]
  rw [hrr] at h hmp hmn
  have hr0 : 0 ≤ recurringRoom p m ∧ recurringRoom p m ≤ 2 ^ 61 := by
    unfold recurringRoom
    have := abs_nonneg p.recurring
    have hu := unitsUp_bounds |p.quote + m.stablePrice * (p.base * m.baseLotSize * S) / S|
    have ha := abs_nonneg (p.quote + m.stablePrice * (p.base * m.baseLotSize * S) / S)
    have : 0 ≤ unitsUp |p.quote + m.stablePrice * (p.base * m.baseLotSize * S) / S| := by
      by_contra hc
      have : unitsUp |p.quote + m.stablePrice * (p.base * m.baseLotSize * S) / S| * S < 0 := Int.mul_neg_of_neg_of_pos (by omega) hS
      omega
    omega
  generalize lim |m.stablePrice * (p.base * m.baseLotSize * S) / S| = L at *
  generalize recurringRoom p m = R at *
  have hz : unitsUp 0 = 0 := by decide
  have hI : I64MAX = 2 ^ 63 - 1 := by decide
  have hI' : I64MIN = -2 ^ 63 := by decide
  by_cases h0 : p.oneshot ≥ 0
  · rw [if_pos h0] at h
    simp only [bind_ok, ceil_ok, ok_inj, Prod.mk.injEq] at h
    obtain ⟨c, ⟨rfl, _⟩, rfl, rfl⟩ := h
    have hcl : Fx.clampToI64 (-(-p.oneshot / S) * S) = unitsUp p.oneshot := by
      have hb := unitsUp_bounds p.oneshot
      have hub : unitsUp p.oneshot ≤ 2 ^ 61 := by
        by_contra hc
        have : (2 ^ 61 + 1) * S ≤ unitsUp p.oneshot * S := Int.mul_le_mul_of_nonneg_right (by omega) hS.le
        have e : ((2:Int) ^ 61 + 1) * S = 2 ^ 61 * S + S := by ring
        omega
      have hlb : 0 ≤ unitsUp p.oneshot := by
        by_contra hc
        have : unitsUp p.oneshot * S < 0 := Int.mul_neg_of_neg_of_pos (by omega) hS
        omega
      have hlb' : 0 ≤ unitsUp p.oneshot * S := Int.mul_nonneg hlb hS.le
      have hub' : unitsUp p.oneshot * S ≤ 2 ^ 61 * S := Int.mul_le_mul_of_nonneg_right hub hS.le
      have hd : -(-p.oneshot / S) = unitsUp p.oneshot := rfl
      rw [hd]
      unfold Fx.clampToI64
      have k1 : I64MIN * S < 0 := by decide
      have k2 : (2:Int) ^ 61 * S < I64MAX * S := by decide
      rw [if_neg (by omega), if_neg (by omega), Int.mul_ediv_cancel _ (by omega)]
    have hub : unitsUp p.oneshot ≤ 2 ^ 61 ∧ 0 ≤ unitsUp p.oneshot := by
      have hb := unitsUp_bounds p.oneshot
      constructor
      · by_contra hc
        have : (2 ^ 61 + 1) * S ≤ unitsUp p.oneshot * S := Int.mul_le_mul_of_nonneg_right (by omega) hS.le
        have e : ((2:Int) ^ 61 + 1) * S = 2 ^ 61 * S + S := by ring
        omega
      · by_contra hc
        have : unitsUp p.oneshot * S < 0 := Int.mul_neg_of_neg_of_pos (by omega) hS
        omega
    rw [hcl, show max p.oneshot 0 = p.oneshot by omega, show max (-p.oneshot) 0 = 0 by omega, hz]
    unfold sat64
    omega
  · rw [if_neg h0] at h
    simp only [bind_ok, floor_ok, ok_inj, Prod.mk.injEq] at h
    obtain ⟨c, ⟨rfl, _⟩, rfl, rfl⟩ := h
    have hu : unitsUp (-p.oneshot) = -(p.oneshot / S) := by unfold unitsUp; rw [Int.neg_neg]
    have hb := mulFloor_bounds p.oneshot
    have hub : -2 ^ 61 ≤ p.oneshot / S ∧ p.oneshot / S < 0 := by
      constructor
      · rw [le_floor_iff]; omega
      · exact floor_neg (by omega)
    have hcl : Fx.clampToI64 (p.oneshot / S * S) = p.oneshot / S := by
      unfold Fx.clampToI64
      have k1 : I64MIN * S < -(2 ^ 61 * S) - S := by decide
      have k2 : 0 < I64MAX * S := by decide
      have h1 : p.oneshot / S * S < 0 := Int.mul_neg_of_neg_of_pos hub.2 hS
      rw [if_neg (by omega), if_neg (by omega), Int.mul_ediv_cancel _ (by omega)]
    rw [hcl, show max p.oneshot 0 = 0 by omega, show max (-p.oneshot) 0 = -p.oneshot by omega, hz, hu]
    unfold sat64
    omega

end Perp
end Mango
