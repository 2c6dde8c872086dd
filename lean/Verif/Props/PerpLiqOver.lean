import Verif.Props.PerpLiqPlan
/-!
# C63: perp liquidation, part 2: the plan stops at health zero
-/
namespace Mango
namespace Liquidation
open Fx Health

/-- rounding up a quotient: one less is below the exact quotient -/
theorem ceil_lt {q n : Int} (h : n = -((-q) / S)) : (n - 1) * S < q ∧ q ≤ n * S := by
  have hS := S_pos
  have m := mulFloor_bounds (-q)
  have e : (-q) / S = -n := by omega
  rw [e] at m
  have e2 : (n - 1) * S = n * S - S := by ring
  have e3 : -n * S = -(n * S) := by ring
  omega

/-- lots of a reduction step: one fewer would gain less than needed -/
theorem lots_need {g limit e n : Int} (he : 0 < e) (hn : n = -((-(Int.tdiv (min g limit * S) e)) / S)) (h1 : 0 < n) : (n - 1) * e < min g limit := by
  have hS := S_pos
  have c := ceil_lt hn
  have hq : 0 < Int.tdiv (min g limit * S) e := by
    have : 0 ≤ (n - 1) * S := Int.mul_nonneg (by omega) hS.le
    omega
  have hm : 0 < min g limit := by
    by_contra hc
    have h0 : Int.tdiv (min g limit * S) e ≤ 0 := by
      have : (min g limit * S) ≤ 0 := Int.mul_nonpos_of_nonpos_of_nonneg (by omega) hS.le
      have e1 : Int.tdiv (min g limit * S) e = -(Int.tdiv (-(min g limit * S)) e) := by rw [Int.neg_tdiv]; omega
      have := Int.tdiv_nonneg (show 0 ≤ -(min g limit * S) by omega) he.le
      omega
    omega
  have tb := tdiv_bounds (a := min g limit * S) (b := e) (Int.mul_nonneg hm.le hS.le) he
  generalize Int.tdiv (min g limit * S) e = q at *
  generalize min g limit = m at *
  have k : (n - 1) * S * e < q * e := Int.mul_lt_mul_of_pos_right c.1 he
  have e1 : (n - 1) * S * e = ((n - 1) * e) * S := by ring
  have : ((n - 1) * e) * S < m * S := by omega
  exact Int.lt_of_mul_lt_mul_right this hS.le

/-- ... and that many gain almost as much as needed -/
theorem lots_enough {m e n : Int} (he : 0 < e) (hm : 0 ≤ m) (hn : n = -((-(Int.tdiv (m * S) e)) / S)) : m * S < n * e * S + e := by
  have hS := S_pos
  have c := ceil_lt hn
  have tb := tdiv_bounds (a := m * S) (b := e) (Int.mul_nonneg hm hS.le) he
  generalize Int.tdiv (m * S) e = q at *
  have k : q * e ≤ n * S * e := Int.mul_le_mul_of_nonneg_right c.2 he.le
  have e1 : n * S * e = n * e * S := by ring
  omega

/-- projected health is the health at the projected settle token balance; with `u` tokens less it would not be positive (apart from rounding) -/
structure Over (t : TokenInfo) (H0 b0 u : Int) (p : Plan) : Prop where
  health : p.health = hAt t H0 b0 p.settleToken
  neg : hAt t H0 b0 (p.settleToken - u) ≤ 1

theorem Over.step {t : TokenInfo} {H0 b0 : Int} {p p' : Plan} (hh : p.health = hAt t H0 b0 p.settleToken)
    (h : p'.health = p.health - tv (awp t) (lwp t) p.settleToken + tv (awp t) (lwp t) p'.settleToken) : p'.health = hAt t H0 b0 p'.settleToken := by
  rw [h, hh]
  unfold hAt
  omega

theorem Reduced.over {t : TokenInfo} {B M limit e a u H0 b0 : Int} {p p' : Plan} (hA : 0 ≤ awp t) (hL : awp t ≤ lwp t) (he : 0 ≤ e) (heu : e ≤ u) (ha : 0 ≤ a) (hae : a ≤ e)
    (o : Over t H0 b0 u p) (h : Reduced t B M limit e a u p p') : Over t H0 b0 u p' := by
  refine ⟨Over.step o.health h.health, ?_⟩
  obtain ⟨g, n, lots, hg, hne, hn, hl, h1, h2, h3⟩ := h.ex
  by_cases hz : lots ≤ 0
  · have : lots = 0 := by omega
    rw [this] at h3
    have e0 : p'.settleToken = p.settleToken := by rw [h3]; simp
    rw [e0]; exact o.neg
  · obtain ⟨g0, g1, g2⟩ := tokensForHealth_ok hA hL o.health hg
    have hn1 := lots_need (by omega) hn (by omega)
    have hneg : p.health < 0 := by
      by_contra hc
      have := g1 (by omega)
      have : 0 ≤ (n - 1) * e := Int.mul_nonneg (by omega) he
      omega
    have k1 : a * lots ≤ e * lots := Int.mul_le_mul_of_nonneg_right hae (by omega)
    have k2 : (lots - 1) * e ≤ (n - 1) * e := Int.mul_le_mul_of_nonneg_right (by omega) he
    have e1 : e * lots = (lots - 1) * e + e := by ring
    have := hAt_mono (H0 := H0) (b0 := b0) hA hL (show p'.settleToken - u ≤ p.settleToken + g by omega)
    have := (g2 hneg).1
    omega

theorem settle_le {g per x y : Int} (hper : 0 < per) (hg : 0 ≤ g) (hx : 0 ≤ x) (hy : x ≤ Int.tdiv (g * S) per ∨ x = 0) : x * per / S ≤ g := by
  have hS := S_pos
  have tb := tdiv_bounds (a := g * S) (b := per) (Int.mul_nonneg hg hS.le) hper
  have k : x * per ≤ g * S := by
    rcases hy with hy | hy
    · have := Int.mul_le_mul_of_nonneg_right hy hper.le
      omega
    · rw [hy]; have := Int.mul_nonneg hg hS.le; omega
  have m := mulFloor_bounds (x * per)
  exact Int.le_of_mul_le_mul_right (show x * per / S * S ≤ g * S by omega) hS

theorem PnlTaken.over {t : TokenInfo} {maxPnl per u H0 b0 : Int} {p p' : Plan} (hA : 0 ≤ awp t) (hL : awp t ≤ lwp t) (hper : 0 < per) (hu : 0 ≤ u)
    (o : Over t H0 b0 u p) (h : PnlTaken t maxPnl per p p') : Over t H0 b0 u p' := by
  refine ⟨Over.step o.health h.health, ?_⟩
  obtain ⟨g, x, hg, hne, hx, h1, h2, h3⟩ := h.ex
  obtain ⟨g0, g1, g2⟩ := tokensForHealth_ok hA hL o.health hg
  have k := settle_le (y := 0) hper g0 (show 0 ≤ x by omega) (by omega)
  by_cases hneg : p.health < 0
  · have := hAt_mono (H0 := H0) (b0 := b0) hA hL (show p'.settleToken - u ≤ p.settleToken + g by omega)
    have := (g2 hneg).1
    omega
  · have hg := g1 (by omega)
    have := hAt_mono (H0 := H0) (b0 := b0) hA hL (show p'.settleToken - u ≤ p.settleToken - u by omega)
    have := o.neg
    omega

/-- settle tokens (times `S`) the unweighted pnl `x` counts for -/
def counted (w x : Int) : Int := if x > 0 then w * x else S * x

theorem counted_le {w x d : Int} (hw : w ≤ S) (hd : 0 ≤ d) (hw0 : 0 ≤ w) : counted w (x + d) ≤ counted w x + S * d := by
  unfold counted
  have e1 : w * (x + d) = w * x + w * d := by ring
  have e2 : S * (x + d) = S * x + S * d := by ring
  have k : w * d ≤ S * d := Int.mul_le_mul_of_nonneg_right hw hd
  split <;> split
  · omega
  · have : w * (x + d) ≤ S * (x + d) := Int.mul_le_mul_of_nonneg_right hw (by omega)
    omega
  · omega
  · omega

theorem counted_pos {w x d : Int} (hx : 0 ≤ x) (hd : 0 ≤ d) : counted w (x + d) = counted w x + w * d := by
  unfold counted
  have e1 : w * (x + d) = w * x + w * d := by ring
  split <;> split
  · omega
  · have : x = 0 := by omega
    subst this
    simp
  · omega
  · have : x = 0 := by omega
    have : d = 0 := by omega
    subst x d
    simp

/-- a slightly negative pnl counts slightly more than linear -/
theorem counted_near {w x d k : Int} (hw0 : 0 ≤ w) (hw : w ≤ S) (hx : x < 0) (hk : -k ≤ x) (hd : 0 ≤ d) : counted w (x + d) ≤ counted w x + w * d + S * k := by
  have e1 : w * (x + d) = w * x + w * d := by ring
  have e2 : S * (x + d) = S * x + S * d := by ring
  have h1 : S * (-k) ≤ S * x := Int.mul_le_mul_of_nonneg_left hk S_pos.le
  have e3 : S * (-k) = -(S * k) := by ring
  have h2 : w * x ≤ 0 := Int.mul_nonpos_of_nonneg_of_nonpos hw0 (by omega)
  unfold counted
  rw [if_neg (show ¬ x > 0 by omega)]
  split
  · omega
  · have h3 : S * (x + d) ≤ w * (x + d) := by
      have := Int.mul_le_mul_of_nonneg_right hw (show 0 ≤ -(x + d) by omega)
      have e4 : w * -(x + d) = -(w * (x + d)) := by ring
      have e5 : S * -(x + d) = -(S * (x + d)) := by ring
      omega
    omega

/-- the projected settle token balance is at least what spot and perp positions will count for, up to `E / S` -/
def Covers (b0 u0 w gain E : Int) (p : Plan) : Prop := b0 * S - counted w u0 + counted w p.uhupnl + p.pnl * gain ≤ p.settleToken * S + E

/-- step 1 -/
theorem Reduced.covers1 {t : TokenInfo} {B M limit e u b0 u0 w gain E : Int} {p p' : Plan} (hu : 0 ≤ u) (hw0 : 0 ≤ w) (hw : w ≤ S)
    (c : Covers b0 u0 w gain E p) (h : Reduced t B M limit e u u p p') : Covers b0 u0 w gain E p' := by
  obtain ⟨g, n, lots, hg, hne, hn, hl, h1, h2, h3⟩ := h.ex
  unfold Covers at *
  have hd : 0 ≤ u * lots := Int.mul_nonneg hu (by omega)
  have k := counted_le (x := p.uhupnl) hw hd hw0
  rw [h2, h3, h.pnl]
  have e1 : (p.settleToken + u * lots) * S = p.settleToken * S + S * (u * lots) := by ring
  omega

/-- steps 3 and 5 -/
theorem Reduced.covers2 {t : TokenInfo} {B M limit e u b0 u0 w gain E : Int} {p p' : Plan} (hu : 0 ≤ u) (hp : 0 ≤ p.uhupnl)
    (c : Covers b0 u0 w gain E p) (h : Reduced t B M limit e (u * w / S) u p p') : Covers b0 u0 w gain (E + S * (p'.base - p.base)) p' := by
  obtain ⟨g, n, lots, hg, hne, hn, hl, h1, h2, h3⟩ := h.ex
  unfold Covers at *
  have hl0 : 0 ≤ lots := by omega
  have hd : 0 ≤ u * lots := Int.mul_nonneg hu hl0
  have k := counted_pos (w := w) hp hd
  rw [h2, h3, h.pnl, h1]
  have m := mulFloor_bounds (u * w)
  have m2 : u * w * lots ≤ (u * w / S * S + S) * lots := Int.mul_le_mul_of_nonneg_right (by omega) hl0
  have e1 : (p.settleToken + u * w / S * lots) * S = p.settleToken * S + u * w / S * S * lots := by ring
  have e2 : (u * w / S * S + S) * lots = u * w / S * S * lots + S * lots := by ring
  have e3 : w * (u * lots) = u * w * lots := by ring
  have e4 : S * (p.base + lots - p.base) = S * lots := by ring
  rw [e1, e4]
  omega

/-- step 5 with a slightly negative pnl -/
theorem Reduced.covers3 {t : TokenInfo} {B M limit e u b0 u0 w gain E k : Int} {p p' : Plan} (hu : 0 ≤ u) (hw0 : 0 ≤ w) (hw : w ≤ S) (hp : p.uhupnl < 0) (hk : -k ≤ p.uhupnl)
    (c : Covers b0 u0 w gain E p) (h : Reduced t B M limit e (u * w / S) u p p') : Covers b0 u0 w gain (E + S * (p'.base - p.base) + S * k) p' := by
  obtain ⟨g, n, lots, hg, hne, hn, hl, h1, h2, h3⟩ := h.ex
  unfold Covers at *
  have hl0 : 0 ≤ lots := by omega
  have hd : 0 ≤ u * lots := Int.mul_nonneg hu hl0
  have k := counted_near hw0 hw hp hk hd
  rw [h2, h3, h.pnl, h1]
  have m := mulFloor_bounds (u * w)
  have m2 : u * w * lots ≤ (u * w / S * S + S) * lots := Int.mul_le_mul_of_nonneg_right (by omega) hl0
  have e1 : (p.settleToken + u * w / S * lots) * S = p.settleToken * S + u * w / S * S * lots := by ring
  have e2 : (u * w / S * S + S) * lots = u * w / S * S * lots + S * lots := by ring
  have e3 : w * (u * lots) = u * w * lots := by ring
  have e4 : S * (p.base + lots - p.base) = S * lots := by ring
  rw [e1, e4]
  omega

/-- steps 2 and 4 -/
theorem PnlTaken.covers {t : TokenInfo} {maxPnl b0 u0 w gain E : Int} {p p' : Plan} (hp : 0 ≤ p.uhupnl) (c : Covers b0 u0 w gain E p) (h : PnlTaken t maxPnl (gain - w) p p') :
    Covers b0 u0 w gain (E + S) p' ∧ 0 ≤ p'.uhupnl := by
  obtain ⟨g, x, hg, hne, hx, h1, h2, h3⟩ := h.ex
  have hx0 : 0 ≤ x := by omega
  have hxu : x ≤ p.uhupnl := by omega
  refine ⟨?_, by omega⟩
  unfold Covers at *
  have k := counted_pos (w := w) (x := p.uhupnl - x) (d := x) (by omega) hx0
  have e0 : p.uhupnl - x + x = p.uhupnl := by omega
  rw [e0] at k
  rw [h1, h2, h3]
  have m := mulFloor_bounds (x * (gain - w))
  have e1 : (p.settleToken + x * (gain - w) / S) * S = p.settleToken * S + x * (gain - w) / S * S := by ring
  have e2 : (p.pnl + x) * gain = p.pnl * gain + x * gain := by ring
  have e3 : x * (gain - w) = x * gain - w * x := by ring
  rw [e1, e2]
  omega

/-- after step 1: either the pnl is (almost) not negative any more, or nothing is left to reduce, or health is (almost) zero -/
theorem Reduced.outcome {t : TokenInfo} {B M u H0 b0 : Int} {p p' : Plan} (hA : 0 ≤ awp t) (hL : awp t ≤ lwp t) (hu : 0 < u) (hneg : p.uhupnl < 0)
    (hh : p.health = hAt t H0 b0 p.settleToken) (hp : p.base = 0) (hl : (u + 4 * S) * lwp t ≤ S * S * (S / 4)) (h : Reduced t B M (-p.uhupnl) u u u p p') :
    (-(u / S + 1) ≤ p'.uhupnl) ∨ (p'.base = |B| ∨ p'.base = |M|) ∨ -(S / 2) ≤ p'.health := by
  have hS := S_pos
  obtain ⟨g, n, lots, hg, hne, hn, hlots, h1, h2, h3⟩ := h.ex
  have hab : 0 ≤ |B| := abs_nonneg B
  have ham : 0 ≤ |M| := abs_nonneg M
  rw [hp] at hlots h1
  obtain ⟨g0, g1, g2⟩ := tokensForHealth_ok hA hL hh hg
  have hm0 : 0 ≤ min g (-p.uhupnl) := by omega
  have en := lots_enough hu hm0 hn
  by_cases hc : lots < n
  · right; left; omega
  · have e1 : n * u ≤ u * lots := by
      have := Int.mul_le_mul_of_nonneg_right (show n ≤ lots by omega) hu.le
      have e : lots * u = u * lots := by ring
      omega
    have hk : min g (-p.uhupnl) < u * lots + (u / S + 1) := by
      have m := mulFloor_bounds u
      have k1 : n * u * S ≤ u * lots * S := Int.mul_le_mul_of_nonneg_right e1 hS.le
      have e2 : (u * lots + (u / S + 1)) * S = u * lots * S + u / S * S + S := by ring
      exact Int.lt_of_mul_lt_mul_right (show min g (-p.uhupnl) * S < (u * lots + (u / S + 1)) * S by omega) hS.le
    by_cases hmin : g < -p.uhupnl
    · right; right
      have hg' : min g (-p.uhupnl) = g := by omega
      rw [hg'] at hk
      by_cases hn' : p.health < 0
      · have g3 := (g2 hn').2
        have hh' := Over.step hh h.health
        rw [hh']
        -- the difference to the exact amount
        have hd : 0 ≤ u / S + 1 := by have := floor_nonneg hu.le; omega
        have mono := hAt_mono (H0 := H0) (b0 := b0) hA hL (show p.settleToken + g - (u / S + 1) ≤ p'.settleToken by omega)
        have lip := tv_lip (b := p.settleToken + g - (u / S + 1)) hA hL hd
        have e3 : p.settleToken + g - (u / S + 1) + (u / S + 1) = p.settleToken + g := by omega
        rw [e3] at lip
        have m := mulFloor_bounds u
        have k2 : (u / S + 1) * S * lwp t ≤ (u + S) * lwp t := Int.mul_le_mul_of_nonneg_right (by
          have : (u / S + 1) * S = u / S * S + S := by ring
          omega) (by omega)
        have hS4 : S * S * (S / 4) = S * (S * (S / 4)) := by ring
        have k3 : (u / S + 1) * lwp t * S ≤ S * (S * (S / 4)) - 3 * S * lwp t := by
          have e4 : (u + 4 * S) * lwp t = (u + S) * lwp t + 3 * S * lwp t := by ring
          have e5 : (u / S + 1) * S * lwp t = (u / S + 1) * lwp t * S := by ring
          omega
        have k4 : (u / S + 1) * lwp t ≤ S * (S / 4) - 3 * lwp t := by
          apply Int.le_of_mul_le_mul_right _ hS
          have e6 : (S * (S / 4) - 3 * lwp t) * S = S * (S * (S / 4)) - 3 * S * lwp t := by ring
          omega
        have hX : hAt t H0 b0 (p.settleToken + g) * S ≤ hAt t H0 b0 (p.settleToken + g - (u / S + 1)) * S + (u / S + 1) * lwp t + S := by
          unfold hAt
          have e7 : ∀ x : Int, (H0 - tv (awp t) (lwp t) b0 + x) * S = (H0 - tv (awp t) (lwp t) b0) * S + x * S := by intro x; ring
          rw [e7, e7]
          omega
        generalize hAt t H0 b0 (p.settleToken + g - (u / S + 1)) = y at *
        generalize hAt t H0 b0 (p.settleToken + g) = z at *
        have : (-(S / 2)) * S < (y + 1) * S := by
          have e8 : (y + 1) * S = y * S + S := by ring
          have : (-(S / 2)) * S = -(S * (S / 4)) - S * (S / 4) := by decide
          have hlw : 0 ≤ lwp t := by omega
          have : S * (S / 4) > 10 * S := by decide
          omega
        have := Int.lt_of_mul_lt_mul_right this hS.le
        omega
      · -- health was not negative, then nothing was reduced
        have hg0 := g1 (by omega)
        have hh' := Over.step hh h.health
        have hu0 : 0 ≤ u * lots := Int.mul_nonneg hu.le (by omega)
        have := hAt_mono (H0 := H0) (b0 := b0) hA hL (show p.settleToken ≤ p'.settleToken by omega)
        have : (0 : Int) ≤ S / 2 := by decide
        omega
    · left
      have hg' : min g (-p.uhupnl) = -p.uhupnl := by omega
      rw [hg'] at hk
      omega

/-- the settle token balance the plan arrives at: health with one lot's gain less is not positive, and the balance counts everything -/
theorem Steps.over {t : TokenInfo} {B M u0 b0 H0 : Int} {u gain weight maxPnl : Int} {p' : Plan} (hA : 0 ≤ awp t) (hL : awp t ≤ lwp t) (hu : 0 < u) (hH : H0 ≤ 1)
    (hw0 : 0 ≤ weight) (hw : weight ≤ S) (hg : gain ≤ S) (hcfg : weight ≤ gain ∨ maxPnl = 0) (hl : (u + 4 * S) * lwp t ≤ S * S * (S / 4))
    (h : Steps t B M u gain weight maxPnl ⟨0, 0, u0, b0, H0⟩ p') :
    Over t H0 b0 u p' ∧ Covers b0 u0 weight gain (S * (p'.base + 4) + u) p' := by
  have hS := S_pos
  obtain ⟨p1, p2, p3, p4, h1, h2, h3, h4, h5⟩ := h.ex
  have o0 : Over t H0 b0 u ⟨0, 0, u0, b0, H0⟩ := by
    refine ⟨by unfold hAt; dsimp only; omega, ?_⟩
    have := tv_mono hA hL (show b0 - u ≤ b0 by omega)
    unfold hAt
    dsimp only
    omega
  have c0 : Covers b0 u0 weight gain 0 ⟨0, 0, u0, b0, H0⟩ := by unfold Covers; dsimp only; omega
  have hw0u : 0 ≤ u * weight / S := floor_nonneg (Int.mul_nonneg hu.le hw0)
  have hwu : u * weight / S ≤ u := by
    have m := mulFloor_bounds (u * weight)
    have k : u * weight ≤ u * S := Int.mul_le_mul_of_nonneg_left hw hu.le
    exact Int.le_of_mul_le_mul_right (show u * weight / S * S ≤ u * S by omega) hS
  -- step 1
  have s1 : Over t H0 b0 u p1 ∧ Covers b0 u0 weight gain 0 p1 ∧ 0 ≤ p1.base ∧ p1.pnl = 0 ∧ ((0 ≤ p1.uhupnl) ∨ (-(u / S + 1) ≤ p1.uhupnl) ∨ (p1.base = |B| ∨ p1.base = |M|) ∨ -(S / 2) ≤ p1.health) := by
    rcases h1 with ⟨hn, h1⟩ | ⟨hn, rfl⟩
    · obtain ⟨g, n, lots, _, _, _, hlo, hb, _, _⟩ := h1.ex
      dsimp only at hb hn
      exact ⟨h1.over hA hL hu.le (by omega) hu.le (by omega) o0, h1.covers1 hu.le hw0 hw c0, by omega, h1.pnl, Or.inr (h1.outcome hA hL hu hn o0.health rfl hl)⟩
    · exact ⟨o0, c0, le_refl _, rfl, Or.inl hn⟩
  obtain ⟨o1, c1, b1, pn1, out⟩ := s1
  -- steps 2, 3, 4
  by_cases hpos : 0 ≤ p1.uhupnl
  · have s2 : Over t H0 b0 u p2 ∧ Covers b0 u0 weight gain S p2 ∧ p2.base = p1.base ∧ 0 ≤ p2.uhupnl ∧ (p2.pnl = 0 ∨ weight ≤ gain) := by
      rcases h2 with ⟨_, hgw, h2⟩ | ⟨_, rfl⟩
      · have k := h2.covers hpos c1
        refine ⟨h2.over hA hL (by omega) hu.le o1, ?_, h2.base, k.2, Or.inr hgw.le⟩
        have := k.1; unfold Covers at *; omega
      · refine ⟨o1, ?_, rfl, hpos, Or.inl pn1⟩
        unfold Covers at *; omega
    obtain ⟨o2, c2, b2, u2, pg⟩ := s2
    have s3 : Over t H0 b0 u p3 ∧ Covers b0 u0 weight gain (S + S * (p3.base - p2.base)) p3 ∧ p2.base ≤ p3.base ∧ 0 ≤ p3.uhupnl := by
      rcases h3 with ⟨_, hlt, h3⟩ | ⟨_, rfl⟩
      · obtain ⟨g, n, lots, _, hne, _, hlo, hb, huh, _⟩ := h3.ex
        have hgw : weight ≤ gain := by
          rcases hcfg with hc | hc
          · exact hc
          · rcases pg with pg | pg
            · omega
            · exact pg
        have hge : u * weight / S ≤ u * gain / S := floor_mono (Int.mul_le_mul_of_nonneg_left hgw hu.le)
        have hgu : u * gain / S ≤ u := by
          have m := mulFloor_bounds (u * gain)
          have k : u * gain ≤ u * S := Int.mul_le_mul_of_nonneg_left hg hu.le
          exact Int.le_of_mul_le_mul_right (show u * gain / S * S ≤ u * S by omega) hS
        have hul : 0 ≤ u * lots := Int.mul_nonneg hu.le (by omega)
        exact ⟨h3.over hA hL (by omega) hgu hw0u hge o2, h3.covers2 hu.le u2 c2, by omega, by omega⟩
      · refine ⟨o2, ?_, by omega, u2⟩
        have e : S + S * (p3.base - p3.base) = S := by simp
        rw [e]; exact c2
    obtain ⟨o3, c3, b3, u3⟩ := s3
    have s4 : Over t H0 b0 u p4 ∧ Covers b0 u0 weight gain (S * 2 + S * (p3.base - p2.base)) p4 ∧ p4.base = p3.base ∧ 0 ≤ p4.uhupnl := by
      rcases h4 with ⟨_, hgw, h4⟩ | ⟨_, rfl⟩
      · have k := h4.covers u3 c3
        refine ⟨h4.over hA hL (by omega) hu.le o3, ?_, h4.base, k.2⟩
        have := k.1; unfold Covers at *; omega
      · refine ⟨o3, ?_, rfl, u3⟩
        unfold Covers at *; omega
    obtain ⟨o4, c4, b4, u4⟩ := s4
    rcases h5 with ⟨_, _, h5⟩ | ⟨_, rfl⟩
    · have k := h5.covers2 hu.le u4 c4
      obtain ⟨g, n, lots, _, hne, _, hlo, hb, huh, _⟩ := h5.ex
      refine ⟨h5.over hA hL hw0u hwu hw0u (by omega) o4, ?_⟩
      unfold Covers at *
      have e : S * 2 + S * (p3.base - p2.base) + S * (p'.base - p4.base) ≤ S * (p'.base + 4) + u := by
        have : S * (p3.base - p2.base) + S * (p'.base - p4.base) = S * (p'.base - p2.base) := by rw [b4]; ring
        have : S * (p'.base - p2.base) ≤ S * p'.base := Int.mul_le_mul_of_nonneg_left (by omega) hS.le
        have : S * (p'.base + 4) = S * p'.base + S * 4 := by ring
        omega
      omega
    · refine ⟨o4, ?_⟩
      unfold Covers at *
      have : S * (p3.base - p2.base) ≤ S * p'.base := Int.mul_le_mul_of_nonneg_left (by omega) hS.le
      have : S * (p'.base + 4) = S * p'.base + S * 4 := by ring
      omega
  · -- steps 2 to 4 do nothing
    have e2 : p2 = p1 := by
      rcases h2 with ⟨hc, _⟩ | ⟨_, h2⟩
      · omega
      · exact h2
    subst e2
    have e3 : p3 = p2 := by
      rcases h3 with ⟨hc, _⟩ | ⟨_, h3⟩
      · omega
      · exact h3
    subst e3
    have e4 : p4 = p3 := by
      rcases h4 with ⟨hc, _⟩ | ⟨_, h4⟩
      · omega
      · exact h4
    subst e4
    rcases h5 with ⟨hhl, _, h5⟩ | ⟨_, rfl⟩
    · refine ⟨h5.over hA hL hw0u hwu hw0u (by omega) o1, ?_⟩
      rcases out with hc | hc | hc | hc
      · omega
      · have k := h5.covers3 hu.le hw0 hw (by omega) hc c1
        obtain ⟨g, n, lots, _, hne, _, hlo, hb, huh, _⟩ := h5.ex
        unfold Covers at *
        have m := mulFloor_bounds u
        have e1 : S * (u / S + 1) = u / S * S + S := by ring
        have : S * (p'.base - p4.base) ≤ S * p'.base := Int.mul_le_mul_of_nonneg_left (by omega) hS.le
        have : S * (p'.base + 4) = S * p'.base + S * 4 := by ring
        omega
      · -- nothing left to reduce
        obtain ⟨g, n, lots, _, hne, _, hlo, hb, huh, hst⟩ := h5.ex
        have hz : lots = 0 := by omega
        rw [hz] at hb huh hst
        unfold Covers at *
        have e1 : p'.uhupnl = p4.uhupnl := by rw [huh]; simp
        have e2 : p'.settleToken = p4.settleToken := by rw [hst]; simp
        rw [e1, e2, h5.pnl]
        have : 0 ≤ S * (p'.base + 4) := Int.mul_nonneg hS.le (by omega)
        omega
      · omega
    · refine ⟨o1, ?_⟩
      unfold Covers at *
      have : 0 ≤ S * (p'.base + 4) := Int.mul_nonneg hS.le (by omega)
      omega

end Liquidation
end Mango
