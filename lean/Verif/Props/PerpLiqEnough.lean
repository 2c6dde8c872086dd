import Verif.Props.PerpLiqHealth
/-!
# C63: perp liquidation, part 6: it does not stop early
-/
namespace Mango
namespace Liquidation
open Fx Health Bank

/-! ## the plan -/

theorem spotTaken_le {health spot awp lwp g : I80F48} (hs : spot ≤ Fx.MAX) (h : spotTaken health spot awp lwp = .ok g) : g ≤ Fx.MAX := by
  have h0 : (0 : Int) ≤ Fx.MAX := by decide
  unfold spotTaken at h
  by_cases hc : health ≤ 0
  · rw [if_pos hc, ok_inj] at h; omega
  rw [if_neg hc] at h
  have key : ∀ {taken hh g : I80F48}, taken ≤ Fx.MAX → (if hh > 0 then do
        require (lwp > 0) .requireFailed
        let q ← Fx.div hh lwp
        Fx.add taken q
      else .ok taken : Res I80F48) = .ok g → g ≤ Fx.MAX := by
    intro taken hh g ht hk
    by_cases h1 : hh > 0
    · rw [if_pos h1] at hk
      simp only [bind_ok, require_ok, add_ok] at hk
      obtain ⟨_, _, q, _, rfl, hr⟩ := hk
      exact hr.2
    · rw [if_neg h1, ok_inj] at hk
      omega
  dsimp only at h
  by_cases hsp : spot > 0
  · rw [if_pos hsp] at h
    simp only [bind_ok] at h
    obtain ⟨am, ham, h⟩ := h
    cases am with
    | none =>
      simp only [bind_ok] at h
      obtain ⟨x, _, hh, _, h⟩ := h
      exact key hs h
    | some q =>
      dsimp only at h
      by_cases hq : q ≤ spot
      · rw [if_pos hq, ok_inj] at h; omega
      · rw [if_neg hq] at h
        simp only [bind_ok] at h
        obtain ⟨x, _, hh, _, h⟩ := h
        exact key hs h
  · rw [if_neg hsp] at h
    exact key h0 h

theorem tokensForHealth_le {t : TokenInfo} {p : Plan} {g : I80F48} (h : tokensForHealth t p = .ok g) : g ≤ Fx.MAX := by
  simp only [tokensForHealth, spotGiven, bind_ok, neg_ok] at h
  obtain ⟨_, _, _, _, nh, ⟨rfl, _⟩, ns, ⟨rfl, hr⟩, h⟩ := h
  exact spotTaken_le hr.2 h

/-- the last step leaves nothing to reduce or brings health back -/
theorem Reduced.last {t : TokenInfo} {B M a u H0 b0 : Int} {p p' : Plan} (hA : 0 ≤ awp t) (hL : awp t ≤ lwp t) (ha : 0 ≤ a) (hneg : p.health < 0) (hB : p.base ≤ |B|) (hM : p.base ≤ |M|)
    (hh : p.health = hAt t H0 b0 p.settleToken) (hl : (a + 4 * S) * lwp t ≤ S * S * (S / 4)) (h : Reduced t B M Fx.MAX a a u p p') :
    (p'.base = |B| ∨ p'.base = |M|) ∨ -(S / 2) ≤ p'.health := by
  have hS := S_pos
  obtain ⟨g, n, lots, hg, hne, hn, hlots, h1, h2, h3⟩ := h.ex
  have ha : 0 < a := by omega
  obtain ⟨g0, g1, g2⟩ := tokensForHealth_ok hA hL hh hg
  have hgm : min g Fx.MAX = g := by have := tokensForHealth_le hg; omega
  rw [hgm] at hn
  have en := lots_enough ha g0 hn
  by_cases hc : lots < n
  · left; omega
  · right
    have e1 : n * a ≤ a * lots := by
      have := Int.mul_le_mul_of_nonneg_right (show n ≤ lots by omega) ha.le
      have e : lots * a = a * lots := by ring
      omega
    have hk : g < a * lots + (a / S + 1) := by
      have m := mulFloor_bounds a
      have k1 : n * a * S ≤ a * lots * S := Int.mul_le_mul_of_nonneg_right e1 hS.le
      have e2 : (a * lots + (a / S + 1)) * S = a * lots * S + a / S * S + S := by ring
      exact Int.lt_of_mul_lt_mul_right (show g * S < (a * lots + (a / S + 1)) * S by omega) hS.le
    have g3 := (g2 hneg).2
    have hh' := Over.step hh h.health
    rw [hh']
    have hd : 0 ≤ a / S + 1 := by have := floor_nonneg ha.le; omega
    have mono := hAt_mono (H0 := H0) (b0 := b0) hA hL (show p.settleToken + g - (a / S + 1) ≤ p'.settleToken by omega)
    have lip := tv_lip (b := p.settleToken + g - (a / S + 1)) hA hL hd
    have e3 : p.settleToken + g - (a / S + 1) + (a / S + 1) = p.settleToken + g := by omega
    rw [e3] at lip
    have m := mulFloor_bounds a
    have k2 : (a / S + 1) * S * lwp t ≤ (a + S) * lwp t := Int.mul_le_mul_of_nonneg_right (by
      have : (a / S + 1) * S = a / S * S + S := by ring
      omega) (by omega)
    have hS4 : S * S * (S / 4) = S * (S * (S / 4)) := by ring
    have k3 : (a / S + 1) * lwp t * S ≤ S * (S * (S / 4)) - 3 * S * lwp t := by
      have e4 : (a + 4 * S) * lwp t = (a + S) * lwp t + 3 * S * lwp t := by ring
      have e5 : (a / S + 1) * S * lwp t = (a / S + 1) * lwp t * S := by ring
      omega
    have k4 : (a / S + 1) * lwp t ≤ S * (S / 4) - 3 * lwp t := by
      apply Int.le_of_mul_le_mul_right _ hS
      have e6 : (S * (S / 4) - 3 * lwp t) * S = S * (S * (S / 4)) - 3 * S * lwp t := by ring
      omega
    have hX : hAt t H0 b0 (p.settleToken + g) * S ≤ hAt t H0 b0 (p.settleToken + g - (a / S + 1)) * S + (a / S + 1) * lwp t + S := by
      unfold hAt
      have e7 : ∀ x : Int, (H0 - tv (awp t) (lwp t) b0 + x) * S = (H0 - tv (awp t) (lwp t) b0) * S + x * S := by intro x; ring
      rw [e7, e7]
      omega
    generalize hAt t H0 b0 (p.settleToken + g - (a / S + 1)) = y at *
    generalize hAt t H0 b0 (p.settleToken + g) = z at *
    have : (-(S / 2)) * S < (y + 1) * S := by
      have e8 : (y + 1) * S = y * S + S := by ring
      have : (-(S / 2)) * S = -(S * (S / 4)) - S * (S / 4) := by decide
      have hlw : 0 ≤ lwp t := by omega
      have : S * (S / 4) > 10 * S := by decide
      omega
    have := Int.lt_of_mul_lt_mul_right this hS.le
    omega

/-- the projected settle token balance is at most what spot and perp positions will count for, up to `E / S` -/
def CoveredBy (b0 u0 w gain E : Int) (p : Plan) : Prop := p.settleToken * S ≤ b0 * S - counted w u0 + counted w p.uhupnl + p.pnl * gain + E

/-- a gain counts at least with the weight -/
theorem counted_ge {w x d : Int} (hw : w ≤ S) (hd : 0 ≤ d) : counted w x + w * d ≤ counted w (x + d) := by
  unfold counted
  have e1 : w * (x + d) = w * x + w * d := by ring
  have e2 : S * (x + d) = S * x + S * d := by ring
  have k : w * d ≤ S * d := Int.mul_le_mul_of_nonneg_right hw hd
  split <;> split
  · omega
  · omega
  · have : w * -x ≤ S * -x := Int.mul_le_mul_of_nonneg_right hw (by omega)
    have e3 : w * -x = -(w * x) := by ring
    have e4 : S * -x = -(S * x) := by ring
    omega
  · omega

/-- a gain of a negative pnl counts fully, apart from what gets above zero -/
theorem counted_up {w x d k : Int} (hw0 : 0 ≤ w) (hk0 : 0 ≤ k) (hk : x + d ≤ k) : counted w x + S * d ≤ counted w (x + d) + S * k ∨ 0 < x := by
  unfold counted
  by_cases hx : 0 < x
  · exact Or.inr hx
  · left
    have e2 : S * (x + d) = S * x + S * d := by ring
    have hS := S_pos
    have k0 : 0 ≤ S * k := Int.mul_nonneg hS.le hk0
    rw [if_neg (by omega)]
    split
    · have : S * (x + d) ≤ S * k := Int.mul_le_mul_of_nonneg_left hk hS.le
      have : 0 ≤ w * (x + d) := Int.mul_nonneg hw0 (by omega)
      omega
    · omega

/-- step 1 -/
theorem Reduced.covered1 {t : TokenInfo} {B M u b0 u0 w gain E : Int} {p p' : Plan} (hu : 0 < u) (hw0 : 0 ≤ w) (hneg : p.uhupnl < 0)
    (c : CoveredBy b0 u0 w gain E p) (h : Reduced t B M (-p.uhupnl) u u u p p') : CoveredBy b0 u0 w gain (E + S * u) p' := by
  obtain ⟨g, n, lots, hg, hne, hn, hl, h1, h2, h3⟩ := h.ex
  unfold CoveredBy at *
  have hkey : p.uhupnl + u * lots ≤ u := by
    by_cases hz : lots ≤ 0
    · have : lots = 0 := by omega
      rw [this]; simp; omega
    · have := lots_need hu hn (by omega)
      have k2 : (lots - 1) * u ≤ (n - 1) * u := Int.mul_le_mul_of_nonneg_right (by omega) hu.le
      have e1 : u * lots = (lots - 1) * u + u := by ring
      omega
  have k := counted_up hw0 hu.le hkey
  rw [h2, h3, h.pnl]
  have e1 : (p.settleToken + u * lots) * S = p.settleToken * S + S * (u * lots) := by ring
  rcases k with k | k <;> omega

/-- steps 3 and 5 -/
theorem Reduced.covered2 {t : TokenInfo} {B M limit e u b0 u0 w gain E : Int} {p p' : Plan} (hu : 0 ≤ u) (hw : w ≤ S)
    (c : CoveredBy b0 u0 w gain E p) (h : Reduced t B M limit e (u * w / S) u p p') : CoveredBy b0 u0 w gain E p' := by
  obtain ⟨g, n, lots, hg, hne, hn, hl, h1, h2, h3⟩ := h.ex
  unfold CoveredBy at *
  have hl0 : 0 ≤ lots := by omega
  have hd : 0 ≤ u * lots := Int.mul_nonneg hu hl0
  have k := counted_ge (w := w) (x := p.uhupnl) hw hd
  rw [h2, h3, h.pnl]
  have m := mulFloor_bounds (u * w)
  have m2 : u * w / S * S * lots ≤ u * w * lots := Int.mul_le_mul_of_nonneg_right (by omega) hl0
  have e1 : (p.settleToken + u * w / S * lots) * S = p.settleToken * S + u * w / S * S * lots := by ring
  have e3 : w * (u * lots) = u * w * lots := by ring
  rw [e1]
  omega

/-- steps 2 and 4 -/
theorem PnlTaken.covered {t : TokenInfo} {maxPnl b0 u0 w gain E : Int} {p p' : Plan} (hp : 0 ≤ p.uhupnl) (c : CoveredBy b0 u0 w gain E p) (h : PnlTaken t maxPnl (gain - w) p p') :
    CoveredBy b0 u0 w gain E p' := by
  obtain ⟨g, x, hg, hne, hx, h1, h2, h3⟩ := h.ex
  have hx0 : 0 ≤ x := by omega
  have hxu : x ≤ p.uhupnl := by omega
  unfold CoveredBy at *
  have k := counted_pos (w := w) (x := p.uhupnl - x) (d := x) (by omega) hx0
  have e0 : p.uhupnl - x + x = p.uhupnl := by omega
  rw [e0] at k
  rw [h1, h2, h3]
  have m := mulFloor_bounds (x * (gain - w))
  have e1 : (p.settleToken + x * (gain - w) / S) * S = p.settleToken * S + x * (gain - w) / S * S := by ring
  have e2 : (p.pnl + x) * gain = p.pnl * gain + x * gain := by ring
  have e3 : x * (gain - w) = x * gain - w * x := by ring
  rw [e1, e2]
  omega

/-- the plan: nothing left to reduce, or (if the market's positive pnl counts at all) health brought back -/
theorem Steps.enough {t : TokenInfo} {B M u0 b0 H0 : Int} {u gain weight maxPnl : Int} {p' : Plan} (hA : 0 ≤ awp t) (hL : awp t ≤ lwp t) (hu : 0 < u)
    (hw0 : 0 < weight) (hw : weight ≤ S) (hmax : 0 ≤ maxPnl) (hl : (u + 4 * S) * lwp t ≤ S * S * (S / 4))
    (h : Steps t B M u gain weight maxPnl ⟨0, 0, u0, b0, H0⟩ p') :
    p'.health = hAt t H0 b0 p'.settleToken ∧ CoveredBy b0 u0 weight gain (S * u) p' ∧ ((p'.base = |B| ∨ p'.base = |M|) ∨ -(S / 2) ≤ p'.health) := by
  have hS := S_pos
  obtain ⟨p1, p2, p3, p4, h1, h2, h3, h4, h5⟩ := h.ex
  have q0 : (⟨0, 0, u0, b0, H0⟩ : Plan).health = hAt t H0 b0 b0 := by unfold hAt; dsimp only; omega
  have c0 : CoveredBy b0 u0 weight gain 0 ⟨0, 0, u0, b0, H0⟩ := by unfold CoveredBy; dsimp only; omega
  have w0 : Within B M maxPnl u0 u ⟨0, 0, u0, b0, H0⟩ := ⟨le_refl _, abs_nonneg _, abs_nonneg _, le_refl _, hmax, by dsimp only; omega, by intro hc; simp at hc⟩
  have hSu : 0 ≤ S * u := Int.mul_nonneg hS.le hu.le
  have s1 : p1.health = hAt t H0 b0 p1.settleToken ∧ CoveredBy b0 u0 weight gain (S * u) p1 ∧ Within B M maxPnl u0 u p1 := by
    rcases h1 with ⟨hn, h1⟩ | ⟨_, rfl⟩
    · refine ⟨Over.step q0 h1.health, ?_, h1.within hu w0⟩
      have := h1.covered1 hu hw0.le hn c0
      unfold CoveredBy at *; omega
    · refine ⟨q0, ?_, w0⟩
      unfold CoveredBy at *; omega
  obtain ⟨q1, c1, w1⟩ := s1
  have s2 : p2.health = hAt t H0 b0 p2.settleToken ∧ CoveredBy b0 u0 weight gain (S * u) p2 ∧ Within B M maxPnl u0 u p2 := by
    rcases h2 with ⟨hp, _, h2⟩ | ⟨_, rfl⟩
    · exact ⟨Over.step q1 h2.health, h2.covered hp c1, h2.within w1⟩
    · exact ⟨q1, c1, w1⟩
  obtain ⟨q2, c2, w2⟩ := s2
  have s3 : p3.health = hAt t H0 b0 p3.settleToken ∧ CoveredBy b0 u0 weight gain (S * u) p3 ∧ Within B M maxPnl u0 u p3 := by
    rcases h3 with ⟨hp, _, h3⟩ | ⟨_, rfl⟩
    · exact ⟨Over.step q2 h3.health, h3.covered2 hu.le hw c2, h3.within hu w2⟩
    · exact ⟨q2, c2, w2⟩
  obtain ⟨q3, c3, w3⟩ := s3
  have s4 : p4.health = hAt t H0 b0 p4.settleToken ∧ CoveredBy b0 u0 weight gain (S * u) p4 ∧ Within B M maxPnl u0 u p4 := by
    rcases h4 with ⟨hp, _, h4⟩ | ⟨_, rfl⟩
    · exact ⟨Over.step q3 h4.health, h4.covered hp c3, h4.within w3⟩
    · exact ⟨q3, c3, w3⟩
  obtain ⟨q4, c4, w4⟩ := s4
  rcases h5 with ⟨hh, _, h5⟩ | ⟨hn, rfl⟩
  · refine ⟨Over.step q4 h5.health, h5.covered2 hu.le hw c4, ?_⟩
    have ha : 0 ≤ u * weight / S := floor_nonneg (Int.mul_nonneg hu.le hw0.le)
    have hau : u * weight / S ≤ u := by
      have m := mulFloor_bounds (u * weight)
      have k : u * weight ≤ u * S := Int.mul_le_mul_of_nonneg_left hw hu.le
      exact Int.le_of_mul_le_mul_right (show u * weight / S * S ≤ u * S by omega) hS
    have hhalf : (0 : Int) ≤ S / 2 := by decide
    refine h5.last hA hL ha (by omega) w4.base1 w4.base2 q4 ?_
    have : (u * weight / S + 4 * S) * lwp t ≤ (u + 4 * S) * lwp t := Int.mul_le_mul_of_nonneg_right (by omega) (by omega)
    omega
  · exact ⟨q4, c4, Or.inr (by omega)⟩

theorem counted_mono {w x y : Int} (hw0 : 0 ≤ w) (h : x ≤ y) : counted w x ≤ counted w y := by
  have hS := S_pos
  unfold counted
  split <;> split
  · exact Int.mul_le_mul_of_nonneg_left h hw0
  · omega
  · have a1 : S * x ≤ 0 := Int.mul_nonpos_of_nonneg_of_nonpos hS.le (by omega)
    have a2 : 0 ≤ w * y := Int.mul_nonneg hw0 (by omega)
    omega
  · exact Int.mul_le_mul_of_nonneg_left h hS.le

/-- **C63, does not stop early** In a market whose positive pnl counts (`init_overall_asset_weight > 0`) a liquidation goes on until nothing is left to reduce (the whole base position, or all the liqor asked
for), or liquidation-end health is at least -1/2 native unit minus the value of what one lot gains (at the settle token's liability weight). So a liqor that sets no limit brings the account back to (about) zero or
closes the position. -/
theorem C63_enough {env : PerpLiqEnv} (hfd0 : ∀ p x, env.fd 0 p = .ok x → x = 0) {s s' : PerpLiq} {M P : Int} {r : PerpReport} (hP : 0 ≤ P)
    (h : perpLiqBaseOrPositivePnl env s M P = .ok (s', some r))
    {pi : PerpInfo} (hpi : s.cache.perps.find? (fun i => i.perpMarketIndex == s.market.idx) = some pi) (hr : PerpReflects s pi)
    {t : TokenInfo} (ht : t ∈ s.cache.tokens) (hti : t.tokenIndex = s.market.settleTokenIndex)
    (hcounts : 0 < s.market.initOverallAssetWeight)
    {u L : Int} (hu : u = gainPerLot s.market s.fees pi.basePrices.oracle s.liqee.base) (hL : L = t.initLiabWeight * t.prices.oracle / S)
    (hsize : (u + 4 * S) * L ≤ S * S * (S / 4))
    {H H' : Int} (hH : s.cache.health env.fd .liqEnd = .ok H) (hH' : s'.cache.health env.fd .liqEnd = .ok H') :
    |r.base| = |s.liqee.base| ∨ |r.base| = |max M (I64MIN + 1)| ∨ -(S / 2) * S - (u + 2) * L - S ≤ H' * S := by
  have hS := S_pos
  have how1 := hr.overall.2
  obtain ⟨k8, hA, hAL, tok, u0, u2, plan, k10, kw, hnn, k12, _, htok, _, hge2, hfin⟩ := perp_after hfd0 hP h hpi hr ht hti hu hH hH'
  have hLe : L = lwp t := hL
  rw [hLe] at hsize ⊢
  obtain ⟨q, c, out⟩ := Steps.enough hA hAL k8 hcounts how1 (Int.mul_nonneg hP hS.le) hsize k10
  rw [hnn]
  rcases out with (e | e) | e
  · exact Or.inl e
  · exact Or.inr (Or.inl e)
  · refine Or.inr (Or.inr ?_)
    unfold CoveredBy at c
    have c1 : counted s.market.initOverallAssetWeight (plan.uhupnl - 1) ≤ counted s.market.initOverallAssetWeight u2 := counted_mono hcounts.le hge2
    have c2 := counted_le (w := s.market.initOverallAssetWeight) (x := plan.uhupnl - 1) (d := 1) how1 (by omega) hcounts.le
    rw [show plan.uhupnl - 1 + 1 = plan.uhupnl by omega, Int.mul_one] at c2
    have m1 := mulFloor_bounds (counted s.market.initOverallAssetWeight u2)
    have m2 := mulFloor_bounds (counted s.market.initOverallAssetWeight u0)
    have hbound : plan.settleToken - (u + 2) ≤ tok + r.token + (counted s.market.initOverallAssetWeight u2 / S - counted s.market.initOverallAssetWeight u0 / S) := by
      have : (plan.settleToken - (u + 3)) * S < (tok + r.token + (counted s.market.initOverallAssetWeight u2 / S - counted s.market.initOverallAssetWeight u0 / S)) * S := by
        have a1 : (plan.settleToken - (u + 3)) * S = plan.settleToken * S - S * u - 3 * S := by ring
        have a2 : (tok + r.token + (counted s.market.initOverallAssetWeight u2 / S - counted s.market.initOverallAssetWeight u0 / S)) * S =
          tok * S + r.token * S + counted s.market.initOverallAssetWeight u2 / S * S - counted s.market.initOverallAssetWeight u0 / S * S := by ring
        rw [a1, a2]
        omega
      have := Int.lt_of_mul_lt_mul_right this hS.le
      omega
    have mono := hAt_mono (H0 := H) (b0 := tok) hA hAL hbound
    rw [← hfin] at mono
    have lip := tv_lip (b := plan.settleToken - (u + 2)) (d := u + 2) hA hAL (by omega)
    rw [show plan.settleToken - (u + 2) + (u + 2) = plan.settleToken by omega] at lip
    have hlip2 : hAt t H tok plan.settleToken * S ≤ hAt t H tok (plan.settleToken - (u + 2)) * S + (u + 2) * lwp t + S := by
      unfold hAt
      have a1 : ∀ y, (H - tv (awp t) (lwp t) tok + y) * S = (H - tv (awp t) (lwp t) tok) * S + y * S := fun y => by ring
      rw [a1, a1]
      omega
    rw [q] at e
    have d1 := Int.mul_le_mul_of_nonneg_right mono hS.le
    have d2 := Int.mul_le_mul_of_nonneg_right e hS.le
    omega

end Liquidation
end Mango
