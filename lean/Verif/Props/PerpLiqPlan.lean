import Verif.Liq.PerpBase
import Verif.Perp.Exec
import Verif.Props.HealthZero
import Verif.Props.TokenLiqGain
/-!
# C63: perp liquidation, part 1: how much is reduced and settled
-/
namespace Mango
namespace Liquidation
open Fx Health

theorem tv_priced {A L b : Int} : tv A L b = priced A L b / S := by
  unfold tv priced
  by_cases h : b < 0
  · rw [if_neg (by omega), if_pos h]
  · rw [if_pos (by omega), if_neg h]

theorem tv_mono {A L a b : Int} (h1 : 0 ≤ A) (h2 : A ≤ L) (hab : a ≤ b) : tv A L a ≤ tv A L b := by
  rw [tv_priced, tv_priced]
  exact floor_mono (priced_mono h1 (by omega) hab)

/-- a balance lower by `d` is worth less by at most `d` at the liability price -/
theorem priced_lip {A L b d : Int} (h1 : 0 ≤ A) (h2 : A ≤ L) (hd : 0 ≤ d) : priced A L (b + d) ≤ priced A L b + d * L := by
  unfold priced
  have e : (b + d) * L = b * L + d * L := by ring
  have e2 : (b + d) * A = b * A + d * A := by ring
  have e3 : d * A ≤ d * L := Int.mul_le_mul_of_nonneg_left h2 hd
  split <;> split
  · omega
  · rename_i x y; omega
  · rename_i x y
    have : b * A - b * L = (-b) * (L - A) := by ring
    have h3 : (b + d) * A ≤ (b + d) * L := Int.mul_le_mul_of_nonneg_left h2 (by omega)
    omega
  · omega

theorem tv_lip {A L b d : Int} (h1 : 0 ≤ A) (h2 : A ≤ L) (hd : 0 ≤ d) : tv A L (b + d) * S ≤ tv A L b * S + d * L + S := by
  have h := priced_lip (b := b) h1 h2 hd
  have a := mulFloor_bounds (priced A L (b + d))
  have b' := mulFloor_bounds (priced A L b)
  rw [← tv_priced] at a b'
  omega

/-- asset- and liability-weighted price of the settle token for liquidation-end health -/
def awp (t : TokenInfo) : Int := t.initAssetWeight * t.prices.oracle / S
def lwp (t : TokenInfo) : Int := t.initLiabWeight * t.prices.oracle / S

theorem contribution_tv {t : TokenInfo} {b v : I80F48} (h : t.contribution .liqEnd b = .ok v) : v = tv (awp t) (lwp t) b := by
  simp only [TokenInfo.contribution, TokenInfo.liabWeightedPrice, TokenInfo.assetWeightedPrice, bind_ok] at h
  obtain ⟨w, h1, h2⟩ := h
  rw [mul_ok] at h2
  unfold tv
  by_cases hb : b < 0
  · rw [if_pos hb, mul_ok] at h1
    rw [if_neg (by omega), h2.1, h1.1]
    rfl
  · rw [if_neg hb, mul_ok] at h1
    rw [if_pos (by omega), h2.1, h1.1]
    rfl

theorem projected_ok {t : TokenInfo} {h a b v : I80F48} (hh : projected t h a b = .ok v) : v = h - tv (awp t) (lwp t) a + tv (awp t) (lwp t) b := by
  simp only [projected, bind_ok, sub_ok, add_ok] at hh
  obtain ⟨x, h1, y, h2, _, ⟨rfl, _⟩, rfl, _⟩ := hh
  rw [contribution_tv h1, contribution_tv h2]

/-- health if the effective settle token balance were `b` instead of `b0` -/
def hAt (t : TokenInfo) (H0 b0 b : Int) : Int := H0 - tv (awp t) (lwp t) b0 + tv (awp t) (lwp t) b

/-- settle tokens needed: given that many, health is (apart from rounding) zero -/
theorem tokensForHealth_ok {t : TokenInfo} {p : Plan} {g H0 b0 : Int} (hA : 0 ≤ awp t) (hL : awp t ≤ lwp t) (hp : p.health = hAt t H0 b0 p.settleToken)
    (h : tokensForHealth t p = .ok g) :
    0 ≤ g ∧ (0 ≤ p.health → g = 0) ∧ (p.health < 0 → hAt t H0 b0 (p.settleToken + g) ≤ 1 ∧ -(lwp t) - S < hAt t H0 b0 (p.settleToken + g) * S) := by
  have hS := S_pos
  simp only [tokensForHealth, TokenInfo.assetWeightedPrice, TokenInfo.liabWeightedPrice, bind_ok, mul_ok] at h
  obtain ⟨_, ⟨rfl, _⟩, _, ⟨rfl, _⟩, h⟩ := h
  have k := C39_given (awp := awp t) (lwp := lwp t) hA hL h
  refine ⟨?_, k.1, ?_⟩
  · by_cases hh : 0 ≤ p.health
    · rw [k.1 hh]
    · exact (k.2 (by omega)).1
  · intro hn
    obtain ⟨_, k1, k2⟩ := k.2 hn
    have m1 := mulFloor_bounds (priced (awp t) (lwp t) (p.settleToken + g))
    have m2 := mulFloor_bounds (priced (awp t) (lwp t) p.settleToken)
    rw [← tv_priced] at m1 m2
    have e : hAt t H0 b0 (p.settleToken + g) = p.health - tv (awp t) (lwp t) p.settleToken + tv (awp t) (lwp t) (p.settleToken + g) := by
      rw [hp]; unfold hAt; omega
    rw [e]
    have e2 : (p.health - tv (awp t) (lwp t) p.settleToken + tv (awp t) (lwp t) (p.settleToken + g)) * S =
      p.health * S - tv (awp t) (lwp t) p.settleToken * S + tv (awp t) (lwp t) (p.settleToken + g) * S := by ring
    constructor
    · have : (p.health - tv (awp t) (lwp t) p.settleToken + tv (awp t) (lwp t) (p.settleToken + g)) * S < 2 * S := by omega
      have := Int.lt_of_mul_lt_mul_right this hS.le
      omega
    · omega

theorem hAt_mono {t : TokenInfo} {H0 b0 a b : Int} (hA : 0 ≤ awp t) (hL : awp t ≤ lwp t) (hab : a ≤ b) : hAt t H0 b0 a ≤ hAt t H0 b0 b := by
  have := tv_mono hA hL hab
  unfold hAt
  omega

/-- what a base reduction step does -/
structure Reduced (t : TokenInfo) (B M : Int) (limit e a u : Int) (p p' : Plan) : Prop where
  ex : ∃ g n lots : Int, tokensForHealth t p = .ok g ∧ e ≠ 0 ∧ n = -((-(Int.tdiv (min g limit * S) e)) / S) ∧ lots = max (min (min n (|B| - p.base)) (|M| - p.base)) 0 ∧
    p'.base = p.base + lots ∧ p'.uhupnl = p.uhupnl + u * lots ∧ p'.settleToken = p.settleToken + a * lots
  pnl : p'.pnl = p.pnl
  health : p'.health = p.health - tv (awp t) (lwp t) p.settleToken + tv (awp t) (lwp t) p'.settleToken

theorem mul_ofInt (a n : Int) : a * Fx.ofInt n / S = a * n := by
  unfold Fx.ofInt
  have : a * (n * S) = a * n * S := by ring
  rw [this, Int.mul_ediv_cancel _ (by decide)]

theorem reduceBase_ok {t : TokenInfo} {B M : Int} {limit e a u : I80F48} {p p' : Plan} (h : reduceBase t B M limit e a u p = .ok p') : Reduced t B M limit e a u p p' := by
  simp only [reduceBase, Perp.toI64, bind_ok, div_ok, ceil_ok, ck64_ok, Perp.abs64_ok, mul_ok, add_ok, ok_inj] at h
  obtain ⟨g, hg, _, ⟨he, rfl, _⟩, _, ⟨rfl, _⟩, n, ⟨hn, _⟩, _, ⟨rfl, _⟩, x, ⟨rfl, _⟩, _, ⟨rfl, _⟩, _, ⟨rfl, _⟩, eg, _, et, _, _, _, ug, ⟨rfl, _⟩, u', ⟨rfl, _⟩, gg, ⟨rfl, _⟩, tok, ⟨rfl, _⟩,
    hh, hpr, br, ⟨rfl, _⟩, rfl⟩ := h
  simp only [mul_ofInt] at *
  refine ⟨⟨g, n, _, hg, he, ?_, rfl, rfl, rfl, rfl⟩, rfl, projected_ok hpr⟩
  rw [hn]
  unfold Fx.toInt
  rw [Int.mul_ediv_cancel _ (by decide)]

/-- what a settlement step does -/
structure PnlTaken (t : TokenInfo) (maxPnl per : Int) (p p' : Plan) : Prop where
  ex : ∃ g x : Int, tokensForHealth t p = .ok g ∧ per ≠ 0 ∧ x = max (min (min (Int.tdiv (g * S) per) (maxPnl - p.pnl)) p.uhupnl) 0 ∧ p'.pnl = p.pnl + x ∧ p'.uhupnl = p.uhupnl - x ∧
    p'.settleToken = p.settleToken + x * per / S
  base : p'.base = p.base
  health : p'.health = p.health - tv (awp t) (lwp t) p.settleToken + tv (awp t) (lwp t) p'.settleToken

theorem settleStep_ok {t : TokenInfo} {maxPnl per : I80F48} {p p' : Plan} (h : settleStep t maxPnl per p = .ok p') : PnlTaken t maxPnl per p p' := by
  simp only [settleStep, bind_ok, div_ok, sub_ok, mul_ok, add_ok, ok_inj] at h
  obtain ⟨g, hg, _, ⟨he, rfl, _⟩, _, ⟨rfl, _⟩, _, ⟨rfl, _⟩, _, ⟨rfl, _⟩, _, ⟨rfl, _⟩, hh, hpr, _, ⟨rfl, _⟩, rfl⟩ := h
  exact ⟨⟨g, _, hg, he, rfl, rfl, rfl, rfl⟩, rfl, projected_ok hpr⟩

/-! ## Bounds that always hold -/

/-- amounts within what was requested and what is there; how the unweighted health pnl changes -/
structure Within (B M maxPnl u0 u : Int) (p : Plan) : Prop where
  base0 : 0 ≤ p.base
  base1 : p.base ≤ |B|
  base2 : p.base ≤ |M|
  pnl0 : 0 ≤ p.pnl
  pnl1 : p.pnl ≤ maxPnl
  uh : p.uhupnl = u0 + u * p.base - p.pnl
  pos : 0 < p.pnl → 0 ≤ p.uhupnl

theorem Reduced.within {t : TokenInfo} {B M maxPnl u0 : Int} {limit e a u : Int} {p p' : Plan} (hu : 0 < u) (w : Within B M maxPnl u0 u p) (h : Reduced t B M limit e a u p p') :
    Within B M maxPnl u0 u p' := by
  obtain ⟨g, n, lots, _, _, _, hl, h1, h2, h3⟩ := h.ex
  obtain ⟨w1, w2, w3, w4, w5, w6, w7⟩ := w
  have hp := h.pnl
  have hl0 : 0 ≤ lots := by omega
  have hul : 0 ≤ u * lots := Int.mul_nonneg hu.le hl0
  refine ⟨by omega, by omega, by omega, by omega, by omega, ?_, ?_⟩
  · rw [h2, w6, h1, hp]; ring
  · intro hx; have := w7 (by omega); omega

theorem PnlTaken.within {t : TokenInfo} {B M maxPnl u0 u per : Int} {p p' : Plan} (w : Within B M maxPnl u0 u p) (h : PnlTaken t maxPnl per p p') :
    Within B M maxPnl u0 u p' := by
  obtain ⟨g, x, _, _, hx, h1, h2, h3⟩ := h.ex
  obtain ⟨w1, w2, w3, w4, w5, w6, w7⟩ := w
  have hb := h.base
  refine ⟨by omega, by omega, by omega, by omega, by omega, ?_, ?_⟩
  · rw [hb, h2, w6, h1]; omega
  · intro hp
    by_cases h0 : x = 0
    · have := w7 (by omega); omega
    · omega

theorem maybeSettle_ok {t : TokenInfo} {maxPnl gain weight : I80F48} {p p' : Plan} (h : maybeSettle t maxPnl gain weight p = .ok p') :
    (0 ≤ p.uhupnl ∧ weight < gain ∧ PnlTaken t maxPnl (gain - weight) p p') ∨ (¬ (0 ≤ p.uhupnl ∧ weight < gain) ∧ p' = p) := by
  unfold maybeSettle at h
  by_cases hc : p.uhupnl ≥ 0 ∧ gain > weight
  · rw [if_pos hc] at h
    simp only [bind_ok, sub_ok] at h
    obtain ⟨_, ⟨rfl, _⟩, h⟩ := h
    exact Or.inl ⟨hc.1, hc.2, settleStep_ok h⟩
  · rw [if_neg hc, ok_inj] at h
    exact Or.inr ⟨hc, h.symm⟩

/-- the steps -/
structure Steps (t : TokenInfo) (B M : Int) (u gain weight maxPnl : Int) (p p' : Plan) : Prop where
  ex : ∃ p1 p2 p3 p4 : Plan,
    ((p.uhupnl < 0 ∧ Reduced t B M (-p.uhupnl) u u u p p1) ∨ (0 ≤ p.uhupnl ∧ p1 = p)) ∧
    ((0 ≤ p1.uhupnl ∧ weight < gain ∧ PnlTaken t maxPnl (gain - weight) p1 p2) ∨ (¬ (0 ≤ p1.uhupnl ∧ weight < gain) ∧ p2 = p1)) ∧
    ((0 ≤ p2.uhupnl ∧ p2.pnl < maxPnl ∧ Reduced t B M (maxPnl - p2.pnl) (u * gain / S) (u * weight / S) u p2 p3) ∨ (¬ (0 ≤ p2.uhupnl ∧ p2.pnl < maxPnl) ∧ p3 = p2)) ∧
    ((0 ≤ p3.uhupnl ∧ weight < gain ∧ PnlTaken t maxPnl (gain - weight) p3 p4) ∨ (¬ (0 ≤ p3.uhupnl ∧ weight < gain) ∧ p4 = p3)) ∧
    ((p4.health < -(S / 2) ∧ 0 < weight ∧ Reduced t B M Fx.MAX (u * weight / S) (u * weight / S) u p4 p') ∨ (¬ (p4.health < -(S / 2) ∧ 0 < weight) ∧ p' = p4))

theorem planOf_ok {t : TokenInfo} {B M : Int} {u gain weight maxPnl : I80F48} {p p' : Plan} (h : planOf t B M u gain weight maxPnl p = .ok p') :
    Steps t B M u gain weight maxPnl p p' := by
  simp only [planOf, bind_ok] at h
  obtain ⟨p1, h1, p2, h2, p3, h3, p4, h4, h5⟩ := h
  refine ⟨p1, p2, p3, p4, ?_, maybeSettle_ok h2, ?_, maybeSettle_ok h4, ?_⟩
  · by_cases hc : p.uhupnl < 0
    · rw [if_pos hc] at h1
      simp only [bind_ok, neg_ok] at h1
      obtain ⟨_, ⟨rfl, _⟩, h1⟩ := h1
      exact Or.inl ⟨hc, reduceBase_ok h1⟩
    · rw [if_neg hc, ok_inj] at h1
      exact Or.inr ⟨by omega, h1.symm⟩
  · by_cases hc : p2.uhupnl ≥ 0 ∧ p2.pnl < maxPnl
    · rw [if_pos hc] at h3
      simp only [bind_ok, sub_ok, mul_ok] at h3
      obtain ⟨_, ⟨rfl, _⟩, _, ⟨rfl, _⟩, _, ⟨rfl, _⟩, h3⟩ := h3
      exact Or.inl ⟨hc.1, hc.2, reduceBase_ok h3⟩
    · rw [if_neg hc, ok_inj] at h3
      exact Or.inr ⟨hc, h3.symm⟩
  · by_cases hc : p4.health < -(S / 2) ∧ weight > 0
    · rw [if_pos hc] at h5
      simp only [bind_ok, mul_ok] at h5
      obtain ⟨_, ⟨rfl, _⟩, h5⟩ := h5
      exact Or.inl ⟨hc.1, hc.2, reduceBase_ok h5⟩
    · rw [if_neg hc, ok_inj] at h5
      exact Or.inr ⟨hc, h5.symm⟩

theorem Steps.within {t : TokenInfo} {B M u0 : Int} {u gain weight maxPnl : Int} {p p' : Plan} (hu : 0 < u) (w : Within B M maxPnl u0 u p) (h : Steps t B M u gain weight maxPnl p p') :
    Within B M maxPnl u0 u p' := by
  obtain ⟨p1, p2, p3, p4, h1, h2, h3, h4, h5⟩ := h.ex
  have w1 : Within B M maxPnl u0 u p1 := by
    rcases h1 with ⟨_, h1⟩ | ⟨_, rfl⟩
    · exact h1.within hu w
    · exact w
  have w2 : Within B M maxPnl u0 u p2 := by
    rcases h2 with ⟨_, _, h2⟩ | ⟨_, rfl⟩
    · exact h2.within w1
    · exact w1
  have w3 : Within B M maxPnl u0 u p3 := by
    rcases h3 with ⟨_, _, h3⟩ | ⟨_, rfl⟩
    · exact h3.within hu w2
    · exact w2
  have w4 : Within B M maxPnl u0 u p4 := by
    rcases h4 with ⟨_, _, h4⟩ | ⟨_, rfl⟩
    · exact h4.within w3
    · exact w3
  rcases h5 with ⟨_, _, h5⟩ | ⟨_, rfl⟩
  · exact h5.within hu w4
  · exact w4

end Liquidation
end Mango
