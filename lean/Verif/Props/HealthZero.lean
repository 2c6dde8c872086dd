import Verif.Props.Health2
/-!
# C39: amounts that bring health to zero
-/
namespace Mango
namespace Health
open Fx

/-- worth of a balance at an asset-weighted and a liability-weighted price (exact: health bit patterns times `S`) -/
def priced (awp lwp b : I80F48) : Int := if b < 0 then b * lwp else b * awp

theorem priced_mono {awp lwp a b : Int} (h1 : 0 ≤ awp) (h2 : 0 ≤ lwp) (hab : a ≤ b) : priced awp lwp a ≤ priced awp lwp b := by
  unfold priced
  split <;> split
  · exact Int.mul_le_mul_of_nonneg_right hab h2
  · have : a * lwp ≤ 0 := Int.mul_nonpos_of_nonpos_of_nonneg (by omega) h2
    have : 0 ≤ b * awp := Int.mul_nonneg (by omega) h1
    omega
  · omega
  · exact Int.mul_le_mul_of_nonneg_right hab h1

/-- the two ways `spotTaken` can end for positive health -/
theorem spotTaken_ok {health spot awp lwp t : Int} (ha : 0 ≤ awp) (hh : 0 < health) (h : spotTaken health spot awp lwp = .ok t) :
    (0 < spot ∧ 0 ≤ t ∧ t ≤ spot ∧ t * awp ≤ health * S ∧ health * S < t * awp + awp) ∨
    (∃ h', 0 < h' ∧ h' * S < health * S - max spot 0 * awp + S ∧ health * S - max spot 0 * awp ≤ h' * S ∧ 0 < lwp ∧
      max spot 0 ≤ t ∧ (t - max spot 0) * lwp ≤ h' * S ∧ h' * S < (t - max spot 0) * lwp + lwp) := by
  have hS := S_pos
  unfold spotTaken at h
  rw [if_neg (by omega)] at h
  simp only at h
  have liab : ∀ {taken h' : Int}, 0 < h' → (if h' > 0 then do
        require (lwp > 0) .requireFailed
        let q ← Fx.div h' lwp
        Fx.add taken q
      else (.ok taken : Res Int)) = .ok t → 0 < lwp ∧ taken ≤ t ∧ (t - taken) * lwp ≤ h' * S ∧ h' * S < (t - taken) * lwp + lwp := by
    intro taken h' hp hl
    rw [if_pos hp] at hl
    simp only [bind_ok, require_ok, div_ok, add_ok] at hl
    obtain ⟨_, hl0, q, ⟨hne, hq, _⟩, ht, _⟩ := hl
    have tb := tdiv_bounds (a := h' * S) (b := lwp) (Int.mul_nonneg (by omega) (by omega)) hl0
    rw [← hq] at tb
    have : t - taken = q := by omega
    rw [this]
    refine ⟨hl0, by omega, tb.1, tb.2.1⟩
  by_cases hsp : spot > 0
  · rw [if_pos hsp] at h
    have hmx : max spot 0 = spot := by omega
    rw [hmx]
    -- the second part, once the remaining health is known to be positive
    have second : ∀ {h' : Int}, h' = health - spot * awp / S → 0 < h' → (if h' > 0 then do
        require (lwp > 0) .requireFailed
        let q ← Fx.div h' lwp
        Fx.add spot q
      else (.ok spot : Res Int)) = .ok t →
      (∃ h', 0 < h' ∧ h' * S < health * S - spot * awp + S ∧ health * S - spot * awp ≤ h' * S ∧ 0 < lwp ∧
      spot ≤ t ∧ (t - spot) * lwp ≤ h' * S ∧ h' * S < (t - spot) * lwp + lwp) := by
      intro h' he hp hl
      obtain ⟨l1, l2, l3, l4⟩ := liab hp hl
      have fb := mulFloor_bounds (spot * awp)
      have : h' * S = health * S - spot * awp / S * S := by rw [he, Int.sub_mul]
      exact ⟨h', hp, by omega, by omega, l1, l2, l3, l4⟩
    simp only [bind_ok] at h
    obtain ⟨am, hm, h⟩ := h
    simp only [ite_ok, bind_ok, div_ok] at hm
    rcases hm with ⟨hpos, q, ⟨_, hq, _⟩, hm⟩ | ⟨hpos, hm⟩
    · simp at hm; subst hm
      have tb := tdiv_bounds (a := health * S) (b := awp) (Int.mul_nonneg (by omega) (by omega)) hpos
      rw [← hq] at tb
      simp only [ite_ok] at h
      rcases h with ⟨hle, h⟩ | ⟨hle, h⟩
      · simp at h; subst h
        exact Or.inl ⟨hsp, by omega, hle, by omega, by omega⟩
      · right
        simp only [bind_ok, mul_ok, sub_ok] at h
        obtain ⟨x, ⟨hx, _⟩, h', ⟨hh', _⟩, h⟩ := h
        subst hx
        refine second hh' ?_ h
        -- q > spot, so something is left
        have h1 : (spot + 1) * awp ≤ q * awp := Int.mul_le_mul_of_nonneg_right (by omega) ha
        rw [Int.add_mul] at h1
        have h2 : spot * awp < health * S := by omega
        have := floor_le_iff.mpr h2
        omega
    · simp at hm; subst hm
      right
      have h0 : awp = 0 := by omega
      simp only [bind_ok, mul_ok, sub_ok] at h
      obtain ⟨x, ⟨hx, _⟩, h', ⟨hh', _⟩, h⟩ := h
      subst hx
      refine second hh' ?_ h
      rw [hh', h0]; simpa using hh
  · rw [if_neg hsp] at h
    right
    have hmx : max spot 0 = 0 := by omega
    rw [hmx]
    obtain ⟨l1, l2, l3, l4⟩ := liab hh h
    exact ⟨health, hh, by omega, by omega, l1, l2, l3, l4⟩

/-- **C39a** The amount that can be taken before health reaches zero: nothing when health is not positive; otherwise a non-negative
amount `t` such that taking any amount up to `t` leaves health above minus one last-place unit, while taking one unit more than `t`
makes it negative. -/
theorem C39_taken {health spot awp lwp t : I80F48} (ha : 0 ≤ awp) (hal : awp ≤ lwp) (h : spotTaken health spot awp lwp = .ok t) :
    (health ≤ 0 → t = 0) ∧
    (0 < health → 0 ≤ t ∧ (∀ x, x ≤ t → -S < health * S + priced awp lwp (spot - x) - priced awp lwp spot) ∧
      health * S + priced awp lwp (spot - (t + 1)) - priced awp lwp spot < 0) := by
  have hS := S_pos
  constructor
  · intro hle
    unfold spotTaken at h
    rw [if_pos hle] at h
    simp at h; exact h.symm
  · intro hpos
    have key : 0 ≤ t ∧ -S < health * S + priced awp lwp (spot - t) - priced awp lwp spot ∧
        health * S + priced awp lwp (spot - (t + 1)) - priced awp lwp spot < 0 := by
      rcases spotTaken_ok ha hpos h with ⟨h1, h2, h3, h4, h5⟩ | ⟨h', h1, h2, h3, h4, h5, h6, h7⟩
      · refine ⟨h2, ?_, ?_⟩
        · unfold priced
          rw [if_neg (by omega), if_neg (by omega), Int.sub_mul]; omega
        · unfold priced
          rw [if_neg (show ¬ spot < 0 by omega)]
          split
          · have : t = spot := by omega
            subst this
            have : t - (t + 1) = -1 := by omega
            rw [this]; omega
          · rw [Int.sub_mul, Int.add_mul]; omega
      · by_cases hsp : spot > 0
        · have hmx : max spot 0 = spot := by omega
          rw [hmx] at h2 h3 h5 h6 h7
          refine ⟨by omega, ?_, ?_⟩
          · unfold priced
            rw [if_neg (show ¬ spot < 0 by omega)]
            have e : (spot - t) * lwp = -((t - spot) * lwp) := by rw [← Int.neg_mul]; congr 1; omega
            split
            · omega
            · have : t = spot := by omega
              subst this
              simp only [Int.sub_self, Int.zero_mul] at h6 h7 ⊢; omega
          · unfold priced
            rw [if_neg (show ¬ spot < 0 by omega), if_pos (by omega)]
            have e : (spot - (t + 1)) * lwp = -((t - spot) * lwp) - lwp := by
              rw [← Int.neg_mul]
              have : spot - (t + 1) = -(t - spot) + -1 := by omega
              rw [this, Int.add_mul]; omega
            omega
        · have hmx : max spot 0 = 0 := by omega
          rw [hmx] at h2 h3 h5 h6 h7
          simp only [Int.sub_zero, Int.zero_mul] at h2 h3 h5 h6 h7
          refine ⟨by omega, ?_, ?_⟩
          · unfold priced
            by_cases h0 : spot < 0
            · rw [if_pos (by omega), if_pos h0, Int.sub_mul]; omega
            · have : spot = 0 := by omega
              subst this
              rw [if_neg (show ¬ (0:Int) < 0 by omega)]
              split
              · rw [Int.sub_mul]; omega
              · have : t = 0 := by omega
                subst this; simp; omega
          · unfold priced
            have e : (spot - (t + 1)) * lwp = spot * lwp - t * lwp - lwp := by
              rw [Int.sub_mul, Int.add_mul]; omega
            rw [if_pos (by omega)]
            split
            · omega
            · have : spot = 0 := by omega
              subst this; simp only [Int.zero_mul, Int.zero_sub] at e h2 h3 h5 h6 h7 ⊢; omega
    refine ⟨key.1, ?_, key.2.2⟩
    intro x hx
    have := priced_mono (awp := awp) (lwp := lwp) ha (by omega) (a := spot - t) (b := spot - x) (by omega)
    have := key.2.1
    omega

/-- **C39b** The amount that must be given to raise health to zero: nothing when health is not negative; otherwise a non-negative
amount `g` that raises health to at most zero plus one last-place unit, and short of zero by less than one unit of the token. -/
theorem C39_given {health spot awp lwp g : I80F48} (ha : 0 ≤ awp) (hal : awp ≤ lwp) (h : spotGiven health spot awp lwp = .ok g) :
    (0 ≤ health → g = 0) ∧
    (health < 0 → 0 ≤ g ∧ health * S + priced awp lwp (spot + g) - priced awp lwp spot < S ∧
      -lwp < health * S + priced awp lwp (spot + g) - priced awp lwp spot) := by
  have hS := S_pos
  simp only [spotGiven, bind_ok, neg_ok] at h
  obtain ⟨nh, ⟨hnh, _⟩, ns, ⟨hns, _⟩, h⟩ := h
  subst hnh; subst hns
  constructor
  · intro hge
    unfold spotTaken at h
    rw [if_pos (by omega)] at h
    simp at h; exact h.symm
  · intro hneg
    have hneS : -health * S = -(health * S) := Int.neg_mul _ _
    rcases spotTaken_ok (by omega) (by omega) h with ⟨h1, h2, h3, h4, h5⟩ | ⟨h', h1, h2, h3, h4, h5, h6, h7⟩
    · rw [hneS] at h4 h5
      refine ⟨h2, ?_⟩
      unfold priced
      rw [if_pos (show spot < 0 by omega)]
      split
      · rw [Int.add_mul]; omega
      · have : g = -spot := by omega
        subst this
        have : spot + -spot = 0 := by omega
        rw [this]; rw [Int.neg_mul] at h4 h5; omega
    · by_cases hsp : spot < 0
      · have hmx : max (-spot) 0 = -spot := by omega
        rw [hmx, hneS] at h2 h3
        rw [hmx] at h5 h6 h7
        refine ⟨by omega, ?_⟩
        unfold priced
        rw [if_pos hsp, if_neg (by omega)]
        have e : (g - -spot) * awp = (spot + g) * awp := by congr 1; omega
        rw [Int.neg_mul] at h2 h3
        rw [e] at h6 h7
        omega
      · have hmx : max (-spot) 0 = 0 := by omega
        rw [hmx, hneS] at h2 h3
        rw [hmx] at h5 h6 h7
        simp only [Int.sub_zero, Int.zero_mul] at h2 h3 h5 h6 h7
        refine ⟨by omega, ?_⟩
        unfold priced
        rw [if_neg (by omega), if_neg (by omega), Int.add_mul]
        omega

end Health
end Mango
