import Verif.Config.Lemmas
/-!
# What an edit does to one bank
-/
namespace Mango
namespace Config
open Fx

theorem step_fb {env : Env} {b : Bool} {c : Cfg} {a : Bool} {s : Cfg × Bool} (h : change (flag b) always (fun (c : Cfg) _ => do
    require (env.fallbackValid = true) .someError
    .ok { c with fallback := env.fallbackKey }) (c, a) = .ok s) : ∃ x, (x = if b then env.fallbackKey else c.fallback) ∧ s = ({ c with fallback := x }, a || b) := by
  obtain ⟨c', a'⟩ := s
  cases b
  · rcases change_ok h with ⟨_, rfl, rfl⟩ | ⟨v, hv, _⟩
    · exact ⟨_, rfl, by simp⟩
    · simp [flag] at hv
  · rcases change_ok h with ⟨hv, _⟩ | ⟨v, _, hv, rfl⟩
    · simp [flag] at hv
    · simp only [bind_ok] at hv
      obtain ⟨_, _, hv⟩ := hv
      cases hv
      exact ⟨_, rfl, rfl⟩

theorem step_interest {o : Option (Flt × Flt × Flt × Flt × Flt × Flt)} {c : Cfg} {a : Bool} {s : Cfg × Bool} (h : change o always (fun (c : Cfg) v => do
    let a ← v.1.toFx
    let u0 ← v.2.1.toFx
    let r0 ← v.2.2.1.toFx
    let u1 ← v.2.2.2.1.toFx
    let r1 ← v.2.2.2.2.1.toFx
    let m ← v.2.2.2.2.2.toFx
    .ok { c with adjustment := a, util0 := u0, rate0 := r0, util1 := u1, rate1 := r1, maxRate := m }) (c, a) = .ok s) :
    ∃ x u0 r0 u1 r1 m : I80F48, Num (o.map (fun v => v.1)) c.adjustment x ∧ Num (o.map (fun v => v.2.1)) c.util0 u0 ∧ Num (o.map (fun v => v.2.2.1)) c.rate0 r0 ∧
      Num (o.map (fun v => v.2.2.2.1)) c.util1 u1 ∧ Num (o.map (fun v => v.2.2.2.2.1)) c.rate1 r1 ∧ Num (o.map (fun v => v.2.2.2.2.2)) c.maxRate m ∧
      s = ({ c with adjustment := x, util0 := u0, rate0 := r0, util1 := u1, rate1 := r1, maxRate := m }, a || o.isSome) := by
  obtain ⟨c', a'⟩ := s
  rcases change_ok h with ⟨rfl, rfl, rfl⟩ | ⟨v, rfl, hv, rfl⟩
  · exact ⟨_, _, _, _, _, _, rfl, rfl, rfl, rfl, rfl, rfl, by simp⟩
  · simp only [bind_ok] at hv
    obtain ⟨x, h1, u0, h2, r0, h3, u1, h4, r1, h5, m, h6, hv⟩ := hv
    cases hv
    exact ⟨x, u0, r0, u1, r1, m, h1, h2, h3, h4, h5, h6, rfl⟩

theorem step_ro {o : Option Nat} {c : Cfg} {a : Bool} {s : Cfg × Bool}
    (h : change o (fun (c : Cfg) v => v == 0 || (v == 2 && c.reduceOnly == 1)) (fun c v => .ok { c with reduceOnly := v }) (c, a) = .ok s) :
    ∃ x, x = o.getD c.reduceOnly ∧ s = ({ c with reduceOnly := x }, a || o.any (fun v => v == 0 || (v == 2 && c.reduceOnly == 1))) := by
  obtain ⟨c', a'⟩ := s
  rcases change_ok h with ⟨rfl, rfl, rfl⟩ | ⟨v, rfl, hv, rfl⟩
  · exact ⟨_, rfl, by simp⟩
  · cases hv
    exact ⟨v, rfl, rfl⟩

theorem step_fc {o : Option Bool} {c : Cfg} {a : Bool} {s : Cfg × Bool} (h : change o always (fun (c : Cfg) v => do
    (if v then require (c.reduceOnly > 0) .someError else .ok ())
    .ok { c with forceClose := v }) (c, a) = .ok s) :
    ∃ x, x = o.getD c.forceClose ∧ (o = some true → 0 < c.reduceOnly) ∧ s = ({ c with forceClose := x }, a || o.isSome) := by
  obtain ⟨c', a'⟩ := s
  rcases change_ok h with ⟨rfl, rfl, rfl⟩ | ⟨v, rfl, hv, rfl⟩
  · exact ⟨_, rfl, by simp, by simp⟩
  · simp only [bind_ok] at hv
    obtain ⟨_, h1, hv⟩ := hv
    cases hv
    refine ⟨v, rfl, fun hv => ?_, rfl⟩
    cases hv
    simpa [require_ok] using h1

theorem step_abort {now : Int} {b : Bool} {c : Cfg} {a : Bool} {s : Cfg × Bool} (h : change (flag b) (fun _ _ => false) (fun (c : Cfg) _ => do
    let (a, l) ← c.maintWeights now
    .ok { c with maintAsset := a, maintLiab := l, shiftStart := 0, shiftEnd := 0, shiftInv := 0, shiftAsset := 0, shiftLiab := 0 }) (c, a) = .ok s) :
    ∃ x : I80F48 × I80F48, (if b then c.maintWeights now = .ok x else x = (c.maintAsset, c.maintLiab)) ∧
      s = ({ c with maintAsset := x.1, maintLiab := x.2, shiftStart := if b then 0 else c.shiftStart, shiftEnd := if b then 0 else c.shiftEnd,
                    shiftInv := if b then 0 else c.shiftInv, shiftAsset := if b then 0 else c.shiftAsset, shiftLiab := if b then 0 else c.shiftLiab }, a) := by
  obtain ⟨c', a'⟩ := s
  cases b
  · rcases change_ok h with ⟨_, rfl, rfl⟩ | ⟨v, hv, _⟩
    · exact ⟨_, rfl, by simp⟩
    · simp [flag] at hv
  · rcases change_ok h with ⟨hv, _⟩ | ⟨v, _, hv, rfl⟩
    · simp [flag] at hv
    · simp only [bind_ok] at hv
      obtain ⟨⟨x, y⟩, hx, hv⟩ := hv
      cases hv
      exact ⟨(x, y), hx, by simp⟩

theorem step_inv {b : Bool} {c : Cfg} {a : Bool} {s : Cfg × Bool} (h : change (flag b) (fun _ _ => false) (fun (c : Cfg) _ =>
    if c.shiftEnd ≤ c.shiftStart then .ok { c with shiftInv := 0 }
    else do
      let q ← Fx.div ONE (ofInt (c.shiftEnd - c.shiftStart))
      .ok { c with shiftInv := q }) (c, a) = .ok s) :
    ∃ x : I80F48, (if b then (c.shiftEnd ≤ c.shiftStart ∧ x = 0) ∨ (c.shiftStart < c.shiftEnd ∧ Fx.div ONE (ofInt (c.shiftEnd - c.shiftStart)) = .ok x) else x = c.shiftInv) ∧
      s = ({ c with shiftInv := x }, a) := by
  obtain ⟨c', a'⟩ := s
  cases b
  · rcases change_ok h with ⟨_, rfl, rfl⟩ | ⟨v, hv, _⟩
    · exact ⟨_, rfl, by simp⟩
    · simp [flag] at hv
  · rcases change_ok h with ⟨hv, _⟩ | ⟨v, _, hv, rfl⟩
    · simp [flag] at hv
    · by_cases hc : c.shiftEnd ≤ c.shiftStart
      · rw [if_pos hc] at hv
        cases hv
        exact ⟨0, Or.inl ⟨hc, rfl⟩, by simp⟩
      · rw [if_neg hc] at hv
        simp only [bind_ok] at hv
        obtain ⟨x, hx, hv⟩ := hv
        cases hv
        exact ⟨x, Or.inr ⟨by omega, hx⟩, by simp⟩

theorem steps_ok {env : Env} {e : Edit} {c c' : Cfg} {a a' : Bool} (h : runSteps (tokenSteps env e) (c, a) = .ok (c', a')) :
    Edited env e c c' ∧ a' = (a || needsAdmin e c) := by
  unfold tokenSteps at h
  dsimp only at h
  obtain ⟨c_oracle, c_fallback, c_confFilter, c_maxStaleness, c_adjustment, c_util0, c_rate0, c_util1, c_rate1, c_maxRate, c_loanFee, c_originationFee, c_maintAsset, c_initAsset, c_maintLiab, c_initLiab, c_liqFee, c_delayInterval, c_delayGrowth, c_stableGrowth, c_minVault, c_netBorrowLimit, c_netBorrowWindow, c_borrowScale, c_depositScale, c_reduceOnly, c_forceClose, c_name, c_tier, c_tcsTaker, c_tcsMaker, c_flashFee, c_curveScaling, c_targetUtil, c_shiftStart, c_shiftEnd, c_shiftInv, c_shiftAsset, c_shiftLiab, c_depositLimit, c_zeroUtil, c_platformFee, c_disableAssetLiq, c_collateralFee, c_forceWithdraw⟩ := c
  obtain ⟨m, hm, h⟩ := runSteps_cons h
  obtain ⟨x_conf, x_stale, h_conf, h_stale, hs⟩ := step_conf (fun c : Cfg => c.confFilter) (fun c => c.maxStaleness) (fun c x y => { c with confFilter := x, maxStaleness := y }) (fun _ => rfl) hm
  try dsimp only at h_conf h_stale hs
  subst hs
  obtain ⟨m, hm, h⟩ := runSteps_cons h
  obtain ⟨x_oracle, h_oracle, hs⟩ := step_set (fun c : Cfg => c.oracle) (fun c v => { c with oracle := v }) (fun _ => rfl) hm
  try dsimp only at h_oracle hs
  subst hs
  obtain ⟨m, hm, h⟩ := runSteps_cons h
  obtain ⟨x_fb, h_fb, hs⟩ := step_fb hm
  try dsimp only at h_fb hs
  subst hs
  obtain ⟨m, hm, h⟩ := runSteps_cons h
  have hs := step_reset (fun c : Cfg => c.oracle = env.oracleKey) (fun _ => env.oraclePriceOk = true) .requireFailed .oracleStale hm
  try dsimp only at hs
  subst hs
  obtain ⟨m, hm, h⟩ := runSteps_cons h
  have hs := step_nop hm
  try dsimp only at hs
  subst hs
  obtain ⟨m, hm, h⟩ := runSteps_cons h
  obtain ⟨x_a, x_u0, x_r0, x_u1, x_r1, x_m, h_a, h_u0, h_r0, h_u1, h_r1, h_m, hs⟩ := step_interest hm
  try dsimp only at h_a h_u0 h_r0 h_u1 h_r1 h_m hs
  subst hs
  obtain ⟨m, hm, h⟩ := runSteps_cons h
  obtain ⟨x_originationFee, h_originationFee, hs⟩ := step_fx (fun c : Cfg => c.originationFee) (fun c v => { c with originationFee := v }) (fun _ => rfl) hm
  try dsimp only at h_originationFee hs
  subst hs
  obtain ⟨m, hm, h⟩ := runSteps_cons h
  obtain ⟨x_loanFee, h_loanFee, hs⟩ := step_fx (fun c : Cfg => c.loanFee) (fun c v => { c with loanFee := v }) (fun _ => rfl) hm
  try dsimp only at h_loanFee hs
  subst hs
  obtain ⟨m, hm, h⟩ := runSteps_cons h
  obtain ⟨x_maintAsset, h_maintAsset, hs⟩ := step_fx (fun c : Cfg => c.maintAsset) (fun c v => { c with maintAsset := v }) (fun _ => rfl) hm
  try dsimp only at h_maintAsset hs
  subst hs
  obtain ⟨m, hm, h⟩ := runSteps_cons h
  obtain ⟨x_initAsset, h_initAsset, hs⟩ := step_zero' (fun c : Cfg => c.initAsset) (fun c v => { c with initAsset := v }) (fun _ => rfl) (fun v => v.gte (.num 0)) hm
  try dsimp only at h_initAsset hs
  subst hs
  obtain ⟨m, hm, h⟩ := runSteps_cons h
  obtain ⟨x_maintLiab, h_maintLiab, hs⟩ := step_fx (fun c : Cfg => c.maintLiab) (fun c v => { c with maintLiab := v }) (fun _ => rfl) hm
  try dsimp only at h_maintLiab hs
  subst hs
  obtain ⟨m, hm, h⟩ := runSteps_cons h
  obtain ⟨x_initLiab, h_initLiab, hs⟩ := step_fx (fun c : Cfg => c.initLiab) (fun c v => { c with initLiab := v }) (fun _ => rfl) hm
  try dsimp only at h_initLiab hs
  subst hs
  obtain ⟨m, hm, h⟩ := runSteps_cons h
  obtain ⟨x_liqFee, h_liqFee, hs⟩ := step_fx (fun c : Cfg => c.liqFee) (fun c v => { c with liqFee := v }) (fun _ => rfl) hm
  try dsimp only at h_liqFee hs
  subst hs
  obtain ⟨m, hm, h⟩ := runSteps_cons h
  obtain ⟨x_delayInterval, h_delayInterval, hs⟩ := step_set (fun c : Cfg => c.delayInterval) (fun c v => { c with delayInterval := v }) (fun _ => rfl) hm
  try dsimp only at h_delayInterval hs
  subst hs
  obtain ⟨m, hm, h⟩ := runSteps_cons h
  obtain ⟨x_delayGrowth, h_delayGrowth, hs⟩ := step_set (fun c : Cfg => c.delayGrowth) (fun c v => { c with delayGrowth := v }) (fun _ => rfl) hm
  try dsimp only at h_delayGrowth hs
  subst hs
  obtain ⟨m, hm, h⟩ := runSteps_cons h
  obtain ⟨x_stableGrowth, h_stableGrowth, hs⟩ := step_set (fun c : Cfg => c.stableGrowth) (fun c v => { c with stableGrowth := v }) (fun _ => rfl) hm
  try dsimp only at h_stableGrowth hs
  subst hs
  obtain ⟨m, hm, h⟩ := runSteps_cons h
  obtain ⟨x_minVault, h_minVault, hs⟩ := step_set (fun c : Cfg => c.minVault) (fun c v => { c with minVault := v }) (fun _ => rfl) hm
  try dsimp only at h_minVault hs
  subst hs
  obtain ⟨m, hm, h⟩ := runSteps_cons h
  obtain ⟨x_netBorrowLimit, h_netBorrowLimit, hs⟩ := step_set (fun c : Cfg => c.netBorrowLimit) (fun c v => { c with netBorrowLimit := v }) (fun _ => rfl) hm
  try dsimp only at h_netBorrowLimit hs
  subst hs
  obtain ⟨m, hm, h⟩ := runSteps_cons h
  obtain ⟨x_netBorrowWindow, h_netBorrowWindow, hs⟩ := step_set (fun c : Cfg => c.netBorrowWindow) (fun c v => { c with netBorrowWindow := v }) (fun _ => rfl) hm
  try dsimp only at h_netBorrowWindow hs
  subst hs
  obtain ⟨m, hm, h⟩ := runSteps_cons h
  have hs := step_nop hm
  try dsimp only at hs
  subst hs
  obtain ⟨m, hm, h⟩ := runSteps_cons h
  obtain ⟨x_borrowScale, h_borrowScale, hs⟩ := step_set (fun c : Cfg => c.borrowScale) (fun c v => { c with borrowScale := v }) (fun _ => rfl) hm
  try dsimp only at h_borrowScale hs
  subst hs
  obtain ⟨m, hm, h⟩ := runSteps_cons h
  obtain ⟨x_depositScale, h_depositScale, hs⟩ := step_set (fun c : Cfg => c.depositScale) (fun c v => { c with depositScale := v }) (fun _ => rfl) hm
  try dsimp only at h_depositScale hs
  subst hs
  obtain ⟨m, hm, h⟩ := runSteps_cons h
  obtain ⟨x_ro, h_ro, hs⟩ := step_ro hm
  try dsimp only at h_ro hs
  subst hs
  obtain ⟨m, hm, h⟩ := runSteps_cons h
  obtain ⟨x_name, h_name, hs⟩ := step_set (fun c : Cfg => c.name) (fun c v => { c with name := v }) (fun _ => rfl) hm
  try dsimp only at h_name hs
  subst hs
  obtain ⟨m, hm, h⟩ := runSteps_cons h
  obtain ⟨x_tier, h_tier, hs⟩ := step_set (fun c : Cfg => c.tier) (fun c v => { c with tier := v }) (fun _ => rfl) hm
  try dsimp only at h_tier hs
  subst hs
  obtain ⟨m, hm, h⟩ := runSteps_cons h
  obtain ⟨x_fc, h_fc, h_fc', hs⟩ := step_fc hm
  try dsimp only at h_fc h_fc' hs
  subst hs
  obtain ⟨m, hm, h⟩ := runSteps_cons h
  obtain ⟨x_tcsTaker, h_tcsTaker, hs⟩ := step_chk (fun c : Cfg => c.tcsTaker) (fun c v => { c with tcsTaker := v }) (fun _ => rfl) (fun v => v.gte (.num 0)) hm
  try dsimp only at h_tcsTaker hs
  subst hs
  obtain ⟨m, hm, h⟩ := runSteps_cons h
  obtain ⟨x_tcsMaker, h_tcsMaker, hs⟩ := step_chk (fun c : Cfg => c.tcsMaker) (fun c v => { c with tcsMaker := v }) (fun _ => rfl) (fun v => v.gte (.num 0)) hm
  try dsimp only at h_tcsMaker hs
  subst hs
  obtain ⟨m, hm, h⟩ := runSteps_cons h
  obtain ⟨x_flashFee, h_flashFee, hs⟩ := step_chk (fun c : Cfg => c.flashFee) (fun c v => { c with flashFee := v }) (fun _ => rfl) (fun v => v.gte (.num 0)) hm
  try dsimp only at h_flashFee hs
  subst hs
  obtain ⟨m, hm, h⟩ := runSteps_cons h
  obtain ⟨x_curveScaling, h_curveScaling, hs⟩ := step_chk (fun c : Cfg => c.curveScaling) (fun c v => { c with curveScaling := v }) (fun _ => rfl) (fun v => v.gte (.num 1)) hm
  try dsimp only at h_curveScaling hs
  subst hs
  obtain ⟨m, hm, h⟩ := runSteps_cons h
  obtain ⟨x_targetUtil, h_targetUtil, hs⟩ := step_chk (fun c : Cfg => c.targetUtil) (fun c v => { c with targetUtil := v }) (fun _ => rfl) (fun v => v.gte (.num 0)) hm
  try dsimp only at h_targetUtil hs
  subst hs
  obtain ⟨m, hm, h⟩ := runSteps_cons h
  obtain ⟨x_w, h_w, hs⟩ := step_abort hm
  try dsimp only at h_w hs
  subst hs
  obtain ⟨m, hm, h⟩ := runSteps_cons h
  obtain ⟨x_shiftStart, h_shiftStart, hs⟩ := step_set (fun c : Cfg => c.shiftStart) (fun c v => { c with shiftStart := v }) (fun _ => rfl) hm
  try dsimp only at h_shiftStart hs
  subst hs
  obtain ⟨m, hm, h⟩ := runSteps_cons h
  obtain ⟨x_shiftEnd, h_shiftEnd, hs⟩ := step_set (fun c : Cfg => c.shiftEnd) (fun c v => { c with shiftEnd := v }) (fun _ => rfl) hm
  try dsimp only at h_shiftEnd hs
  subst hs
  obtain ⟨m, hm, h⟩ := runSteps_cons h
  obtain ⟨x_shiftAsset, h_shiftAsset, hs⟩ := step_fx (fun c : Cfg => c.shiftAsset) (fun c v => { c with shiftAsset := v }) (fun _ => rfl) hm
  try dsimp only at h_shiftAsset hs
  subst hs
  obtain ⟨m, hm, h⟩ := runSteps_cons h
  obtain ⟨x_shiftLiab, h_shiftLiab, hs⟩ := step_fx (fun c : Cfg => c.shiftLiab) (fun c v => { c with shiftLiab := v }) (fun _ => rfl) hm
  try dsimp only at h_shiftLiab hs
  subst hs
  obtain ⟨m, hm, h⟩ := runSteps_cons h
  obtain ⟨x_inv, h_inv, hs⟩ := step_inv hm
  try dsimp only at h_inv hs
  subst hs
  obtain ⟨m, hm, h⟩ := runSteps_cons h
  obtain ⟨x_depositLimit, h_depositLimit, hs⟩ := step_set (fun c : Cfg => c.depositLimit) (fun c v => { c with depositLimit := v }) (fun _ => rfl) hm
  try dsimp only at h_depositLimit hs
  subst hs
  obtain ⟨m, hm, h⟩ := runSteps_cons h
  obtain ⟨x_zeroUtil, h_zeroUtil, hs⟩ := step_fx (fun c : Cfg => c.zeroUtil) (fun c v => { c with zeroUtil := v }) (fun _ => rfl) hm
  try dsimp only at h_zeroUtil hs
  subst hs
  obtain ⟨m, hm, h⟩ := runSteps_cons h
  obtain ⟨x_platformFee, h_platformFee, hs⟩ := step_zero (fun c : Cfg => c.platformFee) (fun c v => { c with platformFee := v }) (fun _ => rfl) hm
  try dsimp only at h_platformFee hs
  subst hs
  obtain ⟨m, hm, h⟩ := runSteps_cons h
  obtain ⟨x_collateralFee, h_collateralFee, hs⟩ := step_zeroF (fun c : Cfg => c.collateralFee) (fun c v => { c with collateralFee := v }) (fun _ => rfl) hm
  try dsimp only at h_collateralFee hs
  subst hs
  obtain ⟨m, hm, h⟩ := runSteps_cons h
  obtain ⟨x_disableAssetLiq, h_disableAssetLiq, hs⟩ := step_set (fun c : Cfg => c.disableAssetLiq) (fun c v => { c with disableAssetLiq := v }) (fun _ => rfl) hm
  try dsimp only at h_disableAssetLiq hs
  subst hs
  obtain ⟨m, hm, h⟩ := runSteps_cons h
  obtain ⟨x_forceWithdraw, h_forceWithdraw, hs⟩ := step_set (fun c : Cfg => c.forceWithdraw) (fun c v => { c with forceWithdraw := v }) (fun _ => rfl) hm
  try dsimp only at h_forceWithdraw hs
  subst hs
  simp only [runSteps] at h
  cases h
  constructor
  · constructor
    case maint =>
      refine ⟨x_maintAsset, x_maintLiab, h_maintAsset, h_maintLiab, ?_⟩
      cases hb : e.shiftAbort
      · rw [hb] at h_w
        simp only [Bool.false_eq_true, if_false] at h_w ⊢
        subst h_w
        exact ⟨rfl, rfl⟩
      · rw [hb] at h_w
        simp only [if_true] at h_w ⊢
        exact h_w
    case shiftInv =>
      by_cases hb : (e.shiftStart.isSome ∨ e.shiftEnd.isSome)
      · rw [if_pos hb]
        have hb' : (e.shiftStart.isSome || e.shiftEnd.isSome) = true := by simpa using hb
        rw [hb', if_pos rfl] at h_inv
        exact h_inv
      · rw [if_neg hb]
        have hb' : (e.shiftStart.isSome || e.shiftEnd.isSome) = false := by simpa using hb
        rw [hb'] at h_inv
        simp only [Bool.false_eq_true, if_false] at h_inv
        exact h_inv
    case forceClose => exact ⟨h_fc, h_fc'⟩
    all_goals first | assumption | rfl
  · simp only [flag_isSome, needsAdmin, Bool.or_assoc]

end Config
end Mango
