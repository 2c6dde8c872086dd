import Verif.Props.Config
/-!
# C66 for perp and spot markets

Their edits check almost nothing, but the security admin is just as restricted.
-/
namespace Mango
namespace Config
open Fx

/-- what an edit does to a perp market -/
structure PerpEdited (e : PerpEdit) (c c' : PerpCfg) : Prop where
  confFilter : Num (e.oracleConfig.map Prod.fst) c.confFilter c'.confFilter
  maxStaleness : c'.maxStaleness = staleness e.oracleConfig c.maxStaleness
  oracle : c'.oracle = e.oracle.getD c.oracle
  maintBaseAsset : Num e.maintBaseAsset c.maintBaseAsset c'.maintBaseAsset
  initBaseAsset : Num e.initBaseAsset c.initBaseAsset c'.initBaseAsset
  maintBaseLiab : Num e.maintBaseLiab c.maintBaseLiab c'.maintBaseLiab
  initBaseLiab : Num e.initBaseLiab c.initBaseLiab c'.initBaseLiab
  maintOverall : Num e.maintOverall c.maintOverall c'.maintOverall
  initOverall : Num e.initOverall c.initOverall c'.initOverall
  baseLiqFee : Num e.baseLiqFee c.baseLiqFee c'.baseLiqFee
  makerFee : Num e.makerFee c.makerFee c'.makerFee
  takerFee : Num e.takerFee c.takerFee c'.takerFee
  minFunding : Num e.minFunding c.minFunding c'.minFunding
  maxFunding : Num e.maxFunding c.maxFunding c'.maxFunding
  impactQuantity : c'.impactQuantity = e.impactQuantity.getD c.impactQuantity
  feePenalty : c'.feePenalty = e.feePenalty.getD c.feePenalty
  baseDecimals : c'.baseDecimals = e.baseDecimals.getD c.baseDecimals
  insurance : c'.insurance = e.insurance.getD c.insurance
  settleFeeFlat : c'.settleFeeFlat = e.settleFeeFlat.getD c.settleFeeFlat
  settleFeeThreshold : c'.settleFeeThreshold = e.settleFeeThreshold.getD c.settleFeeThreshold
  settleFeeFraction : c'.settleFeeFraction = e.settleFeeFraction.getD c.settleFeeFraction
  delayInterval : c'.delayInterval = e.delayInterval.getD c.delayInterval
  delayGrowth : c'.delayGrowth = e.delayGrowth.getD c.delayGrowth
  stableGrowth : c'.stableGrowth = e.stableGrowth.getD c.stableGrowth
  settleLimitFactor : c'.settleLimitFactor = e.settleLimitFactor.getD c.settleLimitFactor
  settleLimitWindow : c'.settleLimitWindow = e.settleLimitWindow.getD c.settleLimitWindow
  reduceOnly : c'.reduceOnly = e.reduceOnly.getD c.reduceOnly
  positivePnlFee : Num e.positivePnlFee c.positivePnlFee c'.positivePnlFee
  name : c'.name = e.name.getD c.name
  forceClose : c'.forceClose = e.forceClose.getD c.forceClose ∧ (e.forceClose = some true → c'.reduceOnly = true)
  platformFee : Num e.platformFee c.platformFee c'.platformFee
  /-- the only value that is checked -/
  checked : ∀ v, e.initBaseAsset = some v → v.AtLeast 0

/-- edits of a perp market that can only make it safer: reduce-only on, overall initial asset weight to zero -/
structure PerpProtective (e : PerpEdit) : Prop where
  oracleConfig : e.oracleConfig = none
  oracle : e.oracle = none
  maintBaseAsset : e.maintBaseAsset = none
  initBaseAsset : e.initBaseAsset = none
  maintBaseLiab : e.maintBaseLiab = none
  initBaseLiab : e.initBaseLiab = none
  maintOverall : e.maintOverall = none
  baseLiqFee : e.baseLiqFee = none
  makerFee : e.makerFee = none
  takerFee : e.takerFee = none
  minFunding : e.minFunding = none
  maxFunding : e.maxFunding = none
  impactQuantity : e.impactQuantity = none
  feePenalty : e.feePenalty = none
  baseDecimals : e.baseDecimals = none
  insurance : e.insurance = none
  settleFeeFlat : e.settleFeeFlat = none
  settleFeeThreshold : e.settleFeeThreshold = none
  settleFeeFraction : e.settleFeeFraction = none
  delayInterval : e.delayInterval = none
  delayGrowth : e.delayGrowth = none
  stableGrowth : e.stableGrowth = none
  settleLimitFactor : e.settleLimitFactor = none
  settleLimitWindow : e.settleLimitWindow = none
  positivePnlFee : e.positivePnlFee = none
  name : e.name = none
  platformFee : e.platformFee = none
  forceClose : e.forceClose = none
  resetStablePrice : e.resetStablePrice = false
  initOverall : ∀ v, e.initOverall = some v → v = .num 0
  reduceOnly : e.reduceOnly ≠ some false

/-- what an edit does to a spot market -/
structure SpotEdited (e : SpotEdit) (c c' : SpotCfg) : Prop where
  reduceOnly : c'.reduceOnly = e.reduceOnly.getD c.reduceOnly
  forceClose : c'.forceClose = e.forceClose.getD c.forceClose ∧ (e.forceClose = some true → c'.reduceOnly = true)
  name : c'.name = e.name.getD c.name
  band : c'.band = e.band.getD c.band

theorem step_fxc {C : Type} {o : Option Flt} {c : C} {a : Bool} {s : C × Bool} (get : C → I80F48) (upd : C → I80F48 → C) (hid : ∀ c, upd c (get c) = c)
    (h : change o always (fun c v => do
      v.gte (.num 0)
      let x ← v.toFx
      .ok (upd c x)) (c, a) = .ok s) : ∃ x : I80F48, Num o (get c) x ∧ (∀ v, o = some v → v.AtLeast 0) ∧ s = (upd c x, a || o.isSome) := by
  obtain ⟨c', a'⟩ := s
  rcases change_ok h with ⟨rfl, rfl, rfl⟩ | ⟨v, rfl, hv, rfl⟩
  · exact ⟨_, rfl, by simp, by simp [hid]⟩
  · simp only [bind_ok] at hv
    obtain ⟨_, hg, x, hx, hv⟩ := hv
    cases hv
    refine ⟨x, hx, ?_, rfl⟩
    intro w hw
    cases hw
    exact atLeast_iff.mp (gte_ok.mp hg)

theorem step_off {C : Type} {o : Option Bool} {c : C} {a : Bool} {s : C × Bool} (get : C → Bool) (upd : C → Bool → C) (hid : ∀ c, upd c (get c) = c)
    (h : change o (fun _ v => !v) (fun c v => .ok (upd c v)) (c, a) = .ok s) : ∃ x : Bool, x = o.getD (get c) ∧ s = (upd c x, a || o.any (fun v => !v)) := by
  obtain ⟨c', a'⟩ := s
  rcases change_ok h with ⟨rfl, rfl, rfl⟩ | ⟨v, rfl, hv, rfl⟩
  · exact ⟨_, rfl, by simp [hid]⟩
  · cases hv
    exact ⟨v, rfl, rfl⟩

theorem step_force {C : Type} {o : Option Bool} {c : C} {a : Bool} {s : C × Bool} (get : C → Bool) (upd : C → Bool → C) (ro : C → Bool) (hid : ∀ c, upd c (get c) = c)
    (h : change o always (fun c v => do
      (if v then require (ro c = true) .someError else .ok ())
      .ok (upd c v)) (c, a) = .ok s) : ∃ x : Bool, x = o.getD (get c) ∧ (o = some true → ro c = true) ∧ s = (upd c x, a || o.isSome) := by
  obtain ⟨c', a'⟩ := s
  rcases change_ok h with ⟨rfl, rfl, rfl⟩ | ⟨v, rfl, hv, rfl⟩
  · exact ⟨_, rfl, by simp, by simp [hid]⟩
  · simp only [bind_ok] at hv
    obtain ⟨_, h1, hv⟩ := hv
    cases hv
    refine ⟨v, rfl, fun hv => ?_, rfl⟩
    cases hv
    simpa [require_ok] using h1

/-- who must sign, by the parameters -/
def perpNeedsAdmin (e : PerpEdit) : Bool :=
  e.oracleConfig.isSome || e.oracle.isSome || e.resetStablePrice || e.maintBaseAsset.isSome || e.initBaseAsset.isSome || e.maintBaseLiab.isSome || e.initBaseLiab.isSome || e.maintOverall.isSome || e.initOverall.any Flt.nonZero || e.baseLiqFee.isSome || e.makerFee.isSome || e.takerFee.isSome || e.minFunding.isSome || e.maxFunding.isSome || e.impactQuantity.isSome || e.feePenalty.isSome || e.baseDecimals.isSome || e.insurance.isSome || e.settleFeeFlat.isSome || e.settleFeeThreshold.isSome || e.settleFeeFraction.isSome || e.delayInterval.isSome || e.delayGrowth.isSome || e.stableGrowth.isSome || e.settleLimitFactor.isSome || e.settleLimitWindow.isSome || e.reduceOnly.any (fun v => !v) || e.positivePnlFee.isSome || e.name.isSome || e.forceClose.isSome || e.platformFee.isSome

theorem perpSteps_ok {env : Env} {e : PerpEdit} {c c' : PerpCfg} {a a' : Bool} (h : runSteps (perpSteps env e) (c, a) = .ok (c', a')) :
    PerpEdited e c c' ∧ a' = (a || perpNeedsAdmin e) := by
  unfold perpSteps at h
  try dsimp only at h
  obtain ⟨c_oracle, c_confFilter, c_maxStaleness, c_baseDecimals, c_maintBaseAsset, c_initBaseAsset, c_maintBaseLiab, c_initBaseLiab, c_maintOverall, c_initOverall, c_baseLiqFee, c_makerFee, c_takerFee, c_minFunding, c_maxFunding, c_impactQuantity, c_insurance, c_feePenalty, c_settleFeeFlat, c_settleFeeThreshold, c_settleFeeFraction, c_delayInterval, c_delayGrowth, c_stableGrowth, c_settleLimitFactor, c_settleLimitWindow, c_reduceOnly, c_positivePnlFee, c_name, c_forceClose, c_platformFee⟩ := c
  obtain ⟨m, hm, h⟩ := runSteps_cons h
  obtain ⟨x_conf, x_stale, h_conf, h_stale, hs⟩ := step_conf (fun c : PerpCfg => c.confFilter) (fun c => c.maxStaleness) (fun c x y => { c with confFilter := x, maxStaleness := y }) (fun _ => rfl) hm
  try dsimp only at h_conf h_stale hs
  subst hs
  obtain ⟨m, hm, h⟩ := runSteps_cons h
  obtain ⟨x_oracle, h_oracle, hs⟩ := step_set (fun c : PerpCfg => c.oracle) (fun c v => { c with oracle := v }) (fun _ => rfl) hm
  try dsimp only at h_oracle hs
  subst hs
  obtain ⟨m, hm, h⟩ := runSteps_cons h
  have hs := step_reset (fun c : PerpCfg => c.oracle = env.oracleKey) (fun _ => env.oraclePriceOk = true) .requireFailed .oracleStale hm
  try dsimp only at hs
  subst hs
  obtain ⟨m, hm, h⟩ := runSteps_cons h
  obtain ⟨x_maintBaseAsset, h_maintBaseAsset, hs⟩ := step_fx (fun c : PerpCfg => c.maintBaseAsset) (fun c v => { c with maintBaseAsset := v }) (fun _ => rfl) hm
  try dsimp only at h_maintBaseAsset hs
  subst hs
  obtain ⟨m, hm, h⟩ := runSteps_cons h
  obtain ⟨x_initBaseAsset, h_initBaseAsset, g_initBaseAsset, hs⟩ := step_fxc (fun c : PerpCfg => c.initBaseAsset) (fun c v => { c with initBaseAsset := v }) (fun _ => rfl) hm
  try dsimp only at h_initBaseAsset hs
  subst hs
  obtain ⟨m, hm, h⟩ := runSteps_cons h
  obtain ⟨x_maintBaseLiab, h_maintBaseLiab, hs⟩ := step_fx (fun c : PerpCfg => c.maintBaseLiab) (fun c v => { c with maintBaseLiab := v }) (fun _ => rfl) hm
  try dsimp only at h_maintBaseLiab hs
  subst hs
  obtain ⟨m, hm, h⟩ := runSteps_cons h
  obtain ⟨x_initBaseLiab, h_initBaseLiab, hs⟩ := step_fx (fun c : PerpCfg => c.initBaseLiab) (fun c v => { c with initBaseLiab := v }) (fun _ => rfl) hm
  try dsimp only at h_initBaseLiab hs
  subst hs
  obtain ⟨m, hm, h⟩ := runSteps_cons h
  obtain ⟨x_maintOverall, h_maintOverall, hs⟩ := step_fx (fun c : PerpCfg => c.maintOverall) (fun c v => { c with maintOverall := v }) (fun _ => rfl) hm
  try dsimp only at h_maintOverall hs
  subst hs
  obtain ⟨m, hm, h⟩ := runSteps_cons h
  obtain ⟨x_initOverall, h_initOverall, hs⟩ := step_zero (fun c : PerpCfg => c.initOverall) (fun c v => { c with initOverall := v }) (fun _ => rfl) hm
  try dsimp only at h_initOverall hs
  subst hs
  obtain ⟨m, hm, h⟩ := runSteps_cons h
  obtain ⟨x_baseLiqFee, h_baseLiqFee, hs⟩ := step_fx (fun c : PerpCfg => c.baseLiqFee) (fun c v => { c with baseLiqFee := v }) (fun _ => rfl) hm
  try dsimp only at h_baseLiqFee hs
  subst hs
  obtain ⟨m, hm, h⟩ := runSteps_cons h
  obtain ⟨x_makerFee, h_makerFee, hs⟩ := step_fx (fun c : PerpCfg => c.makerFee) (fun c v => { c with makerFee := v }) (fun _ => rfl) hm
  try dsimp only at h_makerFee hs
  subst hs
  obtain ⟨m, hm, h⟩ := runSteps_cons h
  obtain ⟨x_takerFee, h_takerFee, hs⟩ := step_fx (fun c : PerpCfg => c.takerFee) (fun c v => { c with takerFee := v }) (fun _ => rfl) hm
  try dsimp only at h_takerFee hs
  subst hs
  obtain ⟨m, hm, h⟩ := runSteps_cons h
  obtain ⟨x_minFunding, h_minFunding, hs⟩ := step_fx (fun c : PerpCfg => c.minFunding) (fun c v => { c with minFunding := v }) (fun _ => rfl) hm
  try dsimp only at h_minFunding hs
  subst hs
  obtain ⟨m, hm, h⟩ := runSteps_cons h
  obtain ⟨x_maxFunding, h_maxFunding, hs⟩ := step_fx (fun c : PerpCfg => c.maxFunding) (fun c v => { c with maxFunding := v }) (fun _ => rfl) hm
  try dsimp only at h_maxFunding hs
  subst hs
  obtain ⟨m, hm, h⟩ := runSteps_cons h
  obtain ⟨x_impactQuantity, h_impactQuantity, hs⟩ := step_set (fun c : PerpCfg => c.impactQuantity) (fun c v => { c with impactQuantity := v }) (fun _ => rfl) hm
  try dsimp only at h_impactQuantity hs
  subst hs
  obtain ⟨m, hm, h⟩ := runSteps_cons h
  obtain ⟨x_feePenalty, h_feePenalty, hs⟩ := step_set (fun c : PerpCfg => c.feePenalty) (fun c v => { c with feePenalty := v }) (fun _ => rfl) hm
  try dsimp only at h_feePenalty hs
  subst hs
  obtain ⟨m, hm, h⟩ := runSteps_cons h
  obtain ⟨x_baseDecimals, h_baseDecimals, hs⟩ := step_set (fun c : PerpCfg => c.baseDecimals) (fun c v => { c with baseDecimals := v }) (fun _ => rfl) hm
  try dsimp only at h_baseDecimals hs
  subst hs
  obtain ⟨m, hm, h⟩ := runSteps_cons h
  obtain ⟨x_insurance, h_insurance, hs⟩ := step_set (fun c : PerpCfg => c.insurance) (fun c v => { c with insurance := v }) (fun _ => rfl) hm
  try dsimp only at h_insurance hs
  subst hs
  obtain ⟨m, hm, h⟩ := runSteps_cons h
  obtain ⟨x_settleFeeFlat, h_settleFeeFlat, hs⟩ := step_set (fun c : PerpCfg => c.settleFeeFlat) (fun c v => { c with settleFeeFlat := v }) (fun _ => rfl) hm
  try dsimp only at h_settleFeeFlat hs
  subst hs
  obtain ⟨m, hm, h⟩ := runSteps_cons h
  obtain ⟨x_settleFeeThreshold, h_settleFeeThreshold, hs⟩ := step_set (fun c : PerpCfg => c.settleFeeThreshold) (fun c v => { c with settleFeeThreshold := v }) (fun _ => rfl) hm
  try dsimp only at h_settleFeeThreshold hs
  subst hs
  obtain ⟨m, hm, h⟩ := runSteps_cons h
  obtain ⟨x_settleFeeFraction, h_settleFeeFraction, hs⟩ := step_set (fun c : PerpCfg => c.settleFeeFraction) (fun c v => { c with settleFeeFraction := v }) (fun _ => rfl) hm
  try dsimp only at h_settleFeeFraction hs
  subst hs
  obtain ⟨m, hm, h⟩ := runSteps_cons h
  obtain ⟨x_delayInterval, h_delayInterval, hs⟩ := step_set (fun c : PerpCfg => c.delayInterval) (fun c v => { c with delayInterval := v }) (fun _ => rfl) hm
  try dsimp only at h_delayInterval hs
  subst hs
  obtain ⟨m, hm, h⟩ := runSteps_cons h
  obtain ⟨x_delayGrowth, h_delayGrowth, hs⟩ := step_set (fun c : PerpCfg => c.delayGrowth) (fun c v => { c with delayGrowth := v }) (fun _ => rfl) hm
  try dsimp only at h_delayGrowth hs
  subst hs
  obtain ⟨m, hm, h⟩ := runSteps_cons h
  obtain ⟨x_stableGrowth, h_stableGrowth, hs⟩ := step_set (fun c : PerpCfg => c.stableGrowth) (fun c v => { c with stableGrowth := v }) (fun _ => rfl) hm
  try dsimp only at h_stableGrowth hs
  subst hs
  obtain ⟨m, hm, h⟩ := runSteps_cons h
  obtain ⟨x_settleLimitFactor, h_settleLimitFactor, hs⟩ := step_set (fun c : PerpCfg => c.settleLimitFactor) (fun c v => { c with settleLimitFactor := v }) (fun _ => rfl) hm
  try dsimp only at h_settleLimitFactor hs
  subst hs
  obtain ⟨m, hm, h⟩ := runSteps_cons h
  obtain ⟨x_settleLimitWindow, h_settleLimitWindow, hs⟩ := step_set (fun c : PerpCfg => c.settleLimitWindow) (fun c v => { c with settleLimitWindow := v }) (fun _ => rfl) hm
  try dsimp only at h_settleLimitWindow hs
  subst hs
  obtain ⟨m, hm, h⟩ := runSteps_cons h
  obtain ⟨x_ro, h_ro, hs⟩ := step_off (fun c : PerpCfg => c.reduceOnly) (fun c v => { c with reduceOnly := v }) (fun _ => rfl) hm
  try dsimp only at h_ro hs
  subst hs
  obtain ⟨m, hm, h⟩ := runSteps_cons h
  obtain ⟨x_positivePnlFee, h_positivePnlFee, hs⟩ := step_fx (fun c : PerpCfg => c.positivePnlFee) (fun c v => { c with positivePnlFee := v }) (fun _ => rfl) hm
  try dsimp only at h_positivePnlFee hs
  subst hs
  obtain ⟨m, hm, h⟩ := runSteps_cons h
  obtain ⟨x_name, h_name, hs⟩ := step_set (fun c : PerpCfg => c.name) (fun c v => { c with name := v }) (fun _ => rfl) hm
  try dsimp only at h_name hs
  subst hs
  obtain ⟨m, hm, h⟩ := runSteps_cons h
  obtain ⟨x_fc, h_fc, h_fc', hs⟩ := step_force (fun c : PerpCfg => c.forceClose) (fun c v => { c with forceClose := v }) (fun c => c.reduceOnly) (fun _ => rfl) hm
  try dsimp only at h_fc hs
  subst hs
  obtain ⟨m, hm, h⟩ := runSteps_cons h
  obtain ⟨x_platformFee, h_platformFee, hs⟩ := step_fx (fun c : PerpCfg => c.platformFee) (fun c v => { c with platformFee := v }) (fun _ => rfl) hm
  try dsimp only at h_platformFee hs
  subst hs
  simp only [runSteps] at h
  cases h
  constructor
  · constructor
    case forceClose => exact ⟨h_fc, h_fc'⟩
    all_goals first | assumption | rfl
  · simp only [perpNeedsAdmin, Bool.or_assoc]

theorem perpNeedsAdmin_ok {e : PerpEdit} (h : perpNeedsAdmin e = false) : PerpProtective e := by
  unfold perpNeedsAdmin at h
  simp only [Bool.or_eq_false_iff, any_false, Option.isSome_eq_false_iff, Option.isNone_iff_eq_none, and_assoc] at h
  obtain ⟨h0, h1, h2, h3, h4, h5, h6, h7, h8, h9, h10, h11, h12, h13, h14, h15, h16, h17, h18, h19, h20, h21, h22, h23, h24, h25, h26, h27, h28, h29, h30⟩ := h
  constructor
  case initOverall => 
    intro v hv
    simpa [Flt.nonZero] using h8 v hv
  case reduceOnly =>
    intro hr
    have := h26 _ hr
    simp at this
  all_goals assumption


/-- **C66, perp markets.** An edit does exactly what was requested; the group admin signed it, or the security admin did and then the market changes at most by becoming reduce-only and by its overall initial
asset weight (the weight of positive pnl) becoming zero. -/
theorem C66_perp {env : Env} {c c' : PerpCfg} {e : PerpEdit} (h : perpEdit env c e = .ok c') :
    PerpEdited e c c' ∧
    (env.signer = env.admin ∨
      (env.signer = env.security ∧ c' = { c with initOverall := c'.initOverall, reduceOnly := c'.reduceOnly } ∧ (c'.initOverall = c.initOverall ∨ c'.initOverall = 0) ∧
        (c.reduceOnly = true → c'.reduceOnly = true))) := by
  unfold perpEdit at h
  simp only [bind_ok] at h
  obtain ⟨⟨c1, a⟩, h1, _, h2, h3⟩ := h
  obtain rfl := ok_inj.mp h3
  obtain ⟨g, rfl⟩ := perpSteps_ok h1
  refine ⟨g, ?_⟩
  rcases authorized_ok h2 with h2 | ⟨h2, h4⟩
  · exact Or.inl h2
  refine Or.inr ⟨h2, ?_⟩
  rw [Bool.false_or] at h4
  have P := perpNeedsAdmin_ok h4
  have num : ∀ {o : Option Flt} {x y : I80F48}, o = none → Num o x y → y = x := by
    intro o x y h1 h2
    rw [h1] at h2
    exact h2
  have set : ∀ {α : Type} {o : Option α} {x y : α}, o = none → y = o.getD x → y = x := by
    intro α o x y h1 h2
    rw [h1] at h2
    exact h2
  refine ⟨?_, ?_, ?_⟩
  · have f1 := num (by rw [P.oracleConfig]; rfl) g.confFilter
    have f2 := g.maxStaleness
    rw [P.oracleConfig] at f2
    simp only [staleness] at f2
    have f3 := set P.oracle g.oracle
    have f4 := num P.maintBaseAsset g.maintBaseAsset
    have f5 := num P.initBaseAsset g.initBaseAsset
    have f6 := num P.maintBaseLiab g.maintBaseLiab
    have f7 := num P.initBaseLiab g.initBaseLiab
    have f8 := num P.maintOverall g.maintOverall
    have f9 := num P.baseLiqFee g.baseLiqFee
    have f10 := num P.makerFee g.makerFee
    have f11 := num P.takerFee g.takerFee
    have f12 := num P.minFunding g.minFunding
    have f13 := num P.maxFunding g.maxFunding
    have f14 := set P.impactQuantity g.impactQuantity
    have f15 := set P.feePenalty g.feePenalty
    have f16 := set P.baseDecimals g.baseDecimals
    have f17 := set P.insurance g.insurance
    have f18 := set P.settleFeeFlat g.settleFeeFlat
    have f19 := set P.settleFeeThreshold g.settleFeeThreshold
    have f20 := set P.settleFeeFraction g.settleFeeFraction
    have f21 := set P.delayInterval g.delayInterval
    have f22 := set P.delayGrowth g.delayGrowth
    have f23 := set P.stableGrowth g.stableGrowth
    have f24 := set P.settleLimitFactor g.settleLimitFactor
    have f25 := set P.settleLimitWindow g.settleLimitWindow
    have f26 := num P.positivePnlFee g.positivePnlFee
    have f27 := set P.name g.name
    have f28 := set P.forceClose g.forceClose.1
    have f29 := num P.platformFee g.platformFee
    clear g P h1 h4
    cases c
    cases c1
    dsimp only at *
    subst_vars
    rfl
  · have g := g.initOverall
    cases ho : e.initOverall with
    | none => rw [ho] at g; exact Or.inl g
    | some v =>
      rw [ho, P.initOverall v ho] at g
      right
      have h3 : Swap.toFx 0 = .ok 0 := by decide +kernel
      exact ok_inj.mp ((show Swap.toFx 0 = .ok c1.initOverall from g).symm.trans h3)
  · intro hr
    have g := g.reduceOnly
    cases ho : e.reduceOnly with
    | none => rw [ho] at g; exact g.trans hr
    | some v =>
      rw [ho] at g
      cases v
      · exact absurd ho P.reduceOnly
      · exact g

theorem spotSteps_ok {e : SpotEdit} {c c' : SpotCfg} {a a' : Bool} (h : runSteps (spotSteps e) (c, a) = .ok (c', a')) :
    SpotEdited e c c' ∧ a' = (a || e.reduceOnly.any (fun v => !v) || e.forceClose.isSome || e.name.isSome || e.band.isSome) := by
  unfold spotSteps at h
  obtain ⟨m, hm, h⟩ := runSteps_cons h
  obtain ⟨x_ro, h_ro, rfl⟩ := step_off (fun c : SpotCfg => c.reduceOnly) (fun c v => { c with reduceOnly := v }) (fun _ => rfl) hm
  obtain ⟨m, hm, h⟩ := runSteps_cons h
  obtain ⟨x_fc, h_fc, h_fc', rfl⟩ := step_force (fun c : SpotCfg => c.forceClose) (fun c v => { c with forceClose := v }) (fun c => c.reduceOnly) (fun _ => rfl) hm
  obtain ⟨m, hm, h⟩ := runSteps_cons h
  obtain ⟨x_n, h_n, rfl⟩ := step_set (fun c : SpotCfg => c.name) (fun c v => { c with name := v }) (fun _ => rfl) hm
  obtain ⟨m, hm, h⟩ := runSteps_cons h
  obtain ⟨x_b, h_b, rfl⟩ := step_set (fun c : SpotCfg => c.band) (fun c v => { c with band := v }) (fun _ => rfl) hm
  simp only [runSteps] at h
  cases h
  exact ⟨⟨h_ro, ⟨h_fc, h_fc'⟩, h_n, h_b⟩, rfl⟩

/-- **C66, spot markets.** An edit does exactly what was requested; the group admin signed it, or the security admin did and then the market changes at most by becoming reduce-only. -/
theorem C66_spot {env : Env} {c c' : SpotCfg} {e : SpotEdit} (h : spotEdit env c e = .ok c') :
    SpotEdited e c c' ∧
    (env.signer = env.admin ∨ (env.signer = env.security ∧ c' = { c with reduceOnly := c'.reduceOnly } ∧ (c.reduceOnly = true → c'.reduceOnly = true))) := by
  unfold spotEdit at h
  simp only [bind_ok] at h
  obtain ⟨⟨c1, a⟩, h1, _, h2, h3⟩ := h
  obtain rfl := ok_inj.mp h3
  obtain ⟨g, rfl⟩ := spotSteps_ok h1
  refine ⟨g, ?_⟩
  rcases authorized_ok h2 with h2 | ⟨h2, h4⟩
  · exact Or.inl h2
  refine Or.inr ⟨h2, ?_⟩
  simp only [Bool.false_or, Bool.or_eq_false_iff, any_false, Option.isSome_eq_false_iff, Option.isNone_iff_eq_none] at h4
  obtain ⟨⟨⟨h5, h6⟩, h7⟩, h8⟩ := h4
  refine ⟨?_, ?_⟩
  · have f1 := g.forceClose.1
    have f2 := g.name
    have f3 := g.band
    rw [h6] at f1
    rw [h7] at f2
    rw [h8] at f3
    cases c1
    dsimp only [Option.getD_none] at *
    subst_vars
    rfl
  · intro hr
    have g := g.reduceOnly
    cases ho : e.reduceOnly with
    | none => rw [ho] at g; exact g.trans hr
    | some v =>
      rw [ho] at g
      have := h5 v ho
      cases v
      · simp at this
      · exact g

/-! ## Cases -/

def exPerpCfg : PerpCfg where
  oracle := 7
  confFilter := S / 10
  maxStaleness := 100
  baseDecimals := 6
  maintBaseAsset := S / 10 * 9
  initBaseAsset := S / 10 * 8
  maintBaseLiab := S / 10 * 11
  initBaseLiab := S / 10 * 12
  maintOverall := S
  initOverall := S / 2
  baseLiqFee := S / 20
  makerFee := 0
  takerFee := S / 1000
  minFunding := -(S / 20)
  maxFunding := S / 20
  impactQuantity := 100
  insurance := true
  feePenalty := .num 0
  settleFeeFlat := .num 0
  settleFeeThreshold := .num 0
  settleFeeFraction := .num 0
  delayInterval := 3600
  delayGrowth := .num 0
  stableGrowth := .num 0
  settleLimitFactor := .num 1
  settleLimitWindow := 3600
  reduceOnly := false
  positivePnlFee := 0
  name := "P"
  forceClose := false
  platformFee := 0

def exEnvP (signer : Nat) : Env := { now := 1000, admin := 1, security := 2, fast := 3, signer := signer }

/-- the security admin stops a perp market; nothing else works -/
example : perpEdit (exEnvP 2) exPerpCfg { initOverall := some (.num 0), reduceOnly := some true } = .ok { exPerpCfg with initOverall := 0, reduceOnly := true } ∧
    perpEdit (exEnvP 2) exPerpCfg { takerFee := some (.num 0) } = .error .someError ∧ perpEdit (exEnvP 2) { exPerpCfg with reduceOnly := true } { reduceOnly := some false } = .error .someError ∧
    spotEdit (exEnvP 2) ⟨false, false, "S", .num 1⟩ { reduceOnly := some true } = .ok ⟨true, false, "S", .num 1⟩ ∧ spotEdit (exEnvP 3) ⟨false, false, "S", .num 1⟩ { reduceOnly := some true } = .error .someError := by
  decide +kernel

/-- **Edits of perp markets are not checked**: funding limits in the wrong order (then `clamp` panics when funding is updated, see C28), a negative taker fee, initial weights below maintenance weights and an empty settle-limit window
are all accepted. -/
theorem C66_perp_unchecked : ∃ (env : Env) (c c' : PerpCfg) (e : PerpEdit), perpEdit env c e = .ok c' ∧ c'.maxFunding < c'.minFunding ∧ c'.takerFee < 0 ∧ c'.initBaseLiab < c'.maintBaseLiab ∧
    c'.maintBaseAsset < c'.initBaseAsset ∧ c'.settleLimitWindow = 0 :=
  ⟨exEnvP 1, exPerpCfg, { exPerpCfg with maxFunding := -S, takerFee := -S, initBaseLiab := 0, maintBaseAsset := 0, settleLimitWindow := 0 },
    { maxFunding := some (.num (-1)), takerFee := some (.num (-1)), initBaseLiab := some (.num 0), maintBaseAsset := some (.num 0), settleLimitWindow := some 0 }, by decide +kernel, by decide +kernel,
    by decide +kernel, by decide +kernel, by decide +kernel, rfl⟩

end Config
end Mango
