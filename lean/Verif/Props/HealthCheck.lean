import Verif.Account.HealthCheck
import Verif.Props.HealthEx
import Mathlib.Data.List.Induction
/-!
# C35: liquidation state machine; C36: health checks after an instruction
-/
namespace Mango
namespace Account
open Fx Health

/-- the liquidation-end type healths an instruction looked at to decide about recovery -/
def HOp.recoveryHealths : HOp → List I80F48
  | .guarded pre liqEnd _ | .region pre liqEnd _ | .strict pre liqEnd => [pre, liqEnd]
  | .deposit liqEnd => [liqEnd]
  | .liquidate _ liqEnd after => [liqEnd, after]

def HOp.isLiquidation : HOp → Bool
  | .liquidate _ _ _ => true
  | _ => false

def HOp.maint : HOp → I80F48
  | .liquidate m _ _ => m
  | _ => 0

theorem maybeRecover_true {a : Liq} {h : Int} (ha : a.being = true) : (a.maybeRecover h).1.being = decide (h ≤ -ONE) := by
  unfold Liq.maybeRecover
  by_cases hh : h > -ONE
  · rw [if_pos ⟨ha, hh⟩]; simp; omega
  · rw [if_neg (by simp [hh])]; simp [ha]; omega

theorem maybeRecover_false {a : Liq} {h : Int} (ha : a.being = false) : a.maybeRecover h = (a, false) := by
  unfold Liq.maybeRecover; simp [ha]

theorem checkPre_ok {a a' : Liq} {pre : Int} {l : Int} (h : a.checkPre pre (.ok l) = .ok a') :
    a'.being = false ∧ (a.being = true → pre > -ONE ∨ l > -ONE) := by
  simp only [Liq.checkPre, bind_ok, require_ok] at h
  obtain ⟨b, h1, _, h2, h3⟩ := h
  simp at h3; subst h3
  refine ⟨h2, ?_⟩
  intro ha
  have e := maybeRecover_true (h := pre) ha
  rw [ite_ok] at h1
  rcases h1 with ⟨c, h1⟩ | ⟨c, h1⟩
  · simp only [bind_ok] at h1
    obtain ⟨x, hx, h1⟩ := h1
    simp at hx h1; subst hx; subst h1
    rw [maybeRecover_true c] at h2
    simp at h2; right; omega
  · rw [e] at c
    simp at c; left; omega

/-- an account being liquidated passes the check only if one of the two healths shows its recovery -/
theorem checkPre_recovers {a a' : Liq} {pre : Int} {liqEnd : Res I80F48} (h : a.checkPre pre liqEnd = .ok a') :
    a'.being = false ∧ (a.being = true → -ONE < pre ∨ ∃ l, liqEnd = .ok l ∧ -ONE < l) := by
  cases liqEnd with
  | ok l =>
    obtain ⟨h1, h2⟩ := checkPre_ok h
    refine ⟨h1, fun ha => ?_⟩
    rcases h2 ha with h2 | h2
    · exact Or.inl h2
    · exact Or.inr ⟨l, rfl, h2⟩
  | error e =>
    simp only [Liq.checkPre, bind_ok, require_ok] at h
    obtain ⟨b, h1, _, h2, h3⟩ := h
    simp at h3; subst h3
    refine ⟨h2, fun ha => ?_⟩
    have e := maybeRecover_true (h := pre) ha
    rw [ite_ok] at h1
    rcases h1 with ⟨c, h1⟩ | ⟨c, h1⟩
    · simp only [bind_ok] at h1
      obtain ⟨x, hx, _⟩ := h1
      cases hx
    · rw [e] at c
      simp at c; left; omega

theorem checkPre_blocks {a : Liq} {pre l : Int} (ha : a.being = true) (h1 : pre ≤ -ONE) (h2 : l ≤ -ONE) :
    a.checkPre pre (.ok l) = .error .beingLiquidated := by
  have e1 : (a.maybeRecover pre).1.being = true := by rw [maybeRecover_true ha]; simpa using h1
  have e2 : ((a.maybeRecover pre).1.maybeRecover l).1.being = true := by rw [maybeRecover_true e1]; simpa using h2
  simp only [Liq.checkPre]
  rw [if_pos e1]
  simp [bind, Except.bind, require, e2]

/-- **C35a** A liquidation action happens only if the account's maintenance health is negative, or it was already being liquidated and its
liquidation-end health is still at most minus one native unit. -/
theorem C35_liquidatable_only_if_unhealthy {a a' : Liq} {maint liqEnd : I80F48}
    (h : a.checkLiquidatable (.ok maint) (.ok liqEnd) = .ok (a', .liquidatable)) :
    a'.being = true ∧ ((a.being = false ∧ maint < 0) ∨ (a.being = true ∧ liqEnd ≤ -ONE)) := by
  unfold Liq.checkLiquidatable at h
  split at h
  · rename_i ha
    simp only [bind_ok] at h
    obtain ⟨x, hx, h⟩ := h
    simp at hx; subst hx
    by_cases hh : liqEnd > -ONE
    · simp [Liq.maybeRecover, ha, hh] at h
    · simp [Liq.maybeRecover, hh] at h
      subst h
      exact ⟨ha, Or.inr ⟨ha, by omega⟩⟩
  · rename_i ha
    simp only [bind_ok] at h
    obtain ⟨x, hx, h⟩ := h
    simp at hx; subst hx
    rw [ite_ok] at h
    rcases h with ⟨c, h⟩ | ⟨c, h⟩
    · simp at h
    · simp at h
      subst h
      exact ⟨rfl, Or.inl ⟨by simpa using ha, by omega⟩⟩

/-- **C35b** The flag is set only by a liquidation whose maintenance health is negative and whose action left liquidation-end health at most
minus one. -/
theorem C35_flag_set {a a' : Liq} {op : HOp} {b : Bool} (h : a.step op = .ok (a', b)) (h0 : a.being = false) (h1 : a'.being = true) :
    op.isLiquidation = true ∧ op.maint < 0 ∧ b = true := by
  cases op with
  | guarded pre l post =>
    simp only [Liq.step, bind_ok] at h
    obtain ⟨c, hc, _, _, h⟩ := h
    simp at h; obtain ⟨rfl, _⟩ := h
    rw [(checkPre_ok hc).1] at h1; simp at h1
  | region pre l post =>
    simp only [Liq.step, Liq.regionBegin, bind_ok] at h
    obtain ⟨⟨c, n⟩, ⟨c', hc, _, _, _, _, hn⟩, _, _, h⟩ := h
    simp at h hn; obtain ⟨rfl, _⟩ := h; obtain ⟨rfl, _⟩ := hn
    rw [(checkPre_ok hc).1] at h1; simp at h1
  | strict pre l =>
    simp only [Liq.step, bind_ok] at h
    obtain ⟨c, hc, _, _, h⟩ := h
    simp at h; obtain ⟨rfl, _⟩ := h
    rw [(checkPre_ok hc).1] at h1; simp at h1
  | deposit l =>
    simp [Liq.step, h0] at h
    obtain ⟨rfl, _⟩ := h
    rw [h0] at h1; simp at h1
  | liquidate m l after =>
    simp only [Liq.step, bind_ok] at h
    obtain ⟨⟨c, r⟩, hc, h⟩ := h
    rw [ite_ok] at h
    rcases h with ⟨hr, h⟩ | ⟨hr, h⟩
    · simp at h hr
      subst hr
      have := C35_liquidatable_only_if_unhealthy hc
      rcases this.2 with ⟨_, hm⟩ | ⟨hb, _⟩
      · exact ⟨rfl, hm, by simp [h.2]⟩
      · rw [h0] at hb; simp at hb
    · simp at h
      obtain ⟨rfl, _⟩ := h
      simp only [Liq.checkLiquidatable, h0] at hc
      simp only [Bool.false_eq_true, if_false, bind_ok] at hc
      obtain ⟨x, hx, hc⟩ := hc
      rw [ite_ok] at hc
      rcases hc with ⟨_, hc⟩ | ⟨_, hc⟩
      · simp at hc; obtain ⟨rfl, _⟩ := hc; rw [h0] at h1; simp at h1
      · simp at hc; exact absurd hc.2.symm hr

/-- **C35c** While being liquidated, an instruction whose recovery healths are all at most minus one native unit leaves the flag set; user
actions and deposits are rejected. -/
theorem C35_flag_stays {a : Liq} {op : HOp} (h0 : a.being = true) (hh : ∀ x ∈ op.recoveryHealths, x ≤ -ONE) :
    (∀ a' b, a.step op = .ok (a', b) → a'.being = true ∧ op.isLiquidation = true) := by
  intro a' b h
  cases op with
  | guarded pre l post =>
    have := checkPre_blocks h0 (hh pre (by simp [HOp.recoveryHealths])) (hh l (by simp [HOp.recoveryHealths]))
    simp [Liq.step, this, bind, Except.bind] at h
  | region pre l post =>
    have := checkPre_blocks h0 (hh pre (by simp [HOp.recoveryHealths])) (hh l (by simp [HOp.recoveryHealths]))
    simp [Liq.step, Liq.regionBegin, this, bind, Except.bind] at h
  | strict pre l =>
    have := checkPre_blocks h0 (hh pre (by simp [HOp.recoveryHealths])) (hh l (by simp [HOp.recoveryHealths]))
    simp [Liq.step, this, bind, Except.bind] at h
  | deposit l =>
    have := hh l (by simp [HOp.recoveryHealths])
    simp only [Liq.step, h0, if_true] at h
    rw [show a.maybeRecover l = (a, false) by unfold Liq.maybeRecover; rw [if_neg (by omega)]] at h
    simp [require, bind, Except.bind] at h
  | liquidate m l after =>
    have e1 := hh l (by simp [HOp.recoveryHealths])
    have e2 := hh after (by simp [HOp.recoveryHealths])
    simp only [Liq.step, bind_ok] at h
    obtain ⟨⟨c, r⟩, hc, h⟩ := h
    have hr : c = a ∧ r = .liquidatable := by
      simp only [Liq.checkLiquidatable, h0, if_true, bind_ok] at hc
      obtain ⟨x, hx, hc⟩ := hc
      simp at hx; subst hx
      rw [show a.maybeRecover l = (a, false) by unfold Liq.maybeRecover; rw [if_neg (by omega)]] at hc
      simp at hc; exact ⟨hc.1.symm, hc.2.symm⟩
    obtain ⟨rfl, rfl⟩ := hr
    simp at h
    obtain ⟨rfl, _⟩ := h
    exact ⟨by rw [maybeRecover_true h0]; simpa using e2, rfl⟩

theorem run_append (a : Liq) (xs ys : List HOp) : (a.run (xs ++ ys)).1 = ((a.run xs).1.run ys).1 := by
  induction xs generalizing a with
  | nil => rfl
  | cons x xs ih =>
    simp only [List.cons_append, Liq.run]
    split <;> simp [ih]

/-- **C35d** Over every history: an account that ends up being liquidated (and did not start so) went through a liquidation whose
maintenance health was negative, and everything after that left it in liquidation. -/
theorem C35_history {ops : List HOp} (h : ((⟨false⟩ : Liq).run ops).1.being = true) :
    ∃ pre op post, ops = pre ++ op :: post ∧ op.isLiquidation = true ∧ op.maint < 0 ∧
      ((⟨false⟩ : Liq).run pre).1.being = false ∧ ∀ mid rest, post = mid ++ rest → ((⟨false⟩ : Liq).run (pre ++ op :: mid)).1.being = true := by
  -- the last position at which the flag is still false
  induction ops using List.reverseRecOn with
  | nil => simp [Liq.run] at h
  | append_singleton xs x ih =>
    by_cases hx : ((⟨false⟩ : Liq).run xs).1.being = true
    · obtain ⟨pre, op, post, e, h1, h2, h3, h4⟩ := ih hx
      refine ⟨pre, op, post ++ [x], by rw [e]; simp, h1, h2, h3, ?_⟩
      intro mid rest hm
      rcases List.eq_nil_or_concat rest with rfl | ⟨rest', y, rfl⟩
      · simp at hm
        rw [← hm]
        rw [e] at h
        simpa using h
      · rw [List.concat_eq_append, ← List.append_assoc] at hm
        have hm2 := List.append_inj' hm rfl
        exact h4 mid rest' hm2.1
    · have hx : ((⟨false⟩ : Liq).run xs).1.being = false := by simpa using hx
      rw [run_append] at h
      cases hs : ((⟨false⟩ : Liq).run xs).1.step x with
      | error e => simp [Liq.run, hs, hx] at h
      | ok r =>
        obtain ⟨a', b⟩ := r
        simp [Liq.run, hs] at h
        have := C35_flag_set hs hx h
        refine ⟨xs, x, [], rfl, this.1, this.2.1, hx, ?_⟩
        intro mid rest hm
        have : mid = [] := by
          rcases mid with _ | ⟨m, mid⟩
          · rfl
          · simp at hm
        subst this
        rw [run_append]
        simp [Liq.run, hs, h]

/-- The comment in `check_health_pre_checks` relies on liquidation-end health being at least init health. For the account of
`C37_can_fail_with_shared_token` it is not: a flagged account with liquidation-end health of -20 native passes the pre check and leaves the
liquidation state because its init health is positive. -/
theorem C35_recovers_with_negative_liq_end_health :
    ∃ init liqEnd : I80F48, shCache.health Fx.div .init = .ok init ∧ shCache.health Fx.div .liqEnd = .ok liqEnd ∧ liqEnd ≤ -ONE * 20 ∧
      (⟨true⟩ : Liq).checkPre init (.ok liqEnd) = .ok ⟨false⟩ :=
  ⟨S / 8 * 140, ofInt (-20), C37_can_fail_with_shared_token.1, C37_can_fail_with_shared_token.2.1, by decide, by decide⟩

/-! ## C36 -/

theorem ceil_val {a y : Int} (h : Fx.ceil a = .ok y) : a ≤ y ∧ y < a + S ∧ y = -(-a / S) * S := by
  rw [Fx.ceil_ok] at h
  have := mulFloor_bounds (-a)
  have e := h.1
  rw [Int.neg_mul] at e
  omega

/-- `a` rounded up to a whole native unit -/
def ceilUnit (a : I80F48) : Int := -(-a / S)

theorem ceilUnit_mono {a b : Int} (h : a ≤ b) : ceilUnit a ≤ ceilUnit b := by
  unfold ceilUnit
  have := floor_mono (x := -b) (y := -a) (by omega)
  omega

/-- **C36a** An instruction that passes the post check leaves init health non-negative, or not lower than before when rounded up to whole
native units (and strictly not lower when it ends between -1000 and 0). -/
theorem C36_post_check {pre post : I80F48} (h : checkPost pre post = .ok ()) :
    0 ≤ post ∨ (ceilUnit pre ≤ ceilUnit post ∧ pre - S < post ∧ (ofInt (-1000) ≤ post → pre ≤ post)) := by
  simp only [checkPost, bind_ok, require_ok] at h
  obtain ⟨ok, h1, h2⟩ := h
  rcases h2 with h2 | h2
  · exact Or.inl h2
  · subst h2
    have hS := S_pos
    rw [ite_ok] at h1
    rcases h1 with ⟨c, h1⟩ | ⟨c, h1⟩
    · simp only [bind_ok] at h1
      obtain ⟨a, ha, b, hb, h1⟩ := h1
      have ea := ceil_val ha
      have eb := ceil_val hb
      simp at h1
      right
      refine ⟨?_, by omega, by omega⟩
      have e1 : a = ceilUnit post * S := ea.2.2
      have e2 : b = ceilUnit pre * S := eb.2.2
      rw [e1, e2] at h1
      exact Int.le_of_mul_le_mul_right h1 hS
    · simp at h1
      exact Or.inr ⟨ceilUnit_mono h1, by omega, fun _ => h1⟩

/-- **C36b** Starting from non-negative init health, the post check guarantees non-negative init health. -/
theorem C36_stays_nonnegative {pre post : I80F48} (h : checkPost pre post = .ok ()) (h0 : 0 ≤ pre) : 0 ≤ post := by
  rcases C36_post_check h with h1 | ⟨h1, h2, h3⟩
  · exact h1
  · by_contra hc
    have : ofInt (-1000) ≤ post := by
      unfold ofInt
      have := S_pos
      have e : -1000 * S = -(1000 * S) := Int.neg_mul _ _
      omega
    have := h3 this
    omega

/-- the post check alone, iterated: each instruction starts from the health the previous one left -/
def checkAll : I80F48 → List I80F48 → Prop
  | _, [] => True
  | pre, post :: rest => checkPost pre post = .ok () ∧ checkAll post rest

theorem ceilUnit_nonneg {a : Int} (h : 0 ≤ a) : 0 ≤ ceilUnit a := by
  have := ceilUnit_mono h
  simpa [ceilUnit] using this

/-- **C36c** However many instructions an account executes, each passing its post check, as long as prices do not change between them, the
final init health is non-negative or has lost less than one native unit in total. -/
theorem C36_no_gradual_loss : ∀ {posts : List I80F48} {pre : I80F48}, checkAll pre posts →
    let final := posts.getLastD pre
    0 ≤ final ∨ (ceilUnit pre ≤ ceilUnit final ∧ pre - S < final) := by
  intro posts
  induction posts with
  | nil => intro pre _; right; simp; have := S_pos; omega
  | cons p ps ih =>
    intro pre h
    obtain ⟨h1, h2⟩ := h
    have := ih h2
    simp only [List.getLastD_cons] at this ⊢
    rcases this with h3 | ⟨h3, h4⟩
    · exact Or.inl h3
    · rcases C36_post_check h1 with h5 | ⟨h5, h6, h7⟩
      · -- the intermediate health was non-negative, so the final one is
        have hnn : ∀ {qs : List Int} {q : Int}, checkAll q qs → 0 ≤ q → 0 ≤ qs.getLastD q := by
          intro qs
          induction qs with
          | nil => intro q _ hq; simpa using hq
          | cons x xs ihx =>
            intro q hq h0
            simp only [List.getLastD_cons]
            exact ihx hq.2 (C36_stays_nonnegative hq.1 h0)
        exact Or.inl (hnn h2 h5)
      · right
        have hS := S_pos
        refine ⟨by omega, ?_⟩
        have hf := mulFloor_bounds (-(ps.getLastD p))
        have hp := mulFloor_bounds (-pre)
        have : ceilUnit pre * S ≤ ceilUnit (ps.getLastD p) * S := Int.mul_le_mul_of_nonneg_right (by omega) (Int.le_of_lt hS)
        unfold ceilUnit at this
        rw [Int.neg_mul, Int.neg_mul] at this
        omega

/-- **C36d** A health region gives the same guarantee for all the actions inside it together. -/
theorem C36_region {a a' : Liq} {pre post : I80F48} {liqEnd : Res I80F48} {n : Int} (h1 : a.regionBegin pre liqEnd = .ok (a', n))
    (h2 : regionEnd n post = .ok ()) : 0 ≤ post ∨ (ceilUnit pre ≤ ceilUnit post ∧ pre - S < post) := by
  simp only [Liq.regionBegin, bind_ok, ck64_ok] at h1
  obtain ⟨_, _, c, hc, m, ⟨hm, _⟩, h1⟩ := h1
  simp at h1
  obtain ⟨_, rfl⟩ := h1
  have hS := S_pos
  have e := ceil_val hc
  have hn : ofInt m = c := by
    rw [hm, e.2.2]
    unfold ofInt toInt
    rw [Int.mul_ediv_cancel _ (by decide)]
  unfold regionEnd at h2
  rw [hn] at h2
  rcases C36_post_check h2 with h3 | ⟨h3, h4, h5⟩
  · exact Or.inl h3
  · right
    have e2 : ceilUnit c = ceilUnit pre := by
      have : c = ceilUnit pre * S := e.2.2
      rw [this]; unfold ceilUnit
      rw [← Int.neg_mul, Int.mul_ediv_cancel _ (by decide)]; omega
    exact ⟨by omega, by omega⟩

/-- concrete: an account at -5000.5 may end at -5000.25 or lose the half unit down to -5000.99, but not drop below -5001; at -500 it may not drop
at all -/
example : checkPost (-5000 * S - S / 2) (-5000 * S - S + 1) = .ok () ∧
    checkPost (-5000 * S - S / 2) (-5001 * S) ≠ .ok () ∧ checkPost (-500 * S) (-500 * S - 1) ≠ .ok () ∧
    checkAll (-5000 * S) [-5000 * S, -4999 * S - S / 2, -4999 * S - S / 4 * 3] := by
  refine ⟨by decide, by decide, by decide, ?_⟩
  simp only [checkAll]
  decide

/-- concrete: liquidation starts at negative maintenance health, continues while liquidation-end health is below -1, blocks a withdrawal, and ends
with a deposit -/
example : (⟨false⟩ : Liq).run [.guarded 5 7 4, .liquidate (-S) (-9 * S) (-3 * S), .guarded (-3 * S) (-3 * S) (-3 * S), .liquidate S (-3 * S) (-2 * S),
    .deposit (-2 * S), .deposit (-1), .guarded (-1) 0 0] = (⟨false⟩, [false, true, false, true, false, false, false]) := by
  decide +kernel

end Account
end Mango
