import Verif.Config.Spec
/-!
# The steps of an edit
-/
namespace Mango
namespace Config
open Fx

theorem change_ok {C α : Type} {o : Option α} {s : C → α → Bool} {f : C → α → Res C} {c c' : C} {a a' : Bool} (h : change o s f (c, a) = .ok (c', a')) :
    (o = none ∧ c' = c ∧ a' = a) ∨ ∃ v, o = some v ∧ f c v = .ok c' ∧ a' = (a || s c v) := by
  unfold change at h
  cases o with
  | none => cases h; exact Or.inl ⟨rfl, rfl, rfl⟩
  | some v =>
    simp only [bind_ok] at h
    obtain ⟨x, hx, h⟩ := h
    cases h
    exact Or.inr ⟨v, rfl, hx, rfl⟩

/-- plain assignments -/
theorem step_set {C α : Type} {o : Option α} {c : C} {a : Bool} {s : C × Bool} (get : C → α) (upd : C → α → C) (hid : ∀ c, upd c (get c) = c)
    (h : change o always (fun c v => .ok (upd c v)) (c, a) = .ok s) : ∃ x : α, x = o.getD (get c) ∧ s = (upd c x, a || o.isSome) := by
  obtain ⟨c', a'⟩ := s
  rcases change_ok h with ⟨rfl, rfl, rfl⟩ | ⟨v, rfl, hv, rfl⟩
  · exact ⟨_, rfl, by simp [hid]⟩
  · cases hv
    exact ⟨v, rfl, rfl⟩

/-- assignments after a check of the value -/
theorem step_chk {C α : Type} {o : Option α} {c : C} {a : Bool} {s : C × Bool} (get : C → α) (upd : C → α → C) (hid : ∀ c, upd c (get c) = c) (chk : α → Res Unit)
    (h : change o always (fun c v => do
      chk v
      .ok (upd c v)) (c, a) = .ok s) : ∃ x : α, x = o.getD (get c) ∧ s = (upd c x, a || o.isSome) := by
  obtain ⟨c', a'⟩ := s
  rcases change_ok h with ⟨rfl, rfl, rfl⟩ | ⟨v, rfl, hv, rfl⟩
  · exact ⟨_, rfl, by simp [hid]⟩
  · simp only [bind_ok] at hv
    obtain ⟨_, _, hv⟩ := hv
    cases hv
    exact ⟨v, rfl, rfl⟩

/-- assignments of a float to a fixed point field -/
theorem step_fx {C : Type} {o : Option Flt} {c : C} {a : Bool} {s : C × Bool} (get : C → I80F48) (upd : C → I80F48 → C) (hid : ∀ c, upd c (get c) = c)
    (h : change o always (fun c v => do
      let x ← v.toFx
      .ok (upd c x)) (c, a) = .ok s) : ∃ x : I80F48, Num o (get c) x ∧ s = (upd c x, a || o.isSome) := by
  obtain ⟨c', a'⟩ := s
  rcases change_ok h with ⟨rfl, rfl, rfl⟩ | ⟨v, rfl, hv, rfl⟩
  · exact ⟨_, rfl, by simp [hid]⟩
  · simp only [bind_ok] at hv
    obtain ⟨x, hx, hv⟩ := hv
    cases hv
    exact ⟨x, hx, rfl⟩

/-- changes without effect on the configuration -/
theorem step_nop {C α : Type} {o : Option α} {c : C} {a : Bool} {s : C × Bool}
    (h : change o always (fun c _ => .ok c) (c, a) = .ok s) : s = (c, a || o.isSome) := by
  obtain ⟨c', a'⟩ := s
  rcases change_ok h with ⟨rfl, rfl, rfl⟩ | ⟨v, rfl, hv, rfl⟩
  · simp
  · cases hv
    rfl

/-- fixed point fields that may be set to zero by the security admin -/
theorem step_zero {C : Type} {o : Option Flt} {c : C} {a : Bool} {s : C × Bool} (get : C → I80F48) (upd : C → I80F48 → C) (hid : ∀ c, upd c (get c) = c)
    (h : change o (fun _ v => v.nonZero) (fun c v => do
      let x ← v.toFx
      .ok (upd c x)) (c, a) = .ok s) : ∃ x : I80F48, Num o (get c) x ∧ s = (upd c x, a || o.any Flt.nonZero) := by
  obtain ⟨c', a'⟩ := s
  rcases change_ok h with ⟨rfl, rfl, rfl⟩ | ⟨v, rfl, hv, rfl⟩
  · exact ⟨_, rfl, by simp [hid]⟩
  · simp only [bind_ok] at hv
    obtain ⟨x, hx, hv⟩ := hv
    cases hv
    exact ⟨x, hx, rfl⟩

theorem step_zero' {C : Type} {o : Option Flt} {c : C} {a : Bool} {s : C × Bool} (get : C → I80F48) (upd : C → I80F48 → C) (hid : ∀ c, upd c (get c) = c) (chk : Flt → Res Unit)
    (h : change o (fun _ v => v.nonZero) (fun c v => do
      chk v
      let x ← v.toFx
      .ok (upd c x)) (c, a) = .ok s) : ∃ x : I80F48, Num o (get c) x ∧ s = (upd c x, a || o.any Flt.nonZero) := by
  obtain ⟨c', a'⟩ := s
  rcases change_ok h with ⟨rfl, rfl, rfl⟩ | ⟨v, rfl, hv, rfl⟩
  · exact ⟨_, rfl, by simp [hid]⟩
  · simp only [bind_ok] at hv
    obtain ⟨_, _, x, hx, hv⟩ := hv
    cases hv
    exact ⟨x, hx, rfl⟩

theorem step_zeroF {C : Type} {o : Option Flt} {c : C} {a : Bool} {s : C × Bool} (get : C → Flt) (upd : C → Flt → C) (hid : ∀ c, upd c (get c) = c)
    (h : change o (fun _ v => v.nonZero) (fun c v => .ok (upd c v)) (c, a) = .ok s) : ∃ x : Flt, x = o.getD (get c) ∧ s = (upd c x, a || o.any Flt.nonZero) := by
  obtain ⟨c', a'⟩ := s
  rcases change_ok h with ⟨rfl, rfl, rfl⟩ | ⟨v, rfl, hv, rfl⟩
  · exact ⟨_, rfl, by simp [hid]⟩
  · cases hv
    exact ⟨v, rfl, rfl⟩

/-- the oracle configuration -/
theorem step_conf {C : Type} {o : Option (Flt × Option Nat)} {c : C} {a : Bool} {s : C × Bool} (getF : C → I80F48) (getS : C → Int) (upd : C → I80F48 → Int → C)
    (hid : ∀ c, upd c (getF c) (getS c) = c)
    (h : change o always (fun c v => do
      let f ← v.1.toFx
      .ok (upd c f (match v.2 with | some n => (n : Int) | none => -1))) (c, a) = .ok s) :
    ∃ (x : I80F48) (y : Int), Num (o.map Prod.fst) (getF c) x ∧ y = staleness o (getS c) ∧ s = (upd c x y, a || o.isSome) := by
  obtain ⟨c', a'⟩ := s
  rcases change_ok h with ⟨rfl, rfl, rfl⟩ | ⟨⟨v, n⟩, rfl, hv, rfl⟩
  · exact ⟨_, _, rfl, rfl, by simp [hid, staleness]⟩
  · simp only [bind_ok] at hv
    obtain ⟨x, hx, hv⟩ := hv
    cases hv
    refine ⟨x, _, hx, ?_, rfl⟩
    cases n <;> rfl

/-- the reset of the stable price -/
theorem step_reset {C : Type} {b : Bool} {c : C} {a : Bool} {s : C × Bool} (P Q : C → Prop) [DecidablePred P] [DecidablePred Q] (e₁ e₂ : Err)
    (h : change (flag b) always (fun c _ => do
      require (P c) e₁
      require (Q c) e₂
      .ok c) (c, a) = .ok s) : s = (c, a || b) := by
  obtain ⟨c', a'⟩ := s
  cases b
  · rcases change_ok h with ⟨_, rfl, rfl⟩ | ⟨v, hv, _⟩
    · simp
    · simp [flag] at hv
  · rcases change_ok h with ⟨hv, _⟩ | ⟨v, _, hv, rfl⟩
    · simp [flag] at hv
    · simp only [bind_ok] at hv
      obtain ⟨_, _, _, _, hv⟩ := hv
      cases hv
      rfl

theorem flag_isSome (b : Bool) : (flag b).isSome = b := by cases b <;> rfl

theorem runSteps_cons {C : Type} {f : Step C} {fs : List (Step C)} {s t : C × Bool} (h : runSteps (f :: fs) s = .ok t) : ∃ m, f s = .ok m ∧ runSteps fs m = .ok t := by
  simpa only [runSteps, bind_ok] using h

/-- who must sign, by the parameters -/
def needsAdmin (e : Edit) (c : Cfg) : Bool :=
  e.oracleConfig.isSome || e.oracle.isSome || e.setFallback || e.resetStablePrice || e.insurance.isSome || e.interest.isSome || e.originationFee.isSome || e.loanFee.isSome ||
  e.maintAsset.isSome || e.initAsset.any Flt.nonZero || e.maintLiab.isSome || e.initLiab.isSome || e.liqFee.isSome || e.delayInterval.isSome || e.delayGrowth.isSome ||
  e.stableGrowth.isSome || e.minVault.isSome || e.netBorrowLimit.isSome || e.netBorrowWindow.isSome || e.resetNetBorrowLimit || e.borrowScale.isSome || e.depositScale.isSome ||
  e.reduceOnly.any (fun v => v == 0 || (v == 2 && c.reduceOnly == 1)) || e.name.isSome || e.tier.isSome || e.forceClose.isSome || e.tcsTaker.isSome || e.tcsMaker.isSome ||
  e.flashFee.isSome || e.curveScaling.isSome || e.targetUtil.isSome || e.shiftStart.isSome || e.shiftEnd.isSome || e.shiftAsset.isSome || e.shiftLiab.isSome || e.depositLimit.isSome ||
  e.zeroUtil.isSome || e.platformFee.any Flt.nonZero || e.collateralFee.any Flt.nonZero || e.disableAssetLiq.isSome || e.forceWithdraw.isSome

end Config
end Mango
