import Verif.Misc.Gate
import Mathlib.Data.Nat.Bitwise
/-! # C46 Instruction gate authority -/
namespace Mango
namespace Gate

/-- specification: instruction `i` is disabled exactly when bit `i` of the mask is one -/
def Disabled (g : Group) (i : Nat) : Prop := g.ixGate.testBit i = true

theorem and_shift_eq_zero (n i : Nat) : n &&& (1 <<< i) = 0 ↔ n.testBit i = false := by
  rw [Nat.shiftLeft_eq, Nat.one_mul, Nat.and_two_pow]
  cases n.testBit i <;> simp

theorem isIxEnabled_iff (g : Group) (i : Nat) : g.isIxEnabled i = true ↔ ¬ Disabled g i := by
  simp [Group.isIxEnabled, and_shift_eq_zero, Disabled]

theorem requireGroupAdmin_iff {old new : Nat} (ho : old < 2 ^ 128) : requireGroupAdmin old new = true ↔
    ∃ i, old.testBit i = true ∧ new.testBit i = false := by
  simp only [requireGroupAdmin, List.any_eq_true, List.mem_range, decide_eq_true_eq, ne_eq, and_shift_eq_zero]
  constructor
  · rintro ⟨i, _, h1, h2⟩; exact ⟨i, by simpa using h1, h2⟩
  · rintro ⟨i, h1, h2⟩
    refine ⟨i, ?_, by simpa using h1, h2⟩
    by_contra hc
    have : old < 2 ^ i := Nat.lt_of_lt_of_le ho (Nat.pow_le_pow_right (by decide) (by omega))
    rw [Nat.testBit_lt_two_pow this] at h1; simp at h1

theorem ixGateSet_ok {g g' : Group} {s gate : Nat} : ixGateSet g s gate = .ok g' ↔ gate < 2 ^ 128 ∧
    (requireGroupAdmin g.ixGate gate = true → g.admin = s) ∧ (g.admin = s ∨ g.securityAdmin = s) ∧ g' = { g with ixGate := gate } := by
  simp only [ixGateSet, bind_ok, require_ok, ite_ok]
  constructor
  · rintro ⟨_, h1, _, h2, h3⟩
    simp at h3
    rcases h2 with ⟨a, b⟩ | ⟨a, b⟩
    · exact ⟨h1, fun _ => b, Or.inl b, h3.symm⟩
    · exact ⟨h1, fun h => absurd h a, b, h3.symm⟩
  · rintro ⟨h1, h2, h3, rfl⟩
    refine ⟨(), h1, (), ?_, rfl⟩
    by_cases hr : requireGroupAdmin g.ixGate gate = true
    · exact Or.inl ⟨hr, h2 hr⟩
    · exact Or.inr ⟨hr, h3⟩

theorem groupEdit_ok {g g' : Group} {s : Nat} {a b : Option Nat} (h : groupEdit g s a b = .ok g') : g.admin = s ∧ g'.ixGate = g.ixGate ∧
    g'.securityAdmin = b.getD g.securityAdmin ∧ g'.admin = a.getD g.admin := by
  simp only [groupEdit, bind_ok, require_ok] at h
  obtain ⟨_, h1, _, _, h3⟩ := h
  simp at h3; subst h3
  exact ⟨h1, rfl, rfl, rfl⟩

/-- masks stay in range -/
def Wf (g : Group) : Prop := g.ixGate < 2 ^ 128

theorem step_wf {g : Group} (w : Wf g) (o : Op) : Wf (step g o) := by
  cases o with
  | set s gate =>
    simp only [step]
    split
    · rename_i g' h; rw [ixGateSet_ok] at h; obtain ⟨h1, _, _, rfl⟩ := h; exact h1
    · exact w
  | edit s a b =>
    simp only [step]
    split
    · rename_i g' h; have := (groupEdit_ok h).2.1; unfold Wf; rw [this]; exact w
    · exact w

/-- **C46a** One step: an instruction becomes enabled only by a gate change signed by the admin of that moment. -/
theorem C46_enable_needs_admin {g : Group} (w : Wf g) {o : Op} {i : Nat} (hd : Disabled g i) (he : (step g o).isIxEnabled i = true) :
    ∃ gate, o = .set g.admin gate := by
  rw [isIxEnabled_iff] at he
  cases o with
  | set s gate =>
    simp only [step] at he
    split at he
    · rename_i g' h
      rw [ixGateSet_ok] at h
      obtain ⟨_, h2, _, rfl⟩ := h
      have := h2 ((requireGroupAdmin_iff w).mpr ⟨i, hd, by unfold Disabled at he; simpa using he⟩)
      exact ⟨gate, by rw [this]⟩
    · exact absurd hd he
  | edit s a b =>
    simp only [step] at he
    split at he
    · rename_i g' h
      unfold Disabled at he hd
      rw [(groupEdit_ok h).2.1] at he
      exact absurd hd he
    · exact absurd hd he

/-- no operation of the history is signed by the admin holding office at that point -/
def NoAdmin : Group → List Op → Prop
  | _, [] => True
  | g, o :: os => o.signer ≠ g.admin ∧ NoAdmin (step g o) os

/-- **C46b** Along every history without an action of the admin, a disabled instruction stays disabled and the admin and the security admin
stay in office. -/
theorem C46_stays_disabled {g : Group} (w : Wf g) {os : List Op} (hn : NoAdmin g os) :
    (∀ i, g.isIxEnabled i = false → (run g os).isIxEnabled i = false) ∧ (run g os).admin = g.admin ∧ (run g os).securityAdmin = g.securityAdmin := by
  induction os generalizing g with
  | nil => exact ⟨fun i h => h, rfl, rfl⟩
  | cons o os ih =>
    obtain ⟨h1, h2⟩ := hn
    obtain ⟨e1, e2, e3⟩ := ih (step_wf w o) h2
    have hs : (∀ i, g.isIxEnabled i = false → (step g o).isIxEnabled i = false) ∧ (step g o).admin = g.admin ∧ (step g o).securityAdmin = g.securityAdmin := by
      refine ⟨?_, ?_, ?_⟩
      · intro i hi
        cases hc : (step g o).isIxEnabled i with
        | false => rfl
        | true =>
          have hd : Disabled g i := by
            by_contra hx
            have := (isIxEnabled_iff g i).mpr hx
            rw [hi] at this; simp at this
          obtain ⟨gate, e⟩ := C46_enable_needs_admin w hd hc
          rw [e] at h1; exact absurd rfl h1
      · cases o with
        | set s gate =>
          simp only [step]; split
          · rename_i g' h; rw [ixGateSet_ok] at h; rw [h.2.2.2]
          · rfl
        | edit s a b =>
          simp only [step]; split
          · rename_i g' h; exact absurd (groupEdit_ok h).1.symm h1
          · rfl
      · cases o with
        | set s gate =>
          simp only [step]; split
          · rename_i g' h; rw [ixGateSet_ok] at h; rw [h.2.2.2]
          · rfl
        | edit s a b =>
          simp only [step]; split
          · rename_i g' h; exact absurd (groupEdit_ok h).1.symm h1
          · rfl
    exact ⟨fun i hi => e1 i (hs.1 i hi), e2.trans hs.2.1, e3.trans hs.2.2⟩

/-- **C46c** The security admin can always disable: a change that clears no bit succeeds for admin and security admin, and for nobody else. -/
theorem C46_security_admin_can_disable {g : Group} (w : Wf g) {s gate : Nat} (hg : gate < 2 ^ 128) (hsup : ∀ i, Disabled g i → gate.testBit i = true) :
    (∃ g', ixGateSet g s gate = .ok g' ∧ ∀ i, g'.isIxEnabled i = !gate.testBit i) ↔ (s = g.admin ∨ s = g.securityAdmin) := by
  have hr : ¬ requireGroupAdmin g.ixGate gate = true := by
    rw [requireGroupAdmin_iff w]
    rintro ⟨i, h1, h2⟩
    rw [hsup i h1] at h2; simp at h2
  constructor
  · rintro ⟨g', h, _⟩
    rw [ixGateSet_ok] at h
    rcases h.2.2.1 with h | h
    · left; exact h.symm
    · right; exact h.symm
  · intro hs
    refine ⟨{ g with ixGate := gate }, ?_, ?_⟩
    · rw [ixGateSet_ok]
      exact ⟨hg, fun h => absurd h hr, hs.imp (fun e => e.symm) (fun e => e.symm), rfl⟩
    · intro i
      have := isIxEnabled_iff { g with ixGate := gate } i
      unfold Disabled at this
      cases hb : gate.testBit i <;> simp_all

/-- **C46d** The admin can set any mask. -/
theorem C46_admin_can_set {g : Group} {gate : Nat} (hg : gate < 2 ^ 128) :
    ixGateSet g g.admin gate = .ok { g with ixGate := gate } := by
  rw [ixGateSet_ok]; exact ⟨hg, fun _ => rfl, Or.inl rfl, rfl⟩

/-- a history: the security admin disables instruction 47 (withdraw), a stranger and the security admin fail to enable it, the admin succeeds -/
example : let g : Group := ⟨1, 2, 0⟩
    (run g [.set 2 (2 ^ 47)]).isIxEnabled 47 = false ∧ NoAdmin g [.set 2 (2 ^ 47), .set 3 0, .set 2 0] ∧
    (run g [.set 2 (2 ^ 47), .set 3 0, .set 2 0]).isIxEnabled 47 = false ∧
    (run g [.set 2 (2 ^ 47), .set 3 0, .set 2 0, .set 1 0]).isIxEnabled 47 = true := by
  refine ⟨by decide +kernel, ?_, by decide +kernel, by decide +kernel⟩
  refine ⟨by decide +kernel, by decide +kernel, by decide +kernel, trivial⟩

end Gate
end Mango
