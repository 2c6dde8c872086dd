import Verif.Props.Bank2
/-! # Property theorems: maintenance weight shifts (C11) and loss socialization (C12) -/
namespace Mango
namespace Bank
open Fx

/-! ## C11 -/

/-- A shift as configured by token_edit.rs:453-460: either off, or start < end and
`duration_inv = ONE / (end - start)`. -/
def ShiftConfigured (b : Bank) : Prop :=
  b.maintWeightShiftDurationInv = 0 ∨
  (b.maintWeightShiftStart < b.maintWeightShiftEnd ∧
    b.maintWeightShiftDurationInv = Int.tdiv (S * S) ((b.maintWeightShiftEnd - b.maintWeightShiftStart) * S))

/-- token_edit.rs:453-460 -/
def recomputeShiftDuration (b : Bank) : Res Bank :=
  if b.maintWeightShiftEnd ≤ b.maintWeightShiftStart then .ok { b with maintWeightShiftDurationInv := 0 } else do
    let q ← Fx.div Fx.ONE (Fx.ofInt (b.maintWeightShiftEnd - b.maintWeightShiftStart))
    .ok { b with maintWeightShiftDurationInv := q }

/-- The configuration instruction establishes the predicate. -/
theorem C11_configured {b b' : Bank} (h : recomputeShiftDuration b = .ok b') : ShiftConfigured b' := by
  unfold recomputeShiftDuration at h
  split at h
  · rw [ok_inj] at h; subst h; exact Or.inl rfl
  · simp only [bind_ok, div_ok, ok_inj] at h
    obtain ⟨q, ⟨_, rfl, _⟩, rfl⟩ := h
    exact Or.inr ⟨by dsimp only; omega, rfl⟩

/-- `x` lies between `a` and `b` (in whichever order they are) -/
def Between (x a b : Int) : Prop := (a ≤ x ∧ x ≤ b) ∨ (b ≤ x ∧ x ≤ a)

/-- interpolation value -/
def interp (w target scale : Int) : Int := w + scale * (target - w) / S

theorem interp_up {w t s : Int} (hs : 0 ≤ s) (hs' : s ≤ S) (h : w ≤ t) : w ≤ interp w t s ∧ interp w t s ≤ t := by
  unfold interp
  have h1 := floor_nonneg (Int.mul_nonneg hs (show 0 ≤ t - w by omega))
  have h2 : s * (t - w) / S < t - w + 1 := by
    rw [floor_le_iff]
    have := Int.mul_le_mul_of_nonneg_right hs' (show 0 ≤ t - w by omega)
    have e1 : S * (t - w) = (t - w) * S := by ring
    have e2 : (t - w + 1) * S = (t - w) * S + S := by ring
    have := S_pos
    omega
  omega

theorem interp_down {w t s : Int} (hs : 0 ≤ s) (hs' : s ≤ S) (h : t ≤ w) : t ≤ interp w t s ∧ interp w t s ≤ w := by
  unfold interp
  have e : s * (t - w) = -(s * (w - t)) := by ring
  have h1 : 0 ≤ s * (w - t) := Int.mul_nonneg hs (by omega)
  have h2 : s * (w - t) ≤ S * (w - t) := Int.mul_le_mul_of_nonneg_right hs' (by omega)
  rw [e]
  have hS := S_pos
  constructor
  · have : t - w ≤ -(s * (w - t)) / S := by
      rw [le_floor_iff]
      have e1 : (t - w) * S = -(S * (w - t)) := by ring
      omega
    omega
  · have : -(s * (w - t)) / S < 1 := by rw [floor_le_iff]; omega
    omega

theorem interp_between {w t s : Int} (hs : 0 ≤ s) (hs' : s ≤ S) : Between (interp w t s) w t := by
  rcases Int.le_total w t with h | h
  · exact Or.inl (interp_up hs hs' h)
  · exact Or.inr (interp_down hs hs' h)

theorem scale_bounds {st en now inv : Int} (h1 : st < now) (h2 : now < en) (hinv : inv = Int.tdiv (S * S) ((en - st) * S)) :
    0 ≤ (now - st) * inv ∧ (now - st) * inv ≤ S := by
  have hS := S_pos
  have hd : 0 < (en - st) * S := Int.mul_pos (by omega) hS
  have t := tdiv_bounds (a := S * S) (b := (en - st) * S) (Int.mul_nonneg hS.le hS.le) hd
  rw [← hinv] at t
  refine ⟨Int.mul_nonneg (by omega) t.2.2, ?_⟩
  have h3 : (now - st) * inv ≤ (en - st) * inv := Int.mul_le_mul_of_nonneg_right (by omega) t.2.2
  have h4 : (en - st) * inv * S ≤ S * S := by
    have e : inv * ((en - st) * S) = (en - st) * inv * S := by ring
    omega
  have := Int.le_of_mul_le_mul_right h4 hS
  omega

/-- The value the code computes while a shift is in progress. -/
theorem maintWeights_ok {b : Bank} {now : Int} {a l : I80F48} (h : b.maintWeights now = .ok (a, l)) :
    (b.maintWeightShiftDurationInv = 0 ∨ now ≤ b.maintWeightShiftStart) ∧ a = b.maintAssetWeight ∧ l = b.maintLiabWeight ∨
    (b.maintWeightShiftDurationInv ≠ 0 ∧ b.maintWeightShiftStart < now ∧ b.maintWeightShiftEnd ≤ now ∧
      a = b.maintWeightShiftAssetTarget ∧ l = b.maintWeightShiftLiabTarget) ∨
    (b.maintWeightShiftDurationInv ≠ 0 ∧ b.maintWeightShiftStart < now ∧ now < b.maintWeightShiftEnd ∧
      a = interp b.maintAssetWeight b.maintWeightShiftAssetTarget
        ((now - b.maintWeightShiftStart) * b.maintWeightShiftDurationInv) ∧
      l = interp b.maintLiabWeight b.maintWeightShiftLiabTarget
        ((now - b.maintWeightShiftStart) * b.maintWeightShiftDurationInv)) := by
  unfold maintWeights at h
  split at h
  · next hc =>
    simp only [ok_inj, Prod.mk.injEq] at h
    exact Or.inl ⟨hc, h.1.symm, h.2.symm⟩
  · next hc =>
    have hc1 : b.maintWeightShiftDurationInv ≠ 0 := fun h => hc (Or.inl h)
    have hc2 : ¬ now ≤ b.maintWeightShiftStart := fun h => hc (Or.inr h)
    split at h
    · next he =>
      simp only [ok_inj, Prod.mk.injEq] at h
      exact Or.inr (Or.inl ⟨hc1, by omega, he, h.1.symm, h.2.symm⟩)
    · next he =>
      simp only [bind_ok, mul_ok, sub_ok, add_ok, ok_inj, Prod.mk.injEq] at h
      obtain ⟨sc, ⟨rfl, _⟩, da, ⟨rfl, _⟩, sa, ⟨rfl, _⟩, x, ⟨rfl, _⟩, dl, ⟨rfl, _⟩, sl, ⟨rfl, _⟩, y, ⟨rfl, _⟩, rfl, rfl⟩ := h
      have e : Fx.ofInt (now - b.maintWeightShiftStart) * b.maintWeightShiftDurationInv / S =
          (now - b.maintWeightShiftStart) * b.maintWeightShiftDurationInv := by
        unfold Fx.ofInt
        rw [show (now - b.maintWeightShiftStart) * S * b.maintWeightShiftDurationInv =
          (now - b.maintWeightShiftStart) * b.maintWeightShiftDurationInv * S by ring]
        exact Int.mul_ediv_cancel _ (by decide)
      rw [e]
      exact Or.inr (Or.inr ⟨hc1, by omega, by omega, rfl, rfl⟩)

/-- C11: at every time the effective maintenance weights lie between the configured and the target weights; they are
the configured ones up to the start and the targets from the end on. -/
theorem C11_between {b : Bank} {now : Int} {a l : I80F48} (hcfg : ShiftConfigured b)
    (h : b.maintWeights now = .ok (a, l)) :
    Between a b.maintAssetWeight b.maintWeightShiftAssetTarget ∧ Between l b.maintLiabWeight b.maintWeightShiftLiabTarget ∧
    (now ≤ b.maintWeightShiftStart → a = b.maintAssetWeight ∧ l = b.maintLiabWeight) ∧
    (b.maintWeightShiftDurationInv ≠ 0 → b.maintWeightShiftEnd ≤ now →
      a = b.maintWeightShiftAssetTarget ∧ l = b.maintWeightShiftLiabTarget) := by
  have hS := S_pos
  rcases maintWeights_ok h with ⟨hc, rfl, rfl⟩ | ⟨hc, h1, h2, rfl, rfl⟩ | ⟨hc, h1, h2, rfl, rfl⟩
  · refine ⟨?_, ?_, fun _ => ⟨rfl, rfl⟩, fun hne hen => ?_⟩
    · unfold Between; omega
    · unfold Between; omega
    · rcases hcfg with h0 | ⟨h0, _⟩
      · exact absurd h0 hne
      · rcases hc with h3 | h3
        · exact absurd h3 hne
        · omega
  · refine ⟨?_, ?_, fun _ => by omega, fun _ _ => ⟨rfl, rfl⟩⟩
    · unfold Between; omega
    · unfold Between; omega
  · rcases hcfg with h0 | ⟨h0, hinv⟩
    · exact absurd h0 hc
    · have sb := scale_bounds h1 h2 hinv
      exact ⟨interp_between sb.1 sb.2, interp_between sb.1 sb.2, fun _ => by omega, fun _ _ => by omega⟩

/-- A later point of an interpolation is between an earlier one and the target. -/
theorem interp_later {w t s1 s2 : Int} (h0 : 0 ≤ s1) (h12 : s1 ≤ s2) (h2 : s2 ≤ S) :
    Between (interp w t s2) (interp w t s1) t := by
  rcases Int.le_total w t with h | h
  · left
    refine ⟨?_, (interp_up (by omega) h2 h).2⟩
    unfold interp
    have := floor_mono (Int.mul_le_mul_of_nonneg_right h12 (show 0 ≤ t - w by omega))
    omega
  · right
    refine ⟨(interp_down (by omega) h2 h).1, ?_⟩
    unfold interp
    have hm : s2 * (t - w) ≤ s1 * (t - w) := by
      have := Int.mul_le_mul_of_nonneg_right h12 (show 0 ≤ w - t by omega)
      have x1 : s1 * (t - w) = -(s1 * (w - t)) := by ring
      have x2 : s2 * (t - w) = -(s2 * (w - t)) := by ring
      omega
    have := floor_mono hm
    omega

/-- C11: both effective weights move monotonically towards their targets: at a later time each is between its earlier
value and the target. -/
theorem C11_monotone {b : Bank} {t1 t2 : Int} {a1 l1 a2 l2 : I80F48} (hcfg : ShiftConfigured b) (ht : t1 ≤ t2)
    (h1 : b.maintWeights t1 = .ok (a1, l1)) (h2 : b.maintWeights t2 = .ok (a2, l2)) :
    Between a2 a1 b.maintWeightShiftAssetTarget ∧ Between l2 l1 b.maintWeightShiftLiabTarget := by
  have hS := S_pos
  have refl : ∀ x y : Int, Between x x y ∧ Between x y x := by intro x y; unfold Between; omega
  rcases maintWeights_ok h2 with ⟨hc, rfl, rfl⟩ | ⟨hc, e1, e2, rfl, rfl⟩ | ⟨hc, e1, e2, rfl, rfl⟩
  · -- not started at t2, so not at t1
    rcases maintWeights_ok h1 with ⟨hc', rfl, rfl⟩ | ⟨hc', f1, f2, rfl, rfl⟩ | ⟨hc', f1, f2, rfl, rfl⟩
    · exact ⟨(refl _ _).1, (refl _ _).1⟩
    · rcases hc with hc | hc
      · exact absurd hc hc'
      · omega
    · rcases hc with hc | hc
      · exact absurd hc hc'
      · omega
  · exact ⟨(refl _ _).2, (refl _ _).2⟩
  · rcases hcfg with h0 | ⟨h0, hinv⟩
    · exact absurd h0 hc
    have sb2 := scale_bounds e1 e2 hinv
    rcases maintWeights_ok h1 with ⟨hc', rfl, rfl⟩ | ⟨hc', f1, f2, rfl, rfl⟩ | ⟨hc', f1, f2, rfl, rfl⟩
    · exact ⟨interp_between sb2.1 sb2.2, interp_between sb2.1 sb2.2⟩
    · omega
    · have sb1 := scale_bounds f1 f2 hinv
      have hinv0 : 0 ≤ b.maintWeightShiftDurationInv := by
        rw [hinv]
        exact (tdiv_bounds (Int.mul_nonneg hS.le hS.le) (Int.mul_pos (by omega) hS)).2.2
      have hmono : (t1 - b.maintWeightShiftStart) * b.maintWeightShiftDurationInv ≤
          (t2 - b.maintWeightShiftStart) * b.maintWeightShiftDurationInv :=
        Int.mul_le_mul_of_nonneg_right (by omega) hinv0
      exact ⟨interp_later sb1.1 hmono sb2.2, interp_later sb1.1 hmono sb2.2⟩

/-- C11: finishing the shift in an index update at `now` does not change the effective weights at any time from `now`
on. -/
theorem C11_completion_invisible {b : Bank} {now t : Int} {di bi avg st : I80F48} (hcfg : ShiftConfigured b)
    (ht : now ≤ t) :
    let done := decide (b.maintWeightShiftDurationInv > 0 ∧ now ≥ b.maintWeightShiftEnd)
    (applyIndex now di bi avg st done b).maintWeights t = b.maintWeights t := by
  dsimp only
  by_cases hd : b.maintWeightShiftDurationInv > 0 ∧ now ≥ b.maintWeightShiftEnd
  · rw [decide_eq_true hd]
    rcases hcfg with h0 | ⟨h0, hinv⟩
    · omega
    · unfold maintWeights applyIndex
      dsimp only
      simp only [if_true]
      rw [if_pos (Or.inl trivial), if_neg (by omega), if_pos (by omega)]
  · rw [decide_eq_false hd]
    rfl

/-- a shift half way -/
def exShift : Bank := { exBank with
  maintAssetWeight := 8 * S / 10, maintWeightShiftAssetTarget := S / 10, maintLiabWeight := 12 * S / 10,
  maintWeightShiftLiabTarget := 2 * S, maintWeightShiftStart := 1000, maintWeightShiftEnd := 2000,
  maintWeightShiftDurationInv := Int.tdiv (S * S) (1000 * S) }

example : ShiftConfigured exShift ∧ ∃ a l, exShift.maintWeights 1500 = .ok (a, l) ∧ a < 8 * S / 10 ∧ S / 10 < a := by
  refine ⟨Or.inr ⟨by decide, by decide⟩, _, _, rfl, by decide +kernel, by decide +kernel⟩

/-! ## C12 -/

/-- C12 for a token with a single bank (any number of banks: `Mango.Liquidation.C12_socialize`): a successful loss socialization of a single-bank token.  The deposit index falls to
`di - loss/D` (division rounded down), so that the depositors together give up at most the loss and less than one
indexed bit per indexed deposit less than it; the liqee's borrow is gone; the borrow index is unchanged; and the index
stays positive if the loss is below the total deposits.  Not provable, because false of the code: that the index always
stays positive (`C12_index_can_become_negative`) and, for tokens with several banks, that all banks get the new index
(`C12_break_leaves_bank_behind`). -/
theorem C12_single_bank {b : Bank} {bs : List Bank} {p p' : TokenPosition} {loss : I80F48} {now : Int}
    (hb : b.Pos) (hr : b.RatesOk) (hD : 0 < b.indexedDeposits) (hloss : 0 < loss)
    (hsmall : loss * S < b.indexedDeposits * b.depositIndex)
    (h : socializeLoss b.depositIndex [b] p loss now = .ok (bs, p')) :
    ∃ b', bs = [b'] ∧ p'.indexed = 0 ∧ b'.borrowIndex = b.borrowIndex ∧
      b'.depositIndex = b.depositIndex - loss * S / b.indexedDeposits ∧ 0 < b'.depositIndex ∧
      b.indexedDeposits * (b.depositIndex - b'.depositIndex) ≤ loss * S ∧
      loss * S < b.indexedDeposits * (b.depositIndex - b'.depositIndex) + b.indexedDeposits ∧
      b'.indexedDeposits = b.indexedDeposits - posPart p.indexed ∧
      b'.indexedBorrows = b.indexedBorrows - negPart p.indexed := by
  have hS := S_pos
  obtain ⟨hne, hcl, hz⟩ := socializeLoss_ok h
  simp only [sumOf_cons, sumOf_nil, Int.add_zero] at hcl hne
  have hni := (socialize_newIndex_pos hD.le hloss hsmall).2
  have ht := tdiv_bounds (a := loss * S) (b := b.indexedDeposits) (Int.mul_nonneg hloss.le hS.le) hD
  have hq : Int.tdiv (loss * S) b.indexedDeposits = loss * S / b.indexedDeposits :=
    Int.tdiv_eq_ediv_of_nonneg (Int.mul_nonneg hloss.le hS.le)
  obtain ⟨c1, c2, c3, c4, _⟩ := creditLoop_ok hni (l := [b]) (by simpa using ⟨hb, hr⟩) hcl
  have hlen : ∃ b', bs = [b'] := by
    cases bs with
    | nil => simp at c2
    | cons x xs => simp at c2; exact ⟨x, by rw [c2]⟩
  obtain ⟨b', rfl⟩ := hlen
  simp only [sumOf_cons, sumOf_nil, Int.add_zero] at c3 c4
  unfold posI at c3
  unfold negI at c4
  have hidx : b'.depositIndex = b.depositIndex - Int.tdiv (loss * S) b.indexedDeposits ∧
      b'.borrowIndex = b.borrowIndex := by
    simp only [creditLoop, bind_ok] at hcl
    obtain ⟨nb, hnb, hcl⟩ := hcl
    split at hcl
    · simp only [bind_ok, sub_ok] at hcl
      obtain ⟨⟨b2, p2, r⟩, h1, tc, ⟨rfl, _⟩, hcl⟩ := hcl
      have e := depositWithDusting_effect (b := { b with depositIndex := _ }) ⟨hni, hb.2⟩ h1
      dsimp only at hcl
      have hbb : b' = b2 := by
        split at hcl
        · simp only [ok_inj, Prod.mk.injEq, List.cons.injEq] at hcl; exact hcl.1.1.symm
        · simp only [bind_ok, ok_inj, Prod.mk.injEq, List.cons.injEq] at hcl
          obtain ⟨_, _, ⟨h4, _⟩, _⟩ := hcl
          exact h4.symm
      rw [hbb]
      exact ⟨e.depositIndex, e.borrowIndex⟩
    · simp only [bind_ok, ok_inj, Prod.mk.injEq, List.cons.injEq] at hcl
      obtain ⟨_, _, ⟨h4, _⟩, _⟩ := hcl
      rw [← h4]
      exact ⟨rfl, rfl⟩
  rw [hz] at c3 c4
  unfold posPart negPart at *
  have e : b.indexedDeposits * (b.depositIndex - b'.depositIndex) =
      Int.tdiv (loss * S) b.indexedDeposits * b.indexedDeposits := by rw [hidx.1]; ring
  refine ⟨b', rfl, hz, hidx.2, by rw [← hq]; exact hidx.1, by rw [hidx.1]; exact hni, by rw [e]; exact ht.1,
    by rw [e]; exact ht.2.1, by omega, by omega⟩

/-- a token with a bankrupt borrower of 2 indexed units against 5 indexed units of deposits -/
def exBankrupt : TokenPosition := { indexed := -2 * S }

example : ∃ bs p', socializeLoss exBank.depositIndex [exBank] exBankrupt ((2 * S) * exBank.borrowIndex / S) 90000 = .ok (bs, p') ∧
    (2 * S) * exBank.borrowIndex / S * S < exBank.indexedDeposits * exBank.depositIndex :=
  ⟨_, _, rfl, by decide +kernel⟩

/-- Finding for C12: the code does not check that the loss is below the deposits.  In a state
where borrows exceed deposits the socialization succeeds with a negative deposit index.  (This is a statement about
the instruction logic; the witness state is not claimed to be reachable through the utilization checks.) -/
theorem C12_index_can_become_negative : ∃ (b : Bank) (p : TokenPosition) (loss : I80F48) (bs : List Bank)
    (p' : TokenPosition), b.Pos ∧ b.verify = .ok () ∧ 0 < loss ∧ socializeLoss b.depositIndex [b] p loss 90000 = .ok (bs, p') ∧
    ∃ b' ∈ bs, b'.depositIndex < 0 :=
  ⟨{ exBank with indexedDeposits := S }, exBankrupt, (2 * S) * exBank.borrowIndex / S, _, _,
    by unfold Pos; decide, by decide, by decide, rfl, _, List.mem_singleton.mpr rfl, by decide +kernel⟩

/-- Finding for C12: for a token with two banks the `break` after the first bank absorbed the credit
(token_liq_bankruptcy.rs:268-270) leaves the second bank with its old deposit index: its depositors take no loss, and
the banks of one token no longer agree on the index. -/
theorem C12_break_leaves_bank_behind : ∃ (b1 b2 : Bank) (p : TokenPosition) (loss : I80F48) (c1 c2 : Bank)
    (p' : TokenPosition), b1.Pos ∧ b1.verify = .ok () ∧ b1.depositIndex = b2.depositIndex ∧ 0 < loss ∧
    loss * S < (b1.indexedDeposits + b2.indexedDeposits) * b1.depositIndex ∧ 0 < b2.indexedDeposits ∧
    socializeLoss b1.depositIndex [b1, b2] p loss 90000 = .ok ([c1, c2], p') ∧
    c1.depositIndex < b1.depositIndex ∧ c2.depositIndex = b2.depositIndex :=
  ⟨exBank, { exBank with indexedBorrows := 0 }, exBankrupt, (2 * S) * exBank.borrowIndex / S, _, _, _,
    exBank_pos, exBank_verify, rfl, by decide, by decide +kernel, by decide, rfl, by decide +kernel, by decide +kernel⟩

end Bank
end Mango
