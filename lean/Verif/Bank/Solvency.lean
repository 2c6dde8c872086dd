import Verif.Bank.SystemLemmas
/-! Solvency of one token over every history: helpers and the invariant. -/
namespace Mango
namespace Bank
open Fx

/-- What all position holders together could claim, plus fees and dust owed to the group, at deposit index `di` and
borrow index `bi`; scaled by `S` relative to native I80F48 bits. -/
def claims (di bi : Int) (s : TokenState) : Int :=
  sumOf (exactValue di bi) s.positions + sumOf feesAndDust s.banks

/-- The indexes of the token's first bank. -/
def headIndexes (s : TokenState) : Int × Int :=
  match s.banks with
  | [] => (0, 0)
  | b :: _ => (b.depositIndex, b.borrowIndex)

/-- The rounding slack each operation may add to the claims (scaled by `S`). -/
def stepSlack (s : TokenState) : TokenOp → Int
  | .open => 0
  | .setInUse _ _ => 0
  | .pos _ _ _ _ _ => (headIndexes s).1 + (headIndexes s).2
  | .transfer _ _ _ _ _ _ _ => 2 * ((headIndexes s).1 + (headIndexes s).2)
  | .updateIndex now _ _ =>
      match s.banks with
      | [] => 0
      | b :: _ =>
        match b.computeIndex (sumOf indexedDeposits s.banks) (sumOf indexedBorrows s.banks)
          (Fx.ofInt (min (now - b.indexLastUpdated) 3600)) with
        | .ok (_, _, _, borrowRate, _) => 2 * sumOf indexedBorrows s.banks + borrowRate
        | .error _ => 0
  | .edit _ _ => 0
  | .addBank => 0
  | .withdrawFees _ _ => 0
  | .collect _ _ => 0
  | .socialize _ _ _ _ => sumOf indexedDeposits s.banks + (headIndexes s).1 + (headIndexes s).2

/-- All banks of the token carry these indexes. -/
def CommonIndex (di bi : Int) (s : TokenState) : Prop :=
  ∀ b ∈ s.banks, b.depositIndex = di ∧ b.borrowIndex = bi

/-- Loss socialization is only followed for tokens with one bank (with several banks the `break` in
token_liq_bankruptcy.rs:268-270 lets their deposit indexes diverge, see `socialize_break_diverges`). -/
def SoloSocial (s : TokenState) : TokenOp → Prop
  | .socialize _ _ _ _ => s.banks.length = 1
  | _ => True

theorem headIndexes_eq {s : TokenState} {di bi : Int} (hne : s.banks ≠ []) (h : CommonIndex di bi s) :
    headIndexes s = (di, bi) := by
  unfold headIndexes
  cases hb : s.banks with
  | nil => exact absurd hb hne
  | cons b r =>
    have := h b (by rw [hb]; exact List.mem_cons_self ..)
    simp [this.1, this.2]

theorem sumOf_exactValue (di bi : Int) (l : List TokenPosition) :
    sumOf (exactValue di bi) l = sumOf posI l * di - sumOf negI l * bi := by
  induction l with
  | nil => simp
  | cons p l ih =>
    simp only [sumOf_cons, ih]
    unfold exactValue posI negI
    ring

theorem claims_eq {s : TokenState} (hi : Inv s) (di bi : Int) :
    claims di bi s = sumOf indexedDeposits s.banks * di - sumOf indexedBorrows s.banks * bi
      + sumOf feesAndDust s.banks := by
  unfold claims; rw [sumOf_exactValue, hi.deposits, hi.borrows]

theorem step_solvent {s s' : TokenState} {op : TokenOp} {di bi σ : Int} (hi : Inv s)
    (hc : CommonIndex di bi s) (hcl : claims di bi s ≤ s.vault * S + σ)
    (hso : SocialOk s op) (hsolo : SoloSocial s op) (h : step s op = .ok s') :
    ∃ di' bi', CommonIndex di' bi' s' ∧ claims di' bi' s' ≤ s'.vault * S + (σ + stepSlack s op) := by
  have hinv' := step_inv hi hso h
  have hhead := headIndexes_eq hi.nonempty hc
  have hS := S_pos
  cases op with
  | «open» =>
    simp only [step, ok_inj] at h
    subst h
    refine ⟨di, bi, hc, ?_⟩
    have : claims di bi { s with positions := s.positions ++ [{}] } = claims di bi s := by
      unfold claims; simp [exactValue, posPart, negPart]
    rw [this]; unfold stepSlack; dsimp only; omega
  | setInUse i n =>
    simp only [step, bind_ok, ok_inj] at h
    obtain ⟨p, hp, rfl⟩ := h
    have hp := getPos_ok hp
    refine ⟨di, bi, hc, ?_⟩
    have : claims di bi { s with positions := s.positions.set i { p with inUseCount := n } } = claims di bi s := by
      unfold claims; dsimp only; rw [sumOf_set _ hp]; unfold exactValue; dsimp only; omega
    rw [this]; unfold stepSlack; dsimp only; omega
  | pos op k i close now =>
    simp only [step, bind_ok, ok_inj] at h
    obtain ⟨b, hb, p, hp, ⟨b', p', active⟩, hrun, p'', hclose, rfl⟩ := h
    have hb := getBank_ok hb
    have hp := getPos_ok hp
    have hgood := hi.good b (List.mem_of_getElem? hb)
    have hcb := hc b (List.mem_of_getElem? hb)
    have e := PosOp.effect hgood.1 hgood.2.2.2 hrun
    have hpi := closeIf_ok hclose e.closed
    dsimp only at hpi
    refine ⟨di, bi, ?_, ?_⟩
    · exact forall_set hc (by rw [e.depositIndex, e.borrowIndex]; exact hcb)
    · have u := e.upper
      rw [hcb.1, hcb.2] at u
      unfold claims at hcl ⊢
      dsimp only
      rw [sumOf_set _ hp, sumOf_set _ hb, exactValue_congr hpi]
      unfold stepSlack
      rw [hhead]
      dsimp only
      have : (s.vault + op.inflow) * S = s.vault * S + op.inflow * S := by ring
      omega
  | transfer k i j sa ta now price =>
    simp only [step, bind_ok, ok_inj, require_ok] at h
    obtain ⟨_, hij, b, hb, ps, hps, pt, hpt, ⟨b', ps', pt', r⟩, hrun, rfl⟩ := h
    have hb := getBank_ok hb
    have hps := getPos_ok hps
    have hpt := getPos_ok hpt
    have hgood := hi.good b (List.mem_of_getElem? hb)
    have hcb := hc b (List.mem_of_getElem? hb)
    obtain ⟨b1, e1, e2, _, _⟩ := checkedTransfer_effects hgood.1 hgood.2 hrun
    have hpt' : (s.positions.set i ps')[j]? = some pt := by rw [List.getElem?_set_ne hij]; exact hpt
    refine ⟨di, bi, ?_, ?_⟩
    · exact forall_set hc (by rw [e2.depositIndex, e2.borrowIndex, e1.depositIndex, e1.borrowIndex]; exact hcb)
    · have u1 := e1.upper
      have u2 := e2.upper
      rw [e1.depositIndex, e1.borrowIndex, hcb.1, hcb.2] at u2
      rw [hcb.1, hcb.2] at u1
      unfold claims at hcl ⊢
      dsimp only
      rw [sumOf_set _ hpt', sumOf_set _ hps, sumOf_set _ hb]
      unfold stepSlack
      rw [hhead]
      dsimp only
      have : (s.vault + (ta - sa)) * S = s.vault * S + ta * S - sa * S := by ring
      have : -sa * S = -(sa * S) := by ring
      omega
  | updateIndex now st sc =>
    have h0 := h
    simp only [step, bind_ok, ok_inj, require_ok] at h
    obtain ⟨_, hsc, bs, hup, rfl⟩ := h
    obtain ⟨b0, rest, el, di', bi', fees, br, dr, avg, done, f, hl, hel, hel', hci, hf, rfl⟩ :=
      updateIndexAndRate_ok hup
    have hgood0 := hi.good b0 (by rw [hl]; exact List.mem_cons_self ..)
    have hcb := hc b0 (by rw [hl]; exact List.mem_cons_self ..)
    have hdt0 : 0 ≤ Fx.ofInt (min el 3600) := by
      unfold Fx.ofInt; exact Int.mul_nonneg (by omega) (by decide)
    have hdt1 : Fx.ofInt (min el 3600) ≤ 3600 * S := by
      unfold Fx.ofInt; exact Int.mul_le_mul_of_nonneg_right (by omega) (by decide)
    have hbal := computeIndex_balance hgood0.2 hgood0.1 (inv_D_nonneg hi) (inv_B_nonneg hi) hdt0 hdt1 hci
    refine ⟨di', bi', ?_, ?_⟩
    · intro b hb
      simp only [List.mem_map] at hb
      obtain ⟨b1, hb1, rfl⟩ := hb
      have ff := applyIndex_fields (di := di') (bi := bi') (avg := avg) (st := st) (done := done) (b := b1) hf
      exact ⟨ff.1, ff.2.1⟩
    · rw [claims_eq hi] at hcl
      rw [claims_eq hinv']
      have hslack : stepSlack s (.updateIndex now st sc) = 2 * sumOf indexedBorrows s.banks + br := by
        unfold stepSlack
        subst hel'
        rw [hl] at hci ⊢
        dsimp only
        rw [hci]
      rw [hslack]
      dsimp only
      rw [sumOf_map, sumOf_map, sumOf_map]
      rw [sumOf_congr (g := indexedDeposits)
        (fun x _ => (applyIndex_fields (di := di') (bi := bi') (avg := avg) (st := st) (done := done) (b := x) hf).2.2.1)]
      rw [sumOf_congr (g := indexedBorrows)
        (fun x _ => (applyIndex_fields (di := di') (bi := bi') (avg := avg) (st := st) (done := done) (b := x) hf).2.2.2.1)]
      rw [sumOf_congr (g := feesAndDust)
        (fun x _ => (applyIndex_fields (di := di') (bi := bi') (avg := avg) (st := st) (done := done) (b := x) hf).2.2.2.2.1)]
      rw [hcb.1, hcb.2] at hbal
      rw [hl] at hbal hcl ⊢
      simp only [sumOf_cons] at hbal hcl ⊢
      have hfee : feesAndDust { b0 with collectedFeesNative := b0.collectedFeesNative + fees }
          = feesAndDust b0 + fees * S := by unfold feesAndDust; ring
      rw [hfee]
      generalize b0.indexedDeposits + sumOf indexedDeposits rest = D at *
      generalize b0.indexedBorrows + sumOf indexedBorrows rest = B at *
      have e1 : (di' - di) * D = D * di' - D * di := by ring
      have e2 : (bi' - bi) * B = B * bi' - B * bi := by ring
      omega
  | edit cfg reset =>
    simp only [step, bind_ok, ok_inj] at h
    obtain ⟨_, hv, rfl⟩ := h
    refine ⟨di, bi, ?_, ?_⟩
    · intro b hb
      simp only [List.mem_map] at hb
      obtain ⟨b1, hb1, rfl⟩ := hb
      exact hc b1 hb1
    · have : claims di bi { s with banks := s.banks.map (editConfig cfg reset) } = claims di bi s := by
        unfold claims; dsimp only; rw [sumOf_map]; rfl
      rw [this]; unfold stepSlack; dsimp only; omega
  | addBank =>
    simp only [step, bind_ok, ok_inj] at h
    obtain ⟨b, hb, rfl⟩ := h
    have hb := getBank_ok hb
    refine ⟨di, bi, ?_, ?_⟩
    · intro x hx
      rcases List.mem_append.mp hx with hx | hx
      · exact hc x hx
      · simp only [List.mem_singleton] at hx; subst hx
        exact hc b (List.mem_of_getElem? hb)
    · have : claims di bi { s with banks := s.banks ++ [fromExistingBank b] } = claims di bi s := by
        unfold claims; dsimp only; rw [sumOf_append]; simp [fromExistingBank, feesAndDust]
      rw [this]; unfold stepSlack; dsimp only; omega
  | withdrawFees k v =>
    simp only [step, bind_ok, ok_inj] at h
    obtain ⟨b, hb, ⟨b', amt⟩, hw, rfl⟩ := h
    have hb := getBank_ok hb
    simp only [withdrawFees, bind_ok, floor_ok, cku64_ok, ok_inj, Prod.mk.injEq] at hw
    obtain ⟨f, _, u, _, fees, _, w, ⟨rfl, _⟩, rfl, rfl⟩ := hw
    refine ⟨di, bi, forall_set hc (hc b (List.mem_of_getElem? hb)), ?_⟩
    unfold claims at hcl ⊢
    dsimp only
    rw [sumOf_set _ hb]
    unfold stepSlack feesAndDust
    dsimp only
    generalize min fees v = a at *
    have e1 : (b.dust + b.collectedFeesNative - (b.feesWithdrawn + a) * S) * S =
      (b.dust + b.collectedFeesNative - b.feesWithdrawn * S) * S - a * S * S := by ring
    have e2 : (s.vault - a * S) * S = s.vault * S - a * S * S := by ring
    unfold feesAndDust at hcl
    rw [e1, e2]; omega
  | collect k fee =>
    simp only [step, bind_ok, ok_inj, add_ok] at h
    obtain ⟨b, hb, cf, ⟨rfl, _⟩, rfl⟩ := h
    have hb := getBank_ok hb
    refine ⟨di, bi, forall_set hc (hc b (List.mem_of_getElem? hb)), ?_⟩
    unfold claims at hcl ⊢
    dsimp only
    rw [sumOf_set _ hb]
    unfold stepSlack feesAndDust
    dsimp only
    have e1 : (b.dust + (b.collectedFeesNative + fee) - b.feesWithdrawn * S) * S =
      (b.dust + b.collectedFeesNative - b.feesWithdrawn * S) * S + fee * S := by ring
    have e2 : (s.vault + fee) * S = s.vault * S + fee * S := by ring
    unfold feesAndDust at hcl
    rw [e1, e2]; omega
  | socialize k i loss now =>
    have hsolo' : s.banks.length = 1 := hsolo
    simp only [step, bind_ok, ok_inj, require_ok] at h
    obtain ⟨_, hloss, b0, hb0, p, hp, ⟨bs, p'⟩, hs, rfl⟩ := h
    have hp := getPos_ok hp
    have hb0 := getBank_ok hb0
    obtain ⟨hne, hcl', hz⟩ := socializeLoss_ok hs
    have hl : s.banks = [b0] := by
      obtain ⟨x, hx⟩ := List.length_eq_one_iff.mp hsolo'
      rw [hx] at hb0 ⊢
      cases k with
      | zero => simp at hb0; rw [hb0]
      | succ k => simp at hb0
    have hgood0 := hi.good b0 (by rw [hl]; exact List.mem_cons_self ..)
    have hcb := hc b0 (by rw [hl]; exact List.mem_cons_self ..)
    have hni := socialize_newIndex_pos (inv_D_nonneg hi) hloss (hso b0 hb0)
    have t := tdiv_bounds (a := loss * S) (b := sumOf indexedDeposits s.banks)
      (Int.mul_nonneg (Int.le_of_lt hloss) hS.le) hni.1
    generalize hq : Int.tdiv (loss * S) (sumOf indexedDeposits s.banks) = q at *
    generalize hnn : b0.depositIndex - q = ni at *
    rw [hl] at hcl'
    simp only [creditLoop, bind_ok] at hcl'
    obtain ⟨nb, hnb, hcl'⟩ := hcl'
    have hb0' : ({ b0 with depositIndex := ni } : Bank).Pos := ⟨hni.2, hgood0.1.2⟩
    have g1 : ({ b0 with depositIndex := ni } : Bank).depositIndex = ni := rfl
    have g2 : ({ b0 with depositIndex := ni } : Bank).borrowIndex = b0.borrowIndex := rfl
    have g3 : ({ b0 with depositIndex := ni } : Bank).indexedDeposits = b0.indexedDeposits := rfl
    have g4 : ({ b0 with depositIndex := ni } : Bank).indexedBorrows = b0.indexedBorrows := rfl
    have g5 : feesAndDust { b0 with depositIndex := ni } = feesAndDust b0 := rfl
    generalize ({ b0 with depositIndex := ni } : Bank) = b1 at *
    have hfin : ∃ b2 amt a, 0 ≤ amt ∧ amt ≤ loss ∧ bs = [b2] ∧ b2.depositIndex = b1.depositIndex ∧
        b2.borrowIndex = b1.borrowIndex ∧
        exactValue ni bi p' + feesAndDust b2 ≤ exactValue ni bi p + feesAndDust b1 + amt * S + a ∧
        a ≤ ni + bi ∧
        b2.indexedDeposits - posPart p'.indexed = b1.indexedDeposits - posPart p.indexed ∧
        b2.indexedBorrows - negPart p'.indexed = b1.indexedBorrows - negPart p.indexed := by
      have hbi : b1.borrowIndex = bi := by rw [g2]; exact hcb.2
      split at hcl'
      · next hamt =>
        simp only [bind_ok, sub_ok] at hcl'
        obtain ⟨⟨b2, p2, r⟩, h1, tc, ⟨rfl, _⟩, hcl'⟩ := hcl'
        have e := depositWithDusting_effect hb0' h1
        have u := e.upper
        rw [g1, hbi] at u
        dsimp only at hcl'
        refine ⟨b2, min loss nb, ni + bi, by omega, by omega, ?_, e.depositIndex, e.borrowIndex, ?_, by omega, ?_, ?_⟩
        · split at hcl'
          · simp only [ok_inj, Prod.mk.injEq] at hcl'; exact hcl'.1.symm
          · simp only [bind_ok, ok_inj, Prod.mk.injEq] at hcl'
            obtain ⟨⟨l3, p3⟩, ⟨h3, h3'⟩, h4, h5⟩ := hcl'
            exact h4.symm
        · have : p' = p2 := by
            split at hcl'
            · simp only [ok_inj, Prod.mk.injEq] at hcl'; exact hcl'.2.symm
            · simp only [bind_ok, ok_inj, Prod.mk.injEq] at hcl'
              obtain ⟨⟨l3, p3⟩, ⟨h3, h3'⟩, h4, h5⟩ := hcl'
              exact h5.symm
          subst this; omega
        · have : p' = p2 := by
            split at hcl'
            · simp only [ok_inj, Prod.mk.injEq] at hcl'; exact hcl'.2.symm
            · simp only [bind_ok, ok_inj, Prod.mk.injEq] at hcl'
              obtain ⟨⟨l3, p3⟩, ⟨h3, h3'⟩, h4, h5⟩ := hcl'
              exact h5.symm
          subst this; exact e.deposits
        · have : p' = p2 := by
            split at hcl'
            · simp only [ok_inj, Prod.mk.injEq] at hcl'; exact hcl'.2.symm
            · simp only [bind_ok, ok_inj, Prod.mk.injEq] at hcl'
              obtain ⟨⟨l3, p3⟩, ⟨h3, h3'⟩, h4, h5⟩ := hcl'
              exact h5.symm
          subst this; exact e.borrows
      · simp only [bind_ok, ok_inj, Prod.mk.injEq] at hcl'
        obtain ⟨⟨l3, p3⟩, h3, h4, h5⟩ := hcl'
        cases h3
        dsimp only at h4 h5
        subst h5
        have := hni.2
        have := hgood0.1.2
        refine ⟨b1, 0, 0, le_refl _, Int.le_of_lt hloss, h4.symm, rfl, rfl, by omega, by omega, rfl, rfl⟩
    obtain ⟨b2, amt, a, ha0, ha1, rfl, hd1, hd2, hu, haa, hu1, hu2⟩ := hfin
    refine ⟨ni, bi, ?_, ?_⟩
    · intro b hb
      simp only [List.mem_singleton] at hb
      subst hb
      exact ⟨hd1.trans g1, (hd2.trans g2).trans hcb.2⟩
    · rw [claims_eq hi] at hcl
      unfold claims
      dsimp only
      rw [sumOf_set _ hp, sumOf_exactValue, ← hi.deposits, ← hi.borrows]
      unfold stepSlack
      rw [hhead]
      dsimp only
      rw [hl] at hcl t hq ⊢
      simp only [sumOf_cons, sumOf_nil, Int.add_zero] at hcl t hq ⊢
      have e1 : b0.indexedDeposits * ni = b0.indexedDeposits * di - b0.indexedDeposits * q := by
        rw [← hnn, hcb.1]; ring
      have e2 : b0.indexedDeposits * q = q * b0.indexedDeposits := by ring
      have h1 : amt * S ≤ loss * S := Int.mul_le_mul_of_nonneg_right ha1 hS.le
      have h2 : q * b0.indexedDeposits > loss * S - b0.indexedDeposits := by
        have := t.2.1; linarith
      have hdi0 := hgood0.1.1
      have : ni ≤ di := by
        rw [← hnn, hcb.1]; have := t.2.2; omega
      rw [g5] at hu
      omega

end Bank
end Mango
