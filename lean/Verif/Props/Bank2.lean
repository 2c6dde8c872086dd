import Verif.Props.Bank
/-! # Property theorems: limits, transfers, interest, weights, loss socialization (C06 - C12) -/
namespace Mango
namespace Bank
open Fx

/-! ## C06 -/

/-- Native deposits of the bank, without overflow. -/
def depositsOf (b : Bank) : Int := b.depositIndex * b.indexedDeposits / S

/-- C06: a passed check means deposits plus potential open-orders deposits are within the limit. -/
theorem C06_check_sound {b : Bank} (h : b.checkDepositAndOoLimit = .ok ()) (hl : b.depositLimit ≠ 0) :
    depositsOf b + b.potentialSerumTokens * S ≤ b.depositLimit * S := by
  unfold checkDepositAndOoLimit at h
  rw [if_neg hl] at h
  simp only [nativeDeposits, bind_ok, mul_ok, add_ok, sub_ok, ite_ok, err_ok] at h
  obtain ⟨d, ⟨rfl, _⟩, t, ⟨rfl, _⟩, r, ⟨rfl, _⟩, h⟩ := h
  rcases h with ⟨_, h⟩ | ⟨h, _⟩
  · exact h.elim
  · unfold depositsOf; unfold Fx.ofInt at h; omega

/-- C06: a deposit of at most the reported headroom passes the following deposit-limit check, for every position. -/
theorem C06_headroom_is_safe {b b1 : Bank} {p p1 : TokenPosition} {amt room : I80F48} {d a : Bool} {t : Int}
    (hb : b.Pos) (hD : 0 ≤ b.indexedDeposits) (hser : 0 ≤ b.potentialSerumTokens)
    (hlim : b.depositLimit ≤ U64MAX)
    (hroom : b.remainingDepositsUntilLimit = .ok room) (hle : amt ≤ room)
    (hdep : b.depositWrapper p amt d t = .ok (b1, p1, a)) : b1.checkDepositAndOoLimit = .ok () := by
  obtain ⟨q1, h1, e1, _⟩ := depositWrapper_ok hdep
  obtain ⟨ha, hc⟩ := depositInternal_ok hb h1
  have hS := S_pos
  have hdi := hb.1
  -- the bank after the deposit has the same limit and at most the rounded-up deposit more
  have key : b1.depositIndex = b.depositIndex ∧ b1.depositLimit = b.depositLimit ∧
      b1.potentialSerumTokens = b.potentialSerumTokens ∧ b.indexedDeposits ≤ b1.indexedDeposits ∧
      b.depositIndex * b1.indexedDeposits < b.depositIndex * (b.indexedDeposits + 1) + amt * S := by
    have e0 : b.depositIndex * (b.indexedDeposits + 1) = b.depositIndex * b.indexedDeposits + b.depositIndex := by ring
    have ham : 0 ≤ amt * S := Int.mul_nonneg ha hS.le
    cases hc with
    | add c hp hc =>
      have hcc := divRoundingUp_ok hc ha hdi
      refine ⟨rfl, rfl, rfl, by dsimp only; omega, ?_⟩
      have e : b.depositIndex * (b.indexedDeposits + c) = b.depositIndex * b.indexedDeposits + c * b.depositIndex := by
        ring
      dsimp only; omega
    | repay c st nb hp hw hc hn => exact ⟨rfl, rfl, rfl, Int.le_refl _, by dsimp only; omega⟩
    | dust c st nb hp hw hc hn hd' hdust => exact ⟨rfl, rfl, rfl, Int.le_refl _, by dsimp only; omega⟩
    | cross c d st nb hp hw hc hn hd' =>
      have hm : 0 ≤ max (p.indexed * b.borrowIndex / S + amt) 0 := by omega
      have hdd := divRoundingUp_ok hd' hm hdi
      have hneg : p.indexed * b.borrowIndex / S < 0 := floor_neg (Int.mul_neg_of_neg_of_pos hp hb.2)
      have hle : max (p.indexed * b.borrowIndex / S + amt) 0 * S ≤ amt * S :=
        Int.mul_le_mul_of_nonneg_right (by omega) hS.le
      refine ⟨rfl, rfl, rfl, by dsimp only; omega, ?_⟩
      have e : b.depositIndex * (b.indexedDeposits + d) = b.depositIndex * b.indexedDeposits + d * b.depositIndex := by
        ring
      dsimp only; omega
  obtain ⟨k1, k2, k3, k4, k5⟩ := key
  unfold checkDepositAndOoLimit
  rw [k2, k3]
  unfold remainingDepositsUntilLimit at hroom
  by_cases hl : b.depositLimit = 0
  · rw [if_pos hl]
  rw [if_neg hl] at hroom ⊢
  simp only [bind_ok, mul_ok, add_ok, sub_ok] at hroom
  obtain ⟨i, ⟨rfl, _⟩, dd, ⟨rfl, _⟩, tt, ⟨rfl, _⟩, rfl, _⟩ := hroom
  unfold Fx.DELTA at *
  have m := mulFloor_bounds (b.depositIndex * (b.indexedDeposits + 1))
  have hx : b1.depositIndex * b1.indexedDeposits / S ≤ b.depositIndex * (b.indexedDeposits + 1) / S + amt := by
    rw [k1]
    have : b.depositIndex * b1.indexedDeposits / S < b.depositIndex * (b.indexedDeposits + 1) / S + amt + 1 := by
      rw [floor_le_iff]
      have : (b.depositIndex * (b.indexedDeposits + 1) / S + amt + 1) * S =
        b.depositIndex * (b.indexedDeposits + 1) / S * S + amt * S + S := by ring
      omega
    omega
  have hx0 : 0 ≤ b1.depositIndex * b1.indexedDeposits / S := by
    rw [k1]; exact floor_nonneg (Int.mul_nonneg hdi.le (by omega))
  have hsS : 0 ≤ b.potentialSerumTokens * S := Int.mul_nonneg hser hS.le
  have hlS : b.depositLimit * S ≤ U64MAX * S := Int.mul_le_mul_of_nonneg_right hlim hS.le
  unfold Fx.ofInt at *
  have hbig : U64MAX * S ≤ I128MAX := by decide
  have hmin : I128MIN ≤ 0 := by decide
  have hmul : b1.nativeDeposits = .ok (b1.depositIndex * b1.indexedDeposits / S) := by
    unfold nativeDeposits; rw [mul_ok]; exact ⟨rfl, by unfold inRange; omega⟩
  rw [hmul]
  generalize b1.depositIndex * b1.indexedDeposits / S = x at *
  have hadd : Fx.add x (b.potentialSerumTokens * S) = .ok (x + b.potentialSerumTokens * S) := by
    rw [add_ok]; exact ⟨rfl, by unfold inRange; omega⟩
  have hsub : Fx.sub (b.depositLimit * S) (x + b.potentialSerumTokens * S)
      = .ok (b.depositLimit * S - (x + b.potentialSerumTokens * S)) := by
    rw [sub_ok]; exact ⟨rfl, by unfold inRange; omega⟩
  simp only [bind_ok, ite_ok, err_ok]
  exact ⟨_, rfl, _, hadd, _, hsub, Or.inr ⟨by omega, trivial⟩⟩

example : ∃ room b1 p1 a, exBank.remainingDepositsUntilLimit = .ok room ∧ 0 < room ∧
    exBank.depositWrapper { indexed := 3 } room true 5 = .ok (b1, p1, a) ∧ b1.indexedDeposits ≠ exBank.indexedDeposits :=
  ⟨_, _, _, _, rfl, by decide, rfl, by decide⟩


/-! ## C07 -/

/-- C07: a transfer between two positions.  Value: the exact value of the source falls by the source amount (plus the
origination fee it owes, which the bank collects) and the target's rises by the target amount, up to index rounding
(`Effect`, in terms of `exactValue` and `feesAndDust`).  Restrictions: with borrows reduce-only the source does not
end as a borrower; with deposits reduce-only the target does not end as a depositor; if total borrows rose, the net
borrow limit holds; if total deposits rose, the deposit limit holds. -/
theorem C07_transfer {b b' : Bank} {ps ps' pt pt' : TokenPosition} {sa ta price : I80F48} {t : Int}
    {r : TransferResult} (hb : b.Pos) (hr : b.RatesOk)
    (h : b.checkedTransferWithFee ps sa pt ta t price = .ok (b', ps', pt', r)) :
    -- value moved
    (∃ b1, Effect b ps (-sa) b1 ps' r.sourceIsActive ∧ Effect b1 pt ta b' pt' r.targetIsActive) ∧
    -- reduce-only
    (b.reduceOnly = 1 ∨ b.reduceOnly = 2 → sa ≠ 0 → 0 ≤ ps'.indexed) ∧
    (b.reduceOnly = 1 → ta ≠ 0 → pt'.indexed ≤ 0) ∧
    -- limits
    (b.indexedBorrows + 1 < b'.indexedBorrows → b'.checkNetBorrows price = .ok ()) ∧
    (b.indexedDeposits + 1 < b'.indexedDeposits → b'.checkDepositAndOoLimit = .ok ()) := by
  have hro : ∀ {x y : Bank} {p q : TokenPosition} {amt : I80F48} {wf d : Bool} {t : Int} {w : WithdrawResult},
      x.Pos → x.withdrawWrapper p amt wf d t = .ok (y, q, w) → y.reduceOnly = x.reduceOnly := by
    intro x y p q amt wf d t w hx h
    obtain ⟨q1, h1, _, _⟩ := withdrawWrapper_ok h
    cases (withdrawInternal_ok hx h1).2 <;> rfl
  have hro2 : ∀ {x y : Bank} {p q : TokenPosition} {amt : I80F48} {d a : Bool} {t : Int},
      x.Pos → x.depositWrapper p amt d t = .ok (y, q, a) → y.reduceOnly = x.reduceOnly := by
    intro x y p q amt d a t hx h
    obtain ⟨q1, h1, _, _⟩ := depositWrapper_ok h
    cases (depositInternal_ok hx h1).2 <;> rfl
  obtain ⟨b1, e1, e2, h1, h2⟩ := checkedTransfer_effects hb hr h
  have hb1 := e1.pos hb
  have hsrc : b1.reduceOnly = b.reduceOnly ∧ (b.reduceOnly = 1 ∨ b.reduceOnly = 2 → sa ≠ 0 → 0 ≤ ps'.indexed) := by
    unfold transferSource at h1
    split at h1
    · simp only [bind_ok, ok_inj, require_ok, Prod.mk.injEq] at h1
      obtain ⟨⟨x, y, w⟩, hw, _, hreq, rfl, rfl, rfl⟩ := h1
      have hx := hro hb hw
      refine ⟨hx, fun hor _ => ?_⟩
      rcases hreq with h | h
      · exact h
      · exfalso; apply h; dsimp only; unfold areBorrowsReduceOnly; rw [hx]; rcases hor with h | h <;> simp [h]
    · next h0 =>
      simp only [ok_inj, Prod.mk.injEq] at h1
      obtain ⟨rfl, rfl, _⟩ := h1
      exact ⟨rfl, fun _ h => absurd h (by simpa using h0)⟩
  have htgt : b.reduceOnly = 1 → ta ≠ 0 → pt'.indexed ≤ 0 := by
    unfold transferTarget at h2
    split at h2
    · simp only [bind_ok, ok_inj, require_ok, Prod.mk.injEq] at h2
      obtain ⟨⟨x, y, w⟩, hw, _, hreq, rfl, rfl, rfl⟩ := h2
      have hx := hro2 hb1 hw
      intro hor _
      rcases hreq with h | h
      · exact h
      · exfalso; apply h; dsimp only; unfold areDepositsReduceOnly; rw [hx, hsrc.1]; simp [hor]
    · next h0 => exact fun _ h => absurd h (by simpa using h0)
  refine ⟨⟨b1, e1, e2⟩, hsrc.2, htgt, ?_, ?_⟩
  · unfold checkedTransferWithFee at h
    simp only [bind_ok, ok_inj, add_ok, Prod.mk.injEq] at h
    obtain ⟨x1, _, x2, _, lb, ⟨rfl, _⟩, u1, hc, ld, ⟨rfl, _⟩, u2, _, rfl, _⟩ := h
    intro hlt
    rw [if_pos (by unfold Fx.DELTA; omega)] at hc
    cases u1; exact hc
  · unfold checkedTransferWithFee at h
    simp only [bind_ok, ok_inj, add_ok, Prod.mk.injEq] at h
    obtain ⟨x1, _, x2, _, lb, ⟨rfl, _⟩, u1, hc, ld, ⟨rfl, _⟩, u2, hc2, rfl, _⟩ := h
    intro hlt
    rw [if_pos (by unfold Fx.DELTA; omega)] at hc2
    cases u2; exact hc2

example : ∃ b' ps' pt' r, exBank.checkedTransferWithFee { indexed := 50 } (3 * S) { indexed := -70000000 } (3 * S) 86500 S
    = .ok (b', ps', pt', r) ∧ ps'.indexed < 0 ∧ exBank.indexedBorrows + 1 < b'.indexedBorrows ∧ exBank.RatesOk := by
  refine ⟨_, _, _, _, rfl, by decide, by decide, RatesOk.of_verify exBank_verify⟩

/-! ## C08, C09 -/

/-- C08: one index computation never lowers an index, for every verified configuration, every totals and every
elapsed time. -/
theorem C08_compute_index_mono {b : Bank} {D B dt di bi fees br dr : I80F48} (hv : b.verify = .ok ())
    (hb : b.Pos) (hdt : 0 ≤ dt) (h : b.computeIndex D B dt = .ok (di, bi, fees, br, dr)) :
    b.depositIndex ≤ di ∧ b.borrowIndex ≤ bi :=
  computeIndex_mono (RatesOk.of_verify hv) hb hdt h

/-- the borrow and deposit index of bank `k` -/
def indexesAt (s : TokenState) (k : Nat) : Option (Int × Int) := (s.banks[k]?).map (fun b => (b.depositIndex, b.borrowIndex))

theorem step_indexes {s s' : TokenState} {op : TokenOp} {di bi : Int} (hi : Inv s) (hc : CommonIndex di bi s)
    (hns : ∀ k i l t, op ≠ .socialize k i l t) (h : step s op = .ok s') :
    ∃ di' bi', CommonIndex di' bi' s' ∧ di ≤ di' ∧ bi ≤ bi' := by
  have hS := S_pos
  cases op with
  | «open» =>
    simp only [step, ok_inj] at h; subst h
    exact ⟨di, bi, hc, Int.le_refl _, Int.le_refl _⟩
  | setInUse i n =>
    simp only [step, bind_ok, ok_inj] at h
    obtain ⟨p, hp, rfl⟩ := h
    exact ⟨di, bi, hc, Int.le_refl _, Int.le_refl _⟩
  | pos op k i close now =>
    simp only [step, bind_ok, ok_inj] at h
    obtain ⟨b, hb, p, hp, ⟨b', p', active⟩, hrun, p'', hclose, rfl⟩ := h
    have hb := getBank_ok hb
    have hgood := hi.good b (List.mem_of_getElem? hb)
    have e := PosOp.effect hgood.1 hgood.2.2.2 hrun
    exact ⟨di, bi, forall_set hc (by rw [e.depositIndex, e.borrowIndex]; exact hc b (List.mem_of_getElem? hb)),
      Int.le_refl _, Int.le_refl _⟩
  | transfer k i j sa ta now price =>
    simp only [step, bind_ok, ok_inj, require_ok] at h
    obtain ⟨_, hij, b, hb, ps, hps, pt, hpt, ⟨b', ps', pt', r⟩, hrun, rfl⟩ := h
    have hb := getBank_ok hb
    have hgood := hi.good b (List.mem_of_getElem? hb)
    obtain ⟨b1, e1, e2, _, _⟩ := checkedTransfer_effects hgood.1 hgood.2 hrun
    exact ⟨di, bi, forall_set hc (by
      rw [e2.depositIndex, e2.borrowIndex, e1.depositIndex, e1.borrowIndex]
      exact hc b (List.mem_of_getElem? hb)), Int.le_refl _, Int.le_refl _⟩
  | updateIndex now st sc =>
    simp only [step, bind_ok, ok_inj, require_ok] at h
    obtain ⟨_, hsc, bs, hup, rfl⟩ := h
    obtain ⟨b0, rest, el, di', bi', fees, br, dr, avg, done, f, hl, hel, hel', hci, hf, rfl⟩ :=
      updateIndexAndRate_ok hup
    have hgood0 := hi.good b0 (by rw [hl]; exact List.mem_cons_self ..)
    have hcb := hc b0 (by rw [hl]; exact List.mem_cons_self ..)
    have hm := computeIndex_mono hgood0.2 hgood0.1
      (by unfold Fx.ofInt; exact Int.mul_nonneg (by omega) (by decide)) hci
    refine ⟨di', bi', ?_, by rw [← hcb.1]; exact hm.1, by rw [← hcb.2]; exact hm.2⟩
    intro b hb
    simp only [List.mem_map] at hb
    obtain ⟨b1, hb1, rfl⟩ := hb
    have ff := applyIndex_fields (di := di') (bi := bi') (avg := avg) (st := st) (done := done) (b := b1) hf
    exact ⟨ff.1, ff.2.1⟩
  | edit cfg reset =>
    simp only [step, bind_ok, ok_inj] at h
    obtain ⟨_, hv, rfl⟩ := h
    refine ⟨di, bi, ?_, Int.le_refl _, Int.le_refl _⟩
    intro b hb
    simp only [List.mem_map] at hb
    obtain ⟨b1, hb1, rfl⟩ := hb
    exact hc b1 hb1
  | addBank =>
    simp only [step, bind_ok, ok_inj] at h
    obtain ⟨b, hb, rfl⟩ := h
    have hb := getBank_ok hb
    refine ⟨di, bi, ?_, Int.le_refl _, Int.le_refl _⟩
    intro x hx
    rcases List.mem_append.mp hx with hx | hx
    · exact hc x hx
    · simp only [List.mem_singleton] at hx; subst hx
      exact hc b (List.mem_of_getElem? hb)
  | withdrawFees k v =>
    simp only [step, bind_ok, ok_inj] at h
    obtain ⟨b, hb, ⟨b', amt⟩, hw, rfl⟩ := h
    have hb := getBank_ok hb
    simp only [withdrawFees, bind_ok, floor_ok, cku64_ok, ok_inj, Prod.mk.injEq] at hw
    obtain ⟨f, _, u, _, fees, _, w, _, rfl, rfl⟩ := hw
    exact ⟨di, bi, forall_set hc (hc b (List.mem_of_getElem? hb)), Int.le_refl _, Int.le_refl _⟩
  | collect k fee =>
    simp only [step, bind_ok, ok_inj, add_ok] at h
    obtain ⟨b, hb, cf, ⟨rfl, _⟩, rfl⟩ := h
    have hb := getBank_ok hb
    exact ⟨di, bi, forall_set hc (hc b (List.mem_of_getElem? hb)), Int.le_refl _, Int.le_refl _⟩
  | socialize k i loss now => exact absurd rfl (hns _ _ _ _)

/-- C08 along histories: from any state of any history in which the banks share their indexes, every further sequence
of operations other than loss socialization keeps them shared and never lowers the deposit or the borrow index. -/
theorem C08_history_mono {cfg : Bank} {s s' : TokenState} {ops : List TokenOp} {di bi : Int} (h : History cfg s)
    (hc : ∀ b ∈ s.banks, b.depositIndex = di ∧ b.borrowIndex = bi)
    (hno : ∀ op ∈ ops, ∀ k i l t, op ≠ .socialize k i l t) (hr : runOps s ops = .ok s') :
    ∃ di' bi', (∀ b ∈ s'.banks, b.depositIndex = di' ∧ b.borrowIndex = bi') ∧ di ≤ di' ∧ bi ≤ bi' := by
  induction ops generalizing s di bi with
  | nil => rw [runOps, ok_inj] at hr; subst hr; exact ⟨di, bi, hc, Int.le_refl _, Int.le_refl _⟩
  | cons op ops ih =>
    simp only [runOps, bind_ok] at hr
    obtain ⟨s1, h1, h2⟩ := hr
    have hop := hno op (List.mem_cons_self ..)
    obtain ⟨d1, b1, hc1, l1, l2⟩ := step_indexes h.inv hc hop h1
    have hs1 : History cfg s1 := h.step (op := op)
      (by cases op <;> first | trivial | exact absurd rfl (hop _ _ _ _)) h1
    obtain ⟨d2, b2, hc2, l3, l4⟩ := ih hs1 hc1 (fun o ho => hno o (List.mem_cons_of_mem _ ho)) h2
    exact ⟨d2, b2, hc2, by omega, by omega⟩

example : ∃ s, runOps (TokenState.fresh exBank) exOps = .ok s ∧
    ∃ b ∈ s.banks, (1000000 * S < b.borrowIndex ∧ 1000000 * S < b.depositIndex) := by
  have h : (match runOps (TokenState.fresh exBank) exOps with
    | .ok s => s.banks.any (fun b => decide (1000000 * S < b.borrowIndex ∧ 1000000 * S < b.depositIndex))
    | .error _ => false) = true := by decide +kernel
  split at h
  · next s hs =>
    rw [List.any_eq_true] at h
    obtain ⟨b, hb, hd⟩ := h
    exact ⟨s, hs, b, hb, by simpa using hd⟩
  · simp at h

/-- C09: in one index update over at most an hour (the cap in token_update_index_and_rate), what depositors gain plus
what the group collects in fees is at most what borrowers are charged, up to `2*B + borrow rate` bits (`S`-scaled). -/
theorem C09_interest_balance {b : Bank} {D B dt di bi fees br dr : I80F48} (hv : b.verify = .ok ())
    (hb : b.Pos) (hD : 0 ≤ D) (hB : 0 ≤ B) (hdt : 0 ≤ dt) (hdt' : dt ≤ 3600 * S)
    (h : b.computeIndex D B dt = .ok (di, bi, fees, br, dr)) :
    (di - b.depositIndex) * D + fees * S ≤ (bi - b.borrowIndex) * B + 2 * B + br :=
  computeIndex_balance (RatesOk.of_verify hv) hb hD hB hdt hdt' h

example : ∃ di bi fees br dr, exBank.computeIndex (5 * S) (2 * S) (3600 * S) = .ok (di, bi, fees, br, dr) ∧
    exBank.depositIndex < di ∧ 0 < fees := ⟨_, _, _, _, _, rfl, by decide +kernel, by decide +kernel⟩

/-! ## C10 -/

/-- the rate as a function of utilization, for a bank -/
abbrev RateAt (b : Bank) (u r : I80F48) : Prop := b.computeInterestRate u = .ok r

theorem unscaled_mono {u u' z u0 r0 u1 r1 m v v' : I80F48} (hu : 0 ≤ u) (huu : u ≤ u') (hu' : u' ≤ S)
    (h0 : 0 ≤ u0) (hz : z ≤ r0) (h01 : r0 ≤ r1) (h1m : r1 ≤ m)
    (h : interestRateCurveUnscaled u z u0 r0 u1 r1 m = .ok v)
    (h' : interestRateCurveUnscaled u' z u0 r0 u1 r1 m = .ok v') : v ≤ v' := by
  rcases unscaled_ok h with ⟨a1, a2, rfl⟩ | ⟨a1, a2, rfl⟩ | ⟨a1, a2, a3, rfl⟩
  · have t := segVal_up (r0 := z) (r1 := r0) (by omega) hu a1 hz
    rcases unscaled_ok h' with ⟨c1, c2, rfl⟩ | ⟨c1, c2, rfl⟩ | ⟨c1, c2, c3, rfl⟩
    · exact segVal_mono (by omega) huu hz
    · have := segVal_up (r0 := r0) (r1 := r1) (w := u1 - u0) (x := u' - u0) (by omega) (by omega) (by omega) h01; omega
    · have := segVal_up (r0 := r1) (r1 := m) (w := S - u1) (x := u' - u1) (by omega) (by omega) (by omega) h1m; omega
  · have t := segVal_up (r0 := r0) (r1 := r1) (w := u1 - u0) (x := u - u0) (by omega) (by omega) (by omega) h01
    rcases unscaled_ok h' with ⟨c1, c2, rfl⟩ | ⟨c1, c2, rfl⟩ | ⟨c1, c2, c3, rfl⟩
    · omega
    · exact segVal_mono (by omega) (by omega) h01
    · have := segVal_up (r0 := r1) (r1 := m) (w := S - u1) (x := u' - u1) (by omega) (by omega) (by omega) h1m; omega
  · have t := segVal_up (r0 := r1) (r1 := m) (w := S - u1) (x := u - u1) (by omega) (by omega) (by omega) h1m
    rcases unscaled_ok h' with ⟨c1, c2, rfl⟩ | ⟨c1, c2, rfl⟩ | ⟨c1, c2, c3, rfl⟩
    · omega
    · omega
    · exact segVal_mono (by omega) (by omega) h1m

theorem clamp_mono {u u' : Int} (h : u ≤ u') : min (max u 0) Fx.ONE ≤ min (max u' 0) Fx.ONE := by omega

/-- C10: when the configured rates are ordered, the rate is non-decreasing in utilization. -/
theorem C10_rate_monotone {b : Bank} {u u' r r' : I80F48} (hv : b.verify = .ok ())
    (hord : b.zeroUtilRate ≤ b.rate0 ∧ b.rate0 ≤ b.rate1 ∧ b.rate1 ≤ b.maxRate) (huu : u ≤ u')
    (h : RateAt b u r) (h' : RateAt b u' r') : r ≤ r' := by
  obtain ⟨⟨g1, g2, g3, g4, g5, g6, g7, g8⟩, _⟩ := verify_ok hv
  unfold RateAt computeInterestRate interestRateCurve at h h'
  have hS := S_pos
  have hne : b.curveScaling ≠ 0 := by omega
  simp only [bind_ok, if_neg hne, mul_ok] at h h'
  obtain ⟨v, hv, rfl, _⟩ := h
  obtain ⟨v', hv', rfl, _⟩ := h'
  have := unscaled_mono (clamp01 u).1 (clamp_mono huu) (clamp01 u').2 g1 hord.1 hord.2.1 hord.2.2 hv hv'
  exact floor_mono (Int.mul_le_mul_of_nonneg_right this (by omega))

/-- C10: the rate is between zero and the largest configured rate, times the scaling; at zero utilization it is
exactly the scaled zero-utilization rate. Here the configured rates need not be ordered. -/
theorem C10_rate_bounded {b : Bank} {u r : I80F48} (hv : b.verify = .ok ()) (h : RateAt b u r) :
    0 ≤ r ∧ r * S ≤ max (max b.zeroUtilRate b.rate0) (max b.rate1 b.maxRate) * b.curveScaling ∧
    (u = 0 → r = b.zeroUtilRate * b.curveScaling / S) := by
  obtain ⟨⟨g1, g2, g3, g4, g5, g6, g7, g8⟩, _⟩ := verify_ok hv
  have hnn := computeInterestRate_nonneg (RatesOk.of_verify hv) h
  unfold RateAt computeInterestRate interestRateCurve at h
  have hS := S_pos
  have hne : b.curveScaling ≠ 0 := by omega
  simp only [bind_ok, if_neg hne, mul_ok] at h
  obtain ⟨v, hv, rfl, _⟩ := h
  have hb := unscaled_bounds (lo := 0) (hi := max (max b.zeroUtilRate b.rate0) (max b.rate1 b.maxRate)) hv
    (clamp01 u).1 (clamp01 u).2 g1 ⟨g7, by omega⟩ ⟨g4, by omega⟩ ⟨g5, by omega⟩ ⟨g6, by omega⟩
  refine ⟨hnn, ?_, ?_⟩
  · have h1 := (mulFloor_bounds (v * b.curveScaling)).1
    have h2 := Int.mul_le_mul_of_nonneg_right hb.2 (show 0 ≤ b.curveScaling by omega)
    omega
  · intro hu
    subst hu
    have e : min (max (0:Int) 0) Fx.ONE = 0 := by decide
    rw [e] at hv
    rcases unscaled_ok hv with ⟨a1, a2, rfl⟩ | ⟨a1, a2, rfl⟩ | ⟨a1, a2, a3, rfl⟩
    · rw [segVal_zero]
    · omega
    · omega

/-- segment computations do not overflow for rates up to 2^30 (a hundred billion percent) -/
theorem seg_total {r0 r1 w x : Int} (hw : 0 < w) (hx : 0 ≤ x) (hxw : x ≤ w) (h0 : 0 ≤ r0) (h1 : 0 ≤ r1)
    (h0' : r0 ≤ 1073741824 * S) (h1' : r1 ≤ 1073741824 * S) :
    Fx.sub r1 r0 = .ok (r1 - r0) ∧ Fx.div (r1 - r0) w = .ok (Int.tdiv ((r1 - r0) * S) w) ∧
    Fx.mul (Int.tdiv ((r1 - r0) * S) w) x = .ok (Int.tdiv ((r1 - r0) * S) w * x / S) ∧
    Fx.add r0 (Int.tdiv ((r1 - r0) * S) w * x / S) = .ok (segVal r0 r1 w x) := by
  have hsv : 0 ≤ segVal r0 r1 w x ∧ segVal r0 r1 w x ≤ 1073741824 * S := by
    rcases Int.le_total r0 r1 with h | h
    · have := segVal_up hw hx hxw h; omega
    · have := segVal_down hw hx hxw h; omega
  have hSv : S = 281474976710656 := rfl
  have hMx : I128MAX = 170141183460469231731687303715884105727 := rfl
  have hMn : I128MIN = -170141183460469231731687303715884105728 := rfl
  have hq : -170141183460469231731687303715884105728 ≤ Int.tdiv ((r1 - r0) * S) w ∧
      Int.tdiv ((r1 - r0) * S) w ≤ 170141183460469231731687303715884105727 := by
    have hb1 : -(1073741824 * S * S) ≤ (r1 - r0) * S := by
      have := Int.mul_le_mul_of_nonneg_right (show -(1073741824 * S) ≤ r1 - r0 by omega) S_pos.le
      have e : -(1073741824 * S) * S = -(1073741824 * S * S) := by ring
      omega
    have hb2 : (r1 - r0) * S ≤ 1073741824 * S * S :=
      Int.mul_le_mul_of_nonneg_right (show r1 - r0 ≤ 1073741824 * S by omega) S_pos.le
    have habs : (Int.tdiv ((r1 - r0) * S) w).natAbs ≤ ((r1 - r0) * S).natAbs := by
      rw [Int.natAbs_tdiv]; exact Nat.div_le_self _ _
    rw [hSv] at hb1 hb2 habs ⊢
    omega
  unfold segVal at *
  have n0 : r0 ≤ 1073741824 * 281474976710656 := h0'
  have n1 : r1 ≤ 1073741824 * 281474976710656 := h1'
  have n2 : r0 + Int.tdiv ((r1 - r0) * S) w * x / S ≤ 1073741824 * 281474976710656 := hsv.2
  have n3 := hsv.1
  refine ⟨?_, ?_, ?_, ?_⟩
  · rw [sub_ok]; refine ⟨rfl, ?_⟩; unfold inRange; omega
  · rw [div_ok]; refine ⟨by omega, rfl, ?_⟩; unfold inRange; omega
  · rw [mul_ok]; refine ⟨rfl, ?_⟩; unfold inRange; omega
  · rw [add_ok]; refine ⟨rfl, ?_⟩; unfold inRange; omega

theorem rate_total {b : Bank} (u : I80F48) (hv : b.verify = .ok ()) (h0 : 0 < b.util0 ∨ 0 < u)
    (hz : b.zeroUtilRate ≤ 1073741824 * S) (hr0 : b.rate0 ≤ 1073741824 * S) (hr1 : b.rate1 ≤ 1073741824 * S)
    (hm : b.maxRate ≤ 1073741824 * S) (hs : b.curveScaling ≤ 1099511627776 * S) : ∃ r, RateAt b u r := by
  obtain ⟨⟨g1, g2, g3, g4, g5, g6, g7, g8⟩, _⟩ := verify_ok hv
  have hc := clamp01 u
  have hSv : S = 281474976710656 := rfl
  have hun : ∃ v, interestRateCurveUnscaled (min (max u 0) Fx.ONE) b.zeroUtilRate b.util0 b.rate0 b.util1 b.rate1
      b.maxRate = .ok v := by
    have h0 : 0 < b.util0 ∨ 0 < min (max u 0) Fx.ONE := by
      have : Fx.ONE = S := rfl
      omega
    generalize min (max u 0) Fx.ONE = x at *
    unfold interestRateCurveUnscaled
    split
    · next hx =>
      have t := seg_total (w := b.util0) (x := x) (by omega) hc.1 hx g7 g4 hz hr0
      refine ⟨segVal b.zeroUtilRate b.rate0 b.util0 x, ?_⟩
      simp only [bind_ok]
      exact ⟨_, t.1, _, t.2.1, _, t.2.2.1, t.2.2.2⟩
    · next hx =>
      split
      · next hx1 =>
        have t := seg_total (w := b.util1 - b.util0) (x := x - b.util0) (by omega) (by omega) (by omega) g4 g5 hr0 hr1
        refine ⟨segVal b.rate0 b.rate1 (b.util1 - b.util0) (x - b.util0), ?_⟩
        simp only [bind_ok]
        refine ⟨x - b.util0, ?_, _, t.1, b.util1 - b.util0, ?_, _, t.2.1, _, t.2.2.1, t.2.2.2⟩
        · rw [sub_ok]; refine ⟨rfl, ?_⟩; unfold inRange I128MIN I128MAX; omega
        · rw [sub_ok]; refine ⟨rfl, ?_⟩; unfold inRange I128MIN I128MAX; omega
      · next hx1 =>
        have t := seg_total (w := S - b.util1) (x := x - b.util1) (by omega) (by omega) (by omega) g5 g6 hr1 hm
        refine ⟨segVal b.rate1 b.maxRate (S - b.util1) (x - b.util1), ?_⟩
        simp only [bind_ok]
        refine ⟨x - b.util1, ?_, _, t.1, S - b.util1, ?_, _, t.2.1, _, t.2.2.1, t.2.2.2⟩
        · rw [sub_ok]; refine ⟨rfl, ?_⟩; unfold inRange I128MIN I128MAX; omega
        · unfold Fx.ONE; rw [sub_ok]; refine ⟨rfl, ?_⟩; unfold inRange I128MIN I128MAX; omega
  obtain ⟨v, hv⟩ := hun
  have hb := unscaled_bounds (lo := 0) (hi := 1073741824 * S) hv
    hc.1 hc.2 g1 ⟨g7, hz⟩ ⟨g4, hr0⟩ ⟨g5, hr1⟩ ⟨g6, hm⟩
  refine ⟨v * b.curveScaling / S, ?_⟩
  unfold RateAt computeInterestRate interestRateCurve
  have hne : b.curveScaling ≠ 0 := by omega
  simp only [bind_ok, if_neg hne, mul_ok]
  refine ⟨v, hv, rfl, ?_⟩
  have h1 : v * b.curveScaling ≤ 1073741824 * S * (1099511627776 * S) := by
    have a := Int.mul_le_mul_of_nonneg_right hb.2 (show 0 ≤ b.curveScaling by omega)
    have c := Int.mul_le_mul_of_nonneg_left hs (show 0 ≤ 1073741824 * S by omega)
    omega
  have h0' : 0 ≤ v * b.curveScaling := Int.mul_nonneg hb.1 (by omega)
  have h2 := floor_nonneg h0'
  have h3 : v * b.curveScaling / S ≤ 1073741824 * S * (1099511627776 * S) / S := floor_mono h1
  have h4 : 1073741824 * S * (1099511627776 * S) / S ≤ I128MAX := by decide +kernel
  unfold inRange I128MIN
  omega

/-- C10, totality: with rates up to 2^30 (a hundred billion percent) and scaling up to 2^40, the rate of an accepted bank can be computed
for every utilization, except in one case: the first kink at utilization zero, and utilization zero. -/
theorem C10_rate_total {b : Bank} (u : I80F48) (hv : b.verify = .ok ())
    (hz : b.zeroUtilRate ≤ 1073741824 * S) (hr0 : b.rate0 ≤ 1073741824 * S) (hr1 : b.rate1 ≤ 1073741824 * S)
    (hm : b.maxRate ≤ 1073741824 * S) (hs : b.curveScaling ≤ 1099511627776 * S) :
    (∃ r, RateAt b u r) ↔ ¬ (b.util0 = 0 ∧ u ≤ 0) := by
  obtain ⟨⟨g1, _⟩, _⟩ := verify_ok hv
  constructor
  · rintro ⟨r, h⟩ ⟨e, hu⟩
    unfold RateAt computeInterestRate interestRateCurve interestRateCurveUnscaled at h
    have hx : min (max u 0) Fx.ONE = 0 := by
      have : Fx.ONE = S := rfl
      have := S_pos
      omega
    rw [hx, e] at h
    simp only [bind_ok, div_ok, if_true, le_refl] at h
    obtain ⟨_, ⟨_, _, _, h, _⟩, _⟩ := h
    exact h.1 rfl
  · intro h
    exact rate_total u hv (by omega) hz hr0 hr1 hm hs

/-- Finding for C10: `verify` accepts a first kink at utilization zero, and then the rate at utilization zero (e.g. a
bank without borrows) divides by zero, which aborts the index update of that token. -/
theorem C10_zero_kink_aborts : ∃ b : Bank, b.verify = .ok () ∧ b.Pos ∧
    b.computeInterestRate 0 = .error .panic ∧ b.computeIndex (5 * S) 0 (100 * S) = .error .panic :=
  ⟨{ exBank with util0 := 0, indexedBorrows := 0 }, by decide, by unfold Pos; decide, by decide +kernel, by decide +kernel⟩

example : RateAt exBank (S / 2) (7 * S / 100 + Int.tdiv ((9 * S / 10 - 7 * S / 100) * S) (8 * S / 10 - 4 * S / 10) *
    (S / 2 - 4 * S / 10) / S) := by unfold RateAt; decide +kernel

end Bank
end Mango
