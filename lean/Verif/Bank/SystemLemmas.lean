import Verif.Bank.Effect
import Verif.Bank.Balance
import Verif.ListSum
/-! Invariants of the token system (helpers; the property statements are in Bank/Props.lean). -/
namespace Mango
namespace Bank
open Fx

theorem getBank_ok {s : TokenState} {k : Nat} {b : Bank} (h : getBank s k = .ok b) : s.banks[k]? = some b := by
  unfold getBank at h; split at h
  · next h1 => rw [ok_inj] at h; rw [h1, h]
  · simp at h

theorem getPos_ok {s : TokenState} {k : Nat} {b : TokenPosition} (h : getPos s k = .ok b) :
    s.positions[k]? = some b := by
  unfold getPos at h; split at h
  · next h1 => rw [ok_inj] at h; rw [h1, h]
  · simp at h

def posI (p : TokenPosition) : Int := posPart p.indexed
def negI (p : TokenPosition) : Int := negPart p.indexed

/-- The invariant behind the totals property. -/
structure Inv (s : TokenState) : Prop where
  nonempty : s.banks ≠ []
  good : ∀ b ∈ s.banks, b.Pos ∧ b.RatesOk
  deposits : sumOf indexedDeposits s.banks = sumOf posI s.positions
  borrows : sumOf indexedBorrows s.banks = sumOf negI s.positions

theorem totalDeposits_ok {l : List Bank} {d : I80F48} (h : totalDeposits l = .ok d) :
    d = sumOf indexedDeposits l := by
  induction l generalizing d with
  | nil => simp [totalDeposits] at h; simp [h]
  | cons b l ih =>
    simp only [totalDeposits, bind_ok, add_ok] at h
    obtain ⟨t, ht, rfl, _⟩ := h
    simp [ih ht]

theorem totalBorrows_ok {l : List Bank} {d : I80F48} (h : totalBorrows l = .ok d) :
    d = sumOf indexedBorrows l := by
  induction l generalizing d with
  | nil => simp [totalBorrows] at h; simp [h]
  | cons b l ih =>
    simp only [totalBorrows, bind_ok, add_ok] at h
    obtain ⟨t, ht, rfl, _⟩ := h
    simp [ih ht]

/-- What a successful index update did to the list of banks. -/
theorem updateIndexAndRate_ok {l l' : List Bank} {now : Int} {st sc : I80F48}
    (h : updateIndexAndRate l now st sc = .ok l') :
    ∃ b0 rest el di bi fees br dr avg done f, l = b0 :: rest ∧
      0 ≤ el ∧ el = now - b0.indexLastUpdated ∧
      b0.computeIndex (sumOf indexedDeposits l) (sumOf indexedBorrows l) (Fx.ofInt (min el 3600)) =
        .ok (di, bi, fees, br, dr) ∧
      (f = id ∨ f = applyRate now sc) ∧
      l' = ({ b0 with collectedFeesNative := b0.collectedFeesNative + fees } :: rest).map
        (fun b => f (applyIndex now di bi avg st done b)) := by
  unfold updateIndexAndRate at h
  simp only [bind_ok] at h
  obtain ⟨D, hD, B, hB, h⟩ := h
  cases l with
  | nil => simp at h
  | cons b0 rest =>
    simp only [bind_ok, cku64_ok, add_ok] at h
    obtain ⟨el, ⟨rfl, hel, _⟩, ⟨di, bi, fees, br, dr⟩, hci, cf, ⟨rfl, _⟩, avg, havg, sr, _, h⟩ := h
    rw [totalDeposits_ok hD, totalBorrows_ok hB] at hci
    split at h
    · rw [ok_inj] at h
      refine ⟨b0, rest, _, di, bi, fees, br, dr, avg, decide (b0.maintWeightShiftDurationInv > 0 ∧ now ≥ b0.maintWeightShiftEnd), applyRate now sc, rfl, hel, rfl, hci, Or.inr rfl, ?_⟩
      rw [← h, List.map_map]; rfl
    · rw [ok_inj] at h
      refine ⟨b0, rest, _, di, bi, fees, br, dr, avg, decide (b0.maintWeightShiftDurationInv > 0 ∧ now ≥ b0.maintWeightShiftEnd), id, rfl, hel, rfl, hci, Or.inl rfl, ?_⟩
      rw [← h]; rfl

/-- the accounting fields after applyIndex/applyRate -/
theorem applyIndex_fields {now : Int} {di bi avg st sc : I80F48} {done : Bool} {b : Bank} {f : Bank → Bank}
    (hf : f = id ∨ f = applyRate now sc) :
    let b' := f (applyIndex now di bi avg st done b)
    b'.depositIndex = di ∧ b'.borrowIndex = bi ∧ b'.indexedDeposits = b.indexedDeposits ∧
      b'.indexedBorrows = b.indexedBorrows ∧ feesAndDust b' = feesAndDust b ∧
      (S ≤ sc → b.RatesOk → b'.RatesOk) := by
  rcases hf with rfl | rfl
  · cases done
    · exact ⟨rfl, rfl, rfl, rfl, rfl, fun _ h => h⟩
    · exact ⟨rfl, rfl, rfl, rfl, rfl, fun _ h => h⟩
  · cases done
    · exact ⟨rfl, rfl, rfl, rfl, rfl,
        fun hs h => ⟨⟨h.1.1, h.1.2.1, h.1.2.2.1, h.1.2.2.2.1, h.1.2.2.2.2.1, h.1.2.2.2.2.2.1, h.1.2.2.2.2.2.2.1, hs⟩, h.2⟩⟩
    · exact ⟨rfl, rfl, rfl, rfl, rfl,
        fun hs h => ⟨⟨h.1.1, h.1.2.1, h.1.2.2.1, h.1.2.2.2.1, h.1.2.2.2.2.1, h.1.2.2.2.2.2.1, h.1.2.2.2.2.2.2.1, hs⟩, h.2⟩⟩

theorem depositWithDusting_effect {b b' : Bank} {p p' : TokenPosition} {amt : I80F48} {r : Bool} {now : Int}
    (hb : b.Pos) (h : depositWithDusting b p amt now = .ok (b', p', r)) : Effect b p amt b' p' r := by
  simp only [depositWithDusting, bind_ok, ok_inj, Prod.mk.injEq] at h
  obtain ⟨⟨b1, p1, r⟩, h1, rfl, rfl, rfl⟩ := h
  exact (depositWrapper_effect hb h1).active_or

/-- The crediting loop keeps the totals in step with the position. -/
theorem creditLoop_ok {ni : I80F48} {now : Int} {l l' : List Bank} {p p' : TokenPosition} {amt : I80F48}
    (hni : 0 < ni) (hl : ∀ b ∈ l, b.Pos ∧ b.RatesOk) (h : creditLoop ni now l p amt = .ok (l', p')) :
    (∀ b ∈ l', b.Pos ∧ b.RatesOk) ∧ l'.length = l.length ∧
    sumOf indexedDeposits l' - posI p' = sumOf indexedDeposits l - posI p ∧
    sumOf indexedBorrows l' - negI p' = sumOf indexedBorrows l - negI p ∧ p'.inUseCount = p.inUseCount := by
  induction l generalizing l' p amt with
  | nil =>
    simp only [creditLoop, ok_inj, Prod.mk.injEq] at h
    obtain ⟨rfl, rfl⟩ := h
    exact ⟨by simp, rfl, rfl, rfl, rfl⟩
  | cons b bs ih =>
    have hbs : ∀ b ∈ bs, b.Pos ∧ b.RatesOk := fun x hx => hl x (List.mem_cons_of_mem _ hx)
    have hb := hl b (List.mem_cons_self ..)
    simp only [creditLoop, bind_ok] at h
    obtain ⟨nb, hnb, h⟩ := h
    have hb0 : ({ b with depositIndex := ni } : Bank).Pos ∧ ({ b with depositIndex := ni } : Bank).RatesOk :=
      ⟨⟨hni, hb.1.2⟩, hb.2⟩
    have hD : ({ b with depositIndex := ni } : Bank).indexedDeposits = b.indexedDeposits := rfl
    have hB : ({ b with depositIndex := ni } : Bank).indexedBorrows = b.indexedBorrows := rfl
    generalize ({ b with depositIndex := ni } : Bank) = b0 at *
    split at h
    · simp only [bind_ok, sub_ok] at h
      obtain ⟨⟨b1, p1, r⟩, h1, tc, ⟨rfl, _⟩, h⟩ := h
      have e := depositWithDusting_effect hb0.1 h1
      have hb1 : b1.Pos ∧ b1.RatesOk :=
        ⟨by unfold Pos; rw [e.depositIndex, e.borrowIndex]; exact hb0.1, e.rates hb0.2⟩
      have d1 := e.deposits
      have d2 := e.borrows
      dsimp only at h
      split at h
      · simp only [ok_inj, Prod.mk.injEq] at h
        obtain ⟨rfl, rfl⟩ := h
        refine ⟨?_, rfl, ?_, ?_, e.inUse⟩
        · intro x hx
          rcases List.mem_cons.mp hx with rfl | hx
          · exact hb1
          · exact hbs x hx
        · simp only [sumOf_cons]; unfold posI; omega
        · simp only [sumOf_cons]; unfold negI; omega
      · simp only [bind_ok, ok_inj, Prod.mk.injEq] at h
        obtain ⟨⟨l2, p2⟩, h2, hl', hp'⟩ := h
        dsimp only at hl' hp'
        subst hl' hp'
        obtain ⟨i1, i2, i3, i4, i5⟩ := ih hbs h2
        refine ⟨?_, by simp [i2], ?_, ?_, i5.trans e.inUse⟩
        · intro x hx
          rcases List.mem_cons.mp hx with rfl | hx
          · exact hb1
          · exact i1 x hx
        · simp only [sumOf_cons]; unfold posI at *; omega
        · simp only [sumOf_cons]; unfold negI at *; omega
    · simp only [bind_ok, ok_inj, Prod.mk.injEq] at h
      obtain ⟨⟨l2, p2⟩, h2, hl', hp'⟩ := h
      dsimp only at hl' hp'
      subst hl' hp'
      obtain ⟨i1, i2, i3, i4, i5⟩ := ih hbs h2
      refine ⟨?_, by simp [i2], ?_, ?_, i5⟩
      · intro x hx
        rcases List.mem_cons.mp hx with rfl | hx
        · exact hb0
        · exact i1 x hx
      · simp only [sumOf_cons]; omega
      · simp only [sumOf_cons]; omega

/-- For loss socialization: the loss is smaller than the token's total deposits (the code has no such check, see
`socialize_can_make_index_negative` in Bank/Props.lean). -/
def SocialOk (s : TokenState) : TokenOp → Prop
  | .socialize k _ loss _ => ∀ b, s.banks[k]? = some b →
      loss * S < sumOf indexedDeposits s.banks * b.depositIndex
  | _ => True

theorem transferSource_effect {b b' : Bank} {p p' : TokenPosition} {amt : I80F48} {now : Int} {w : WithdrawResult}
    (hb : b.Pos) (hr : 0 ≤ b.loanOriginationFeeRate)
    (h : transferSource b p amt now = .ok (b', p', w)) : Effect b p (-amt) b' p' w.positionIsActive := by
  unfold transferSource at h
  split at h
  · simp only [bind_ok, ok_inj, Prod.mk.injEq] at h
    obtain ⟨⟨b1, p1, w1⟩, h1, _, _, rfl, rfl, rfl⟩ := h
    exact withdrawWrapper_effect hb hr h1
  · next h0 =>
    simp only [ok_inj, Prod.mk.injEq] at h
    obtain ⟨rfl, rfl, rfl⟩ := h
    have : amt = 0 := by simpa using h0
    subst this
    exact Effect.refl hb

theorem transferTarget_effect {b b' : Bank} {p p' : TokenPosition} {amt : I80F48} {now : Int} {a : Bool}
    (hb : b.Pos) (h : transferTarget b p amt now = .ok (b', p', a)) : Effect b p amt b' p' a := by
  unfold transferTarget at h
  split at h
  · simp only [bind_ok, ok_inj, Prod.mk.injEq] at h
    obtain ⟨⟨b1, p1, w1⟩, h1, _, _, rfl, rfl, rfl⟩ := h
    exact depositWrapper_effect hb h1
  · next h0 =>
    simp only [ok_inj, Prod.mk.injEq] at h
    obtain ⟨rfl, rfl, rfl⟩ := h
    have : amt = 0 := by simpa using h0
    subst this
    exact Effect.refl hb

theorem checkedTransfer_effects {b b' : Bank} {ps ps' pt pt' : TokenPosition} {sa ta : I80F48} {now : Int}
    {price : I80F48} {r : TransferResult} (hb : b.Pos) (hr : b.RatesOk)
    (h : checkedTransferWithFee b ps sa pt ta now price = .ok (b', ps', pt', r)) :
    ∃ b1, Effect b ps (-sa) b1 ps' r.sourceIsActive ∧ Effect b1 pt ta b' pt' r.targetIsActive ∧
      transferSource b ps sa now = .ok (b1, ps', ⟨r.sourceIsActive, r.loanOriginationFee, r.loanAmount⟩) ∧
      transferTarget b1 pt ta now = .ok (b', pt', r.targetIsActive) := by
  unfold checkedTransferWithFee at h
  simp only [bind_ok, ok_inj, Prod.mk.injEq] at h
  obtain ⟨⟨b1, s1, w⟩, h1, ⟨b2, t2, a⟩, h2, lb, _, _, _, ld, _, _, _, rfl, rfl, rfl, rfl⟩ := h
  have e1 := transferSource_effect hb hr.2.2 h1
  have hb1 : b1.Pos := by unfold Pos; rw [e1.depositIndex, e1.borrowIndex]; exact hb
  exact ⟨b1, e1, transferTarget_effect hb1 h2, h1, h2⟩

theorem Effect.pos {b b' : Bank} {p p' : TokenPosition} {i : Int} {a : Bool} (h : Effect b p i b' p' a)
    (hb : b.Pos) : b'.Pos := by
  unfold Pos; rw [h.depositIndex, h.borrowIndex]; exact hb

theorem closeIf_ok {p p' : TokenPosition} {close active : Bool}
    (h : (if close = true ∧ active = false then closePosition p else .ok p) = .ok p')
    (hc : active = false → p.indexed = 0) : p'.indexed = p.indexed := by
  split at h
  · next hh =>
    unfold closePosition at h
    split at h
    · rw [ok_inj] at h; subst h; rw [hc hh.2]
    · simp at h
  · rw [ok_inj] at h; rw [h]

theorem posI_congr {p q : TokenPosition} (h : p.indexed = q.indexed) : posI p = posI q := by unfold posI; rw [h]
theorem negI_congr {p q : TokenPosition} (h : p.indexed = q.indexed) : negI p = negI q := by unfold negI; rw [h]

theorem fresh_inv {cfg : Bank} (hv : cfg.verify = .ok ()) : Inv (TokenState.fresh cfg) := by
  refine ⟨by simp [TokenState.fresh], ?_, by simp [TokenState.fresh], by simp [TokenState.fresh]⟩
  intro b hb
  simp only [TokenState.fresh, List.mem_singleton] at hb
  subst hb
  exact ⟨⟨(by decide : (0:Int) < 1000000 * S), (by decide : (0:Int) < 1000000 * S)⟩, RatesOk.of_verify hv⟩

theorem inv_D_nonneg {s : TokenState} (h : Inv s) : 0 ≤ sumOf indexedDeposits s.banks := by
  rw [h.deposits]; exact sumOf_nonneg (fun p => by unfold posI posPart; omega)
theorem inv_B_nonneg {s : TokenState} (h : Inv s) : 0 ≤ sumOf indexedBorrows s.banks := by
  rw [h.borrows]; exact sumOf_nonneg (fun p => by unfold negI negPart; omega)

/-- unpacking of a successful loss socialization -/
theorem socializeLoss_ok {l l' : List Bank} {p p' : TokenPosition} {di loss : I80F48} {now : Int}
    (h : socializeLoss di l p loss now = .ok (l', p')) :
    sumOf indexedDeposits l ≠ 0 ∧
      creditLoop (di - Int.tdiv (loss * S) (sumOf indexedDeposits l)) now l p loss = .ok (l', p') ∧
      p'.indexed = 0 := by
  unfold socializeLoss at h
  simp only [bind_ok] at h
  obtain ⟨D, hD, h⟩ := h
  simp only [bind_ok, div_ok, sub_ok, require_ok, ok_inj, Prod.mk.injEq] at h
  obtain ⟨q, ⟨hne, rfl, _⟩, ni, ⟨rfl, _⟩, ⟨l2, p2⟩, h2, _, h3, rfl, rfl⟩ := h
  have e := totalDeposits_ok hD
  subst e
  exact ⟨hne, h2, h3⟩

theorem socialize_newIndex_pos {D di loss : Int} (hD : 0 ≤ D) (hloss : 0 < loss)
    (h : loss * S < D * di) : 0 < D ∧ 0 < di - Int.tdiv (loss * S) D := by
  have hS := S_pos
  have hDp : 0 < D := by
    rcases Int.lt_or_eq_of_le hD with h1 | h1
    · exact h1
    · subst h1
      have : 0 < loss * S := Int.mul_pos hloss hS
      omega
  have t := tdiv_bounds (a := loss * S) (b := D) (Int.mul_nonneg hloss.le hS.le) hDp
  refine ⟨hDp, ?_⟩
  have h1 : Int.tdiv (loss * S) D * D < di * D := by
    have : D * di = di * D := by ring
    omega
  have := Int.lt_of_mul_lt_mul_right h1 hDp.le
  omega

/-- Every step preserves the invariant. -/
theorem step_inv {s s' : TokenState} {op : TokenOp} (hi : Inv s) (hso : SocialOk s op) (h : step s op = .ok s') :
    Inv s' := by
  cases op with
  | «open» =>
    simp only [step, ok_inj] at h
    subst h
    refine ⟨hi.nonempty, hi.good, ?_, ?_⟩
    · rw [hi.deposits]; simp [posI, posPart]
    · rw [hi.borrows]; simp [negI, negPart]
  | setInUse i n =>
    simp only [step, bind_ok, ok_inj] at h
    obtain ⟨p, hp, rfl⟩ := h
    have hp := getPos_ok hp
    refine ⟨hi.nonempty, hi.good, ?_, ?_⟩
    · rw [hi.deposits]; rw [sumOf_set _ hp]; simp [posI]
    · rw [hi.borrows]; rw [sumOf_set _ hp]; simp [negI]
  | pos op k i close now =>
    simp only [step, bind_ok, ok_inj] at h
    obtain ⟨b, hb, p, hp, ⟨b', p', active⟩, hrun, p'', hclose, rfl⟩ := h
    have hb := getBank_ok hb
    have hp := getPos_ok hp
    have hgood := hi.good b (List.mem_of_getElem? hb)
    have e := PosOp.effect hgood.1 hgood.2.2.2 hrun
    have hpi := closeIf_ok hclose e.closed
    dsimp only at hpi
    refine ⟨set_ne_nil hi.nonempty, forall_set hi.good ⟨e.pos hgood.1, e.rates hgood.2⟩, ?_, ?_⟩
    · dsimp only; rw [sumOf_set _ hb, sumOf_set _ hp, hi.deposits, posI_congr hpi]
      have := e.deposits; unfold posI; omega
    · dsimp only; rw [sumOf_set _ hb, sumOf_set _ hp, hi.borrows, negI_congr hpi]
      have := e.borrows; unfold negI; omega
  | transfer k i j sa ta now price =>
    simp only [step, bind_ok, ok_inj, require_ok] at h
    obtain ⟨_, hij, b, hb, ps, hps, pt, hpt, ⟨b', ps', pt', r⟩, hrun, rfl⟩ := h
    have hb := getBank_ok hb
    have hps := getPos_ok hps
    have hpt := getPos_ok hpt
    have hgood := hi.good b (List.mem_of_getElem? hb)
    obtain ⟨b1, e1, e2, _, _⟩ := checkedTransfer_effects hgood.1 hgood.2 hrun
    have hpt' : (s.positions.set i ps')[j]? = some pt := by rw [List.getElem?_set_ne hij]; exact hpt
    refine ⟨set_ne_nil hi.nonempty,
      forall_set hi.good ⟨e2.pos (e1.pos hgood.1), e2.rates (e1.rates hgood.2)⟩, ?_, ?_⟩
    · dsimp only; rw [sumOf_set _ hb, sumOf_set _ hpt', sumOf_set _ hps, hi.deposits]
      have h1 := e1.deposits; have h2 := e2.deposits; unfold posI; omega
    · dsimp only; rw [sumOf_set _ hb, sumOf_set _ hpt', sumOf_set _ hps, hi.borrows]
      have h1 := e1.borrows; have h2 := e2.borrows; unfold negI; omega
  | updateIndex now st sc =>
    simp only [step, bind_ok, ok_inj, require_ok] at h
    obtain ⟨_, hsc, bs, hup, rfl⟩ := h
    obtain ⟨b0, rest, el, di, bi, fees, br, dr, avg, done, f, hl, hel, hel', hci, hf, rfl⟩ :=
      updateIndexAndRate_ok hup
    have hgood0 := hi.good b0 (by rw [hl]; exact List.mem_cons_self ..)
    have hm := computeIndex_mono hgood0.2 hgood0.1
      (by unfold Fx.ofInt; exact Int.mul_nonneg (by omega) (by decide)) hci
    refine ⟨by simp, ?_, ?_, ?_⟩
    · intro b hb
      simp only [List.mem_map] at hb
      obtain ⟨b1, hb1, rfl⟩ := hb
      have ff := applyIndex_fields (di := di) (bi := bi) (avg := avg) (st := st) (done := done) (b := b1) hf
      refine ⟨?_, ff.2.2.2.2.2 hsc ?_⟩
      · unfold Pos; rw [ff.1, ff.2.1]
        have := hgood0.1.1; have := hgood0.1.2; omega
      · rcases List.mem_cons.mp hb1 with rfl | hb1
        · exact hgood0.2
        · exact (hi.good b1 (by rw [hl]; exact List.mem_cons_of_mem _ hb1)).2
    · dsimp only
      rw [sumOf_map, ← hi.deposits, hl]
      rw [sumOf_congr (g := indexedDeposits)
        (fun x _ => (applyIndex_fields (di := di) (bi := bi) (avg := avg) (st := st) (done := done) (b := x) hf).2.2.1)]
      simp
    · dsimp only
      rw [sumOf_map, ← hi.borrows, hl]
      rw [sumOf_congr (g := indexedBorrows)
        (fun x _ => (applyIndex_fields (di := di) (bi := bi) (avg := avg) (st := st) (done := done) (b := x) hf).2.2.2.1)]
      simp
  | edit cfg reset =>
    simp only [step, bind_ok, ok_inj] at h
    obtain ⟨_, hv, rfl⟩ := h
    refine ⟨by simpa using hi.nonempty, ?_, ?_, ?_⟩
    · intro b hb
      simp only [List.mem_map] at hb
      obtain ⟨b1, hb1, rfl⟩ := hb
      have := RatesOk.of_verify hv
      exact ⟨(hi.good b1 hb1).1, this⟩
    · dsimp only; rw [sumOf_map, ← hi.deposits]; rfl
    · dsimp only; rw [sumOf_map, ← hi.borrows]; rfl
  | addBank =>
    simp only [step, bind_ok, ok_inj] at h
    obtain ⟨b, hb, rfl⟩ := h
    have hb := getBank_ok hb
    have hgood := hi.good b (List.mem_of_getElem? hb)
    refine ⟨by simp, ?_, ?_, ?_⟩
    · intro x hx
      rcases List.mem_append.mp hx with hx | hx
      · exact hi.good x hx
      · simp only [List.mem_singleton] at hx; subst hx; exact hgood
    · dsimp only; rw [← hi.deposits]; simp [fromExistingBank]
    · dsimp only; rw [← hi.borrows]; simp [fromExistingBank]
  | withdrawFees k v =>
    simp only [step, bind_ok, ok_inj] at h
    obtain ⟨b, hb, ⟨b', amt⟩, hw, rfl⟩ := h
    have hb := getBank_ok hb
    have hgood := hi.good b (List.mem_of_getElem? hb)
    simp only [withdrawFees, bind_ok, floor_ok, cku64_ok, ok_inj, Prod.mk.injEq] at hw
    obtain ⟨f, _, u, _, fees, _, w, _, rfl, rfl⟩ := hw
    refine ⟨set_ne_nil hi.nonempty, forall_set hi.good hgood, ?_, ?_⟩
    · dsimp only; rw [sumOf_set _ hb, hi.deposits]; dsimp only; omega
    · dsimp only; rw [sumOf_set _ hb, hi.borrows]; dsimp only; omega
  | collect k fee =>
    simp only [step, bind_ok, ok_inj, add_ok] at h
    obtain ⟨b, hb, cf, ⟨rfl, _⟩, rfl⟩ := h
    have hb := getBank_ok hb
    have hgood := hi.good b (List.mem_of_getElem? hb)
    refine ⟨set_ne_nil hi.nonempty, forall_set hi.good hgood, ?_, ?_⟩
    · dsimp only; rw [sumOf_set _ hb, hi.deposits]; dsimp only; omega
    · dsimp only; rw [sumOf_set _ hb, hi.borrows]; dsimp only; omega
  | socialize k i loss now =>
    simp only [step, bind_ok, ok_inj, require_ok] at h
    obtain ⟨_, hloss, b0, hb0, p, hp, ⟨bs, p'⟩, hs, rfl⟩ := h
    have hp := getPos_ok hp
    have hb0 := getBank_ok hb0
    obtain ⟨hne, hcl, hz⟩ := socializeLoss_ok hs
    have hni := socialize_newIndex_pos (inv_D_nonneg hi) hloss (hso b0 hb0)
    obtain ⟨c1, c2, c3, c4, c5⟩ := creditLoop_ok hni.2 hi.good hcl
    refine ⟨?_, c1, ?_, ?_⟩
    · intro hc
      have hc' : bs = [] := hc
      rw [hc'] at c2
      have := hi.nonempty
      exact this (List.eq_nil_of_length_eq_zero (by simpa using c2.symm))
    · dsimp only; rw [sumOf_set _ hp, ← hi.deposits]; omega
    · dsimp only; rw [sumOf_set _ hp, ← hi.borrows]; omega

end Bank
end Mango
