import Verif.Flash.Lemmas

namespace Mango.Flash
open Bank

/-! ## First loop of End: repayment -/

structure Repaid (s0 : State) (g : Nat) (vaults : List Nat) (st : EndSt) : Prop where
  banks : st.s.banks = s0.banks
  accts : st.s.accts = s0.accts
  pos : st.s.pos = s0.pos
  owner : ∀ k, (st.s.toks k).owner = (s0.toks k).owner
  gain : ∀ k b, s0.banks k = some b → ((st.s.toks b.vault).amount - (s0.toks b.vault).amount) * S =
    sumOf (fun c => if c.bank = k then c.amount + b.approved * S else 0) st.changes
  ch : ∀ c ∈ st.changes, ∃ b, s0.banks c.bank = some b ∧ b.token = c.token ∧ b.group = g ∧ b.initial ≠ NOLOAN ∧
    b.vault ∈ vaults ∧ ∃ r, 0 ≤ r ∧ c.amount = (r - b.approved) * S
  seen : ∀ i ∈ st.seen, ∃ c ∈ st.changes, ∃ b, s0.banks c.bank = some b ∧ vaults[i]? = some b.vault

theorem repaid_start (s0 : State) (g : Nat) (vaults : List Nat) : Repaid s0 g vaults ⟨s0, [], [], 0⟩ :=
  ⟨rfl, rfl, rfl, fun _ => rfl, fun k b _ => by simp, by simp, by simp⟩

theorem findIdx?_spec {α : Type} {p : α → Bool} : ∀ {l : List α} {i : Nat}, l.findIdx? p = some i →
    ∃ x, l[i]? = some x ∧ p x = true := by
  intro l
  induction l with
  | nil => intro i h; simp at h
  | cons a l ih =>
    intro i h
    rw [List.findIdx?_cons] at h
    by_cases ha : p a = true
    · rw [if_pos ha, Option.some.injEq] at h
      subst h
      exact ⟨a, rfl, ha⟩
    · rw [if_neg ha, Option.map_eq_some_iff] at h
      obtain ⟨k, hk, rfl⟩ := h
      obtain ⟨x, h1, h2⟩ := ih hk
      exact ⟨x, by simpa using h1, h2⟩

theorem endLoop_ok {env : Env} {s0 : State} (hw : WF env s0) {g owner : Nat} (ho : env.pda owner = false)
    {vaults toks : List Nat} : ∀ (l : List Nat) (st st' : EndSt), Repaid s0 g vaults st →
      endLoop g owner vaults toks l st = .ok st' → Repaid s0 g vaults st' := by
  intro l
  induction l with
  | nil =>
    intro st st' h e
    unfold endLoop at e
    rw [Except.ok.injEq] at e
    subst e; exact h
  | cons k l ih =>
    intro st st' h e
    unfold endLoop at e
    split at e
    · rw [Except.ok.injEq] at e
      subst e; exact h
    · rename_i b hb
      simp only [bind_ok, require_ok] at e
      obtain ⟨_, e1, e⟩ := e
      split at e
      · exact ih st st' h e
      · rename_i vi hvi
        split at e
        · simp at e
        · rename_i t ht
          simp only [bind_ok, require_ok] at e
          obtain ⟨_, e2, _, e3, s1, e4, e5⟩ := e
          refine ih _ st' ?_ e5
          rw [h.banks] at hb
          obtain ⟨v', hv1, hv2⟩ := findIdx?_spec hvi
          have hv2 : v' = b.vault := by simpa using hv2
          subst hv2
          -- effect of the repayment on the state
          have hm : s1.banks = st.s.banks ∧ s1.accts = st.s.accts ∧ s1.pos = st.s.pos ∧
              (∀ j, (s1.toks j).owner = (st.s.toks j).owner) ∧
              (s1.toks b.vault).amount = (st.s.toks b.vault).amount + max ((st.s.toks t).amount - b.initial) 0 ∧
              (∀ k' b', s0.banks k' = some b' → k' ≠ k → s1.toks b'.vault = st.s.toks b'.vault) := by
            split at e4
            · obtain ⟨ha, m⟩ := transfer_ok e4
              have hnv : ∀ k' b', s0.banks k' = some b' → b'.vault ≠ t := by
                intro k' b' hb' hc
                have h1 := hw.owner k' b' hb'
                have h2 := hw.pda k' b' hb'
                rw [hc, ← h.owner, ha] at h1
                rw [← h1, ho] at h2
                simp at h2
              have htv : t ≠ b.vault := fun hc => hnv k b hb hc.symm
              refine ⟨m.banks, m.accts, m.pos, m.owner, m.dst_amt htv, ?_⟩
              intro k' b' hb' hk'
              exact m.other _ (hnv k' b' hb') (fun hc => hk' (hw.inj k' k b' b hb' hb hc))
            · rw [Except.ok.injEq] at e4
              subst e4
              refine ⟨rfl, rfl, rfl, fun _ => rfl, ?_, fun _ _ _ _ => rfl⟩
              have : max ((st.s.toks t).amount - b.initial) 0 = 0 := by omega
              rw [this]; omega
          obtain ⟨m1, m2, m3, m4, m5, m6⟩ := hm
          refine ⟨m1.trans h.banks, m2.trans h.accts, m3.trans h.pos, fun j => (m4 j).trans (h.owner j), ?_, ?_, ?_⟩
          · intro k' b' hb'
            dsimp only
            rw [sumOf_cons]
            dsimp only
            by_cases hk' : k' = k
            · subst hk'
              rw [hb, Option.some.injEq] at hb'
              subst hb'
              rw [if_pos rfl, m5, ← h.gain k' b hb]
              ring
            · rw [if_neg (fun hc => hk' hc.symm), m6 k' b' hb' hk', h.gain k' b' hb']
              omega
          · intro c hc
            rcases List.mem_cons.mp hc with rfl | hc
            · exact ⟨b, hb, rfl, e1, e3, List.mem_iff_getElem?.mpr ⟨vi, hv1⟩, _, Int.le_max_right _ _, rfl⟩
            · exact h.ch c hc
          · intro i hi
            rcases List.mem_cons.mp hi with rfl | hi
            · exact ⟨_, List.mem_cons_self, b, hb, hv1⟩
            · obtain ⟨c, h1, h2⟩ := h.seen i hi
              exact ⟨c, by simp [h1], h2⟩

/-- The swap fee rate used for all changes is the largest of theirs (or 0). -/
def MaxFee (s0 : State) (changes : List Change) (mf : I80F48) : Prop :=
  0 ≤ mf ∧ (∀ c ∈ changes, ∀ b, s0.banks c.bank = some b → b.swapFee ≤ mf) ∧
  (mf = 0 ∨ ∃ c ∈ changes, ∃ b, s0.banks c.bank = some b ∧ b.swapFee = mf)

theorem endLoop_fee {s0 : State} {g owner : Nat} {vaults toks : List Nat} : ∀ (l : List Nat) (st st' : EndSt), st.s.banks = s0.banks →
    MaxFee s0 st.changes st.maxFee → endLoop g owner vaults toks l st = .ok st' → MaxFee s0 st'.changes st'.maxFee := by
  intro l
  induction l with
  | nil =>
    intro st st' _ h e
    unfold endLoop at e
    rw [Except.ok.injEq] at e
    subst e; exact h
  | cons k l ih =>
    intro st st' hbk h e
    unfold endLoop at e
    split at e
    · rw [Except.ok.injEq] at e
      subst e; exact h
    · rename_i b hb
      simp only [bind_ok, require_ok] at e
      obtain ⟨_, e1, e⟩ := e
      split at e
      · exact ih st st' hbk h e
      · rename_i vi hvi
        split at e
        · simp at e
        · rename_i t ht
          simp only [bind_ok, require_ok] at e
          obtain ⟨_, e2, _, e3, s1, e4, e5⟩ := e
          have hb1 : s1.banks = s0.banks := by
            split at e4
            · exact (transfer_ok e4).2.banks.trans hbk
            · rw [Except.ok.injEq] at e4
              subst e4; exact hbk
          refine ih _ st' hb1 ?_ e5
          obtain ⟨h1, h2, h3⟩ := h
          rw [hbk] at hb
          refine ⟨by dsimp only; omega, ?_, ?_⟩
          · dsimp only
            intro c hc b' hb'
            rcases List.mem_cons.mp hc with rfl | hc
            · dsimp only at hb'
              rw [hb, Option.some.injEq] at hb'
              subst hb'; omega
            · have := h2 c hc b' hb'; omega
          · dsimp only
            by_cases hm : b.swapFee ≤ st.maxFee
            · rw [show max st.maxFee b.swapFee = st.maxFee by omega]
              rcases h3 with h3 | ⟨c, hc, h3⟩
              · exact Or.inl h3
              · exact Or.inr ⟨c, by simp [hc], h3⟩
            · exact Or.inr ⟨_, List.mem_cons_self, b, hb, by omega⟩

/-- If no health account is listed twice, no bank has two changes. -/
theorem endLoop_nodup {g owner : Nat} {vaults toks : List Nat} : ∀ (l : List Nat) (st st' : EndSt),
      (st.changes.map (·.bank) ++ l).Nodup → endLoop g owner vaults toks l st = .ok st' →
      (st'.changes.map (·.bank)).Nodup := by
  intro l
  induction l with
  | nil =>
    intro st st' h e
    unfold endLoop at e
    rw [Except.ok.injEq] at e
    subst e; simpa using h
  | cons k l ih =>
    intro st st' h e
    unfold endLoop at e
    split at e
    · rw [Except.ok.injEq] at e
      subst e; exact (List.nodup_append.mp h).1
    · simp only [bind_ok, require_ok] at e
      obtain ⟨_, e1, e⟩ := e
      split at e
      · refine ih st st' ?_ e
        exact h.sublist (List.Sublist.append (List.Sublist.refl _) (List.sublist_cons_self _ _))
      · split at e
        · simp at e
        · simp only [bind_ok, require_ok] at e
          obtain ⟨_, e2, _, e3, s1, e4, e5⟩ := e
          refine ih _ st' ?_ e5
          rw [List.map_cons, List.cons_append]
          exact (List.perm_middle.nodup_iff).mp h

/-! ## Second loop of End: booking -/

theorem changeWithoutFee_effect {b b' : Bank} {p p' : TokenPosition} {amt : I80F48} {now : Int} {a : Bool}
    (hb : b.Pos) (hr : 0 ≤ b.loanOriginationFeeRate)
    (h : b.changeWithoutFee p amt now = .ok (b', p', a)) : Effect b p amt b' p' a :=
  PosOp.effect (op := .changeWithoutFee amt) hb hr h

/-- Charging a fee into the collected fees while changing the position by the rest. -/
theorem collect_effect {b b' : Bank} {p p' : TokenPosition} {amt fee : I80F48} {now : Int} {a : Bool}
    (hb : b.Pos) (hr : 0 ≤ b.loanOriginationFeeRate)
    (h : ({ b with collectedFeesNative := b.collectedFeesNative + fee } : Bank).changeWithoutFee p (amt - fee) now
      = .ok (b', p', a)) : Effect b p amt b' p' a := by
  generalize hb0 : ({ b with collectedFeesNative := b.collectedFeesNative + fee } : Bank) = b0 at h
  have h1 : b0.depositIndex = b.depositIndex := by rw [← hb0]
  have h2 : b0.borrowIndex = b.borrowIndex := by rw [← hb0]
  have h3 : b0.indexedDeposits = b.indexedDeposits := by rw [← hb0]
  have h4 : b0.indexedBorrows = b.indexedBorrows := by rw [← hb0]
  have h5 : b.RatesOk → b0.RatesOk := by rw [← hb0]; exact id
  have h6 : 0 ≤ b0.loanOriginationFeeRate := by rw [← hb0]; exact hr
  have h7 : feesAndDust b0 = feesAndDust b + fee * S := by rw [← hb0]; unfold feesAndDust; ring
  have e := changeWithoutFee_effect (by unfold Pos; rw [h1, h2]; exact hb) h6 h
  have u := e.upper
  have l := e.lower
  rw [h1, h2, h7] at u l
  have en : (amt - fee) * S = amt * S - fee * S := by ring
  rw [en] at u l
  refine ⟨by rw [← h3]; exact e.deposits, by rw [← h4]; exact e.borrows, by rw [← h1]; exact e.depositIndex,
    by rw [← h2]; exact e.borrowIndex, fun h => e.rates (h5 h), e.closed, e.inUse, ?_, ?_⟩ <;> omega

theorem changeWithoutFee_fees {b b' : Bank} {p p' : TokenPosition} {amt : I80F48} {now : Int} {a : Bool} (hb : b.Pos)
    (h : b.changeWithoutFee p amt now = .ok (b', p', a)) : b'.collectedFeesNative = b.collectedFeesNative := by
  unfold changeWithoutFee at h
  split at h
  · unfold deposit depositWrapper at h
    simp only [bind_ok] at h
    obtain ⟨⟨b1, p1, r⟩, h1, h⟩ := h
    dsimp only at h
    simp only [bind_ok, ok_inj, Prod.mk.injEq] at h
    obtain ⟨_, _, rfl, _, _⟩ := h
    rcases (depositInternal_ok hb h1).2 <;> rfl
  · simp only [bind_ok] at h
    obtain ⟨n, _, h⟩ := h
    unfold withdrawWithoutFee withdrawWrapper at h
    simp only [bind_ok] at h
    obtain ⟨⟨b1, p1, r⟩, ⟨⟨b2, p2, r2⟩, h1, h2⟩, h⟩ := h
    dsimp only at h h2
    simp only [bind_ok, ok_inj, Prod.mk.injEq] at h h2
    obtain ⟨_, _, rfl, _, _⟩ := h2
    obtain ⟨rfl, _, _⟩ := h
    rcases (withdrawInternal_ok hb h1).2 <;> simp [feeOf]

/-- What a loan costs: the origination fee on the part of the loan that is not covered by deposits of `native`, and for swaps `maxFee` on the part that is not repaid
(`amount` is repaid minus loaned). -/
def loanCost (ty : LoanType) (maxFee : I80F48) (b : FBank) (native amount : I80F48) : Int :=
  (if native > 0 then max (b.approved * S - native) 0 else b.approved * S) * b.b.loanOriginationFeeRate / S +
  (if amount < 0 ∧ ty = .swap then -amount * maxFee / S else 0)

/-- the fees charged when a loan is settled -/
def FeesCharged (ty : LoanType) (maxFee : I80F48) (b : FBank) (p : TokenPosition) (amount : I80F48) (b' : Bank) : Prop :=
  b'.collectedFeesNative = b.b.collectedFeesNative +
    loanCost ty maxFee b (if p.indexed > 0 then p.indexed * b.b.depositIndex / S else p.indexed * b.b.borrowIndex / S) amount

theorem loanFees_ok {b : FBank} {native amount maxFee lof swap : I80F48} {ty : LoanType} (h : loanFees b native amount maxFee ty = .ok (lof, swap)) :
    lof + swap = loanCost ty maxFee b native amount := by
  unfold loanFees at h
  simp only [bind_ok] at h
  obtain ⟨loan, h1, l, h2, sw, h3, h⟩ := h
  simp only [pure_ok, Prod.mk.injEq] at h
  obtain ⟨rfl, rfl⟩ := h
  rw [Fx.mul_ok] at h2
  obtain ⟨rfl, _⟩ := h2
  unfold loanCost
  congr 1
  · by_cases hn : native > 0
    · rw [if_pos hn] at h1 ⊢
      simp only [bind_ok, Fx.sub_ok, pure_ok] at h1
      obtain ⟨d, ⟨rfl, _⟩, rfl⟩ := h1
      rfl
    · rw [if_neg hn] at h1 ⊢
      simp only [pure_ok] at h1
      rw [h1]
  · by_cases hs : amount < 0 ∧ ty = .swap
    · rw [if_pos hs] at h3 ⊢
      simp only [bind_ok, Fx.neg_ok, Fx.mul_ok] at h3
      obtain ⟨d, ⟨rfl, _⟩, rfl, _⟩ := h3
      rfl
    · rw [if_neg hs] at h3 ⊢
      simp only [pure_ok] at h3
      exact h3.symm

theorem applyOne_ok {ty : LoanType} {mf : I80F48} {acct : Nat} {now : Int} {s s' : State} {c : Change}
    {price : I80F48} {a : Bool} (hw : ∀ k b, s.banks k = some b → b.b.Pos ∧ b.b.RatesOk)
    (h : applyOne ty mf acct now s c price = .ok (s', a)) :
    ∃ b b' p', s.banks c.bank = some b ∧
      s' = setPos (setBank s c.bank { b with b := b', approved := 0, initial := NOLOAN }) acct b.token p' ∧
      Effect b.b (s.pos acct b.token) c.amount b' p' a ∧ FeesCharged ty mf b (s.pos acct b.token) c.amount b' := by
  unfold applyOne at h
  split at h
  · simp at h
  · rename_i b hb
    simp only [bind_ok, require_ok, pure_ok, Fx.add_ok, Fx.sub_ok, Prod.mk.injEq] at h
    obtain ⟨native, hnat, ⟨lof, swap⟩, hlf, cf1, ⟨rfl, _⟩, cf2, ⟨rfl, _⟩, ch1, ⟨rfl, _⟩, ch2, ⟨rfl, _⟩, aft, _, _, _, _, _,
      ⟨b', p', act⟩, hch, _, _, _, _, rfl, rfl⟩ := h
    dsimp only at hch
    refine ⟨b, b', p', hb, rfl, ?_, ?_⟩
    rotate_left
    · have e1 := changeWithoutFee_fees (b := { b.b with collectedFeesNative := b.b.collectedFeesNative + lof + swap }) (hw c.bank b hb).1 hch
      have e2 := loanFees_ok hlf
      rw [native_ok hnat] at e2
      unfold FeesCharged
      rw [e1, ← e2]; dsimp only; omega
    refine collect_effect (hw c.bank b hb).1 (hw c.bank b hb).2.2.2 (fee := lof + swap) (now := now) ?_
    rw [← Int.add_assoc]
    rw [show c.amount - (lof + swap) = c.amount - lof - swap by omega]
    exact hch

/-- The flash loan fields after the second loop, whatever the changes. -/
structure Booked (s0 s : State) (ks : List Nat) : Prop where
  toks : s.toks = s0.toks
  accts : s.accts = s0.accts
  absent : ∀ k, s0.banks k = none → s.banks k = none
  off : ∀ k, k ∉ ks → s.banks k = s0.banks k
  on : ∀ k b0, k ∈ ks → s0.banks k = some b0 → ∃ b', s.banks k = some { b0 with b := b', approved := 0, initial := NOLOAN } ∧
    b'.Pos ∧ b'.RatesOk
  exist : ∀ k ∈ ks, ∃ b0, s0.banks k = some b0

theorem applyLoop_ok {ty : LoanType} {mf : I80F48} {acct : Nat} {now : Int} :
    ∀ (l : List (Change × I80F48)) (s : State) (off : List Nat) (s' : State) (off' : List Nat),
      (∀ k b, s.banks k = some b → b.b.Pos ∧ b.b.RatesOk) →
      applyLoop ty mf acct now l s off = .ok (s', off') → Booked s s' (l.map (·.1.bank)) := by
  intro l
  induction l with
  | nil =>
    intro s off s' off' _ h
    unfold applyLoop at h
    simp only [ok_inj, Prod.mk.injEq] at h
    obtain ⟨rfl, rfl⟩ := h
    exact ⟨rfl, rfl, fun _ h => h, fun _ _ => rfl, by simp, by simp⟩
  | cons x l ih =>
    obtain ⟨c, price⟩ := x
    intro s off s' off' hw h
    unfold applyLoop at h
    simp only [bind_ok] at h
    obtain ⟨⟨s1, a⟩, h1, h2⟩ := h
    dsimp only at h2
    obtain ⟨b, b', p', hb, rfl, heff, hfee⟩ := applyOne_ok hw h1
    have hgood : b'.Pos ∧ b'.RatesOk := ⟨heff.pos (hw c.bank b hb).1, heff.rates (hw c.bank b hb).2⟩
    have hw1 : ∀ k c', (setPos (setBank s c.bank { b with b := b', approved := 0, initial := NOLOAN }) acct b.token p').banks k
        = some c' → c'.b.Pos ∧ c'.b.RatesOk := by
      intro k c' hk
      simp only [setPos, setBank] at hk
      by_cases hkc : k = c.bank
      · rw [if_pos hkc, Option.some.injEq] at hk
        subst hk; exact hgood
      · rw [if_neg hkc] at hk; exact hw k c' hk
    have hB := ih _ _ s' off' hw1 h2
    refine ⟨hB.toks, hB.accts, ?_, ?_, ?_, ?_⟩
    · intro k hk
      refine hB.absent k ?_
      have : k ≠ c.bank := by rintro rfl; rw [hb] at hk; simp at hk
      simp [setPos, setBank, this, hk]
    · intro k hk
      simp only [List.map_cons, List.mem_cons, not_or] at hk
      rw [hB.off k hk.2]
      simp [setPos, setBank, hk.1]
    · intro k b0 hk hb0
      by_cases hkc : k = c.bank
      · subst hkc
        rw [hb, Option.some.injEq] at hb0
        subst hb0
        by_cases hkl : c.bank ∈ l.map (·.1.bank)
        · obtain ⟨b2, q1, q2⟩ := hB.on c.bank { b with b := b', approved := 0, initial := NOLOAN } hkl (by simp [setPos, setBank])
          exact ⟨b2, q1, q2⟩
        · refine ⟨b', ?_, hgood⟩
          rw [hB.off c.bank hkl]; simp [setPos, setBank]
      · have hkl : k ∈ l.map (·.1.bank) := by
          simp only [List.map_cons, List.mem_cons] at hk
          rcases hk with hk | hk
          · exact absurd hk hkc
          · exact hk
        exact hB.on k b0 hkl (by simp [setPos, setBank, hkc, hb0])
    · intro k hk
      simp only [List.map_cons, List.mem_cons] at hk
      by_cases hkc : k = c.bank
      · exact ⟨b, by rw [hkc]; exact hb⟩
      · rcases hk with hk | hk
        · exact absurd hk hkc
        · obtain ⟨b0, hb0⟩ := hB.exist k hk
          refine ⟨b0, ?_⟩
          simpa [setPos, setBank, hkc] using hb0

/-- With at most one change per token: what is booked for each change. -/
theorem applyLoop_single {ty : LoanType} {mf : I80F48} {acct : Nat} {now : Int} :
    ∀ (l : List (Change × I80F48)) (s : State) (off : List Nat) (s' : State) (off' : List Nat),
      (∀ k b, s.banks k = some b → b.b.Pos ∧ b.b.RatesOk) →
      (∀ x ∈ l, ∃ b, s.banks x.1.bank = some b ∧ b.token = x.1.token) →
      (l.map (·.1.bank)).Nodup → (l.map (·.1.token)).Nodup →
      applyLoop ty mf acct now l s off = .ok (s', off') →
      (∀ x ∈ l, ∃ b b' a, s.banks x.1.bank = some b ∧
        s'.banks x.1.bank = some { b with b := b', approved := 0, initial := NOLOAN } ∧
        Effect b.b (s.pos acct x.1.token) x.1.amount b' (s'.pos acct x.1.token) a ∧
        (x.1.token ∈ off' → a = false ∨ x.1.token ∈ off) ∧ FeesCharged ty mf b (s.pos acct x.1.token) x.1.amount b') ∧
      (∀ a t, (a ≠ acct ∨ t ∉ l.map (·.1.token)) → s'.pos a t = s.pos a t) ∧
      (∀ t ∈ off', t ∈ off ∨ t ∈ l.map (·.1.token)) := by
  intro l
  induction l with
  | nil =>
    intro s off s' off' _ _ _ _ h
    unfold applyLoop at h
    simp only [ok_inj, Prod.mk.injEq] at h
    obtain ⟨rfl, rfl⟩ := h
    exact ⟨by simp, fun _ _ _ => rfl, fun t ht => Or.inl ht⟩
  | cons x l ih =>
    obtain ⟨c, price⟩ := x
    intro s off s' off' hw hex hnd hnt h
    unfold applyLoop at h
    simp only [bind_ok] at h
    obtain ⟨⟨s1, a⟩, h1, h2⟩ := h
    dsimp only at h2
    obtain ⟨b, b', p', hb, rfl, heff, hfee⟩ := applyOne_ok hw h1
    have hbt : b.token = c.token := by
      obtain ⟨b2, q1, q2⟩ := hex (c, price) (by simp)
      rw [hb, Option.some.injEq] at q1
      rw [q1]; exact q2
    have hgood : b'.Pos ∧ b'.RatesOk := ⟨heff.pos (hw c.bank b hb).1, heff.rates (hw c.bank b hb).2⟩
    generalize hs1 : setPos (setBank s c.bank { b with b := b', approved := 0, initial := NOLOAN }) acct b.token p' = s1 at h2
    have hbk : ∀ k, k ≠ c.bank → s1.banks k = s.banks k := by
      intro k hk; rw [← hs1]; simp [setPos, setBank, hk]
    have hbs : s1.banks c.bank = some { b with b := b', approved := 0, initial := NOLOAN } := by
      rw [← hs1]; simp [setPos, setBank]
    have hps : s1.pos acct c.token = p' := by
      rw [← hs1]; simp [setPos, setBank, hbt]
    have hpo : ∀ i t, (i ≠ acct ∨ t ≠ c.token) → s1.pos i t = s.pos i t := by
      intro i t hit
      rw [← hs1]
      simp only [setPos, setBank, hbt]
      rw [if_neg]
      rintro ⟨rfl, rfl⟩
      rcases hit with h | h <;> exact h rfl
    have hw1 : ∀ k c', s1.banks k = some c' → c'.b.Pos ∧ c'.b.RatesOk := by
      intro k c' hk
      by_cases hkc : k = c.bank
      · subst hkc
        rw [hbs, Option.some.injEq] at hk
        subst hk; exact hgood
      · rw [hbk k hkc] at hk; exact hw k c' hk
    simp only [List.map_cons, List.nodup_cons] at hnd hnt
    have hne : ∀ y ∈ l, y.1.bank ≠ c.bank ∧ y.1.token ≠ c.token := by
      intro y hy
      refine ⟨fun hc => hnd.1 ?_, fun hc => hnt.1 ?_⟩
      · rw [← hc]; exact List.mem_map.mpr ⟨y, hy, rfl⟩
      · rw [← hc]; exact List.mem_map.mpr ⟨y, hy, rfl⟩
    have hex1 : ∀ y ∈ l, ∃ b, s1.banks y.1.bank = some b ∧ b.token = y.1.token := by
      intro y hy
      rw [hbk _ (hne y hy).1]
      exact hex y (by simp [hy])
    obtain ⟨i1, i2, i3⟩ := ih s1 _ s' off' hw1 hex1 hnd.2 hnt.2 h2
    refine ⟨?_, ?_, ?_⟩
    · intro y hy
      rcases List.mem_cons.mp hy with rfl | hy
      · refine ⟨b, b', a, hb, ?_, ?_, ?_, by rw [← hbt]; exact hfee⟩
        · have hB := applyLoop_ok l s1 _ s' off' hw1 h2
          dsimp only
          rw [hB.off c.bank hnd.1, hbs]
        · dsimp only
          rw [i2 acct c.token (Or.inr hnt.1), hps, ← hbt]
          exact heff
        · dsimp only
          intro ht
          rcases i3 _ ht with h | h
          · cases a with
            | false => exact Or.inl rfl
            | true => simp only [if_true] at h; exact Or.inr h
          · exact absurd h hnt.1
      · obtain ⟨c1, c2, a', q1, q2, q3, q4, q5⟩ := i1 y hy
        rw [hbk _ (hne y hy).1] at q1
        rw [hpo acct _ (Or.inr (hne y hy).2)] at q3 q5
        refine ⟨c1, c2, a', q1, q2, q3, ?_, q5⟩
        intro ht
        rcases q4 ht with h | h
        · exact Or.inl h
        · cases a with
          | true => simp only [if_true] at h; exact Or.inr h
          | false =>
            simp only [Bool.false_eq_true, if_false, List.mem_cons] at h
            rcases h with h | h
            · exact absurd h (hne y hy).2
            · exact Or.inr h
    · intro i t hit
      simp only [List.map_cons, List.mem_cons, not_or] at hit
      rw [i2 i t (hit.imp id (fun h => h.2)), hpo i t (hit.imp id (fun h => h.1))]
    · intro t ht
      rcases i3 t ht with h | h
      · cases a with
        | true => simp only [if_true] at h; exact Or.inl h
        | false =>
          simp only [Bool.false_eq_true, if_false, List.mem_cons] at h
          rcases h with h | h
          · right; simp [h]
          · exact Or.inl h
      · right; simp only [List.map_cons, List.mem_cons]; exact Or.inr h

/-- Booking changes no other account's positions. -/
theorem applyLoop_acct {ty : LoanType} {mf : I80F48} {acct : Nat} {now : Int} :
    ∀ (l : List (Change × I80F48)) (s : State) (off : List Nat) (s' : State) (off' : List Nat),
      (∀ k b, s.banks k = some b → b.b.Pos ∧ b.b.RatesOk) →
      applyLoop ty mf acct now l s off = .ok (s', off') → ∀ a t, a ≠ acct → s'.pos a t = s.pos a t := by
  intro l
  induction l with
  | nil =>
    intro s off s' off' _ h a t _
    unfold applyLoop at h
    simp only [ok_inj, Prod.mk.injEq] at h
    obtain ⟨rfl, rfl⟩ := h
    rfl
  | cons x l ih =>
    obtain ⟨c, price⟩ := x
    intro s off s' off' hw h a t ha
    unfold applyLoop at h
    simp only [bind_ok] at h
    obtain ⟨⟨s1, act⟩, h1, h2⟩ := h
    dsimp only at h2
    obtain ⟨b, b', p', hb, rfl, heff, hfee⟩ := applyOne_ok hw h1
    rw [ih _ _ s' off' ?_ h2 a t ha]
    · simp only [setPos, setBank]
      rw [if_neg (fun hc => ha hc.1)]
    · intro k c' hk
      simp only [setPos, setBank] at hk
      by_cases hkc : k = c.bank
      · rw [if_pos hkc, Option.some.injEq] at hk
        subst hk; exact ⟨heff.pos (hw c.bank b hb).1, heff.rates (hw c.bank b hb).2⟩
      · rw [if_neg hkc] at hk; exact hw k c' hk

theorem prices_ok {env : Env} {s : State} : ∀ (l : List Change) (cs : List (Change × I80F48)),
    prices env s l = .ok cs → cs.map (·.1) = l := by
  intro l
  induction l with
  | nil => intro cs h; unfold prices at h; rw [Except.ok.injEq] at h; rw [← h]; rfl
  | cons c l ih =>
    intro cs h
    unfold prices at h
    simp only [bind_ok, pure_ok] at h
    obtain ⟨p, _, ps, h2, rfl⟩ := h
    rw [List.map_cons, ih ps h2]

theorem deactivateAll_ok {acct : Nat} : ∀ (l : List Nat) (s s' : State), deactivateAll acct l s = .ok s' →
    s'.banks = s.banks ∧ s'.toks = s.toks ∧ s'.accts = s.accts ∧ (∀ t ∈ l, s'.pos acct t = {}) ∧
    (∀ a t, (a ≠ acct ∨ t ∉ l) → s'.pos a t = s.pos a t) := by
  intro l
  induction l with
  | nil =>
    intro s s' h
    unfold deactivateAll at h
    rw [Except.ok.injEq] at h
    subst h
    exact ⟨rfl, rfl, rfl, by simp, fun _ _ _ => rfl⟩
  | cons t l ih =>
    intro s s' h
    unfold deactivateAll at h
    split at h
    · obtain ⟨h1, h2, h3, h4, h5⟩ := ih _ s' h
      refine ⟨h1, h2, h3, ?_, ?_⟩
      · intro x hx
        by_cases hxl : x ∈ l
        · exact h4 x hxl
        · have hxt : x = t := by simpa [hxl] using hx
          subst hxt
          rw [h5 acct x (Or.inr hxl)]
          simp [setPos]
      · intro a x hx
        simp only [List.mem_cons, not_or] at hx
        rw [h5 a x (hx.imp id (fun h => h.2))]
        simp only [setPos]
        rw [if_neg]
        rintro ⟨rfl, rfl⟩
        rcases hx with h | h
        · exact h rfl
        · exact h.1 rfl
    · simp at h

end Mango.Flash
