import Verif.Flash.Loan
import Verif.Props.Bank
import Mathlib.Data.List.Nodup

/-!
# C45 Flash loans are settled in the transaction that takes them

A transaction is a list of instructions, run in order, all or nothing (Flash/Model.lean). `WF` says what holds of all
banks: groups are program addresses, every vault belongs to its bank's group and to one bank only, indexes are positive,
fee rates not negative. `OthersOk` says the same of mango's other instructions: they keep `WF` and do not set the flash
loan fields.
-/
namespace Mango.Flash
open Bank

/-! ## Specification -/

/-- Running the first instructions of `tx` from `s` leads to `s'`, with `rest` still to run. -/
inductive Runs (env : Env) : List Ix → State → List Ix → State → Prop where
  | here (tx : List Ix) (s : State) : Runs env tx s tx s
  | step {ix : Ix} {tx rest : List Ix} {s s1 s' : State} : runIx env tx s ix = .ok s1 → Runs env tx s1 rest s' →
      Runs env (ix :: tx) s rest s'

/-- Some bank is in a loan. -/
def InLoan (s : State) : Prop := ∃ k b, s.banks k = some b ∧ (b.approved ≠ 0 ∨ b.initial ≠ NOLOAN)

/-- The instruction begins a flash loan of `amounts`; the loan's accounts start at position `fixed` of its accounts. -/
def Begins : Call → Nat → List Int → Prop
  | .begin am, fixed, amounts => fixed = 4 ∧ amounts = am
  | .swapBegin x, fixed, amounts => fixed = 8 ∧ amounts = [x, 0]
  | _, _, _ => False

/-- What bank `k` owes: to the position of account `a` and in fees, in units of 1 / S². -/
def owed (b : FBank) (p : TokenPosition) : Int := exactValue b.b.depositIndex b.b.borrowIndex p + feesAndDust b.b

theorem inLoan_iff {s : State} : InLoan s ↔ ¬ Clear s := by
  unfold InLoan Clear FBank.clear
  push Not
  refine ⟨?_, ?_⟩
  · rintro ⟨k, b, h1, h2⟩
    refine ⟨k, b, h1, fun h3 => ?_⟩
    rcases h2 with h2 | h2
    · exact absurd h3 h2
    · exact h2
  · rintro ⟨k, b, h1, h2⟩
    refine ⟨k, b, h1, ?_⟩
    by_cases h3 : b.approved = 0
    · exact Or.inr (h2 h3)
    · exact Or.inl h3

/-! ## Theorems -/

/-- No transaction leaves a loan open: if it succeeds, no bank is in a loan afterwards. -/
theorem C45_settled {env : Env} {tx : List Ix} {s s' : State} (hw : WF env s) (hc : ¬ InLoan s)
    (ho : OthersOk env tx) (h : runTx env tx s = .ok s') : ¬ InLoan s' ∧ WF env s' := by
  have hc' : Clear s := by by_contra hn; exact hc (inLoan_iff.mpr hn)
  obtain ⟨h1, h2⟩ := runTx_inv tx s s' hw (Or.inl hc') ho h
  exact ⟨fun hi => inLoan_iff.mp hi h2, h1⟩

theorem Runs.inv {env : Env} {tx rest : List Ix} {s s' : State} (h : Runs env tx s rest s') :
    WF env s → (Clear s ∨ Window env tx s) → OthersOk env tx →
    WF env s' ∧ (Clear s' ∨ Window env rest s') ∧ OthersOk env rest := by
  induction h with
  | here => intro a b c; exact ⟨a, b, c⟩
  | step h1 _ ih =>
    intro a b c
    obtain ⟨q1, q2⟩ := step_any a b c.head.1 h1
    exact ih q1 q2 c.head.2

theorem runTx_runs {env : Env} {tx rest : List Ix} {s s1 : State} (h : Runs env tx s rest s1) : ∀ s',
    runTx env tx s = .ok s' → runTx env rest s1 = .ok s' := by
  induction h with
  | here => intro s' h; exact h
  | step h1 _ ih =>
    intro s' h
    unfold runTx at h
    simp only [bind_ok] at h
    obtain ⟨s2, h2, h3⟩ := h
    rw [h1, Except.ok.injEq] at h2
    subst h2
    exact ih s' h3

/-- While a loan is open, the next instruction is either the one ending it or one of another program that cannot call
mango. Nothing else of mango runs: no bank index update, deposit, withdrawal, trade or liquidation. -/
theorem C45_mango_locked {env : Env} {tx rest : List Ix} {ix : Ix} {s s1 : State} (hw : WF env s) (hc : ¬ InLoan s)
    (ho : OthersOk env tx) (hr : Runs env tx s (ix :: rest) s1) (hl : InLoan s1) :
    (∃ accounts n ty now, ix = .mango accounts (.endLoan n ty now)) ∨
    (∃ p accounts acts, ix = .foreign p accounts acts ∧ p ≠ MANGO ∧ MANGO ∉ accounts) := by
  have hc' : Clear s := by by_contra hn; exact hc (inLoan_iff.mpr hn)
  obtain ⟨_, h2, _⟩ := hr.inv hw (Or.inl hc') ho
  rcases h2 with h2 | ⟨dl, acct, n, trail, hs, _⟩
  · exact absurd h2 (inLoan_iff.mp hl)
  · rcases (scan_cons hs).2 with ⟨accounts, ty, now, h, _⟩ | ⟨p, accounts, acts, h, h', h'', _⟩
    · exact Or.inl ⟨accounts, n, ty, now, h⟩
    · exact Or.inr ⟨p, accounts, acts, h, h', h''⟩

theorem begins_run {env : Env} {rest : List Ix} {s s1 : State} {accounts : List Nat} {c : Call} {fixed : Nat}
    {amounts : List Int} (hb : Begins c fixed amounts) (h : runIx env rest s (.mango accounts c) = .ok s1) :
    begin' env fixed true rest s accounts amounts = .ok s1 := by
  cases c with
  | begin am => obtain ⟨rfl, rfl⟩ := hb; exact h
  | swapBegin x =>
    obtain ⟨rfl, rfl⟩ := hb
    unfold runIx call at h
    simp only [bind_ok, require_ok] at h
    obtain ⟨_, _, h⟩ := h
    exact h
  | endLoan n ty now => exact absurd hb (by simp [Begins])
  | other f => exact absurd hb (by simp [Begins])

theorem runs_foreign {env : Env} : ∀ (mid : List Ix) (rest : List Ix) (s s' : State),
    (∀ ix ∈ mid, ∃ p a acts, ix = Ix.foreign p a acts ∧ MANGO ∉ a) → runTx env (mid ++ rest) s = .ok s' →
    ∃ s1, Runs env (mid ++ rest) s rest s1 ∧ Outside env s s1 ∧ runTx env rest s1 = .ok s' := by
  intro mid
  induction mid with
  | nil => intro rest s s' _ h; exact ⟨s, Runs.here _ _, Outside.refl _ _, h⟩
  | cons ix mid ih =>
    intro rest s s' hm h
    obtain ⟨p, a, acts, rfl, ha⟩ := hm ix (by simp)
    rw [List.cons_append] at h ⊢
    unfold runTx at h
    simp only [bind_ok] at h
    obtain ⟨s1, h1, h2⟩ := h
    obtain ⟨s2, q1, q2, q3⟩ := ih rest s1 s' (fun x hx => hm x (by simp [hx])) h2
    exact ⟨s2, Runs.step h1 q1, (runActs_outside ha acts s s1 h1).trans q2, q3⟩

/-- the rate of the swap fee: the largest of the rates of the banks with the given vaults -/
def SwapFeeRate (s : State) (vaults : List Nat) (mf : I80F48) : Prop :=
  0 ≤ mf ∧ (∀ k b, s.banks k = some b → b.vault ∈ vaults → b.swapFee ≤ mf) ∧
  (mf = 0 ∨ ∃ k b, s.banks k = some b ∧ b.vault ∈ vaults ∧ b.swapFee = mf)

/-- What End does for each bank in the loan, if no health account is listed twice. -/
theorem end_books {env : Env} {s s' : State} {accounts tail : List Nat} {n : Nat} {ty : LoanType} (hw : WF env s)
    (hE : EndOk env s s' accounts tail n ty) (hnd : ((accounts.drop 3).take (accounts.length - 3 - 2 * n - 1)).Nodup)
    (hdist : ∀ k k' b b', s.banks k = some b → s.banks k' = some b' → ¬ b.clear → ¬ b'.clear → b.token = b'.token → k = k')
    {acctKey : Nat} (hak : accounts[0]? = some acctKey) :
    (∃ mf, SwapFeeRate s (tail.take n) mf ∧ ∀ k b, s.banks k = some b → b.vault ∈ tail.take n → ∃ repaid b' p',
      0 ≤ repaid ∧ b'.collectedFeesNative = b.b.collectedFeesNative + loanCost ty mf b (nativeOf b.b (s.pos acctKey b.token)) ((repaid - b.approved) * S) ∧ (s'.toks b.vault).amount = (s.toks b.vault).amount + repaid ∧
      s'.banks k = some { b with b := b', approved := 0, initial := NOLOAN } ∧
      s'.pos acctKey b.token = p' ∧ b'.depositIndex = b.b.depositIndex ∧ b'.borrowIndex = b.b.borrowIndex ∧
      b'.indexedDeposits - Bank.posPart p'.indexed = b.b.indexedDeposits - Bank.posPart (s.pos acctKey b.token).indexed ∧
      b'.indexedBorrows - Bank.negPart p'.indexed = b.b.indexedBorrows - Bank.negPart (s.pos acctKey b.token).indexed ∧
      exactValue b.b.depositIndex b.b.borrowIndex p' + feesAndDust b' ≤
        exactValue b.b.depositIndex b.b.borrowIndex (s.pos acctKey b.token) + feesAndDust b.b +
          (repaid - b.approved) * S * S + (b.b.depositIndex + b.b.borrowIndex) ∧
      exactValue b.b.depositIndex b.b.borrowIndex (s.pos acctKey b.token) + feesAndDust b.b +
          (repaid - b.approved) * S * S - S ≤ exactValue b.b.depositIndex b.b.borrowIndex p' + feesAndDust b') ∧
    (∀ a t, a ≠ acctKey ∨ (∀ k b, s.banks k = some b → b.vault ∈ tail.take n → b.token ≠ t) →
      s'.pos a t = s.pos a t) := by
  obtain ⟨acctKey', owner, acct, g, health, st, cs, s1, off, off', ha, ho, hacct, hop, hpda, hown, hh, hgr, hg,
    ⟨_, _, hloop⟩, hR, hseen, hcs, ⟨now, hap⟩, _, hoff, hd⟩ := hE.args
  rw [hak, Option.some.injEq] at ha
  subst ha
  have hw1 : ∀ k b, st.s.banks k = some b → b.b.Pos ∧ b.b.RatesOk := by
    intro k b hb; rw [hR.banks] at hb; exact hw.bank k b hb
  have hB := applyLoop_ok cs st.s [] s1 off hw1 hap
  obtain ⟨d1, d2, d3, d4, d5⟩ := deactivateAll_ok _ _ _ hd
  have hmapB : cs.map (fun x => x.1.bank) = st.changes.reverse.map (·.bank) := by rw [← hcs, List.map_map]; rfl
  have hmapT : cs.map (fun x => x.1.token) = st.changes.reverse.map (·.token) := by rw [← hcs, List.map_map]; rfl
  have hmemc : ∀ x, x ∈ cs → x.1 ∈ st.changes := by
    intro x hx
    have : x.1 ∈ cs.map (·.1) := List.mem_map.mpr ⟨x, hx, rfl⟩
    rw [hcs] at this
    exact List.mem_reverse.mp this
  have hndC : (st.changes.map (·.bank)).Nodup :=
    endLoop_nodup _ _ st (by rw [hh]; simpa using hnd) hloop
  have hndB : (cs.map (fun x => x.1.bank)).Nodup := by
    rw [hmapB, List.map_reverse]; exact (List.Perm.nodup_iff (List.reverse_perm _)).mpr hndC
  have hndT : (cs.map (fun x => x.1.token)).Nodup := by
    rw [hmapT, List.map_reverse, List.Perm.nodup_iff (List.reverse_perm _)]
    have hndC' := List.Nodup.of_map _ hndC
    rw [List.nodup_map_iff_inj_on hndC']
    intro c hc c' hc' ht
    obtain ⟨b, q1, q2, _, q3, _⟩ := hR.ch c hc
    obtain ⟨b', q1', q2', _, q3', _⟩ := hR.ch c' hc'
    have := hdist c.bank c'.bank b b' q1 q1' (fun h => q3 h.2) (fun h => q3' h.2) (by rw [q2, q2', ht])
    exact (List.nodup_map_iff_inj_on hndC').mp hndC c hc c' hc' this
  have hex : ∀ x ∈ cs, ∃ b, st.s.banks x.1.bank = some b ∧ b.token = x.1.token := by
    intro x hx
    obtain ⟨b, q1, q2, _⟩ := hR.ch _ (hmemc x hx)
    exact ⟨b, by rw [hR.banks]; exact q1, q2⟩
  obtain ⟨A1, A2, A3⟩ := applyLoop_single cs st.s [] s1 off hw1 hex hndB hndT hap
  have hmf := endLoop_fee (s0 := s) _ _ st rfl ⟨le_refl _, by simp, Or.inl rfl⟩ hloop
  constructor
  · refine ⟨st.maxFee, ⟨hmf.1, ?_, ?_⟩, ?_⟩
    · intro k b hb hv
      obtain ⟨i, hi, hiv⟩ := List.mem_iff_getElem.mp hv
      have hin : i < n := by rw [List.length_take] at hi; omega
      obtain ⟨c, hc, bc, hbc, hbcv⟩ := hR.seen i (hseen i hin)
      rw [List.getElem?_eq_getElem hi, Option.some.injEq, hiv] at hbcv
      have hkc : c.bank = k := hw.inj c.bank k bc b hbc hb hbcv.symm
      exact hmf.2.1 c hc b (by rw [hkc]; exact hb)
    · rcases hmf.2.2 with h | ⟨c, hc, b, hb, h⟩
      · exact Or.inl h
      · obtain ⟨b2, q1, _, _, _, q4, _⟩ := hR.ch c hc
        rw [hb, Option.some.injEq] at q1
        subst q1
        exact Or.inr ⟨_, b, hb, q4, h⟩
    intro k b hb hv
    -- the change for this bank
    obtain ⟨i, hi, hiv⟩ := List.mem_iff_getElem.mp hv
    have hin : i < n := by rw [List.length_take] at hi; omega
    obtain ⟨c, hc, bc, hbc, hbcv⟩ := hR.seen i (hseen i hin)
    rw [List.getElem?_eq_getElem hi, Option.some.injEq, hiv] at hbcv
    have hkc : c.bank = k := hw.inj c.bank k bc b hbc hb hbcv.symm
    subst hkc
    rw [hb, Option.some.injEq] at hbc
    subst hbc
    obtain ⟨b2, q1, q2, _, q3, _, r, hr, hamt⟩ := hR.ch c hc
    rw [hb, Option.some.injEq] at q1
    subst q1
    obtain ⟨x, hx, hxc⟩ : ∃ x ∈ cs, x.1 = c := by
      have : c ∈ cs.map (·.1) := by rw [hcs]; simpa using hc
      exact List.mem_map.mp this
    subst hxc
    obtain ⟨b3, b', a, e1, e2, e3, e4, e5⟩ := A1 x hx
    rw [hR.banks, hb, Option.some.injEq] at e1
    subst e1
    rw [hR.pos] at e3 e5
    -- the vault
    have hgain := hR.gain x.1.bank b hb
    have hsum : sumOf (fun c => if c.bank = x.1.bank then c.amount + b.approved * S else 0) st.changes =
        x.1.amount + b.approved * S := by
      obtain ⟨l1, l2, hl⟩ := List.append_of_mem hc
      rw [hl] at hndC ⊢
      rw [List.map_append, List.map_cons] at hndC
      have hnd2 := (List.perm_middle.nodup_iff).mp hndC
      rw [List.nodup_cons] at hnd2
      rw [sumOf_append, sumOf_cons, if_pos rfl]
      have z : ∀ l : List Change, (∀ y ∈ l, y.bank ≠ x.1.bank) →
          sumOf (fun c => if c.bank = x.1.bank then c.amount + b.approved * S else 0) l = 0 := by
        intro l hl
        induction l with
        | nil => simp
        | cons y l ih =>
          rw [sumOf_cons, if_neg (hl y (by simp)), ih (fun z hz => hl z (by simp [hz]))]; rfl
      rw [z l1, z l2]
      · omega
      · intro y hy hyc
        exact hnd2.1 (by rw [← hyc]; simp only [List.mem_append, List.mem_map]; exact Or.inr ⟨y, hy, rfl⟩)
      · intro y hy hyc
        exact hnd2.1 (by rw [← hyc]; simp only [List.mem_append, List.mem_map]; exact Or.inl ⟨y, hy, rfl⟩)
    rw [hsum, hamt] at hgain
    have hvault : (st.s.toks b.vault).amount = (s.toks b.vault).amount + r := by
      have : ((st.s.toks b.vault).amount - (s.toks b.vault).amount - r) * S = 0 := by
        have := hgain
        ring_nf at this ⊢
        omega
      have hS : S ≠ 0 := ne_of_gt Fx.S_pos
      rcases Int.mul_eq_zero.mp this with h | h
      · omega
      · exact absurd h hS
    -- the final position has the same balance
    have hpos : (s'.pos acctKey b.token).indexed = (s1.pos acctKey x.1.token).indexed := by
      rw [q2]
      by_cases hoffm : x.1.token ∈ off'
      · rw [d4 _ hoffm]
        have hmo : x.1.token ∈ off := by rw [hoff] at hoffm; exact List.mem_reverse.mp hoffm
        rcases e4 hmo with h | h
        · rw [e3.closed h]
        · simp at h
      · rw [d5 acctKey x.1.token (Or.inr hoffm)]
    rw [← q2] at e3
    rw [← q2] at hpos
    have hval : exactValue b.b.depositIndex b.b.borrowIndex (s'.pos acctKey b.token) =
        exactValue b.b.depositIndex b.b.borrowIndex (s1.pos acctKey b.token) := exactValue_congr hpos
    refine ⟨r, b', _, hr, by rw [← hamt, q2]; exact e5, by rw [d2, hB.toks]; exact hvault, by rw [d1]; exact e2, rfl, e3.depositIndex, e3.borrowIndex,
      by rw [hpos]; exact e3.deposits, by rw [hpos]; exact e3.borrows, ?_, ?_⟩
    · rw [hval, ← hamt]; exact e3.upper
    · rw [hval, ← hamt]; exact e3.lower
  · intro a t hat
    have hnt : a ≠ acctKey ∨ t ∉ cs.map (fun x => x.1.token) := by
      rcases hat with h | h
      · exact Or.inl h
      · refine Or.inr ?_
        rw [hmapT, List.map_reverse, List.mem_reverse, List.mem_map]
        rintro ⟨c, hc, hct⟩
        obtain ⟨b, q1, q2, _, _, q4, _⟩ := hR.ch c hc
        exact h c.bank b q1 q4 (by rw [q2, hct])
    rw [d5 a t, A2 a t hnt, hR.pos]
    rcases hnt with h | h
    · exact Or.inl h
    · refine Or.inr (fun ht => h ?_)
      rw [hoff] at ht
      rcases A3 t (List.mem_reverse.mp ht) with h' | h'
      · simp at h'
      · exact h'

/-- End touches only the positions of its account. -/
theorem end_acct {env : Env} {s s' : State} {accounts tail : List Nat} {n : Nat} {ty : LoanType} (hw : WF env s)
    (hE : EndOk env s s' accounts tail n ty) {acctKey : Nat} (hak : accounts[0]? = some acctKey) :
    ∀ a t, a ≠ acctKey → s'.pos a t = s.pos a t := by
  obtain ⟨acctKey', owner, acct, g, health, st, cs, s1, off, off', ha, ho, hacct, hop, hpda, hown, hh, hgr, hg,
    ⟨_, _, hloop⟩, hR, hseen, hcs, ⟨now, hap⟩, _, hoff, hd⟩ := hE.args
  rw [hak, Option.some.injEq] at ha
  subst ha
  have hw1 : ∀ k b, st.s.banks k = some b → b.b.Pos ∧ b.b.RatesOk := by
    intro k b hb; rw [hR.banks] at hb; exact hw.bank k b hb
  obtain ⟨_, _, _, _, d5⟩ := deactivateAll_ok _ _ _ hd
  intro a t ha
  rw [d5 a t (Or.inl ha), applyLoop_acct cs st.s [] s1 off hw1 hap a t ha, hR.pos]

/-- The health check of End: the health before is taken with the positions and banks End starts from, the health after with the banks and positions it ends with (but before
emptied positions are deactivated). -/
theorem C45_health {env : Env} {s s' : State} {accounts : List Nat} {n : Nat} {ty : LoanType} {now : Int} (hw : WF env s)
    (h : end' env s accounts n ty now = .ok s') : ∃ acctKey before after pre, accounts[0]? = some acctKey ∧
      before.pos = s.pos ∧ before.banks = s.banks ∧ env.pre before acctKey = .ok pre ∧ env.post after acctKey pre = .ok () ∧
      after.banks = s'.banks ∧ after.toks = s'.toks ∧ (∀ a t, s'.pos a t = after.pos a t ∨ a = acctKey ∧ s'.pos a t = {}) := by
  obtain ⟨tail, hE⟩ := end_ok hw h
  obtain ⟨acctKey, owner, acct, g, health, st, cs, s1, off, off', ha, ho, hacct, hop, hpda, hown, hh, hgr, hg,
    ⟨_, _, hloop⟩, hR, hseen, hcs, ⟨now, hap⟩, ⟨pre, hpre, hpost⟩, hoff, hd⟩ := hE.args
  obtain ⟨d1, d2, d3, d4, d5⟩ := deactivateAll_ok _ _ _ hd
  refine ⟨acctKey, st.s, s1, pre, ha, hR.pos, hR.banks, hpre, hpost, d1.symm, d2.symm, ?_⟩
  intro a t
  by_cases hc : a ≠ acctKey ∨ t ∉ off'
  · exact Or.inl (d5 a t hc)
  · push Not at hc
    exact Or.inr ⟨hc.1, by rw [hc.1]; exact d4 t hc.2⟩

/-- The whole loan. If a transaction contains a Begin and succeeds, then
* it is followed by an End for the same mango account, the same number of loans and the same vaults, token accounts and
  group, with only instructions of other programs that cannot call mango in between (for delegates: only the programs
  they may use);
* the health check of End has passed;
* for every loan: the loaned bank's vault has, from before Begin to after End, lost at most `amount - repaid`, and what
  the bank owes to the account and in fees has changed by `repaid - amount` tokens, up to rounding of less than one native
  token down and `(deposit index + borrow index) / 2^96` tokens up; the bank's totals follow the position; provided End
  lists no health account twice (see `C45_duplicate_bank_erases_debt`);
* the bank's collected fees have grown by exactly the origination fee rate times the part of the loan not covered by the account's own deposits, plus, for swaps, the largest
  swap fee rate of the loaned banks times what was not repaid;
* all positions of other accounts, and the account's positions in other tokens, are untouched. -/
theorem C45_loan {env : Env} {tx rest : List Ix} {s s0 s' : State} {accounts : List Nat} {c : Call} {fixed : Nat}
    {amounts : List Int} (hw : WF env s) (hc : ¬ InLoan s) (ho : OthersOk env tx) (hrun : runTx env tx s = .ok s')
    (hr : Runs env tx s (.mango accounts c :: rest) s0) (hb : Begins c fixed amounts) :
    ∃ mid endAccounts ty now tl s1 s2 s3,
      rest = mid ++ .mango endAccounts (.endLoan amounts.length ty now) :: tl ∧
      (∀ ix ∈ mid, ∃ p a acts, ix = .foreign p a acts ∧ p ≠ MANGO ∧ MANGO ∉ a) ∧
      (∀ owner acct, accounts[1]? = some owner → (accounts[0]?.bind s0.accts) = some acct → owner ∈ acct.delegates →
        ∀ ix ∈ mid, ix.program ∈ env.allowed) ∧
      endAccounts[0]? = accounts[0]? ∧
      endAccounts.drop (endAccounts.length - (2 * amounts.length + 1)) = accounts.drop (fixed + amounts.length) ∧
      runIx env rest s0 (.mango accounts c) = .ok s1 ∧
      Runs env rest s1 (.mango endAccounts (.endLoan amounts.length ty now) :: tl) s2 ∧
      end' env s2 endAccounts amounts.length ty now = .ok s3 ∧ runTx env tl s3 = .ok s' ∧
      ¬ InLoan s0 ∧ ¬ InLoan s3 ∧
      ∃ acctKey, accounts[0]? = some acctKey ∧ (∀ a t, a ≠ acctKey → s3.pos a t = s0.pos a t) ∧
        (((endAccounts.drop 3).take (endAccounts.length - 3 - 2 * amounts.length - 1)).Nodup →
          (∃ mf, SwapFeeRate s0 ((accounts.drop (fixed + amounts.length)).take amounts.length) mf ∧
           ∀ i bk v amount, accounts[fixed + i]? = some bk → accounts[fixed + amounts.length + i]? = some v →
            amounts[i]? = some amount → ∃ repaid b0 b3, 0 ≤ repaid ∧
              b3.b.collectedFeesNative = b0.b.collectedFeesNative +
                ((if nativeOf b0.b (s0.pos acctKey b0.token) > 0 then max (amount * S - nativeOf b0.b (s0.pos acctKey b0.token)) 0 else amount * S) *
                  b0.b.loanOriginationFeeRate / S + (if repaid < amount ∧ ty = .swap then (amount - repaid) * mf else 0)) ∧ s0.banks bk = some b0 ∧ s3.banks bk = some b3 ∧
              b0.vault = v ∧ b3.vault = v ∧ b3.token = b0.token ∧
              (s3.toks v).amount ≥ (s0.toks v).amount - amount + repaid ∧
              owed b3 (s3.pos acctKey b0.token) ≤ owed b0 (s0.pos acctKey b0.token) + (repaid - amount) * S * S +
                (b0.b.depositIndex + b0.b.borrowIndex) ∧
              owed b0 (s0.pos acctKey b0.token) + (repaid - amount) * S * S - S ≤ owed b3 (s3.pos acctKey b0.token) ∧
              b3.b.indexedDeposits - Bank.posPart (s3.pos acctKey b0.token).indexed =
                b0.b.indexedDeposits - Bank.posPart (s0.pos acctKey b0.token).indexed ∧
              b3.b.indexedBorrows - Bank.negPart (s3.pos acctKey b0.token).indexed =
                b0.b.indexedBorrows - Bank.negPart (s0.pos acctKey b0.token).indexed) ∧
          (∀ t, (∀ i bk b, i < amounts.length → accounts[fixed + i]? = some bk → s0.banks bk = some b →
            b.token ≠ t) → s3.pos acctKey t = s0.pos acctKey t)) := by
  have hc' : Clear s := by by_contra hn; exact hc (inLoan_iff.mpr hn)
  obtain ⟨hw0, hi0, ho0⟩ := hr.inv hw (Or.inl hc') ho
  have hrest := runTx_runs hr s' hrun
  -- Begin finds no open loan
  have hc0 : Clear s0 := by
    rcases hi0 with h | ⟨dl, acct, n, trail, hs, _⟩
    · exact h
    · exfalso
      rcases (scan_cons hs).2 with ⟨a, ty, now, h, _⟩ | ⟨p, a, acts, h, _⟩
      · rw [Ix.mango.injEq] at h
        rw [h.2] at hb; exact hb
      · simp at h
  unfold runTx at hrest
  simp only [bind_ok] at hrest
  obtain ⟨s1, h1, h2⟩ := hrest
  have hbeg := begins_run hb h1
  obtain ⟨_, hB⟩ := begin_ok hw0 hc0 hbeg
  obtain ⟨acctKey, owner, acct, g, a1, a2, a3, a4, a5, a6, a7, seen, hBeg⟩ := hB.args
  have htl : (accounts.drop fixed).drop amounts.length = accounts.drop (fixed + amounts.length) := List.drop_drop
  rw [htl] at a7 hBeg
  have htlen : (accounts.drop (fixed + amounts.length)).length = 2 * amounts.length + 1 := by
    rw [← htl, List.length_drop, a5]; omega
  obtain ⟨mid, endAccounts, ty, now, tl, hsplit, m2, m3, m4, m5⟩ := scan_split rest a7
  rw [htlen] at m5
  rw [hsplit] at h2
  obtain ⟨s2, r1, r2, r3⟩ := runs_foreign mid _ s1 s' (fun ix hix => by
    obtain ⟨p, a, acts, q1, _, q3, _⟩ := m2 ix hix
    exact ⟨p, a, acts, q1, q3⟩) h2
  rw [← hsplit] at r1
  unfold runTx at r3
  simp only [bind_ok] at r3
  obtain ⟨s3, r3, r4⟩ := r3
  have hw1 := hBeg.wf hw0
  have hw2 := r2.wf hw1
  obtain ⟨tail, hE⟩ := end_ok hw2 r3
  have htail : tail = accounts.drop (fixed + amounts.length) := by rw [← hE.tail_eq]; exact m5
  obtain ⟨hw3, _, hset⟩ := hE.settles hw2
  have hc3 : Clear s3 := by
    intro k b hk
    by_contra hn
    obtain ⟨q1, q2⟩ := hset k b hk hn
    rw [r2.banks] at q1
    exact q2 (by rw [htail]; exact (hBeg.loan k b q1 hn).2.1)
  refine ⟨mid, endAccounts, ty, now, tl, s1, s2, s3, hsplit, ?_, ?_, by rw [m3, a1], m5, h1, r1, r3, r4,
    fun h => inLoan_iff.mp h hc0, fun h => inLoan_iff.mp h hc3, acctKey, a1, ?_, ?_⟩
  · intro ix hix
    obtain ⟨p, a, acts, q1, q2, q3, _⟩ := m2 ix hix
    exact ⟨p, a, acts, q1, q2, q3⟩
  · intro owner' acct' e1 e2 e3 ix hix
    rw [a1, Option.bind_some, a3, Option.some.injEq] at e2
    rw [a2, Option.some.injEq] at e1
    subst e1; subst e2
    obtain ⟨p, a, acts, q1, _, _, q4⟩ := m2 ix hix
    rw [q1]
    exact q4 (by simpa using e3)
  · intro a t ha
    rw [end_acct hw2 hE m3 a t ha, r2.pos, hBeg.pos]
  · intro hnd
    have hdist : ∀ k k' b b', s2.banks k = some b → s2.banks k' = some b' → ¬ b.clear → ¬ b'.clear → b.token = b'.token →
        k = k' := by rw [r2.banks]; exact hBeg.distinct
    obtain ⟨⟨mf, ⟨M1, M2, M3⟩, E1⟩, E2⟩ := end_books hw2 hE hnd hdist (acctKey := acctKey) m3
    have hvl : tail.take amounts.length = (accounts.drop (fixed + amounts.length)).take amounts.length := by rw [htail]
    have hpos2 : s2.pos = s0.pos := r2.pos.trans hBeg.pos
    refine ⟨?_, ?_⟩
    · refine ⟨mf, ⟨M1, ?_, ?_⟩, ?_⟩
      · intro k b hk hv
        obtain ⟨ap, ini', g1, _⟩ := hBeg.present k b hk
        have := M2 k _ (by rw [r2.banks]; exact g1) (by rw [hvl]; exact hv)
        exact this
      · rcases M3 with h | ⟨k, b, hk, hv, h⟩
        · exact Or.inl h
        · rw [r2.banks] at hk
          right
          rcases hex : s0.banks k with _ | b0
          · have := hBeg.absent k hex
            rw [this] at hk; simp at hk
          · obtain ⟨ap, ini', g1, _⟩ := hBeg.present k b0 hex
            rw [g1, Option.some.injEq] at hk
            subst hk
            exact ⟨k, b0, hex, by rw [← hvl]; exact hv, h⟩
      intro i bk v amount i1 i2 i3
      obtain ⟨b0, ini, l1, l2, l3⟩ := begin_loans hw0 hc0 hbeg i bk v amount i1 i2 i3
      have hiv : i < amounts.length := (List.getElem?_eq_some_iff.mp i3).1
      have hvm : v ∈ tail.take amounts.length := by
        rw [htail, List.mem_iff_getElem?]
        refine ⟨i, ?_⟩
        rw [List.getElem?_take_of_lt hiv, List.getElem?_drop]; exact i2
      obtain ⟨repaid, b', p', f1, f0, f2, f3, f4, f5, f6, f7, f8, f9, f10⟩ :=
        E1 bk { b0 with approved := amount, initial := ini } (by rw [r2.banks]; exact l3) (by
          show b0.vault ∈ _; rw [l2]; exact hvm)
      dsimp only at f2 f3 f4 f5 f6 f7 f8 f9 f10
      rw [hpos2] at f0 f7 f8 f9 f10
      rw [l2] at f2
      obtain ⟨ap, ini', g1, g2, g3⟩ := hBeg.present bk b0 l1
      have hap : ap = amount := by
        rw [l3, Option.some.injEq] at g1
        have := congrArg FBank.approved g1
        dsimp only at this; exact this.symm
      rw [l2, hap] at g3
      have hvv := r2.vault v (by
        rw [hBeg.owner, ← l2, hw0.owner bk b0 l1]; exact hw0.pda bk b0 l1)
      have hfee : b'.collectedFeesNative = b0.b.collectedFeesNative +
                ((if nativeOf b0.b (s0.pos acctKey b0.token) > 0 then max (amount * S - nativeOf b0.b (s0.pos acctKey b0.token)) 0 else amount * S) *
                  b0.b.loanOriginationFeeRate / S + (if repaid < amount ∧ ty = .swap then (amount - repaid) * mf else 0)) := by
        rw [f0]
        unfold loanCost
        dsimp only
        congr 2
        have hS := Fx.S_pos
        by_cases ht : ty = .swap
        · by_cases hra : repaid < amount
          · have : (repaid - amount) * S < 0 := by nlinarith
            rw [if_pos ⟨this, ht⟩, if_pos ⟨hra, ht⟩]
            rw [show -((repaid - amount) * S) * mf = (amount - repaid) * mf * S by ring]
            exact Int.mul_ediv_cancel _ (by omega)
          · have : ¬ (repaid - amount) * S < 0 := by
              have : 0 ≤ (repaid - amount) * S := Int.mul_nonneg (by omega) (by omega)
              omega
            rw [if_neg (fun h => this h.1), if_neg (fun h => hra h.1)]
        · rw [if_neg (fun h => ht h.2), if_neg (fun h => ht h.2)]
      refine ⟨repaid, b0, _, f1, hfee, l1, f3, l2, l2, rfl, by omega, ?_, ?_, by rw [f4]; exact f7, by rw [f4]; exact f8⟩
      · unfold owed
        dsimp only
        rw [f4, f5, f6]; exact f9
      · unfold owed
        dsimp only
        rw [f4, f5, f6]; exact f10
    · intro t hbk
      rw [← hpos2]
      refine E2 acctKey t (Or.inr ?_)
      intro k b hk hv
      -- bank k is one of the loaned ones
      rw [htail] at hv
      obtain ⟨i, hi⟩ := List.mem_iff_getElem?.mp hv
      have hin : i < amounts.length := by
        have := (List.getElem?_eq_some_iff.mp hi).1
        rw [List.length_take] at this; omega
      rw [List.getElem?_take_of_lt hin, List.getElem?_drop] at hi
      have hrem := a5
      rw [List.length_drop] at hrem
      have hlt : fixed + i < accounts.length := by omega
      obtain ⟨b0, ini, l1, l2, l3⟩ := begin_loans hw0 hc0 hbeg i (accounts[fixed + i]) b.vault (amounts[i])
        (List.getElem?_eq_getElem hlt) hi (List.getElem?_eq_getElem hin)
      have hkk : k = accounts[fixed + i] := by
        refine hw2.inj k _ b _ hk (by rw [r2.banks]; exact l3) ?_
        exact l2.symm
      have := hbk i _ b0 hin (List.getElem?_eq_getElem hlt) l1
      intro hbt
      apply this
      rw [r2.banks, hkk, l3, Option.some.injEq] at hk
      rw [← hbt, ← hk]

end Mango.Flash
