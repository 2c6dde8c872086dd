import Verif.Flash.EndLemmas

namespace Mango.Flash
open Bank

/-- Every state a successful End starts from and ends in. `tail` are the last 2 n + 1 accounts. -/
structure EndOk (env : Env) (s s' : State) (accounts tail : List Nat) (n : Nat) (ty : LoanType) : Prop where
  pos : 0 < n
  len : tail.length = 2 * n + 1
  tail_eq : accounts.drop (accounts.length - (2 * n + 1)) = tail
  args : ∃ acctKey owner acct g health st cs s1 off off',
    accounts[0]? = some acctKey ∧ accounts[1]? = some owner ∧ s.accts acctKey = some acct ∧
    acct.operational = true ∧ env.pda owner = false ∧ (acct.owner = owner ∨ owner ∈ acct.delegates) ∧
    health = (accounts.drop 3).take (accounts.length - 3 - 2 * n - 1) ∧
    acct.group = g ∧ tail[2 * n]? = some g ∧
    (∃ owner toks, endLoop g owner (tail.take n) toks health ⟨s, [], [], 0⟩ = .ok st) ∧
    Repaid s g (tail.take n) st ∧ (∀ i < n, i ∈ st.seen) ∧
    cs.map (·.1) = st.changes.reverse ∧
    (∃ now, applyLoop ty st.maxFee acctKey now cs st.s [] = .ok (s1, off)) ∧
    (∃ pre, env.pre st.s acctKey = .ok pre ∧ env.post s1 acctKey pre = .ok ()) ∧
    off' = off.reverse ∧ deactivateAll acctKey off' s1 = .ok s'

theorem end_ok {env : Env} {s s' : State} {accounts : List Nat} {n : Nat} {ty : LoanType} {now : Int} (hw : WF env s)
    (h : end' env s accounts n ty now = .ok s') : ∃ tail, EndOk env s s' accounts tail n ty := by
  unfold end' at h
  simp only [bind_ok, require_ok] at h
  obtain ⟨_, hn, h⟩ := h
  split at h
  · rename_i acctKey owner ha ho
    split at h
    · simp at h
    · rename_i acct hacct
      simp only [bind_ok, require_ok] at h
      obtain ⟨_, h1, _, h2, _, h3, _, h4, h⟩ := h
      split at h
      · simp at h
      · rename_i g hg
        simp only [bind_ok, require_ok] at h
        obtain ⟨_, h5, st, h6, _, h7, _, h8, pre, h9, cs, h10, ⟨s1, off⟩, h11, _, h12, h13⟩ := h
        dsimp only at h12 h13
        have hlen : (accounts.drop 3).length = accounts.length - 3 := List.length_drop
        have hl : accounts.length - 3 - 2 * n - 1 + 3 = accounts.length - (2 * n + 1) := by omega
        have hvt : (accounts.drop 3).drop (accounts.length - 3 - 2 * n - 1) =
            accounts.drop (accounts.length - (2 * n + 1)) := by
          rw [List.drop_drop, Nat.add_comm, hl]
        rw [hlen] at h4 h6 hg
        rw [hvt] at h6
        refine ⟨accounts.drop (accounts.length - (2 * n + 1)), hn, by rw [List.length_drop]; omega, rfl,
          acctKey, owner, acct, g, (accounts.drop 3).take (accounts.length - 3 - 2 * n - 1), st, cs, s1, off, off.reverse,
          ha, ho, hacct, h2, h1, h3, rfl, h5, ?_, ⟨owner, _, h6⟩, endLoop_ok hw h1 _ _ st (repaid_start s g _) h6, h7,
          prices_ok _ cs h10, ⟨now, h11⟩, ⟨pre, h9, h12⟩, rfl, h13⟩
        rw [List.getElem?_drop] at hg ⊢
        rw [← hg]
        congr 1
        omega
  · simp at h

/-- End settles: every bank whose vault is listed was in a loan, is not any more, and all other banks are untouched. -/
theorem EndOk.settles {env : Env} {s s' : State} {accounts tail : List Nat} {n : Nat} {ty : LoanType} (hw : WF env s)
    (h : EndOk env s s' accounts tail n ty) : WF env s' ∧
      (∀ v ∈ tail.take n, ∃ k b, s.banks k = some b ∧ b.vault = v ∧ b.initial ≠ NOLOAN) ∧
      (∀ k b, s'.banks k = some b → ¬ b.clear → s.banks k = some b ∧ b.vault ∉ tail.take n) := by
  obtain ⟨acctKey, owner, acct, g, health, st, cs, s1, off, off', ha, ho, hacct, hop, hpda, hown, hh, hgr, hg,
    ⟨_, _, hloop⟩, hR, hseen, hcs, ⟨now, hap⟩, _, _, hd⟩ := h.args
  have hw1 : ∀ k b, st.s.banks k = some b → b.b.Pos ∧ b.b.RatesOk := by
    intro k b hb; rw [hR.banks] at hb; exact hw.bank k b hb
  have hB := applyLoop_ok cs st.s [] s1 off hw1 hap
  obtain ⟨d1, d2, d3, _⟩ := deactivateAll_ok _ _ _ hd
  have hmem : ∀ k, k ∈ cs.map (·.1.bank) ↔ ∃ c ∈ st.changes, c.bank = k := by
    intro k
    have : cs.map (fun x => x.1.bank) = (cs.map (·.1)).map (·.bank) := by rw [List.map_map]; rfl
    rw [this, hcs]
    simp
  have hlisted : ∀ v ∈ tail.take n, ∃ k b, s.banks k = some b ∧ b.vault = v ∧ b.initial ≠ NOLOAN ∧ k ∈ cs.map (·.1.bank) := by
    intro v hv
    obtain ⟨i, hi, hiv⟩ := List.mem_iff_getElem.mp hv
    have hin : i < n := by rw [List.length_take] at hi; omega
    obtain ⟨c, hc, b, hb, hbv⟩ := hR.seen i (hseen i hin)
    obtain ⟨b', hb', _, _, hini, _⟩ := hR.ch c hc
    rw [hb, Option.some.injEq] at hb'
    subst hb'
    rw [List.getElem?_eq_getElem hi, Option.some.injEq, hiv] at hbv
    exact ⟨c.bank, b, hb, hbv.symm, hini, (hmem _).mpr ⟨c, hc, rfl⟩⟩
  have key : ∀ k b, s'.banks k = some b → ∃ b0, s.banks k = some b0 ∧ b.vault = b0.vault ∧ b.group = b0.group ∧
      (b = b0 ∧ k ∉ cs.map (·.1.bank) ∨ b.clear ∧ b.b.Pos ∧ b.b.RatesOk) := by
    intro k b hb
    rw [d1] at hb
    by_cases hk : k ∈ cs.map (·.1.bank)
    · obtain ⟨b0, hb0⟩ := hB.exist k hk
      obtain ⟨b', q1, q2, q3⟩ := hB.on k b0 hk hb0
      rw [hb, Option.some.injEq] at q1
      subst q1
      rw [hR.banks] at hb0
      exact ⟨b0, hb0, rfl, rfl, Or.inr ⟨⟨rfl, rfl⟩, q2, q3⟩⟩
    · rw [hB.off k hk, hR.banks] at hb
      exact ⟨b, hb, rfl, rfl, Or.inl ⟨rfl, hk⟩⟩
  refine ⟨⟨?_, ?_, ?_, ?_⟩, ?_, ?_⟩
  · intro k b hb
    obtain ⟨b0, h0, _, h2, _⟩ := key k b hb
    rw [h2]; exact hw.pda k b0 h0
  · intro k b hb
    obtain ⟨b0, h0, h1, h2, _⟩ := key k b hb
    rw [h1, h2, d2, hB.toks, hR.owner]; exact hw.owner k b0 h0
  · intro k k' b b' hb hb' hv
    obtain ⟨b0, h0, h1, _, _⟩ := key k b hb
    obtain ⟨b0', h0', h1', _, _⟩ := key k' b' hb'
    exact hw.inj k k' b0 b0' h0 h0' (by rw [← h1, ← h1', hv])
  · intro k b hb
    obtain ⟨b0, h0, _, _, h3⟩ := key k b hb
    rcases h3 with ⟨rfl, _⟩ | h3
    · exact hw.bank k b h0
    · exact h3.2
  · intro v hv
    obtain ⟨k, b, h1, h2, h3, _⟩ := hlisted v hv
    exact ⟨k, b, h1, h2, h3⟩
  · intro k b hb hn
    obtain ⟨b0, h0, _, _, h3⟩ := key k b hb
    rcases h3 with ⟨rfl, hk⟩ | h3
    · refine ⟨h0, fun hv => hk ?_⟩
      obtain ⟨k', b', q1, q2, _, q4⟩ := hlisted _ hv
      rw [hw.inj k k' b b' h0 q1 q2.symm]; exact q4
    · exact absurd h3.1 hn

/-! ## The transaction -/

/-- The calls of mango instructions other than the flash loan ones in an instruction. -/
def Ix.others : Ix → List (State → Res State)
  | .mango _ (.other f) => [f]
  | .mango _ _ => []
  | .foreign _ _ acts => acts.filterMap fun a =>
      match a with
      | .cpi _ (.other f) => some f
      | _ => none

/-- The rest of mango keeps to itself: no other instruction sets the flash loan fields, and all keep the vaults and
indexes sane. -/
def OthersOk (env : Env) (l : List Ix) : Prop :=
  ∀ ix ∈ l, ∀ f ∈ ix.others, ∀ s s', WF env s → Clear s → f s = .ok s' → WF env s' ∧ Clear s'

theorem end_clear_fails {env : Env} {s s' : State} {accounts : List Nat} {n : Nat} {ty : LoanType} {now : Int}
    (hw : WF env s) (hc : Clear s) (h : end' env s accounts n ty now = .ok s') : False := by
  obtain ⟨tail, hE⟩ := end_ok hw h
  obtain ⟨_, h2, _⟩ := hE.settles hw
  have : (tail.take n).length = n := by rw [List.length_take, hE.len]; omega
  have hp := hE.pos
  obtain ⟨k, b, h3, _, h4⟩ := h2 ((tail.take n)[0]'(by omega)) (List.getElem_mem _)
  exact h4 (hc k b h3).2

/-- Running something else than a flash loan from a state without loans. -/
theorem runActs_clear {env : Env} {metas : List Nat} : ∀ (acts : List Act) (s s' : State), WF env s → Clear s →
    (∀ f ∈ (acts.filterMap fun a => match a with
      | .cpi _ (.other f) => some f
      | _ => none), ∀ s s', WF env s → Clear s → f s = .ok s' → WF env s' ∧ Clear s') →
    runActs env metas acts s = .ok s' → WF env s' ∧ Clear s' := by
  intro acts
  induction acts with
  | nil =>
    intro s s' hw hc _ h
    unfold runActs at h
    rw [Except.ok.injEq] at h
    subst h; exact ⟨hw, hc⟩
  | cons a acts ih =>
    intro s s' hw hc ho h
    cases a with
    | setTok k t =>
      have hone : ∃ s1, runActs env [] [.setTok k t] s = .ok s1 ∧ runActs env metas acts s1 = .ok s' := by
        unfold runActs at h
        split at h
        · simp at h
        · rename_i q1
          split at h
          · simp at h
          · rename_i q2
            refine ⟨setTok s k t, ?_, h⟩
            unfold runActs
            rw [if_neg q1, if_neg q2]
            rfl
      obtain ⟨s1, h1, h2⟩ := hone
      have hO := runActs_outside (by simp) _ s s1 h1
      refine ih s1 s' (hO.wf hw) ?_ (fun f hf => ho f (by simpa using hf)) h2
      intro k b; rw [hO.banks]; exact hc k b
    | cpi accounts c =>
      unfold runActs at h
      simp only [bind_ok, require_ok] at h
      obtain ⟨_, _, s1, h1, h2⟩ := h
      cases c with
      | begin amounts =>
        have := (begin_ok hw hc h1).1
        simp at this
      | swapBegin amount =>
        unfold call at h1
        simp only [bind_ok, require_ok] at h1
        obtain ⟨_, _, h1⟩ := h1
        have := (begin_ok hw hc h1).1
        simp at this
      | endLoan n ty now => exact (end_clear_fails hw hc h1).elim
      | other f =>
        obtain ⟨q1, q2⟩ := ho f (by simp) s s1 hw hc h1
        exact ih s1 s' q1 q2 (fun f hf => ho f (by simp at hf ⊢; exact Or.inr hf)) h2

/-- In a loan: the coming instructions pass the scan of Begin, and all loans are from vaults in its list. -/
def Window (env : Env) (rest : List Ix) (s : State) : Prop :=
  ∃ dl acct n trail, scan env dl acct n trail rest = .ok () ∧ trail.length = 2 * n + 1 ∧
    ∀ k b, s.banks k = some b → ¬ b.clear → b.vault ∈ trail.take n

theorem begin_window {env : Env} {fixed : Nat} {top : Bool} {rest : List Ix} {s0 s : State} {accounts : List Nat}
    {amounts : List Int} (hw : WF env s0) (hc : Clear s0) (h : begin' env fixed top rest s0 accounts amounts = .ok s) :
    WF env s ∧ Window env rest s := by
  obtain ⟨_, hB⟩ := begin_ok hw hc h
  obtain ⟨acctKey, owner, acct, g, h1, h2, h3, h4, h5, h6, h7, seen, h8⟩ := hB.args
  refine ⟨h8.wf hw, _, acctKey, amounts.length, _, h7, ?_, fun k b hb hn => (h8.loan k b hb hn).2.1⟩
  rw [List.length_drop, h5]; omega

theorem step_clear {env : Env} {ix : Ix} {rest : List Ix} {s s' : State} (hw : WF env s) (hc : Clear s)
    (ho : OthersOk env [ix]) (h : runIx env rest s ix = .ok s') : WF env s' ∧ (Clear s' ∨ Window env rest s') := by
  cases ix with
  | foreign p accounts acts =>
    obtain ⟨q1, q2⟩ := runActs_clear acts s s' hw hc (fun f hf => ho _ (List.mem_singleton.mpr rfl) f hf) h
    exact ⟨q1, Or.inl q2⟩
  | mango accounts c =>
    cases c with
    | begin amounts =>
      obtain ⟨q1, q2⟩ := begin_window hw hc h
      exact ⟨q1, Or.inr q2⟩
    | swapBegin amount =>
      unfold runIx call at h
      simp only [bind_ok, require_ok] at h
      obtain ⟨_, _, h⟩ := h
      obtain ⟨q1, q2⟩ := begin_window hw hc h
      exact ⟨q1, Or.inr q2⟩
    | endLoan n ty now => exact (end_clear_fails hw hc h).elim
    | other f =>
      obtain ⟨q1, q2⟩ := ho _ (List.mem_singleton.mpr rfl) f (by simp [Ix.others]) s s' hw hc h
      exact ⟨q1, Or.inl q2⟩

/-- What the scan says about the next instruction. -/
theorem scan_cons {env : Env} {dl : Bool} {acct n : Nat} {trail : List Nat} {ix : Ix} {rest : List Ix}
    (h : scan env dl acct n trail (ix :: rest) = .ok ()) :
    (dl = false ∨ ix.program ∈ env.allowed ∨ ix.program = MANGO) ∧
    ((∃ accounts ty now, ix = .mango accounts (.endLoan n ty now) ∧ accounts[0]? = some acct ∧
        trail.length ≤ accounts.length ∧ accounts.drop (accounts.length - trail.length) = trail) ∨
     (∃ p accounts acts, ix = .foreign p accounts acts ∧ p ≠ MANGO ∧ MANGO ∉ accounts ∧
        scan env dl acct n trail rest = .ok ())) := by
  unfold scan at h
  simp only [bind_ok, require_ok] at h
  obtain ⟨_, h0, h⟩ := h
  refine ⟨h0, ?_⟩
  split at h
  · rename_i accounts m ty now
    simp only [bind_ok, require_ok] at h
    obtain ⟨_, h1, _, h2, _, h3, h4⟩ := h
    subst h1
    exact Or.inl ⟨accounts, ty, now, rfl, h2, h3, h4⟩
  · simp at h
  · rename_i p accounts acts
    split at h
    · simp at h
    · rename_i hp
      simp only [bind_ok, require_ok] at h
      obtain ⟨_, h1, h2⟩ := h
      exact Or.inr ⟨p, accounts, acts, rfl, hp, h1, h2⟩

theorem step_window {env : Env} {ix : Ix} {rest : List Ix} {s s' : State} (hw : WF env s)
    (hwin : Window env (ix :: rest) s) (h : runIx env rest s ix = .ok s') :
    WF env s' ∧ (Clear s' ∨ Window env rest s') := by
  obtain ⟨dl, acct, n, trail, hs, hl, hb⟩ := hwin
  obtain ⟨_, hcase⟩ := scan_cons hs
  rcases hcase with ⟨accounts, ty, now, rfl, _, h3, h4⟩ | ⟨p, accounts, acts, rfl, _, h2, h3⟩
  · obtain ⟨tail, hE⟩ := end_ok hw h
    obtain ⟨q1, _, q3⟩ := hE.settles hw
    refine ⟨q1, Or.inl ?_⟩
    have : tail = trail := by rw [← hE.tail_eq, ← hl]; exact h4
    subst this
    intro k b hk
    by_contra hn
    obtain ⟨r1, r2⟩ := q3 k b hk hn
    exact r2 (hb k b r1 hn)
  · have hO := runActs_outside h2 acts s s' h
    refine ⟨hO.wf hw, Or.inr ⟨dl, acct, n, trail, h3, hl, ?_⟩⟩
    intro k b; rw [hO.banks]; exact hb k b

theorem OthersOk.head {env : Env} {ix : Ix} {l : List Ix} (h : OthersOk env (ix :: l)) :
    OthersOk env [ix] ∧ OthersOk env l :=
  ⟨fun x hx => h x (by simp at hx; simp [hx]), fun x hx => h x (by simp [hx])⟩

theorem step_any {env : Env} {ix : Ix} {rest : List Ix} {s s' : State} (hw : WF env s)
    (hi : Clear s ∨ Window env (ix :: rest) s) (ho : OthersOk env [ix]) (h : runIx env rest s ix = .ok s') :
    WF env s' ∧ (Clear s' ∨ Window env rest s') := by
  rcases hi with hc | hc
  · exact step_clear hw hc ho h
  · exact step_window hw hc h

theorem runTx_inv {env : Env} : ∀ (tx : List Ix) (s s' : State), WF env s → (Clear s ∨ Window env tx s) →
    OthersOk env tx → runTx env tx s = .ok s' → WF env s' ∧ Clear s' := by
  intro tx
  induction tx with
  | nil =>
    intro s s' hw hi _ h
    unfold runTx at h
    rw [Except.ok.injEq] at h
    subst h
    refine ⟨hw, hi.resolve_right ?_⟩
    rintro ⟨dl, acct, n, trail, hs, _⟩
    simp [scan] at hs
  | cons ix rest ih =>
    intro s s' hw hi ho h
    unfold runTx at h
    simp only [bind_ok] at h
    obtain ⟨s1, h1, h2⟩ := h
    obtain ⟨q1, q2⟩ := step_any hw hi ho.head.1 h1
    exact ih s1 s' q1 q2 ho.head.2 h2

end Mango.Flash
