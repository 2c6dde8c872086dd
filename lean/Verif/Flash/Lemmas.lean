import Verif.Flash.Model
import Verif.Bank.SystemLemmas

namespace Mango.Flash
open Bank

/-- Outside of a loan. -/
def FBank.clear (b : FBank) : Prop := b.approved = 0 ∧ b.initial = NOLOAN

/-- No bank is in a loan. -/
def Clear (s : State) : Prop := ∀ k b, s.banks k = some b → b.clear

/-- What holds of all banks at all times: groups are program addresses, vaults belong to their bank's group and to one
bank only, indexes are positive and fee rates not negative. -/
structure WF (env : Env) (s : State) : Prop where
  pda : ∀ k b, s.banks k = some b → env.pda b.group = true
  owner : ∀ k b, s.banks k = some b → (s.toks b.vault).owner = b.group
  inj : ∀ k k' b b', s.banks k = some b → s.banks k' = some b' → b.vault = b'.vault → k = k'
  bank : ∀ k b, s.banks k = some b → b.b.Pos ∧ b.b.RatesOk

/-! ## Transfers -/

structure Moved (s s' : State) (src dst : Nat) (amt : Int) : Prop where
  banks : s'.banks = s.banks
  accts : s'.accts = s.accts
  pos : s'.pos = s.pos
  owner : ∀ k, (s'.toks k).owner = (s.toks k).owner
  mint : ∀ k, (s'.toks k).mint = (s.toks k).mint
  other : ∀ k, k ≠ src → k ≠ dst → s'.toks k = s.toks k
  src_amt : src ≠ dst → (s'.toks src).amount = (s.toks src).amount - amt
  dst_amt : src ≠ dst → (s'.toks dst).amount = (s.toks dst).amount + amt

theorem transfer_ok {s s' : State} {auth src dst : Nat} {amt : Int} (h : transfer s auth src dst amt = .ok s') :
    (s.toks src).owner = auth ∧ Moved s s' src dst amt := by
  unfold transfer at h
  split at h
  · simp at h
  · rename_i h1
    push Not at h1
    refine ⟨h1.1, ?_⟩
    split at h
    · rename_i h2
      rw [Except.ok.injEq] at h
      subst h
      exact ⟨rfl, rfl, rfl, fun _ => rfl, fun _ => rfl, fun _ _ _ => rfl, fun h => absurd h2 h, fun h => absurd h2 h⟩
    · rename_i h2
      split at h
      · simp at h
      · rw [Except.ok.injEq] at h
        subst h
        refine ⟨rfl, rfl, rfl, ?_, ?_, ?_, ?_, ?_⟩
        · intro k
          simp only [setTok]
          by_cases ha : k = dst
          · subst ha; simp
          · by_cases hb : k = src
            · subst hb; simp [h2]
            · simp [ha, hb]
        · intro k
          simp only [setTok]
          by_cases ha : k = dst
          · subst ha; simp
          · by_cases hb : k = src
            · subst hb; simp [h2]
            · simp [ha, hb]
        · intro k h3 h4; simp [setTok, h3, h4]
        · intro _; simp [setTok, h2]
        · intro _; simp [setTok]

/-! ## Begin -/

/-- What Begin has done so far: the flash loan fields of some banks are set, and each vault has lost at most what is
approved. -/
structure Begun (g : Nat) (s0 s : State) (seen : List Nat) (vs : Nat → Prop) : Prop where
  accts : s.accts = s0.accts
  pos : s.pos = s0.pos
  owner : ∀ k, (s.toks k).owner = (s0.toks k).owner
  absent : ∀ k, s0.banks k = none → s.banks k = none
  present : ∀ k b0, s0.banks k = some b0 → ∃ ap ini, s.banks k = some { b0 with approved := ap, initial := ini } ∧
    0 ≤ ap ∧ (s.toks b0.vault).amount ≥ (s0.toks b0.vault).amount - ap
  loan : ∀ k b, s.banks k = some b → ¬ b.clear → b.token ∈ seen ∧ vs b.vault ∧ b.group = g
  distinct : ∀ k k' b b', s.banks k = some b → s.banks k' = some b' → ¬ b.clear → ¬ b'.clear → b.token = b'.token → k = k'

theorem begun_start {g : Nat} {s : State} (hc : Clear s) (vs : Nat → Prop) : Begun g s s [] vs := by
  refine ⟨rfl, rfl, fun _ => rfl, fun _ h => h, ?_, ?_, ?_⟩
  · intro k b0 h
    have := hc k b0 h
    refine ⟨b0.approved, b0.initial, h, by rw [this.1], by rw [this.1]; omega⟩
  · intro k b h hn; exact absurd (hc k b h) hn
  · intro k k' b b' h _ hn; exact absurd (hc k b h) hn

theorem beginLoop_ok {env : Env} {g : Nat} {s0 : State} (hw : WF env s0) {vs : Nat → Prop} :
    ∀ (l : List (Nat × Nat × Nat × Int)) (seen : List Nat) (s s' : State), Begun g s0 s seen vs →
      (∀ x ∈ l, vs x.2.1 ∧ 0 ≤ x.2.2.2) → beginLoop g l seen s = .ok s' → ∃ seen', Begun g s0 s' seen' vs := by
  intro l
  induction l with
  | nil =>
    intro seen s s' h _ e
    unfold beginLoop at e
    rw [Except.ok.injEq] at e
    subst e
    exact ⟨seen, h⟩
  | cons x l ih =>
    obtain ⟨bk, v, t, amt⟩ := x
    intro seen s s' h hl e
    unfold beginLoop at e
    split at e
    · simp at e
    · rename_i b hb
      simp only [bind_ok, require_ok] at e
      obtain ⟨_, e1, _, e2, _, e3, _, e4, _, e5, _, e6, _, e7, s2, e8, e9⟩ := e
      obtain ⟨hv, hamt⟩ := hl (bk, v, t, amt) (by simp)
      dsimp only at hv hamt
      refine ih (b.token :: seen) s2 s' ?_ (fun x hx => hl x (by simp [hx])) e9
      -- the bank before Begin
      obtain ⟨b0, hb0⟩ : ∃ b0, s0.banks bk = some b0 := by
        cases hx : s0.banks bk with
        | none => rw [h.absent bk hx] at hb; simp at hb
        | some b0 => exact ⟨b0, rfl⟩
      obtain ⟨ap, ini, hbk, hap, hvault⟩ := h.present bk b0 hb0
      rw [hb, Option.some.injEq] at hbk
      have htv : t ≠ v := by
        rintro rfl
        have : (s0.toks b0.vault).owner = b0.group := hw.owner bk b0 hb0
        rw [hbk] at e2 e1
        dsimp only at e2 e1
        rw [h.owner, ← e2, this] at e5
        exact e5 e1
      -- the state after setting the fields and the transfer
      have hmv : s2.banks = (setBank s bk { b with approved := amt, initial := (s.toks t).amount }).banks ∧
          s2.accts = s.accts ∧ s2.pos = s.pos ∧ (∀ k, (s2.toks k).owner = (s.toks k).owner) ∧
          (∀ k, k ≠ v → (s2.toks k).amount ≥ (s.toks k).amount) ∧ (s2.toks v).amount = (s.toks v).amount - amt := by
        split at e8
        · split at e8
          · simp at e8
          · obtain ⟨_, m⟩ := transfer_ok e8
            refine ⟨m.banks, m.accts, m.pos, m.owner, ?_, m.src_amt htv.symm⟩
            intro k hk
            by_cases hkt : k = t
            · subst hkt; rw [m.dst_amt htv.symm]; show (s.toks k).amount + amt ≥ _; omega
            · rw [m.other k hk hkt]; exact le_refl _
        · rw [Except.ok.injEq] at e8
          subst e8
          have : amt = 0 := by omega
          refine ⟨rfl, rfl, rfl, fun _ => rfl, fun _ _ => le_refl _, ?_⟩
          show (s.toks v).amount = _; omega
      obtain ⟨m1, m2, m3, m4, m5, m6⟩ := hmv
      have hne : ∀ k, k ≠ bk → s2.banks k = s.banks k := by
        intro k hk; rw [m1]; simp [setBank, hk]
      have hself : s2.banks bk = some { b with approved := amt, initial := (s.toks t).amount } := by
        rw [m1]; simp [setBank]
      have hbtok : b.token = b0.token := by rw [hbk]
      have hbv : b.vault = b0.vault := by rw [hbk]
      refine ⟨by rw [m2, h.accts], by rw [m3, h.pos], fun k => by rw [m4, h.owner], ?_, ?_, ?_, ?_⟩
      · intro k hk
        have : k ≠ bk := by rintro rfl; rw [hb0] at hk; simp at hk
        rw [hne k this]; exact h.absent k hk
      · intro k c0 hc0
        by_cases hkb : k = bk
        · subst hkb
          rw [hb0, Option.some.injEq] at hc0
          subst hc0
          refine ⟨amt, (s.toks t).amount, by rw [hself, hbk], hamt, ?_⟩
          have hap0 : ap = 0 := by rw [hbk] at e6; exact e6
          rw [← hbv, e2, m6]
          rw [← hbv, e2, hap0] at hvault
          omega
        · obtain ⟨ap', ini', q1, q2, q3⟩ := h.present k c0 hc0
          refine ⟨ap', ini', by rw [hne k hkb]; exact q1, q2, ?_⟩
          have : c0.vault ≠ v := by
            rw [← e2, hbv]; intro hc; exact hkb (hw.inj k bk c0 b0 hc0 hb0 hc)
          have := m5 _ this
          omega
      · intro k c hc hn
        by_cases hkb : k = bk
        · subst hkb
          rw [hself, Option.some.injEq] at hc
          subst hc
          exact ⟨by simp, by show vs b.vault; rw [e2]; exact hv, e1⟩
        · rw [hne k hkb] at hc
          obtain ⟨q1, q2, q3⟩ := h.loan k c hc hn
          exact ⟨by simp [q1], q2, q3⟩
      · intro k k' c c' hc hc' hn hn' ht
        by_cases hkb : k = bk
        · by_cases hkb' : k' = bk
          · rw [hkb, hkb']
          · exfalso
            subst hkb
            rw [hself, Option.some.injEq] at hc
            rw [hne k' hkb'] at hc'
            obtain ⟨q1, _⟩ := h.loan k' c' hc' hn'
            rw [← ht, ← hc] at q1
            exact e3 q1
        · rw [hne k hkb] at hc
          by_cases hkb' : k' = bk
          · exfalso
            subst hkb'
            rw [hself, Option.some.injEq] at hc'
            obtain ⟨q1, _⟩ := h.loan k c hc hn
            rw [ht, ← hc'] at q1
            exact e3 q1
          · rw [hne k' hkb'] at hc'
            exact h.distinct k k' c c' hc hc' hn hn' ht

theorem Begun.wf {env : Env} {g : Nat} {s0 s : State} {seen : List Nat} {vs : Nat → Prop} (hw : WF env s0)
    (h : Begun g s0 s seen vs) : WF env s := by
  have key : ∀ k b, s.banks k = some b → ∃ b0 ap ini, s0.banks k = some b0 ∧
      b = { b0 with approved := ap, initial := ini } := by
    intro k b hb
    cases hx : s0.banks k with
    | none => rw [h.absent k hx] at hb; simp at hb
    | some b0 =>
      obtain ⟨ap, ini, q, _⟩ := h.present k b0 hx
      rw [hb, Option.some.injEq] at q
      exact ⟨b0, ap, ini, rfl, q⟩
  refine ⟨?_, ?_, ?_, ?_⟩
  · intro k b hb
    obtain ⟨b0, ap, ini, h0, rfl⟩ := key k b hb
    exact hw.pda k b0 h0
  · intro k b hb
    obtain ⟨b0, ap, ini, h0, rfl⟩ := key k b hb
    rw [h.owner]; exact hw.owner k b0 h0
  · intro k k' b b' hb hb' hv
    obtain ⟨b0, ap, ini, h0, rfl⟩ := key k b hb
    obtain ⟨b0', ap', ini', h0', rfl⟩ := key k' b' hb'
    exact hw.inj k k' b0 b0' h0 h0' hv
  · intro k b hb
    obtain ⟨b0, ap, ini, h0, rfl⟩ := key k b hb
    exact hw.bank k b0 h0

/-- What a successful Begin has checked and done. -/
structure BeginOk (env : Env) (fixed : Nat) (rest : List Ix) (s0 s : State) (accounts : List Nat) (n : Nat) : Prop where
  args : ∃ acctKey owner acct g, accounts[0]? = some acctKey ∧ accounts[1]? = some owner ∧
    s0.accts acctKey = some acct ∧ (acct.owner = owner ∨ owner ∈ acct.delegates) ∧
    (accounts.drop fixed).length = 3 * n + 1 ∧ (accounts.drop fixed)[3 * n]? = some g ∧
    scan env (decide (owner ∈ acct.delegates)) acctKey n ((accounts.drop fixed).drop n) rest = .ok () ∧
    ∃ seen, Begun g s0 s seen (fun v => v ∈ ((accounts.drop fixed).drop n).take n)

theorem begin_ok {env : Env} {fixed : Nat} {top : Bool} {rest : List Ix} {s0 s : State} {accounts : List Nat}
    {amounts : List Int} (hw : WF env s0) (hc : Clear s0) (h : begin' env fixed top rest s0 accounts amounts = .ok s) :
    top = true ∧ BeginOk env fixed rest s0 s accounts amounts.length := by
  unfold begin' at h
  dsimp only at h
  simp only [bind_ok, require_ok] at h
  obtain ⟨_, h0, _, h1, h⟩ := h
  split at h
  · rename_i acctKey owner ha ho
    split at h
    · simp at h
    · rename_i acct hacct
      simp only [bind_ok, require_ok] at h
      obtain ⟨_, h2, _, h3, _, h4, h⟩ := h
      split at h
      · simp at h
      · rename_i g hg
        simp only [bind_ok, require_ok, ok_inj] at h
        obtain ⟨_, h5, s1, h6, _, h7, _, h8, rfl⟩ := h
        refine ⟨h7, acctKey, owner, acct, g, ha, ho, hacct, h3, h4, hg, h8, ?_⟩
        refine beginLoop_ok hw _ [] s0 s1 (begun_start hc _) ?_ h6
        intro x hx
        obtain ⟨x1, x2, x3, x4⟩ := x
        have hx2 := (List.of_mem_zip hx).2
        refine ⟨(List.of_mem_zip hx2).1, ?_⟩
        have hx3 := (List.of_mem_zip hx2).2
        exact (h0 x4 (List.of_mem_zip hx3).2).1
  · simp at h

/-! ## Other programs -/

/-- Without access to the mango program, other programs cannot touch banks, accounts and positions nor take tokens out
of a vault. -/
structure Outside (env : Env) (s s' : State) : Prop where
  banks : s'.banks = s.banks
  accts : s'.accts = s.accts
  pos : s'.pos = s.pos
  vault : ∀ k, env.pda (s.toks k).owner = true → (s'.toks k).owner = (s.toks k).owner ∧
    (s'.toks k).amount ≥ (s.toks k).amount

theorem Outside.refl (env : Env) (s : State) : Outside env s s := ⟨rfl, rfl, rfl, fun _ _ => ⟨rfl, le_refl _⟩⟩

theorem Outside.trans {env : Env} {s s1 s2 : State} (h1 : Outside env s s1) (h2 : Outside env s1 s2) :
    Outside env s s2 := by
  refine ⟨h2.banks.trans h1.banks, h2.accts.trans h1.accts, h2.pos.trans h1.pos, ?_⟩
  intro k hk
  obtain ⟨a1, a2⟩ := h1.vault k hk
  obtain ⟨b1, b2⟩ := h2.vault k (by rw [a1]; exact hk)
  exact ⟨b1.trans a1, by omega⟩

theorem runActs_outside {env : Env} {metas : List Nat} (hm : MANGO ∉ metas) :
    ∀ (acts : List Act) (s s' : State), runActs env metas acts s = .ok s' → Outside env s s' := by
  intro acts
  induction acts with
  | nil =>
    intro s s' h
    unfold runActs at h
    rw [Except.ok.injEq] at h
    subst h
    exact Outside.refl env s
  | cons a acts ih =>
    intro s s' h
    cases a with
    | setTok k t =>
      unfold runActs at h
      split at h
      · simp at h
      · split at h
        · simp at h
        · rename_i hg
          push Not at hg
          refine Outside.trans ?_ (ih _ s' h)
          refine ⟨rfl, rfl, rfl, ?_⟩
          intro j hj
          by_cases hjk : j = k
          · subst hjk
            obtain ⟨g1, g2, g3⟩ := hg hj
            simp only [setTok, if_true]
            exact ⟨g1, g3⟩
          · simp [setTok, hjk]
    | cpi accounts c =>
      unfold runActs at h
      simp only [bind_ok, require_ok] at h
      obtain ⟨_, h1, _⟩ := h
      exact absurd h1 hm

theorem Outside.wf {env : Env} {s s' : State} (hw : WF env s) (h : Outside env s s') : WF env s' := by
  have hb := h.banks
  refine ⟨?_, ?_, ?_, ?_⟩
  · intro k b; rw [hb]; exact hw.pda k b
  · intro k b hk
    rw [hb] at hk
    have h1 := hw.owner k b hk
    rw [(h.vault b.vault (by rw [h1]; exact hw.pda k b hk)).1, h1]
  · intro k k' b b'; rw [hb]; exact hw.inj k k' b b'
  · intro k b; rw [hb]; exact hw.bank k b

end Mango.Flash
