import Verif.Flash.Tx

namespace Mango.Flash
open Bank

/-! ## What Begin records about each loan -/

theorem beginLoop_keeps {g : Nat} : ∀ (l : List (Nat × Nat × Nat × Int)) (seen : List Nat) (s s' : State),
    beginLoop g l seen s = .ok s' → ∀ k b, s.banks k = some b → b.token ∈ seen → s'.banks k = some b := by
  intro l
  induction l with
  | nil =>
    intro seen s s' e k b hb _
    unfold beginLoop at e
    rw [Except.ok.injEq] at e
    subst e; exact hb
  | cons x l ih =>
    obtain ⟨bk, v, t, amt⟩ := x
    intro seen s s' e k b hb hs
    unfold beginLoop at e
    split at e
    · simp at e
    · rename_i b1 hb1
      simp only [bind_ok, require_ok] at e
      obtain ⟨_, e1, _, e2, _, e3, _, e4, _, e5, _, e6, _, e7, s2, e8, e9⟩ := e
      have hk : k ≠ bk := by
        rintro rfl
        rw [hb, Option.some.injEq] at hb1
        subst hb1; exact e3 hs
      have hbk : s2.banks k = s.banks k := by
        split at e8
        · split at e8
          · simp at e8
          · rw [(transfer_ok e8).2.banks]; simp [setBank, hk]
        · rw [Except.ok.injEq] at e8
          subst e8; simp [setBank, hk]
      exact ih _ s2 s' e9 k b (by rw [hbk]; exact hb) (by simp [hs])

theorem beginLoop_loans {env : Env} {g : Nat} {s0 : State} (hw : WF env s0) {vs : Nat → Prop} :
    ∀ (l : List (Nat × Nat × Nat × Int)) (seen : List Nat) (s s' : State), Begun g s0 s seen vs →
      (∀ x ∈ l, vs x.2.1 ∧ 0 ≤ x.2.2.2) → beginLoop g l seen s = .ok s' →
      ∀ bk v t amt, (bk, v, t, amt) ∈ l → ∃ b0 ini, s0.banks bk = some b0 ∧ b0.vault = v ∧ b0.group = g ∧
        s'.banks bk = some { b0 with approved := amt, initial := ini } := by
  intro l
  induction l with
  | nil => intro _ _ _ _ _ _ _ _ _ _ h; simp at h
  | cons x l ih =>
    obtain ⟨bk, v, t, amt⟩ := x
    intro seen s s' h hl e bk' v' t' amt' hx
    have hone : ∃ b s2, s.banks bk = some b ∧ b.vault = v ∧ b.group = g ∧
        beginLoop g [(bk, v, t, amt)] seen s = .ok s2 ∧ beginLoop g l (b.token :: seen) s2 = .ok s' ∧
        s2.banks bk = some { b with approved := amt, initial := (s.toks t).amount } := by
      unfold beginLoop at e
      split at e
      · simp at e
      · rename_i b hb
        simp only [bind_ok, require_ok] at e
        obtain ⟨_, e1, _, e2, _, e3, _, e4, _, e5, _, e6, _, e7, s2, e8, e9⟩ := e
        refine ⟨b, s2, hb, e2, e1, ?_, e9, ?_⟩
        · unfold beginLoop
          rw [hb]
          dsimp only
          simp only [bind_ok, require_ok]
          exact ⟨(), e1, (), e2, (), e3, (), e4, (), e5, (), e6, (), e7, s2, e8, by unfold beginLoop; rfl⟩
        · split at e8
          · split at e8
            · simp at e8
            · rw [(transfer_ok e8).2.banks]; simp [setBank]
          · rw [Except.ok.injEq] at e8
            subst e8; simp [setBank]
    obtain ⟨b, s2, hb, hbv, hbg, e1, e2, hb2⟩ := hone
    obtain ⟨b0, hb0⟩ : ∃ b0, s0.banks bk = some b0 := by
      cases hx : s0.banks bk with
      | none => rw [h.absent bk hx] at hb; simp at hb
      | some b0 => exact ⟨b0, rfl⟩
    obtain ⟨ap, ini, hbk, _⟩ := h.present bk b0 hb0
    rw [hb, Option.some.injEq] at hbk
    rcases List.mem_cons.mp hx with hx | hx
    · simp only [Prod.mk.injEq] at hx
      obtain ⟨rfl, rfl, rfl, rfl⟩ := hx
      have := beginLoop_keeps l _ s2 s' e2 bk' _ hb2 (by simp)
      refine ⟨b0, (s.toks t').amount, hb0, by rw [← hbv, hbk], by rw [← hbg, hbk], ?_⟩
      rw [this, hbk]
    · -- Begun after the first loan
      have h2 : Begun g s0 s2 (b.token :: seen) vs := by
        have e1' := e1
        unfold beginLoop at e1'
        rw [hb] at e1'
        dsimp only at e1'
        simp only [bind_ok, require_ok] at e1'
        obtain ⟨_, _, _, _, _, e3, _⟩ := e1'
        obtain ⟨seen', hS⟩ := beginLoop_ok hw [(bk, v, t, amt)] seen s s2 h
          (by intro x hx; rw [List.mem_singleton] at hx; subst hx; exact hl _ (by simp)) e1
        refine ⟨hS.accts, hS.pos, hS.owner, hS.absent, hS.present, ?_, hS.distinct⟩
        intro k c hc hn
        refine ⟨?_, (hS.loan k c hc hn).2⟩
        by_cases hk : k = bk
        · subst hk
          rw [hb2, Option.some.injEq] at hc
          subst hc; simp
        · have hkk : s2.banks k = s.banks k := by
            have e1'' := e1
            unfold beginLoop at e1''
            rw [hb] at e1''
            dsimp only at e1''
            simp only [bind_ok, require_ok] at e1''
            obtain ⟨_, _, _, _, _, _, _, _, _, _, _, _, _, _, s3, e8, e9⟩ := e1''
            unfold beginLoop at e9
            rw [Except.ok.injEq] at e9
            subst e9
            split at e8
            · split at e8
              · simp at e8
              · rw [(transfer_ok e8).2.banks]; simp [setBank, hk]
            · rw [Except.ok.injEq] at e8
              subst e8; simp [setBank, hk]
          rw [hkk] at hc
          simp [(h.loan k c hc hn).1]
      exact ih _ s2 s' h2 (fun x hx => hl x (by simp [hx])) e2 bk' v' t' amt' hx

/-- The loans of a Begin. -/
theorem begin_loans {env : Env} {fixed : Nat} {top : Bool} {rest : List Ix} {s0 s : State} {accounts : List Nat}
    {amounts : List Int} (hw : WF env s0) (hc : Clear s0) (h : begin' env fixed top rest s0 accounts amounts = .ok s) :
    ∀ i bk v amt, accounts[fixed + i]? = some bk → accounts[fixed + amounts.length + i]? = some v →
      amounts[i]? = some amt → ∃ b0 ini, s0.banks bk = some b0 ∧ b0.vault = v ∧
        s.banks bk = some { b0 with approved := amt, initial := ini } := by
  unfold begin' at h
  dsimp only at h
  simp only [bind_ok, require_ok] at h
  obtain ⟨_, h0, _, h1, h⟩ := h
  split at h
  · rename_i acctKey owner ha ho
    split at h
    · simp at h
    · rename_i acct hacct
      simp only [bind_ok, require_ok] at h
      obtain ⟨_, h2, _, h3, _, h4, h⟩ := h
      split at h
      · simp at h
      · rename_i g hg
        simp only [bind_ok, require_ok, ok_inj] at h
        obtain ⟨_, h5, s1, h6, _, h7, _, h8, rfl⟩ := h
        intro i bk v amt hbk hv hamt
        have hi : i < amounts.length := (List.getElem?_eq_some_iff.mp hamt).1
        generalize hn : amounts.length = n at *
        generalize hrem : accounts.drop fixed = rem at *
        have hrb : rem[i]? = some bk := by rw [← hrem, List.getElem?_drop]; exact hbk
        have hrv : rem[n + i]? = some v := by
          rw [← hrem, List.getElem?_drop, ← Nat.add_assoc]; exact hv
        have hlt : 2 * n + i < rem.length := by omega
        have hmem : (bk, v, rem[2 * n + i], amt) ∈ (rem.take n).zip (((rem.drop n).take n).zip
            (((rem.drop (2 * n)).take n).zip amounts)) := by
          rw [List.mem_iff_getElem?]
          refine ⟨i, ?_⟩
          rw [List.getElem?_zip_eq_some, List.getElem?_zip_eq_some, List.getElem?_zip_eq_some]
          refine ⟨?_, ?_, ?_, hamt⟩
          · rw [List.getElem?_take_of_lt hi]; exact hrb
          · rw [List.getElem?_take_of_lt hi, List.getElem?_drop]; exact hrv
          · rw [List.getElem?_take_of_lt hi, List.getElem?_drop, List.getElem?_eq_getElem hlt]
        obtain ⟨b0, ini, q1, q2, q3, q4⟩ := beginLoop_loans (vs := fun v => v ∈ (rem.drop n).take n) hw _ [] s0 s1 (begun_start hc _) (by
          intro x hx
          obtain ⟨x1, x2, x3, x4⟩ := x
          have hx2 := (List.of_mem_zip hx).2
          refine ⟨(List.of_mem_zip hx2).1, ?_⟩
          have hx3 := (List.of_mem_zip hx2).2
          exact (h0 x4 (List.of_mem_zip hx3).2).1) h6 bk v _ amt hmem
        exact ⟨b0, ini, q1, q2, q4⟩
  · simp at h

/-! ## Finding the End -/

/-- The scan finds the End that settles the loan. -/
theorem scan_split {env : Env} {dl : Bool} {acct n : Nat} {trail : List Nat} : ∀ (rest : List Ix),
    scan env dl acct n trail rest = .ok () → ∃ mid accounts ty now tl,
      rest = mid ++ .mango accounts (.endLoan n ty now) :: tl ∧
      (∀ ix ∈ mid, ∃ p a acts, ix = .foreign p a acts ∧ p ≠ MANGO ∧ MANGO ∉ a ∧ (dl = true → p ∈ env.allowed)) ∧
      accounts[0]? = some acct ∧ trail.length ≤ accounts.length ∧
      accounts.drop (accounts.length - trail.length) = trail := by
  intro rest
  induction rest with
  | nil => intro h; simp [scan] at h
  | cons ix rest ih =>
    intro h
    obtain ⟨h0, hcase⟩ := scan_cons h
    rcases hcase with ⟨accounts, ty, now, rfl, h2, h3, h4⟩ | ⟨p, a, acts, rfl, h2, h3, h4⟩
    · exact ⟨[], accounts, ty, now, rest, rfl, by simp, h2, h3, h4⟩
    · obtain ⟨mid, accounts, ty, now, tl, rfl, g2, g3, g4, g5⟩ := ih h4
      refine ⟨.foreign p a acts :: mid, accounts, ty, now, tl, rfl, ?_, g3, g4, g5⟩
      intro x hx
      rcases List.mem_cons.mp hx with rfl | hx
      · refine ⟨p, a, acts, rfl, h2, h3, ?_⟩
        intro hd
        rw [hd] at h0
        rcases h0 with h0 | h0 | h0
        · simp at h0
        · exact h0
        · exact absurd h0 h2
      · exact g2 x hx

end Mango.Flash
