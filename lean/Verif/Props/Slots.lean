import Verif.Account.SlotsInv

/-!
# C32 Account slots are unique and stable, C53 the use counts are exact

`Reach mk a`: `a` is reached from a new account by any sequence of instructions that touch the slots
(Account/Slots.lean). `mk` gives the tokens of each market.
-/
namespace Mango.Slots

/-! ## Specification -/

/-- Slot `i` of `l` holds `p`. -/
abbrev At {α : Type} (l : List α) (i : Nat) (p : α) : Prop := l[i]? = some p

/-- Every active slot of `l`, identified by `act`, is at the same place with the same content in `l'`, except
possibly place `k`. -/
def KeptExcept {α : Type} (act : α → Prop) (l l' : List α) (k : Nat) : Prop :=
  ∀ i p, i ≠ k → At l i p → act p → At l' i p

/-- How often an account's open spot market accounts, perp positions and conditional swaps need token `t`. -/
def uses (mk : Markets) (a : Acc) (t : Nat) : Nat :=
  (a.serums.filter (fun s => s.market ≠ FREE ∧ mk.base s.market = t)).length +
  (a.serums.filter (fun s => s.market ≠ FREE ∧ mk.quote s.market = t)).length +
  (a.perps.filter (fun s => s.market ≠ FREE ∧ mk.settle s.market = t)).length +
  (a.tcss.filter (fun s => s.configured = true ∧ s.buy = t)).length +
  (a.tcss.filter (fun s => s.configured = true ∧ s.sell = t)).length

/-! ## C32 -/

/-- In every reachable account, no token, spot market or perp market has two active slots, and configured conditional
swaps have distinct ids. -/
theorem C32_unique {mk : Markets} {a : Acc} (h : Reach mk a) :
    (∀ i j p q, At a.tokens i p → At a.tokens j q → p.index ≠ FREE → p.index = q.index → i = j) ∧
    (∀ i j p q, At a.serums i p → At a.serums j q → p.market ≠ FREE → p.market = q.market → i = j) ∧
    (∀ i j p q, At a.perps i p → At a.perps j q → p.market ≠ FREE → p.market = q.market → i = j) ∧
    (∀ i j p q, At a.tcss i p → At a.tcss j q → p.configured = true → q.configured = true → p.id = q.id → i = j) := by
  have hI := reach_inv h
  refine ⟨?_, ?_, ?_, ?_⟩
  · intro i j p q hi hj hp hk; exact hI.uses.uniq i j p q hi hj hk hp
  · intro i j p q hi hj hp hk; exact hI.serU i j p q hi hj hp (fun hc => hp (by rw [hk]; exact hc)) hk
  · intro i j p q hi hj hp hk; exact hI.perU i j p q hi hj hp (fun hc => hp (by rw [hk]; exact hc)) hk
  · intro i j p q hi hj hp hq hk; exact hI.tcsU i j p q hi hj hp hq hk

/-- `ensure_token_position`: if the token has a position, it is returned and nothing changes; otherwise the first
free slot becomes an empty position for the token. It fails exactly if the token has no position and no slot is
free. The second result is the number of active positions before the returned one. -/
theorem C32_ensure_token {a : Acc} {t : Nat} (ht : t ≠ FREE) :
    match ensureToken a.tokens t with
    | .ok (ts, raw, act) =>
        act = ((a.tokens.take raw).filter fun p => p.index ≠ FREE).length ∧
        ((∃ p, At a.tokens raw p ∧ p.index = t ∧ ts = a.tokens) ∨
         ((∀ i p, At a.tokens i p → p.index ≠ t) ∧
          (∃ p, At a.tokens raw p ∧ p.index = FREE) ∧ (∀ i p, i < raw → At a.tokens i p → p.index ≠ FREE) ∧
          At ts raw ⟨t, 0, 0⟩ ∧ ts.length = a.tokens.length ∧ ∀ i, i ≠ raw → ts[i]? = a.tokens[i]?))
    | .error e => e = .noFreeTokenPositionIndex ∧ ∀ p ∈ a.tokens, p.index ≠ t ∧ p.index ≠ FREE := by
  cases e : ensureToken a.tokens t with
  | ok r =>
    obtain ⟨ts, raw, act⟩ := r
    dsimp only
    rcases ensureToken_spec ht e with ⟨p, h1, h2, h3, h4, _⟩ | ⟨h0, p, h1, h2, h3, h4, h5⟩
    · exact ⟨h4, Or.inl ⟨p, h1, h2, h3⟩⟩
    · refine ⟨h4, Or.inr ⟨?_, ⟨p, h1, h2⟩, ?_, ?_, ?_, ?_⟩⟩
      · intro i q hq; exact h0 q (List.mem_iff_getElem?.mpr ⟨i, hq⟩)
      · intro i q hi hq; exact h5 i q hi hq
      · subst h3; show (a.tokens.set raw _)[raw]? = _; rw [List.getElem?_set_self', h1]; rfl
      · rw [h3]; simp
      · intro i hi; rw [h3, List.getElem?_set_ne (Ne.symm hi)]
  | error er =>
    dsimp only
    have hno : ∀ p ∈ a.tokens, p.index ≠ t ∧ p.index ≠ FREE := by
      by_contra hc
      push Not at hc
      obtain ⟨p, hp, hc⟩ := hc
      have : ∃ r, ensureToken a.tokens t = .ok r := by
        refine ensureToken_total ht ?_
        by_cases hpt : p.index = t
        · exact Or.inl ⟨p, hp, hpt⟩
        · exact Or.inr ⟨p, hp, hc hpt⟩
      obtain ⟨r, hr⟩ := this
      rw [hr] at e; simp at e
    refine ⟨?_, hno⟩
    unfold ensureToken at e
    rcases ensureLoop_spec ht a.tokens 0 0 none with ⟨i, p, a1, a2, a3, a4⟩ | ⟨a1, ⟨hc, _⟩ | ⟨_, ⟨i, p, b1, b2, b3, b4⟩ | ⟨b1, b2⟩⟩⟩
    · exact absurd a2 (hno p (List.mem_iff_getElem?.mpr ⟨i, a1⟩)).1
    · exact absurd rfl hc
    · exact absurd b2 (hno p (List.mem_iff_getElem?.mpr ⟨i, b1⟩)).2
    · rw [b2] at e; simpa using e.symm

/-- Place and content of every active spot market, perp and conditional swap slot survive `op`, unless `op` closes it;
token positions keep their place, token and balance unless the operation changes that token's balance or closes it. -/
def Stable (a a' : Acc) (op : Op) : Prop :=
  (∀ i p, At a.serums i p → p.market ≠ FREE → (∀ m, op = .closeSerum m → p.market ≠ m) → At a'.serums i p) ∧
  (∀ i p, At a.perps i p → p.market ≠ FREE → (∀ m, op = .deactivatePerp m → p.market ≠ m) → At a'.perps i p) ∧
  (∀ i p, At a.tcss i p → p.configured = true → (∀ j id x y, op = .closeTcs j id x y → i ≠ j) → At a'.tcss i p) ∧
  (∀ i p, At a.tokens i p → p.index ≠ FREE → (∀ t x c, op = .token t x c → p.index ≠ t) →
    (∀ j id x y, op = .closeTcs j id x y → ∀ s, At a.tcss j s → p.index ≠ s.buy ∧ p.index ≠ s.sell) →
    ∃ n, At a'.tokens i ⟨p.index, n, p.pos⟩)

theorem hold_stable {ts ts' : List TokenSlot} {t : Nat} (ht : t ≠ FREE) (e : holdToken ts t = .ok ts') {i : Nat}
    {p : TokenSlot} (hp : At ts i p) (hf : p.index ≠ FREE) : ∃ n, At ts' i ⟨p.index, n, p.pos⟩ := by
  unfold holdToken at e
  rw [bind_ok] at e
  obtain ⟨⟨ts1, raw, act⟩, e1, e2⟩ := e
  dsimp only at e2
  have h1 : At ts1 i p := by
    rcases ensureToken_spec ht e1 with ⟨_, _, _, h, _, _⟩ | ⟨_, q, h1, h2, h, _, _⟩
    · rw [h]; exact hp
    · rw [h]
      have : i ≠ raw := by
        rintro rfl; unfold At at hp; rw [h1, Option.some.injEq] at hp; exact hf (by rw [← hp, h2])
      show _ = _; rw [List.getElem?_set_ne (Ne.symm this)]; exact hp
  unfold incUse at e2
  split at e2
  · rename_i q hq
    split at e2
    · rw [Except.ok.injEq] at e2
      subst e2
      by_cases hir : i = raw
      · subst hir
        unfold At at h1; rw [hq, Option.some.injEq] at h1; subst h1
        exact ⟨q.inUse + 1, by show _ = _; rw [List.getElem?_set_self', hq]; rfl⟩
      · exact ⟨p.inUse, by show _ = _; rw [List.getElem?_set_ne (Ne.symm hir)]; exact h1⟩
    · simp at e2
  · simp at e2

theorem release_stable {ts ts' : List TokenSlot} {t : Nat} (e : releaseToken ts t = .ok ts') {i : Nat}
    {p : TokenSlot} (hp : At ts i p) : ∃ n, At ts' i ⟨p.index, n, p.pos⟩ := by
  unfold releaseToken at e
  rw [bind_ok] at e
  obtain ⟨raw, _, e2⟩ := e
  unfold decUse at e2
  split at e2
  · rename_i q hq
    rw [Except.ok.injEq] at e2
    subst e2
    by_cases hir : i = raw
    · subst hir
      unfold At at hp; rw [hq, Option.some.injEq] at hp; subst hp
      exact ⟨q.inUse - 1, by show _ = _; rw [List.getElem?_set_self', hq]; rfl⟩
    · exact ⟨p.inUse, by show _ = _; rw [List.getElem?_set_ne (Ne.symm hir)]; exact hp⟩
  · simp at e2

theorem releaseDust_stable {ts ts' : List TokenSlot} {t : Nat} {d : Bool} (e : releaseDust ts t d = .ok ts') {i : Nat}
    {p : TokenSlot} (hp : At ts i p) (hne : p.index ≠ t) : At ts' i p := by
  unfold releaseDust at e
  split at e
  · rw [Except.ok.injEq] at e; rw [← e]; exact hp
  · rename_i raw hraw
    have hir : i ≠ raw := by
      unfold tokenRaw at hraw
      split at hraw
      · rename_i k hk
        rw [Except.ok.injEq] at hraw
        subst hraw
        obtain ⟨x, h1, h2, _⟩ := findIdx?_some hk
        rintro rfl
        unfold At at hp; rw [h1, Option.some.injEq] at hp; subst hp
        exact hne (by simpa using h2)
      · simp at hraw
    rw [bind_ok] at e
    obtain ⟨ts1, e1, e2⟩ := e
    have h1 : At ts1 i p := by
      unfold decUse at e1
      split at e1
      · rw [Except.ok.injEq] at e1; subst e1
        show _ = _; rw [List.getElem?_set_ne (Ne.symm hir)]; exact hp
      · simp at e1
    split at e2
    · simp at e2
    · split at e2
      · rw [pure_ok] at e2; rw [← e2]; exact h1
      · split at e2
        · unfold deactivateToken at e2
          split at e2
          · split at e2
            · rw [Except.ok.injEq] at e2; subst e2
              show _ = _; rw [List.getElem?_set_ne (Ne.symm hir)]; exact h1
            · simp at e2
          · simp at e2
        · rw [pure_ok] at e2; rw [← e2]; exact h1

/-- A position in place. -/
theorem at_self {ts : List TokenSlot} {i : Nat} {p : TokenSlot} (h : At ts i p) : ∃ n, At ts i ⟨p.index, n, p.pos⟩ :=
  ⟨p.inUse, h⟩

/-- No instruction other than a resize moves or alters an active slot it is not about. (A resize
keeps all active slots in order: `C33_resize`.) -/
theorem C32_stable {mk : Markets} {a a' : Acc} {op : Op} (hr : op.Registered mk)
    (hres : ∀ tc sc pc cc, op ≠ .resize tc sc pc cc) (e : step mk a op = .ok a') : Stable a a' op := by
  cases op with
  | resize tc sc pc cc => exact absurd rfl (hres tc sc pc cc)
  | token t np c =>
    simp only [step, changeToken] at e
    rw [bind_ok] at e
    obtain ⟨⟨ts1, raw, act⟩, e1, e2⟩ := e
    dsimp only at e2
    have hr : t ≠ FREE := hr
    -- the returned slot is about `t`, all other active slots are as before
    have key : (∀ i p, At a.tokens i p → p.index ≠ FREE → p.index ≠ t → i ≠ raw ∧ At ts1 i p) := by
      intro i p hp hf hpt
      rcases ensureToken_spec hr e1 with ⟨q, h1, h2, h, _, _⟩ | ⟨_, q, h1, h2, h, _, _⟩
      · have : i ≠ raw := by
          rintro rfl; unfold At at hp; rw [h1, Option.some.injEq] at hp; exact hpt (by rw [← hp, h2])
        exact ⟨this, by rw [h]; exact hp⟩
      · have : i ≠ raw := by
          rintro rfl; unfold At at hp; rw [h1, Option.some.injEq] at hp; exact hf (by rw [← hp, h2])
        exact ⟨this, by rw [h]; show _ = _; rw [List.getElem?_set_ne (Ne.symm this)]; exact hp⟩
    have rest : a'.serums = a.serums ∧ a'.perps = a.perps ∧ a'.tcss = a.tcss ∧
        ∀ i, i ≠ raw → a'.tokens[i]? = ts1[i]? := by
      split at e2
      · simp at e2
      · split at e2
        · rw [bind_ok] at e2
          obtain ⟨ts2, e3, e4⟩ := e2
          rw [pure_ok] at e4
          subst e4
          refine ⟨rfl, rfl, rfl, ?_⟩
          intro i hi
          unfold deactivateToken at e3
          split at e3
          · split at e3
            · rw [Except.ok.injEq] at e3; subst e3
              dsimp only
              rw [List.getElem?_set_ne (Ne.symm hi), List.getElem?_set_ne (Ne.symm hi)]
            · simp at e3
          · simp at e3
        · rw [pure_ok] at e2
          subst e2
          refine ⟨rfl, rfl, rfl, ?_⟩
          intro i hi
          dsimp only
          rw [List.getElem?_set_ne (Ne.symm hi)]
    obtain ⟨r1, r2, r3, r4⟩ := rest
    refine ⟨?_, ?_, ?_, ?_⟩
    · intro i p hp _ _; rw [r1]; exact hp
    · intro i p hp _ _; rw [r2]; exact hp
    · intro i p hp _ _; rw [r3]; exact hp
    · intro i p hp hf hn _
      obtain ⟨k1, k2⟩ := key i p hp hf (hn t np c rfl)
      exact ⟨p.inUse, by show _ = _; rw [r4 i k1]; exact k2⟩
  | createSerum m d =>
    simp only [step, createSerum] at e
    split at e
    · simp at e
    · split at e
      · simp at e
      · rename_i raw hraw
        rw [bind_ok] at e
        obtain ⟨ts1, e1, e⟩ := e
        rw [bind_ok] at e
        obtain ⟨ts2, e2, e⟩ := e
        rw [pure_ok] at e
        subst e
        obtain ⟨q, hq, hqf, _⟩ := findIdx?_some hraw
        have hqf : q.market = FREE := by simpa using hqf
        refine ⟨?_, fun i p hp _ _ => hp, fun i p hp _ _ => hp, ?_⟩
        · intro i p hp hf _
          have : i ≠ raw := by
            rintro rfl; unfold At at hp; rw [hq, Option.some.injEq] at hp; exact hf (by rw [← hp, hqf])
          show _ = _; dsimp only; rw [List.getElem?_set_ne (Ne.symm this)]; exact hp
        · intro i p hp hf _ _
          obtain ⟨n, h1⟩ := hold_stable hr.2.2 e1 hp hf
          obtain ⟨n', h2⟩ := hold_stable hr.2.1 e2 h1 hf
          exact ⟨n', h2⟩
  | closeSerum m =>
    simp only [step, closeSerum] at e
    split at e
    · rw [bind_ok] at e
      obtain ⟨ts1, e1, e⟩ := e
      rw [bind_ok] at e
      obtain ⟨ts2, e2, e⟩ := e
      split at e
      · simp at e
      · rename_i raw hraw
        split at e
        · simp at e
        · rename_i q hq
          rw [pure_ok] at e
          subst e
          obtain ⟨q', hq', hqm, _⟩ := findIdx?_some hraw
          rw [hq, Option.some.injEq] at hq'
          subst hq'
          have hqm : q.market = m := by simpa using hqm
          refine ⟨?_, fun i p hp _ _ => hp, fun i p hp _ _ => hp, ?_⟩
          · intro i p hp hf hn
            have : i ≠ raw := by
              rintro rfl; unfold At at hp; rw [hq, Option.some.injEq] at hp; exact hn m rfl (by rw [← hp, hqm])
            show _ = _; dsimp only; rw [List.getElem?_set_ne (Ne.symm this)]; exact hp
          · intro i p hp hf _ _
            obtain ⟨n, h1⟩ := release_stable e1 hp
            obtain ⟨n', h2⟩ := release_stable e2 h1
            exact ⟨n', h2⟩
    · simp at e
  | ensurePerp m =>
    simp only [step] at e
    cases hx : ensurePerp mk a m with
    | error _ => rw [hx] at e; simp [Except.map] at e
    | ok r =>
      obtain ⟨b, raw⟩ := r
      rw [hx] at e
      simp only [Except.map, Except.ok.injEq] at e
      subst e
      unfold ensurePerp at hx
      split at hx
      · rw [Except.ok.injEq, Prod.mk.injEq] at hx
        rw [← hx.1]
        exact ⟨fun i p hp _ _ => hp, fun i p hp _ _ => hp, fun i p hp _ _ => hp, fun i p hp _ _ _ => at_self hp⟩
      · split at hx
        · simp at hx
        · rename_i k hk
          rw [bind_ok] at hx
          obtain ⟨ts1, e1, hx⟩ := hx
          rw [pure_ok, Prod.mk.injEq] at hx
          obtain ⟨hx, _⟩ := hx
          subst hx
          obtain ⟨q, hq, hqf, _⟩ := findIdx?_some hk
          have hqf : q.market = FREE := by simpa using hqf
          refine ⟨fun i p hp _ _ => hp, ?_, fun i p hp _ _ => hp, ?_⟩
          · intro i p hp hf _
            have : i ≠ k := by
              rintro rfl; unfold At at hp; rw [hq, Option.some.injEq] at hp; exact hf (by rw [← hp, hqf])
            show _ = _; dsimp only; rw [List.getElem?_set_ne (Ne.symm this)]; exact hp
          · intro i p hp hf _ _
            exact hold_stable hr.2 e1 hp hf
  | deactivatePerp m =>
    simp only [step, deactivatePerp] at e
    split at e
    · simp at e
    · rename_i raw hraw
      split at e
      · simp at e
      · rename_i q hq
        rw [bind_ok] at e
        obtain ⟨ts1, e1, e⟩ := e
        rw [pure_ok] at e
        subst e
        obtain ⟨q', hq', hqm, _⟩ := findIdx?_some hraw
        rw [hq, Option.some.injEq] at hq'
        subst hq'
        have hqm : q.market = m := by simpa using hqm
        refine ⟨fun i p hp _ _ => hp, ?_, fun i p hp _ _ => hp, ?_⟩
        · intro i p hp hf hn
          have : i ≠ raw := by
            rintro rfl; unfold At at hp; rw [hq, Option.some.injEq] at hp; exact hn m rfl (by rw [← hp, hqm])
          show _ = _; dsimp only; rw [List.getElem?_set_ne (Ne.symm this)]; exact hp
        · intro i p hp hf _ _
          exact release_stable e1 hp
  | createTcs b s d =>
    simp only [step, createTcs] at e
    rw [bind_ok] at e
    obtain ⟨ts1, e1, e⟩ := e
    rw [bind_ok] at e
    obtain ⟨ts2, e2, e⟩ := e
    split at e
    · simp at e
    · rename_i k hk
      split at e
      · simp at e
      · rw [pure_ok] at e
        subst e
        obtain ⟨q, hq, hqf, _⟩ := findIdx?_some hk
        have hqf : q.configured = false := by simpa using hqf
        refine ⟨fun i p hp _ _ => hp, fun i p hp _ _ => hp, ?_, ?_⟩
        · intro i p hp hf _
          have : i ≠ k := by
            rintro rfl; unfold At at hp; rw [hq, Option.some.injEq] at hp; rw [hp] at hqf; rw [hqf] at hf; simp at hf
          show _ = _; dsimp only; rw [List.getElem?_set_ne (Ne.symm this)]; exact hp
        · intro i p hp hf _ _
          obtain ⟨n, h1⟩ := hold_stable hr.1 e1 hp hf
          obtain ⟨n', h2⟩ := hold_stable hr.2 e2 h1 hf
          exact ⟨n', h2⟩
  | closeTcs j id x y =>
    simp only [step, closeTcs] at e
    split at e
    · simp at e
    · rename_i s hs
      split at e
      · rw [Except.ok.injEq] at e
        rw [← e]
        exact ⟨fun i p hp _ _ => hp, fun i p hp _ _ => hp, fun i p hp _ _ => hp, fun i p hp _ _ _ => at_self hp⟩
      · split at e
        · simp at e
        · rw [bind_ok] at e
          obtain ⟨ts1, e1, e⟩ := e
          rw [bind_ok] at e
          obtain ⟨ts2, e2, e⟩ := e
          rw [pure_ok] at e
          subst e
          refine ⟨fun i p hp _ _ => hp, fun i p hp _ _ => hp, ?_, ?_⟩
          · intro i p hp hf hn
            show _ = _; dsimp only; rw [List.getElem?_set_ne (Ne.symm (hn j id x y rfl))]; exact hp
          · intro i p hp hf _ hn
            obtain ⟨n1, n2⟩ := hn j id x y rfl s hs
            exact at_self (releaseDust_stable e2 (releaseDust_stable e1 hp n1) n2)

/-- What a successful activation leaves behind: the slot asked for. -/
theorem C32_activated {mk : Markets} {a a' : Acc} :
    (∀ m d, createSerum mk a m d = .ok a' →
      (∀ p ∈ a.serums, p.market ≠ m) ∧ ∃ i, At a'.serums i ⟨m, mk.base m, mk.quote m, d⟩) ∧
    (∀ m raw, ensurePerp mk a m = .ok (a', raw) → ∃ p, At a'.perps raw p ∧ p.market = m ∧
      (a' = a ∨ (p = { freePerp with market := m } ∧ ∀ q ∈ a.perps, q.market ≠ m))) ∧
    (∀ b s d, createTcs a b s d = .ok a' → ∃ i, At a'.tcss i ⟨true, a.nextTcsId, b, s, d⟩) := by
  refine ⟨?_, ?_, ?_⟩
  · intro m d e
    unfold createSerum at e
    split at e
    · simp at e
    · rename_i hany
      split at e
      · simp at e
      · rename_i raw hraw
        rw [bind_ok] at e
        obtain ⟨ts1, e1, e⟩ := e
        rw [bind_ok] at e
        obtain ⟨ts2, e2, e⟩ := e
        rw [pure_ok] at e
        subst e
        obtain ⟨q, hq, _, _⟩ := findIdx?_some hraw
        refine ⟨by simpa using hany, raw, ?_⟩
        show _ = _; dsimp only; rw [List.getElem?_set_self', hq]; rfl
  · intro m raw e
    unfold ensurePerp at e
    split at e
    · rename_i k hk
      rw [Except.ok.injEq, Prod.mk.injEq] at e
      obtain ⟨rfl, rfl⟩ := e
      obtain ⟨q, hq, hqm, _⟩ := findIdx?_some hk
      exact ⟨q, hq, by simpa using hqm, Or.inl rfl⟩
    · rename_i hnone
      split at e
      · simp at e
      · rename_i k hk
        rw [bind_ok] at e
        obtain ⟨ts1, e1, e⟩ := e
        rw [pure_ok, Prod.mk.injEq] at e
        obtain ⟨rfl, rfl⟩ := e
        obtain ⟨q, hq, _, _⟩ := findIdx?_some hk
        refine ⟨{ freePerp with market := m }, ?_, rfl, Or.inr ⟨rfl, ?_⟩⟩
        · show _ = _; dsimp only; rw [List.getElem?_set_self', hq]; rfl
        · intro x hx; have := findIdx?_none hnone x hx; simpa using this
  · intro b s d e
    unfold createTcs at e
    rw [bind_ok] at e
    obtain ⟨ts1, e1, e⟩ := e
    rw [bind_ok] at e
    obtain ⟨ts2, e2, e⟩ := e
    split at e
    · simp at e
    · rename_i k hk
      split at e
      · simp at e
      · rw [pure_ok] at e
        subst e
        obtain ⟨q, hq, _, _⟩ := findIdx?_some hk
        refine ⟨k, ?_⟩
        show _ = _; dsimp only; rw [List.getElem?_set_self', hq]; rfl

/-! ## C53 -/

theorem filter_length_eq {α : Type} (P : α → Bool) (l : List α) :
    ((l.filter P).length : Int) = sumOf (fun x => if P x then 1 else 0) l := by
  induction l with
  | nil => rfl
  | cons a l ih =>
    rw [List.filter_cons]
    by_cases h : P a
    · rw [if_pos h]; simp [ih, h]; omega
    · rw [if_neg h]; simp [ih, h]

theorem uses_eq_refs {mk : Markets} {a : Acc} (h : Inv mk a) (t : Nat) : (uses mk a t : Int) = refs mk a t := by
  unfold uses refs
  push_cast
  simp only [filter_length_eq]
  have h1 : sumOf (serumRefs t) a.serums =
      sumOf (fun s => if decide (s.market ≠ FREE ∧ mk.base s.market = t) = true then (1 : Int) else 0) a.serums +
      sumOf (fun s => if decide (s.market ≠ FREE ∧ mk.quote s.market = t) = true then (1 : Int) else 0) a.serums := by
    rw [← sumOf_add]
    refine sumOf_congr ?_
    intro s hs
    unfold serumRefs one
    by_cases hf : s.market = FREE
    · simp [hf]
    · obtain ⟨r1, r2, _, _⟩ := h.serRef s hs hf
      simp only [hf, if_false, r1, r2, ne_eq, not_false_eq_true, true_and, decide_eq_true_eq, @eq_comm _ t]
  have h2 : sumOf (perpRefs mk t) a.perps =
      sumOf (fun s => if decide (s.market ≠ FREE ∧ mk.settle s.market = t) = true then (1 : Int) else 0) a.perps := by
    refine sumOf_congr ?_
    intro s hs
    unfold perpRefs one
    by_cases hf : s.market = FREE
    · simp [hf]
    · simp only [hf, if_false, ne_eq, not_false_eq_true, true_and, decide_eq_true_eq, @eq_comm _ t]
  have h3 : sumOf (tcsRefs t) a.tcss =
      sumOf (fun s => if decide (s.configured = true ∧ s.buy = t) = true then (1 : Int) else 0) a.tcss +
      sumOf (fun s => if decide (s.configured = true ∧ s.sell = t) = true then (1 : Int) else 0) a.tcss := by
    rw [← sumOf_add]
    refine sumOf_congr ?_
    intro s hs
    unfold tcsRefs one
    by_cases hf : s.configured = true
    · simp only [hf, if_true, true_and, decide_eq_true_eq, @eq_comm _ t]
    · simp [hf]
  rw [h1, h2, h3]; omega

/-- In every reachable account the use count of each token position is exactly the number of times the account's open
spot market accounts (both tokens), perp positions (settle token) and conditional swaps (both tokens) need the
token, and a needed token has a position. -/
theorem C53_counts {mk : Markets} {a : Acc} (h : Reach mk a) :
    (∀ p ∈ a.tokens, p.index ≠ FREE → p.inUse = uses mk a p.index) ∧
    (∀ t, t ≠ FREE → 0 < uses mk a t → ∃ p ∈ a.tokens, p.index = t) := by
  have hI := reach_inv h
  refine ⟨?_, ?_⟩
  · intro p hp hf
    have h1 := hI.uses.count p hp hf
    have h2 := uses_eq_refs hI p.index
    omega
  · intro t ht hpos
    exact hI.uses.held t ht (by have := uses_eq_refs hI t; omega)

/-- A token position that something needs stays: a token instruction never closes it, whatever the new balance, and
closing it directly fails. -/
theorem C53_needed_position_stays {mk : Markets} {a : Acc} (h : Reach mk a) {t : Nat} (ht : t ≠ FREE)
    (hu : 0 < uses mk a t) :
    (∀ np c a', changeToken a t np c = .ok a' → ∃ p ∈ a'.tokens, p.index = t) ∧
    (∀ raw p, At a.tokens raw p → p.index = t → deactivateToken a.tokens raw = .error .panic) := by
  refine ⟨?_, ?_⟩
  · intro np c a' e
    have hr : Reach mk a' := Reach.step (.token t np c) h ht e
    have hs : a'.serums = a.serums ∧ a'.perps = a.perps ∧ a'.tcss = a.tcss := by
      unfold changeToken at e
      rw [bind_ok] at e
      obtain ⟨⟨ts1, raw, act⟩, e1, e2⟩ := e
      dsimp only at e2
      split at e2
      · simp at e2
      · split at e2
        · rw [bind_ok] at e2
          obtain ⟨ts2, e3, e4⟩ := e2
          rw [pure_ok] at e4; subst e4; exact ⟨rfl, rfl, rfl⟩
        · rw [pure_ok] at e2; subst e2; exact ⟨rfl, rfl, rfl⟩
    refine (C53_counts hr).2 t ht ?_
    unfold uses at hu ⊢
    rw [hs.1, hs.2.1, hs.2.2]; exact hu
  · intro raw p hp hpt
    have := (C53_counts h).1 p (List.mem_iff_getElem?.mpr ⟨raw, hp⟩) (by rw [hpt]; exact ht)
    rw [hpt] at this
    unfold deactivateToken
    unfold At at hp
    rw [hp]
    dsimp only
    rw [if_neg (by omega)]

/-- Closing what the account holds open never fails for a missing token position: a spot market account, a perp
position and a conditional swap can each be closed on the slot level in every reachable account. -/
theorem C53_can_close {mk : Markets} {a : Acc} (h : Reach mk a) :
    (∀ p ∈ a.serums, p.market ≠ FREE → ∃ a', closeSerum mk a p.market = .ok a') ∧
    (∀ p ∈ a.perps, p.market ≠ FREE → ∃ a', deactivatePerp mk a p.market = .ok a') ∧
    (∀ i p, At a.tcss i p → p.configured = true → ∀ x y, ∃ a', closeTcs a i p.id x y = .ok a' ∧
      At a'.tcss i freeTcs) := by
  have hI := reach_inv h
  refine ⟨?_, ?_, ?_⟩
  · intro p hp hf
    obtain ⟨a', h1, _⟩ := closeSerum_spec hI hf ⟨p, hp, rfl⟩
    exact ⟨a', h1⟩
  · intro p hp hf
    obtain ⟨a', h1, _⟩ := deactivatePerp_spec hI hf ⟨p, hp, rfl⟩
    exact ⟨a', h1⟩
  · intro i p hp hc x y
    obtain ⟨a', h1, h2, _⟩ := closeTcs_spec hI hp hc rfl x y
    refine ⟨a', h1, ?_⟩
    show _ = _
    rw [h2, List.getElem?_set_self', show a.tcss[i]? = some p from hp]; rfl

/-! ## A concrete account -/

/-- Markets: spot market 3 trades token 5 for token 0; perp markets settle in token 0. -/
def exMk : Markets := ⟨fun _ => 5, fun _ => 0, fun _ => 0⟩

/-- A deposit, a spot account, a perp position, a conditional swap, a resize, the perp position closed. -/
def exOps : List Op := [.token 5 100 false, .createSerum 3 7, .ensurePerp 1, .createTcs 0 5 9,
  .resize 4 2 2 1, .deactivatePerp 1, .token 9 1 true]

def runOps (a : Acc) : List Op → Res Acc
  | [] => .ok a
  | op :: ops => do
    let a ← step exMk a op
    runOps a ops

def exAcc : Acc := ⟨[⟨5, 2, 100⟩, ⟨0, 2, 0⟩, ⟨65535, 0, 1⟩, ⟨65535, 0, 0⟩], [⟨3, 5, 0, 7⟩, freeSerum],
  [⟨65535, 0⟩, freePerp], [⟨true, 0, 0, 5, 9⟩], 1⟩

theorem ex_run : runOps (newAcc 3 1 1 1) exOps = .ok exAcc := by decide +kernel

theorem runOps_reach {a a' : Acc} {ops : List Op} (h : Reach exMk a) (hr : ∀ op ∈ ops, op.Registered exMk)
    (e : runOps a ops = .ok a') : Reach exMk a' := by
  induction ops generalizing a with
  | nil => unfold runOps at e; rw [Except.ok.injEq] at e; rw [← e]; exact h
  | cons op ops ih =>
    unfold runOps at e
    rw [bind_ok] at e
    obtain ⟨b, e1, e2⟩ := e
    exact ih (Reach.step op h (hr op (by simp)) e1) (fun x hx => hr x (by simp [hx])) e2

example : Reach exMk exAcc := by
  refine runOps_reach (.new 3 1 1 1) ?_ ex_run
  intro op hop
  simp only [exOps, List.mem_cons, List.mem_nil_iff, or_false] at hop
  rcases hop with rfl | rfl | rfl | rfl | rfl | rfl | rfl <;> simp [Op.Registered, exMk, FREE]

/-- The token of the spot market and the swap is counted twice. -/
example : uses exMk exAcc 5 = 2 ∧ uses exMk exAcc 0 = 2 := by decide +kernel

/-- If market index 65535 could be registered, `ensure_perp_position` would hand out a free slot without holding the
settle token (perp_create_market.rs does not reject the index). -/
theorem C32_market_65535_takes_free_slot :
    ensurePerp exMk (newAcc 1 0 1 0) 65535 = .ok (newAcc 1 0 1 0, 0) := by decide +kernel

end Mango.Slots
