import Verif.Account.SlotsLemmas

namespace Mango.Slots

/-- No two active slots have the same key. -/
def UniqBy {α : Type} (act : α → Prop) (key : α → Nat) (l : List α) : Prop :=
  ∀ (i j : Nat) (p q : α), l[i]? = some p → l[j]? = some q → act p → act q → key p = key q → i = j

theorem uniqBy_cons {α : Type} {act : α → Prop} {key : α → Nat} {a : α} {l : List α} :
    UniqBy act key (a :: l) ↔ UniqBy act key l ∧ (act a → ∀ q ∈ l, act q → key q ≠ key a) := by
  constructor
  · intro h
    refine ⟨?_, ?_⟩
    · intro i j p q hi hj hp hq hk
      have := h (i + 1) (j + 1) p q (by simpa using hi) (by simpa using hj) hp hq hk
      omega
    · intro ha q hq haq hk
      obtain ⟨j, hj⟩ := List.mem_iff_getElem?.mp hq
      have := h (j + 1) 0 q a (by simpa using hj) (by simp) haq ha hk
      omega
  · rintro ⟨h1, h2⟩ i j p q hi hj hp hq hk
    cases i with
    | zero =>
      simp only [List.getElem?_cons_zero, Option.some.injEq] at hi
      subst hi
      cases j with
      | zero => rfl
      | succ j =>
        simp only [List.getElem?_cons_succ] at hj
        exact absurd hk.symm (h2 hp q (List.mem_iff_getElem?.mpr ⟨j, hj⟩) hq)
    | succ i =>
      simp only [List.getElem?_cons_succ] at hi
      cases j with
      | zero =>
        simp only [List.getElem?_cons_zero, Option.some.injEq] at hj
        subst hj
        exact absurd hk (h2 hq p (List.mem_iff_getElem?.mpr ⟨i, hi⟩) hp)
      | succ j =>
        simp only [List.getElem?_cons_succ] at hj
        rw [h1 i j p q hi hj hp hq hk]

theorem uniqBy_filter {α : Type} {act : α → Prop} {key : α → Nat} (P : α → Bool) {l : List α}
    (h : UniqBy act key l) : UniqBy act key (l.filter P) := by
  induction l with
  | nil => exact h
  | cons a l ih =>
    rw [uniqBy_cons] at h
    rw [List.filter_cons]
    split
    · rw [uniqBy_cons]
      exact ⟨ih h.1, fun ha q hq => h.2 ha q (List.mem_filter.mp hq).1⟩
    · exact ih h.1

theorem uniqBy_append {α : Type} {act : α → Prop} {key : α → Nat} {m : List α} (hm : ∀ x ∈ m, ¬ act x) {l : List α}
    (h : UniqBy act key l) : UniqBy act key (l ++ m) := by
  induction l with
  | nil =>
    intro i j p q hi hj hp
    exact absurd hp (hm p (List.mem_iff_getElem?.mpr ⟨i, by simpa using hi⟩))
  | cons a l ih =>
    rw [uniqBy_cons] at h
    rw [List.cons_append, uniqBy_cons]
    refine ⟨ih h.1, ?_⟩
    intro ha q hq hqa
    rcases List.mem_append.mp hq with hq | hq
    · exact h.2 ha q hq hqa
    · exact absurd hqa (hm q hq)

/-- Deactivating a slot. -/
theorem uniqBy_set_off {α : Type} {act : α → Prop} {key : α → Nat} {l : List α} {k : Nat} {y : α} (hy : ¬ act y)
    (h : UniqBy act key l) : UniqBy act key (l.set k y) := by
  intro i j p q hi hj hp hq hk
  rcases getElem?_set_cases hi with ⟨rfl, rfl⟩ | ⟨_, hi'⟩
  · exact absurd hp hy
  · rcases getElem?_set_cases hj with ⟨rfl, rfl⟩ | ⟨_, hj'⟩
    · exact absurd hq hy
    · exact h i j p q hi' hj' hp hq hk

/-- Activating a slot with an unused key. -/
theorem uniqBy_set_new {α : Type} {act : α → Prop} {key : α → Nat} {l : List α} {k : Nat} {y : α}
    (hno : ∀ x ∈ l, act x → key x ≠ key y) (h : UniqBy act key l) : UniqBy act key (l.set k y) := by
  intro i j p q hi hj hp hq hk
  rcases getElem?_set_cases hi with ⟨rfl, rfl⟩ | ⟨_, hi'⟩
  · rcases getElem?_set_cases hj with ⟨rfl, rfl⟩ | ⟨_, hj'⟩
    · rfl
    · exact absurd hk.symm (hno q (List.mem_iff_getElem?.mpr ⟨j, hj'⟩) hq)
  · rcases getElem?_set_cases hj with ⟨rfl, rfl⟩ | ⟨_, hj'⟩
    · exact absurd hk (hno p (List.mem_iff_getElem?.mpr ⟨i, hi'⟩) hp)
    · exact h i j p q hi' hj' hp hq hk

/-! ## Counting references -/

/-- The references of a spot market slot to token `t`. -/
def serumRefs (t : Nat) (s : SerumSlot) : Int := if s.market = FREE then 0 else one s.base t + one s.quote t
/-- The references of a perp slot. -/
def perpRefs (mk : Markets) (t : Nat) (s : PerpSlot) : Int := if s.market = FREE then 0 else one (mk.settle s.market) t
/-- The references of a conditional swap. -/
def tcsRefs (t : Nat) (s : TcsSlot) : Int := if s.configured then one s.buy t + one s.sell t else 0

/-- All references of an account to token `t`. -/
def refs (mk : Markets) (a : Acc) (t : Nat) : Int :=
  sumOf (serumRefs t) a.serums + sumOf (perpRefs mk t) a.perps + sumOf (tcsRefs t) a.tcss

theorem serumRefs_nonneg (t : Nat) (s : SerumSlot) : 0 ≤ serumRefs t s := by
  unfold serumRefs; split
  · omega
  · have := one_nonneg s.base t; have := one_nonneg s.quote t; omega
theorem perpRefs_nonneg (mk : Markets) (t : Nat) (s : PerpSlot) : 0 ≤ perpRefs mk t s := by
  unfold perpRefs; split
  · omega
  · exact one_nonneg _ _
theorem tcsRefs_nonneg (t : Nat) (s : TcsSlot) : 0 ≤ tcsRefs t s := by
  unfold tcsRefs; split
  · have := one_nonneg s.buy t; have := one_nonneg s.sell t; omega
  · omega

theorem refs_nonneg (mk : Markets) (a : Acc) (t : Nat) : 0 ≤ refs mk a t := by
  have h1 : 0 ≤ sumOf (serumRefs t) a.serums := sumOf_nonneg (serumRefs_nonneg t)
  have h2 : 0 ≤ sumOf (perpRefs mk t) a.perps := sumOf_nonneg (perpRefs_nonneg mk t)
  have h3 : 0 ≤ sumOf (tcsRefs t) a.tcss := sumOf_nonneg (tcsRefs_nonneg t)
  unfold refs; omega

theorem serum_le_refs (mk : Markets) {a : Acc} (t : Nat) {s : SerumSlot} (h : s ∈ a.serums) :
    serumRefs t s ≤ refs mk a t := by
  have h1 := sumOf_pos_mem (f := serumRefs t) (fun x _ => serumRefs_nonneg t x) h
  have h2 : 0 ≤ sumOf (perpRefs mk t) a.perps := sumOf_nonneg (perpRefs_nonneg mk t)
  have h3 : 0 ≤ sumOf (tcsRefs t) a.tcss := sumOf_nonneg (tcsRefs_nonneg t)
  unfold refs; omega
theorem perp_le_refs (mk : Markets) {a : Acc} (t : Nat) {s : PerpSlot} (h : s ∈ a.perps) :
    perpRefs mk t s ≤ refs mk a t := by
  have h1 := sumOf_pos_mem (f := perpRefs mk t) (fun x _ => perpRefs_nonneg mk t x) h
  have h2 : 0 ≤ sumOf (serumRefs t) a.serums := sumOf_nonneg (serumRefs_nonneg t)
  have h3 : 0 ≤ sumOf (tcsRefs t) a.tcss := sumOf_nonneg (tcsRefs_nonneg t)
  unfold refs; omega
theorem tcs_le_refs (mk : Markets) {a : Acc} (t : Nat) {s : TcsSlot} (h : s ∈ a.tcss) :
    tcsRefs t s ≤ refs mk a t := by
  have h1 := sumOf_pos_mem (f := tcsRefs t) (fun x _ => tcsRefs_nonneg t x) h
  have h2 : 0 ≤ sumOf (serumRefs t) a.serums := sumOf_nonneg (serumRefs_nonneg t)
  have h3 : 0 ≤ sumOf (perpRefs mk t) a.perps := sumOf_nonneg (perpRefs_nonneg mk t)
  unfold refs; omega

/-- The invariant of the slots of an account. -/
structure Inv (mk : Markets) (a : Acc) : Prop where
  uses : Uses a.tokens (refs mk a)
  serU : UniqBy (fun p : SerumSlot => p.market ≠ FREE) (fun p => p.market) a.serums
  perU : UniqBy (fun p : PerpSlot => p.market ≠ FREE) (fun p => p.market) a.perps
  tcsU : UniqBy (fun p : TcsSlot => p.configured = true) (fun p => p.id) a.tcss
  serRef : ∀ p ∈ a.serums, p.market ≠ FREE →
    p.base = mk.base p.market ∧ p.quote = mk.quote p.market ∧ p.base ≠ FREE ∧ p.quote ≠ FREE
  perRef : ∀ p ∈ a.perps, p.market ≠ FREE → mk.settle p.market ≠ FREE
  tcsRef : ∀ p ∈ a.tcss, p.configured = true → p.id < a.nextTcsId ∧ p.buy ≠ FREE ∧ p.sell ≠ FREE ∧ p.buy ≠ p.sell

theorem Uses.congr {ts : List TokenSlot} {r r' : Nat → Int} (h : Uses ts r) (e : ∀ t, r t = r' t) : Uses ts r' := by
  have : r = r' := funext e
  rw [← this]; exact h

theorem replicate_sum {α : Type} {f : α → Int} {x : α} (hx : f x = 0) (n : Nat) : sumOf f (List.replicate n x) = 0 :=
  sumOf_zero (fun y hy => by rw [(List.mem_replicate.mp hy).2, hx])

theorem inv_new (mk : Markets) (tc sc pc cc : Nat) : Inv mk (newAcc tc sc pc cc) := by
  have hr : ∀ t, refs mk (newAcc tc sc pc cc) t = 0 := by
    intro t
    unfold refs newAcc
    simp only
    rw [replicate_sum (by simp [serumRefs, freeSerum]), replicate_sum (by simp [perpRefs, freePerp]),
      replicate_sum (by simp [tcsRefs, freeTcs])]
    rfl
  refine ⟨⟨?_, ?_, ?_⟩, ?_, ?_, ?_, ?_, ?_, ?_⟩
  · intro i j p q hi hj _ hf
    have := (List.mem_replicate.mp (List.mem_iff_getElem?.mpr ⟨i, hi⟩)).2
    exact absurd (by rw [this]; rfl) hf
  · intro p hp hf
    have := (List.mem_replicate.mp hp).2
    exact absurd (by rw [this]; rfl) hf
  · intro t _ h; rw [hr] at h; omega
  · intro i j p q hi hj hf
    have := (List.mem_replicate.mp (List.mem_iff_getElem?.mpr ⟨i, hi⟩)).2
    exact absurd (by rw [this]; rfl) hf
  · intro i j p q hi hj hf
    have := (List.mem_replicate.mp (List.mem_iff_getElem?.mpr ⟨i, hi⟩)).2
    exact absurd (by rw [this]; rfl) hf
  · intro i j p q hi hj hf
    have := (List.mem_replicate.mp (List.mem_iff_getElem?.mpr ⟨i, hi⟩)).2
    rw [this] at hf; simp [freeTcs] at hf
  · intro p hp hf
    have := (List.mem_replicate.mp hp).2
    exact absurd (by rw [this]; rfl) hf
  · intro p hp hf
    have := (List.mem_replicate.mp hp).2
    exact absurd (by rw [this]; rfl) hf
  · intro p hp hf
    have := (List.mem_replicate.mp hp).2
    rw [this] at hf; simp [freeTcs] at hf

/-! ## The operations keep the invariant -/

theorem changeToken_inv {mk : Markets} {a a' : Acc} (h : Inv mk a) {t : Nat} (ht : t ≠ FREE) {np : Int} {c : Bool}
    (e : changeToken a t np c = .ok a') : Inv mk a' := by
  unfold changeToken at e
  rw [bind_ok] at e
  obtain ⟨⟨ts1, raw, act⟩, e1, e2⟩ := e
  dsimp only at e2
  have key : ∃ p, ts1[raw]? = some p ∧ p.index ≠ FREE ∧ Uses (ts1.set raw { p with pos := np }) (refs mk a) := by
    rcases ensureToken_spec ht e1 with ⟨p, h1, h2, rfl, _, _⟩ | ⟨h0, p, h1, h2, rfl, _, _⟩
    · have hc := h.uses.count p (List.mem_iff_getElem?.mpr ⟨raw, h1⟩) (by rw [h2]; exact ht)
      exact ⟨p, h1, by rw [h2]; exact ht, h.uses.replace h1 rfl (by rw [h2]; exact ht) hc (fun _ _ => rfl)⟩
    · refine ⟨⟨t, 0, 0⟩, by rw [List.getElem?_set_self', h1]; rfl, ht, ?_⟩
      rw [List.set_set]
      refine h.uses.activate h1 h2 h0 ht ?_ (fun _ _ => rfl)
      have h0' := refs_nonneg mk a t
      by_contra hc
      have : 0 < refs mk a t := by
        simp only at hc
        rcases Int.lt_or_eq_of_le h0' with hlt | heq
        · exact hlt
        · exact absurd (by simpa using heq) hc
      obtain ⟨b, hb, hbt⟩ := h.uses.held t ht this
      exact h0 b hb hbt
  obtain ⟨p, hp, hpf, hU⟩ := key
  rw [hp] at e2
  dsimp only at e2
  split at e2
  · rename_i hc
    rw [bind_ok] at e2
    obtain ⟨ts2, e3, e4⟩ := e2
    have hget : (ts1.set raw { p with pos := np })[raw]? = some { p with pos := np } := by
      rw [List.getElem?_set_self', hp]; rfl
    unfold deactivateToken at e3
    rw [hget] at e3
    dsimp only at e3
    rw [if_pos hc.2, Except.ok.injEq] at e3
    rw [pure_ok] at e4
    subst e3; subst e4
    exact ⟨hU.free hget hc.2, h.serU, h.perU, h.tcsU, h.serRef, h.perRef, h.tcsRef⟩
  · rw [pure_ok] at e2
    subst e2
    exact ⟨hU, h.serU, h.perU, h.tcsU, h.serRef, h.perRef, h.tcsRef⟩

theorem createSerum_inv {mk : Markets} {a a' : Acc} (h : Inv mk a) {m : Nat} (hm : m ≠ FREE) (hb : mk.base m ≠ FREE)
    (hq : mk.quote m ≠ FREE) {d : Int} (e : createSerum mk a m d = .ok a') : Inv mk a' := by
  unfold createSerum at e
  split at e
  · simp at e
  · rename_i hany
    split at e
    · simp at e
    · rename_i raw hraw
      rw [bind_ok] at e
      obtain ⟨ts1, e1, e⟩ := e
      rw [bind_ok] at e
      obtain ⟨ts2, e2, e⟩ := e
      rw [pure_ok] at e
      subst e
      obtain ⟨p, hp, hpf, _⟩ := findIdx?_some hraw
      have hpf : p.market = FREE := by simpa using hpf
      have hno : ∀ x ∈ a.serums, x.market ≠ m := by simpa using hany
      have hr := refs_nonneg mk a
      have u1 := hold_spec h.uses hq hr e1
      have u2 := hold_spec u1 hb (fun x => by have := hr x; have := one_nonneg (mk.quote m) x; omega) e2
      refine ⟨?_, ?_, h.perU, h.tcsU, ?_, h.perRef, h.tcsRef⟩
      · refine u2.congr ?_
        intro t
        unfold refs
        dsimp only
        rw [sumOf_set _ hp]
        have a1 : serumRefs t p = 0 := by unfold serumRefs; rw [if_pos hpf]
        have a2 : serumRefs t ⟨m, mk.base m, mk.quote m, d⟩ = one (mk.base m) t + one (mk.quote m) t := by
          unfold serumRefs; rw [if_neg hm]
        rw [a1, a2]; omega
      · exact uniqBy_set_new (fun x hx _ => hno x hx) h.serU
      · exact forall_set h.serRef (fun _ => ⟨rfl, rfl, hb, hq⟩)

/-- Closing a spot market's orders account: always possible while it is open. -/
theorem closeSerum_spec {mk : Markets} {a : Acc} (h : Inv mk a) {m : Nat} (hm : m ≠ FREE)
    (hex : ∃ p ∈ a.serums, p.market = m) : ∃ a', closeSerum mk a m = .ok a' ∧ Inv mk a' := by
  obtain ⟨raw, p, hraw, hp, hpm⟩ : ∃ raw p, a.serums.findIdx? (fun p => p.market == m) = some raw ∧
      a.serums[raw]? = some p ∧ p.market = m := by
    cases e : a.serums.findIdx? (fun p => p.market == m) with
    | none =>
      obtain ⟨p, hp, hpm⟩ := hex
      have := findIdx?_none e p hp
      simp [hpm] at this
    | some i =>
      obtain ⟨x, h1, h2, _⟩ := findIdx?_some e
      exact ⟨i, x, rfl, h1, by simpa using h2⟩
  have hmem : p ∈ a.serums := List.mem_iff_getElem?.mpr ⟨raw, hp⟩
  have hpf : p.market ≠ FREE := by rw [hpm]; exact hm
  obtain ⟨rb, rq, fb, fq⟩ := h.serRef p hmem hpf
  rw [hpm] at rb rq
  rw [rb] at fb; rw [rq] at fq
  have hs : ∀ t, serumRefs t p = one (mk.base m) t + one (mk.quote m) t := by
    intro t; unfold serumRefs; rw [if_neg hpf, rb, rq]
  have h1 : 0 < refs mk a (mk.base m) := by
    have := serum_le_refs mk (mk.base m) hmem
    rw [hs, one_self] at this
    have := one_nonneg (mk.quote m) (mk.base m); omega
  obtain ⟨ts1, e1, u1⟩ := release_spec h.uses fb h1
  have h2 : 0 < refs mk a (mk.quote m) - one (mk.base m) (mk.quote m) := by
    have := serum_le_refs mk (mk.quote m) hmem
    rw [hs, one_self] at this
    omega
  obtain ⟨ts2, e2, u2⟩ := release_spec u1 fq h2
  refine ⟨{ a with tokens := ts2, serums := a.serums.set raw { p with market := FREE } }, ?_, ?_⟩
  · unfold closeSerum
    rw [if_pos (by simpa using hex), e1]
    simp only [bind, Except.bind, e2, hraw, hp]; rfl
  · refine ⟨?_, uniqBy_set_off (by simp) h.serU, h.perU, h.tcsU, ?_, h.perRef, h.tcsRef⟩
    · refine u2.congr ?_
      intro t
      unfold refs
      dsimp only
      rw [sumOf_set _ hp, hs]
      have : serumRefs t { p with market := FREE } = 0 := by unfold serumRefs; rw [if_pos rfl]
      rw [this]; omega
    · exact forall_set h.serRef (fun hc => absurd rfl hc)

theorem closeSerum_inv {mk : Markets} {a a' : Acc} (h : Inv mk a) {m : Nat} (hm : m ≠ FREE)
    (e : closeSerum mk a m = .ok a') : Inv mk a' := by
  by_cases hex : ∃ p ∈ a.serums, p.market = m
  · obtain ⟨b, h1, h2⟩ := closeSerum_spec h hm hex
    rw [h1, Except.ok.injEq] at e
    rw [← e]; exact h2
  · unfold closeSerum at e
    rw [if_neg (by simpa using hex)] at e
    simp at e

theorem ensurePerp_inv {mk : Markets} {a a' : Acc} {raw : Nat} (h : Inv mk a) {m : Nat} (hm : m ≠ FREE)
    (hs : mk.settle m ≠ FREE) (e : ensurePerp mk a m = .ok (a', raw)) : Inv mk a' := by
  unfold ensurePerp at e
  split at e
  · rw [Except.ok.injEq, Prod.mk.injEq] at e
    rw [← e.1]; exact h
  · rename_i hnone
    split at e
    · simp at e
    · rename_i k hk
      rw [bind_ok] at e
      obtain ⟨ts1, e1, e⟩ := e
      rw [pure_ok, Prod.mk.injEq] at e
      obtain ⟨e, _⟩ := e
      subst e
      obtain ⟨p, hp, hpf, _⟩ := findIdx?_some hk
      have hpf : p.market = FREE := by simpa using hpf
      have hno : ∀ x ∈ a.perps, x.market ≠ m := by
        intro x hx; have := findIdx?_none hnone x hx; simpa using this
      have u1 := hold_spec h.uses hs (refs_nonneg mk a) e1
      refine ⟨?_, h.serU, ?_, h.tcsU, h.serRef, ?_, h.tcsRef⟩
      · refine u1.congr ?_
        intro t
        unfold refs
        dsimp only
        rw [sumOf_set _ hp]
        have a1 : perpRefs mk t p = 0 := by unfold perpRefs; rw [if_pos hpf]
        have a2 : perpRefs mk t { freePerp with market := m } = one (mk.settle m) t := by
          unfold perpRefs; rw [if_neg hm]
        rw [a1, a2]; omega
      · exact uniqBy_set_new (fun x hx _ => hno x hx) h.perU
      · exact forall_set h.perRef (fun _ => hs)

/-- Closing a perp position never fails for a missing settle token position. -/
theorem deactivatePerp_spec {mk : Markets} {a : Acc} (h : Inv mk a) {m : Nat} (hm : m ≠ FREE)
    (hex : ∃ p ∈ a.perps, p.market = m) : ∃ a', deactivatePerp mk a m = .ok a' ∧ Inv mk a' := by
  obtain ⟨raw, p, hraw, hp, hpm⟩ : ∃ raw p, a.perps.findIdx? (fun p => p.market == m) = some raw ∧
      a.perps[raw]? = some p ∧ p.market = m := by
    cases e : a.perps.findIdx? (fun p => p.market == m) with
    | none =>
      obtain ⟨p, hp, hpm⟩ := hex
      have := findIdx?_none e p hp
      simp [hpm] at this
    | some i =>
      obtain ⟨x, h1, h2, _⟩ := findIdx?_some e
      exact ⟨i, x, rfl, h1, by simpa using h2⟩
  have hmem : p ∈ a.perps := List.mem_iff_getElem?.mpr ⟨raw, hp⟩
  have hpf : p.market ≠ FREE := by rw [hpm]; exact hm
  have fs := h.perRef p hmem hpf
  rw [hpm] at fs
  have hs : ∀ t, perpRefs mk t p = one (mk.settle m) t := by
    intro t; unfold perpRefs; rw [if_neg hpf, hpm]
  have h1 : 0 < refs mk a (mk.settle m) := by
    have := perp_le_refs mk (mk.settle m) hmem
    rw [hs, one_self] at this; omega
  obtain ⟨ts1, e1, u1⟩ := release_spec h.uses fs h1
  refine ⟨{ a with perps := a.perps.set raw { p with market := FREE }, tokens := ts1 }, ?_, ?_⟩
  · unfold deactivatePerp
    simp only [hraw, hp, e1, bind, Except.bind]; rfl
  · refine ⟨?_, h.serU, uniqBy_set_off (by simp) h.perU, h.tcsU, h.serRef, ?_, h.tcsRef⟩
    · refine u1.congr ?_
      intro t
      unfold refs
      dsimp only
      rw [sumOf_set _ hp, hs]
      have : perpRefs mk t { p with market := FREE } = 0 := by unfold perpRefs; rw [if_pos rfl]
      rw [this]; omega
    · exact forall_set h.perRef (fun hc => absurd rfl hc)

theorem deactivatePerp_inv {mk : Markets} {a a' : Acc} (h : Inv mk a) {m : Nat} (hm : m ≠ FREE)
    (e : deactivatePerp mk a m = .ok a') : Inv mk a' := by
  by_cases hex : ∃ p ∈ a.perps, p.market = m
  · obtain ⟨b, h1, h2⟩ := deactivatePerp_spec h hm hex
    rw [h1, Except.ok.injEq] at e
    rw [← e]; exact h2
  · unfold deactivatePerp at e
    cases ef : a.perps.findIdx? (fun p => p.market == m) with
    | none => rw [ef] at e; simp at e
    | some i =>
      obtain ⟨x, h1, h2, _⟩ := findIdx?_some ef
      exact absurd ⟨x, List.mem_iff_getElem?.mpr ⟨i, h1⟩, by simpa using h2⟩ hex

theorem createTcs_inv {mk : Markets} {a a' : Acc} (h : Inv mk a) {b s : Nat} (hb : b ≠ FREE) (hs : s ≠ FREE)
    {d : Int} (e : createTcs a b s d = .ok a') : Inv mk a' := by
  unfold createTcs at e
  rw [bind_ok] at e
  obtain ⟨ts1, e1, e⟩ := e
  rw [bind_ok] at e
  obtain ⟨ts2, e2, e⟩ := e
  split at e
  · simp at e
  · rename_i i hi
    split at e
    · simp at e
    · rename_i hne
      rw [pure_ok] at e
      subst e
      obtain ⟨p, hp, hpf, _⟩ := findIdx?_some hi
      have hpf : p.configured = false := by simpa using hpf
      have hr := refs_nonneg mk a
      have u1 := hold_spec h.uses hb hr e1
      have u2 := hold_spec u1 hs (fun x => by have := hr x; have := one_nonneg b x; omega) e2
      refine ⟨?_, h.serU, h.perU, ?_, h.serRef, h.perRef, ?_⟩
      · refine u2.congr ?_
        intro t
        unfold refs
        dsimp only
        rw [sumOf_set _ hp]
        have a1 : tcsRefs t p = 0 := by unfold tcsRefs; rw [hpf]; rfl
        have a2 : tcsRefs t ⟨true, a.nextTcsId, b, s, d⟩ = one b t + one s t := by
          unfold tcsRefs; rfl
        rw [a1, a2]; omega
      · refine uniqBy_set_new (fun x hx hxc => ?_) h.tcsU
        have := (h.tcsRef x hx hxc).1
        dsimp only; omega
      · refine forall_set (P := fun p : TcsSlot => p.configured = true →
          p.id < a.nextTcsId + 1 ∧ p.buy ≠ FREE ∧ p.sell ≠ FREE ∧ p.buy ≠ p.sell) ?_ ?_
        · intro x hx hxc
          obtain ⟨h1, h2⟩ := h.tcsRef x hx hxc
          exact ⟨by omega, h2⟩
        · intro _; exact ⟨by dsimp only; omega, hb, hs, hne⟩

/-- Closing a conditional swap always succeeds when the id is right. -/
theorem closeTcs_spec {mk : Markets} {a : Acc} (h : Inv mk a) {i id : Nat} {s : TcsSlot} (hs : a.tcss[i]? = some s)
    (hc : s.configured = true) (hid : s.id = id) (x y : Bool) :
    ∃ a', closeTcs a i id x y = .ok a' ∧ a'.tcss = a.tcss.set i freeTcs ∧ Inv mk a' := by
  have hmem : s ∈ a.tcss := List.mem_iff_getElem?.mpr ⟨i, hs⟩
  obtain ⟨_, fb, fs, hne⟩ := h.tcsRef s hmem hc
  have hr : ∀ t, tcsRefs t s = one s.buy t + one s.sell t := by
    intro t; unfold tcsRefs; rw [hc]; rfl
  have h1 : 0 < refs mk a s.buy := by
    have := tcs_le_refs mk s.buy hmem
    rw [hr, one_self] at this
    have := one_nonneg s.sell s.buy; omega
  obtain ⟨ts1, e1, u1⟩ := releaseDust_spec h.uses fb h1 x
  have h2 : 0 < refs mk a s.sell - one s.buy s.sell := by
    have := tcs_le_refs mk s.sell hmem
    rw [hr, one_self] at this; omega
  obtain ⟨ts2, e2, u2⟩ := releaseDust_spec u1 fs h2 y
  refine ⟨{ a with tokens := ts2, tcss := a.tcss.set i freeTcs }, ?_, rfl, ?_⟩
  · unfold closeTcs
    simp only [hs]
    rw [if_neg (by simp [hc]), if_neg (by simp [hid]), e1]
    simp only [bind, Except.bind, e2]; rfl
  · refine ⟨?_, h.serU, h.perU, uniqBy_set_off (by simp [freeTcs]) h.tcsU, h.serRef, h.perRef, ?_⟩
    · refine u2.congr ?_
      intro t
      unfold refs
      dsimp only
      rw [sumOf_set _ hs, hr]
      have : tcsRefs t freeTcs = 0 := by simp [tcsRefs, freeTcs]
      rw [this]; omega
    · exact forall_set h.tcsRef (fun hcc => by simp [freeTcs] at hcc)

theorem closeTcs_inv {mk : Markets} {a a' : Acc} (h : Inv mk a) {i id : Nat} {x y : Bool}
    (e : closeTcs a i id x y = .ok a') : Inv mk a' := by
  cases hs : a.tcss[i]? with
  | none => unfold closeTcs at e; rw [hs] at e; simp at e
  | some s =>
    by_cases hc : s.configured = true
    · by_cases hid : s.id = id
      · obtain ⟨b, h1, _, h2⟩ := closeTcs_spec h hs hc hid x y
        rw [h1, Except.ok.injEq] at e
        rw [← e]; exact h2
      · unfold closeTcs at e
        simp only [hs] at e
        rw [if_neg (by simp [hc]), if_pos hid] at e
        simp at e
    · unfold closeTcs at e
      simp only [hs] at e
      rw [if_pos (by simpa using hc), Except.ok.injEq] at e
      rw [← e]; exact h

theorem sumOf_filter {α : Type} {f : α → Int} {P : α → Bool} {l : List α} (h : ∀ x ∈ l, P x = false → f x = 0) :
    sumOf f (l.filter P) = sumOf f l := by
  induction l with
  | nil => rfl
  | cons a l ih =>
    have ih := ih (fun x hx => h x (List.mem_cons_of_mem a hx))
    rw [List.filter_cons]
    split
    · simp [ih]
    · rename_i hc
      have : f a = 0 := h a (by simp) (by simpa using hc)
      simp [ih, this]

theorem resize_inv {mk : Markets} {a a' : Acc} (h : Inv mk a) {tc sc pc cc : Nat}
    (e : resizeAcc a tc sc pc cc = .ok a') : Inv mk a' := by
  unfold resizeAcc at e
  dsimp only at e
  split at e
  · rw [pure_ok] at e
    subst e
    have hr : ∀ t, refs mk a t = sumOf (serumRefs t) (a.serums.filter (fun p => p.market ≠ FREE)) +
        sumOf (perpRefs mk t) (a.perps.filter (fun p => p.market ≠ FREE)) +
        sumOf (tcsRefs t) (a.tcss.filter (fun p => p.configured)) := by
      intro t
      unfold refs
      rw [sumOf_filter (f := serumRefs t), sumOf_filter (f := perpRefs mk t), sumOf_filter (f := tcsRefs t)]
      · intro x _ hx; unfold tcsRefs; rw [hx]; rfl
      · intro x _ hx; unfold perpRefs; rw [if_pos (by simpa using hx)]
      · intro x _ hx; unfold serumRefs; rw [if_pos (by simpa using hx)]
    refine ⟨?_, ?_, ?_, ?_, ?_, ?_, ?_⟩
    · have hU : UniqBy (fun p : TokenSlot => p.index ≠ FREE) (fun p => p.index) a.tokens :=
        fun i j p q hi hj hp _ hk => h.uses.uniq i j p q hi hj hk hp
      have hU' := uniqBy_append (m := List.replicate (tc - (a.tokens.filter (fun p => p.index ≠ FREE)).length) freeToken)
        (fun x hx => by rw [(List.mem_replicate.mp hx).2]; simp [freeToken])
        (uniqBy_filter (fun p : TokenSlot => decide (p.index ≠ FREE)) hU)
      refine Uses.congr (r := refs mk a) ⟨?_, ?_, ?_⟩ ?_
      · intro i j p q hi hj hk hp
        exact hU' i j p q hi hj hp (fun hc => hp (by rw [hk]; exact hc)) hk
      · intro p hp hf
        rcases List.mem_append.mp hp with hp | hp
        · exact h.uses.count p (List.mem_filter.mp hp).1 hf
        · exact absurd (by rw [(List.mem_replicate.mp hp).2]; rfl) hf
      · intro t ht hpos
        obtain ⟨p, hp, hpt⟩ := h.uses.held t ht hpos
        exact ⟨p, List.mem_append_left _ (List.mem_filter.mpr ⟨hp, by simpa [hpt] using ht⟩), hpt⟩
      · intro t
        rw [hr]
        unfold refs
        dsimp only
        simp only [sumOf_append]
        rw [replicate_sum (f := serumRefs t) (by simp [serumRefs, freeSerum]),
          replicate_sum (f := perpRefs mk t) (by simp [perpRefs, freePerp]),
          replicate_sum (f := tcsRefs t) (by simp [tcsRefs, freeTcs])]
        simp only [Int.add_zero]
    · exact uniqBy_append (fun x hx => by rw [(List.mem_replicate.mp hx).2]; simp [freeSerum]) (uniqBy_filter _ h.serU)
    · exact uniqBy_append (fun x hx => by rw [(List.mem_replicate.mp hx).2]; simp [freePerp]) (uniqBy_filter _ h.perU)
    · exact uniqBy_append (fun x hx => by rw [(List.mem_replicate.mp hx).2]; simp [freeTcs]) (uniqBy_filter _ h.tcsU)
    · intro p hp hf
      rcases List.mem_append.mp hp with hp | hp
      · exact h.serRef p (List.mem_filter.mp hp).1 hf
      · exact absurd (by rw [(List.mem_replicate.mp hp).2]; rfl) hf
    · intro p hp hf
      rcases List.mem_append.mp hp with hp | hp
      · exact h.perRef p (List.mem_filter.mp hp).1 hf
      · exact absurd (by rw [(List.mem_replicate.mp hp).2]; rfl) hf
    · intro p hp hf
      rcases List.mem_append.mp hp with hp | hp
      · exact h.tcsRef p (List.mem_filter.mp hp).1 hf
      · rw [(List.mem_replicate.mp hp).2] at hf; simp [freeTcs] at hf
  · simp at e

theorem step_inv {mk : Markets} {a a' : Acc} {op : Op} (h : Inv mk a) (hr : op.Registered mk)
    (e : step mk a op = .ok a') : Inv mk a' := by
  cases op with
  | token t p c => exact changeToken_inv h hr e
  | createSerum m d => exact createSerum_inv h hr.1 hr.2.1 hr.2.2 e
  | closeSerum m => exact closeSerum_inv h hr.1 e
  | ensurePerp m =>
    unfold step at e
    dsimp only at e
    cases hx : ensurePerp mk a m with
    | error _ => rw [hx] at e; simp [Except.map] at e
    | ok r =>
      obtain ⟨b, raw⟩ := r
      rw [hx] at e
      simp only [Except.map, Except.ok.injEq] at e
      subst e
      exact ensurePerp_inv h hr.1 hr.2 hx
  | deactivatePerp m => exact deactivatePerp_inv h hr.1 e
  | createTcs b s d => exact createTcs_inv h hr.1 hr.2 e
  | closeTcs i id x y => exact closeTcs_inv h e
  | resize tc sc pc cc => exact resize_inv h e

theorem reach_inv {mk : Markets} {a : Acc} (h : Reach mk a) : Inv mk a := by
  induction h with
  | new tc sc pc cc => exact inv_new mk tc sc pc cc
  | step op _ hr e ih => exact step_inv ih hr e

end Mango.Slots
