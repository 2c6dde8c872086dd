import Verif.Bots.Errors
import Mathlib.Data.List.Induction
import Mathlib.Data.List.Chain
import Mathlib.Data.List.Nodup
import Mathlib.Tactic.Tauto
/-! # C88: error tracking -/
namespace Mango
namespace Errors

/-! ## Specification -/

/-- the errors (time and message) recorded for a type and key since they were last cleared, newest first -/
def sinceClear (ty key : Nat) (l : List (Nat × Ev)) : List (Nat × Nat) :=
  l.foldl (fun acc e => match e.2 with
    | .record ty' key' m => if ty' = ty ∧ key' = key then (e.1, m) :: acc else acc
    | .clear ty' key' => if ty' = ty ∧ key' = key then [] else acc
    | _ => acc) []

/-- without repetitions, keeping the first of equal ones -/
def distinct : List Nat → List Nat
  | [] => []
  | m :: l => m :: (distinct l).filter (fun x => decide (x ≠ m))

/-- as built: nothing is recorded -/
def Fresh (t : Tracking) : Prop := ∀ ty key, t.state ty key = none

/-- the calls are in the order of their times -/
abbrev Ordered (l : List (Nat × Ev)) : Prop := l.Pairwise (fun a b => a.1 ≤ b.1)

/-! ## Lemmas -/

theorem distinct_nodup (l : List Nat) : (distinct l).Nodup := by
  induction l with
  | nil => simp [distinct]
  | cons m l ih =>
    unfold distinct
    exact List.nodup_cons.mpr ⟨by simp, ih.filter _⟩

theorem erase_eq_filter (l : List Nat) (m : Nat) (h : l.Nodup) : l.erase m = l.filter (fun x => decide (x ≠ m)) := by
  rw [h.erase_eq_filter]
  congr 1
  funext x
  by_cases hx : x = m <;> simp [hx]

theorem take_filter (m : Nat) : ∀ (N : Nat) (D : List Nat), D.Nodup →
    (m :: (D.take N).filter (fun x => decide (x ≠ m))).take N = (m :: D.filter (fun x => decide (x ≠ m))).take N := by
  have key : ∀ (N : Nat) (D : List Nat), D.Nodup → ((D.take (N + 1)).filter (fun x => decide (x ≠ m))).take N = (D.filter (fun x => decide (x ≠ m))).take N := by
    intro N
    induction N with
    | zero => intro D _; simp
    | succ N ih =>
      intro D hD
      cases D with
      | nil => simp
      | cons d D =>
        obtain ⟨h1, h2⟩ := List.nodup_cons.mp hD
        by_cases hd : d = m
        · subst hd
          have hne : ∀ x ∈ D, x ≠ d := fun x hx e => h1 (e ▸ hx)
          rw [List.take_succ_cons, List.filter_cons_of_neg (by simp), List.filter_cons_of_neg (by simp),
            List.filter_eq_self.mpr (fun x hx => by simpa using hne x (List.mem_of_mem_take hx)), List.filter_eq_self.mpr (fun x hx => by simpa using hne x hx), List.take_take, Nat.min_self]
        · rw [List.take_succ_cons, List.filter_cons_of_pos (by simpa using hd), List.filter_cons_of_pos (by simpa using hd), List.take_succ_cons, List.take_succ_cons, ih D h2]
  intro N D hD
  cases N with
  | zero => simp
  | succ N => rw [List.take_succ_cons, List.take_succ_cons, key N D hD]

theorem addMessage_eq (keep : Nat) (l D : List Nat) (m : Nat) (hD : D.Nodup) (h : l.reverse = D.take keep) :
    (addMessage keep l m).reverse = (m :: D.filter (fun x => decide (x ≠ m))).take keep := by
  have hl : l = (D.take keep).reverse := by rw [← h, List.reverse_reverse]
  have hnd : l.Nodup := by rw [hl]; exact List.nodup_reverse.mpr (hD.sublist (List.take_sublist _ _))
  have hlen : l.length ≤ keep := by rw [hl]; simp; omega
  unfold addMessage
  dsimp only
  have e1 : (l.erase m ++ [m]).reverse = m :: (D.take keep).filter (fun x => decide (x ≠ m)) := by
    rw [List.reverse_append, erase_eq_filter _ _ hnd, ← List.filter_reverse, h]; rfl
  have e2 : (l.erase m ++ [m]).length ≤ keep + 1 := by
    have := List.length_erase_le (a := m) (l := l)
    simp; omega
  rw [← take_filter m keep D hD, ← e1]
  by_cases hk : keep < (l.erase m ++ [m]).length
  · rw [if_pos hk]
    have : (l.erase m ++ [m]).length = keep + 1 := by omega
    rw [← List.drop_one, List.reverse_drop, this]; rfl
  · rw [if_neg hk, List.take_of_length_le (by rw [List.length_reverse]; omega)]

theorem sinceClear_snoc (ty key l e) : sinceClear ty key (l ++ [e]) =
    match e.2 with
    | .record ty' key' m => if ty' = ty ∧ key' = key then (e.1, m) :: sinceClear ty key l else sinceClear ty key l
    | .clear ty' key' => if ty' = ty ∧ key' = key then [] else sinceClear ty key l
    | _ => sinceClear ty key l := by
  unfold sinceClear; rw [List.foldl_append]; rfl

theorem run_snoc (t l e) : run t (l ++ [e]) = step (run t l) e.1 e.2 := by
  unfold run; rw [List.foldl_append]; rfl

/-- the configuration -/
def Same (t t' : Tracking) : Prop :=
  t'.typeThreshold = t.typeThreshold ∧ t'.typeDuration = t.typeDuration ∧ t'.threshold = t.threshold ∧ t'.duration = t.duration ∧
  t'.keepMessages = t.keepMessages ∧ t'.keepDuration = t.keepDuration ∧ t'.logInterval = t.logInterval

theorem step_same (t now e) : Same t (step t now e) := by
  cases e <;> simp only [step, record, clear, wipeOld, update, setState]
  · exact ⟨rfl, rfl, rfl, rfl, rfl, rfl, rfl⟩
  · exact ⟨rfl, rfl, rfl, rfl, rfl, rfl, rfl⟩
  · exact ⟨rfl, rfl, rfl, rfl, rfl, rfl, rfl⟩
  · split <;> exact ⟨rfl, rfl, rfl, rfl, rfl, rfl, rfl⟩

theorem run_same (t l) : Same t (run t l) := by
  induction l using List.reverseRecOn with
  | nil => exact ⟨rfl, rfl, rfl, rfl, rfl, rfl, rfl⟩
  | append_singleton l e ih =>
    rw [run_snoc]
    obtain ⟨a1, a2, a3, a4, a5, a6, a7⟩ := ih
    obtain ⟨b1, b2, b3, b4, b5, b6, b7⟩ := step_same (run t l) e.1 e.2
    exact ⟨b1.trans a1, b2.trans a2, b3.trans a3, b4.trans a4, b5.trans a5, b6.trans a6, b7.trans a7⟩

/-- a wipe or update does nothing to an entry, or removes it if its last error is old enough -/
theorem wipe_cases (t : Tracking) (now ty key : Nat) (e : Ev) (he : e = .wipe ∨ e = .update) :
    (step t now e).state ty key = t.state ty key ∨
    ((step t now e).state ty key = none ∧ ∃ s, t.state ty key = some s ∧ t.keepDuration ≤ now - s.last) := by
  have h : ∀ t : Tracking, (wipeOld t now).state ty key = t.state ty key ∨ ((wipeOld t now).state ty key = none ∧ ∃ s, t.state ty key = some s ∧ t.keepDuration ≤ now - s.last) := by
    intro t
    unfold wipeOld
    dsimp only
    cases hs : t.state ty key with
    | none => left; rfl
    | some s =>
      by_cases hk : now - s.last < t.keepDuration
      · left; simp [Option.filter, hk]
      · right; exact ⟨by simp [Option.filter]; omega, s, rfl, by omega⟩
  rcases he with rfl | rfl
  · exact h t
  · simp only [step, update]
    split
    · exact .inl rfl
    · exact h { t with lastLog := now }

/-! ## Theorems -/

/-- Whatever calls are made: what is known about a type and key are the most recent of the errors recorded for it since it was last cleared - their number, the time of the last one and the last
different messages. -/
theorem C88_state (t : Tracking) (ht : Fresh t) (l : List (Nat × Ev)) (ty key : Nat) (s : ErrorState) (h : (run t l).state ty key = some s) :
    1 ≤ s.count ∧ s.count ≤ (sinceClear ty key l).length ∧ ((sinceClear ty key l).head?.map Prod.fst) = some s.last ∧
    s.errors.reverse = (distinct (((sinceClear ty key l).take s.count).map Prod.snd)).take t.keepMessages := by
  induction l using List.reverseRecOn generalizing s with
  | nil => rw [show run t [] = t from rfl, ht] at h; cases h
  | append_singleton l e ih =>
    obtain ⟨time, e⟩ := e
    rw [run_snoc] at h
    rw [sinceClear_snoc]
    cases e with
    | record ty' key' m =>
      dsimp only at h ⊢
      simp only [step, record, setState] at h
      by_cases hk : ty' = ty ∧ key' = key
      · obtain ⟨rfl, rfl⟩ := hk
        rw [if_pos ⟨rfl, rfl⟩] at h
        rw [if_pos ⟨rfl, rfl⟩]
        cases h
        have hkeep := (run_same t l).2.2.2.2.1
        cases hs : (run t l).state ty' key' with
        | none =>
          refine ⟨by simp, by simp, by simp, ?_⟩
          simp only [Option.getD_none, List.take_succ_cons, Nat.zero_add, List.take_zero, List.map_cons, List.map_nil, distinct, List.filter_nil]
          have := addMessage_eq t.keepMessages [] [] m List.nodup_nil (by simp)
          rw [hkeep]; simpa using this
        | some s0 =>
          obtain ⟨i1, i2, i3, i4⟩ := ih s0 hs
          refine ⟨by simp, by simpa using i2, by simp, ?_⟩
          simp only [Option.getD_some, List.take_succ_cons, List.map_cons, distinct]
          rw [hkeep]
          exact addMessage_eq _ _ _ m (distinct_nodup _) i4
      · rw [if_neg (by tauto)] at h
        rw [if_neg hk]
        exact ih s h
    | clear ty' key' =>
      dsimp only at h ⊢
      simp only [step, clear, setState] at h
      by_cases hk : ty' = ty ∧ key' = key
      · rw [if_pos ⟨hk.1.symm, hk.2.symm⟩] at h; cases h
      · rw [if_neg (by tauto)] at h
        rw [if_neg hk]
        exact ih s h
    | wipe =>
      rcases wipe_cases (run t l) time ty key .wipe (.inl rfl) with h1 | h1
      · rw [h1] at h; exact ih s h
      · rw [h1.1] at h; cases h
    | update =>
      rcases wipe_cases (run t l) time ty key .update (.inr rfl) with h1 | h1
      · rw [h1] at h; exact ih s h
      · rw [h1.1] at h; cases h

/-- the threshold and the duration that apply to the type -/
def Limit (t : Tracking) (ty : Nat) : Nat := (t.typeThreshold ty).getD t.threshold
def Pause (t : Tracking) (ty : Nat) : Nat := (t.typeDuration ty).getD t.duration

/-- A type and key are only skipped if at least as many errors as the threshold for the type were recorded for just them since they were last cleared, the last of them less than the duration ago. -/
theorem C88_skip (t : Tracking) (ht : Fresh t) (l : List (Nat × Ev)) (ty key now : Nat) (s : ErrorState) (h : hadTooMany (run t l) ty key now = some s) :
    1 ≤ (sinceClear ty key l).length ∧ Limit t ty ≤ (sinceClear ty key l).length ∧
    ∃ r ∈ (sinceClear ty key l).head?, r.1 = s.last ∧ now < r.1 + Pause t ty := by
  unfold hadTooMany at h
  cases hs : (run t l).state ty key with
  | none => rw [hs] at h; cases h
  | some s0 =>
    rw [hs] at h
    dsimp only at h
    split at h
    · rename_i hsk
      cases h
      obtain ⟨h1, h2, h3, _⟩ := C88_state t ht l ty key s hs
      obtain ⟨a1, a2, a3, a4, _⟩ := run_same t l
      simp only [shouldSkip, Bool.and_eq_true, decide_eq_true_eq, a1, a2, a3, a4] at hsk
      refine ⟨by omega, by unfold Limit; omega, ?_⟩
      obtain ⟨r, hr, hr'⟩ := Option.map_eq_some_iff.mp h3
      refine ⟨r, hr, hr', ?_⟩
      unfold Pause; omega
    · cases h

theorem exact_inv (t : Tracking) (ht : Fresh t) (l : List (Nat × Ev)) (hl : Ordered l) (ty key : Nat)
    (hgap : List.IsChain (fun a b => a.1 < b.1 + t.keepDuration) (sinceClear ty key l)) :
    (sinceClear ty key l = [] ∧ (run t l).state ty key = none) ∨
    ∃ r rs, sinceClear ty key l = r :: rs ∧ (∃ e ∈ l, r.1 ≤ e.1) ∧
      ((∃ s, (run t l).state ty key = some s ∧ s.count = rs.length + 1 ∧ s.last = r.1) ∨
       ((run t l).state ty key = none ∧ ∃ e ∈ l, r.1 + t.keepDuration ≤ e.1)) := by
  induction l using List.reverseRecOn with
  | nil => left; exact ⟨rfl, ht ty key⟩
  | append_singleton l e ih =>
    obtain ⟨time, e⟩ := e
    have hl' : Ordered l := (List.pairwise_append.mp hl).1
    have hlast : ∀ x ∈ l, x.1 ≤ time := fun x hx => (List.pairwise_append.mp hl).2.2 x hx (time, e) (by simp)
    have hkd := (run_same t l).2.2.2.2.2.1
    have keepCase : sinceClear ty key (l ++ [(time, e)]) = sinceClear ty key l → (run t (l ++ [(time, e)])).state ty key = (run t l).state ty key →
        (sinceClear ty key (l ++ [(time, e)]) = [] ∧ (run t (l ++ [(time, e)])).state ty key = none) ∨
        ∃ r rs, sinceClear ty key (l ++ [(time, e)]) = r :: rs ∧ (∃ e' ∈ l ++ [(time, e)], r.1 ≤ e'.1) ∧
          ((∃ s, (run t (l ++ [(time, e)])).state ty key = some s ∧ s.count = rs.length + 1 ∧ s.last = r.1) ∨
           ((run t (l ++ [(time, e)])).state ty key = none ∧ ∃ e' ∈ l ++ [(time, e)], r.1 + t.keepDuration ≤ e'.1)) := by
      intro h1 h2
      rw [h1] at hgap
      rw [h1, h2]
      rcases ih hl' hgap with h | ⟨r, rs, e1, ⟨e0, he0, hle⟩, h⟩
      · exact .inl h
      · right
        refine ⟨r, rs, e1, ⟨e0, by simp [he0], hle⟩, ?_⟩
        rcases h with h | ⟨h, e3, he3, h4⟩
        · exact .inl h
        · exact .inr ⟨h, e3, by simp [he3], h4⟩
    cases e with
    | record ty' key' m =>
      by_cases hk : ty' = ty ∧ key' = key
      · obtain ⟨rfl, rfl⟩ := hk
        have hsc : sinceClear ty' key' (l ++ [(time, .record ty' key' m)]) = (time, m) :: sinceClear ty' key' l := by
          rw [sinceClear_snoc]; simp
        rw [hsc] at hgap ⊢
        right
        refine ⟨(time, m), sinceClear ty' key' l, rfl, ⟨(time, .record ty' key' m), by simp, Nat.le_refl _⟩, .inl ?_⟩
        rw [run_snoc]
        simp only [step, record, setState, and_self, if_true]
        refine ⟨_, rfl, ?_, rfl⟩
        have hch : List.IsChain (fun a b : Nat × Nat => a.1 < b.1 + t.keepDuration) (sinceClear ty' key' l) := hgap.tail
        rcases ih hl' hch with ⟨h1, h2⟩ | ⟨r, rs, e1, _, h⟩
        · rw [h1, h2]; rfl
        · rcases h with ⟨s, h1, h2, _⟩ | ⟨_, e3, he3, h4⟩
          · rw [h1, e1]; simp [h2]
          · have := hlast e3 he3
            have hg := hgap
            rw [e1] at hg
            have := (List.isChain_cons_cons.mp hg).1
            simp only at this
            omega
      · refine keepCase ?_ ?_
        · rw [sinceClear_snoc]; simp [hk]
        · rw [run_snoc]; simp only [step, record, setState]; rw [if_neg (by tauto)]
    | clear ty' key' =>
      by_cases hk : ty' = ty ∧ key' = key
      · left
        refine ⟨by rw [sinceClear_snoc]; simp [hk], ?_⟩
        rw [run_snoc]; simp only [step, clear, setState]; rw [if_pos ⟨hk.1.symm, hk.2.symm⟩]
      · refine keepCase ?_ ?_
        · rw [sinceClear_snoc]; simp [hk]
        · rw [run_snoc]; simp only [step, clear, setState]; rw [if_neg (by tauto)]
    | wipe =>
      have hsc : sinceClear ty key (l ++ [(time, .wipe)]) = sinceClear ty key l := by rw [sinceClear_snoc]
      rcases wipe_cases (run t l) time ty key .wipe (.inl rfl) with h1 | ⟨h1, s, h2, h3⟩
      · exact keepCase hsc (by rw [run_snoc]; exact h1)
      · rw [hsc] at hgap ⊢
        right
        rcases ih hl' hgap with ⟨_, h⟩ | ⟨r, rs, e1, ⟨e0, he0, hle⟩, h⟩
        · rw [h] at h2; cases h2
        · refine ⟨r, rs, e1, ⟨e0, by simp [he0], hle⟩, .inr ⟨by rw [run_snoc]; exact h1, (time, .wipe), by simp, ?_⟩⟩
          rcases h with ⟨s', h4, _, h5⟩ | ⟨h, _⟩
          · rw [h4] at h2; cases h2
            have := hlast e0 he0
            rw [hkd, h5] at h3
            dsimp only
            omega
          · rw [h] at h2; cases h2
    | update =>
      have hsc : sinceClear ty key (l ++ [(time, .update)]) = sinceClear ty key l := by rw [sinceClear_snoc]
      rcases wipe_cases (run t l) time ty key .update (.inr rfl) with h1 | ⟨h1, s, h2, h3⟩
      · exact keepCase hsc (by rw [run_snoc]; exact h1)
      · rw [hsc] at hgap ⊢
        right
        rcases ih hl' hgap with ⟨_, h⟩ | ⟨r, rs, e1, ⟨e0, he0, hle⟩, h⟩
        · rw [h] at h2; cases h2
        · refine ⟨r, rs, e1, ⟨e0, by simp [he0], hle⟩, .inr ⟨by rw [run_snoc]; exact h1, (time, .update), by simp, ?_⟩⟩
          rcases h with ⟨s', h4, _, h5⟩ | ⟨h, _⟩
          · rw [h4] at h2; cases h2
            have := hlast e0 he0
            rw [hkd, h5] at h3
            dsimp only
            omega
          · rw [h] at h2; cases h2

/-- Conversely, if at least as many errors as the threshold were recorded since the last clear, each less than the keep duration after the one before, and the last of them less than the keep duration and
less than the skip duration ago, they are skipped, and all of these errors are counted. -/
theorem C88_complete (t : Tracking) (ht : Fresh t) (l : List (Nat × Ev)) (hl : Ordered l) (ty key now : Nat) (hnow : ∀ e ∈ l, e.1 ≤ now)
    (hgap : List.IsChain (fun a b => a.1 < b.1 + t.keepDuration) (sinceClear ty key l))
    (r : Nat × Nat) (hr : (sinceClear ty key l).head? = some r) (hk : now < r.1 + t.keepDuration) (hp : now < r.1 + Pause t ty)
    (hn : Limit t ty ≤ (sinceClear ty key l).length) :
    ∃ s, hadTooMany (run t l) ty key now = some s ∧ s.count = (sinceClear ty key l).length ∧ s.last = r.1 := by
  rcases exact_inv t ht l hl ty key hgap with ⟨h, _⟩ | ⟨r', rs, e1, _, h⟩
  · rw [h] at hr; cases hr
  · rw [e1] at hr
    simp only [List.head?_cons, Option.some.injEq] at hr
    subst hr
    rcases h with ⟨s, h1, h2, h3⟩ | ⟨_, e, he, h⟩
    · refine ⟨s, ?_, by rw [e1, h2]; rfl, h3⟩
      unfold hadTooMany
      rw [h1]
      dsimp only
      rw [if_pos]
      obtain ⟨a1, a2, a3, a4, _⟩ := run_same t l
      simp only [shouldSkip, Bool.and_eq_true, decide_eq_true_eq, a1, a2, a3, a4]
      unfold Limit at hn
      unfold Pause at hp
      rw [e1] at hn
      simp only [List.length_cons] at hn
      rw [h2, h3]
      have hp1 : 0 < (t.typeDuration ty).getD t.duration ∨ now < r'.1 := by omega
      refine ⟨by omega, ?_⟩
      by_cases hlt : now < r'.1
      · -- not possible: errors are in the past
        exfalso
        obtain ⟨e0, he0, hle⟩ : ∃ e ∈ l, r'.1 ≤ e.1 := by
          rcases exact_inv t ht l hl ty key hgap with ⟨h, _⟩ | ⟨r'', rs', e2, he, _⟩
          · rw [h] at e1; cases e1
          · rw [e1] at e2; cases e2; exact he
        have := hnow e0 he0
        omega
      · omega
    · have := hnow e he
      omega

def exTracking : Tracking := ⟨fun _ _ => none, fun ty => if ty = 7 then some 3 else none, fun _ => none, 2, 60, 2, 300, 0, 100⟩

/-- two errors for one key, with others in between; the third message replaces the first -/
def exHistory : List (Nat × Ev) := [(5, .record 1 10 100), (6, .record 1 11 100), (7, .record 7 10 100), (50, .record 1 10 101), (120, .update), (130, .record 1 10 102), (131, .record 7 10 100)]

example : Fresh exTracking ∧ Ordered exHistory := ⟨fun _ _ => rfl, by decide⟩
example : (hadTooMany (run exTracking exHistory) 1 10 150).map (fun s => (s.errors, s.count, s.last)) = some ([101, 102], 3, 130) := by decide +kernel
example : hadTooMany (run exTracking exHistory) 7 10 150 = none := by decide +kernel
example : hadTooMany (run exTracking exHistory) 1 10 190 = none := by decide +kernel
example : sinceClear 1 10 exHistory = [(130, 102), (50, 101), (5, 100)] ∧ List.IsChain (fun a b => a.1 < b.1 + exTracking.keepDuration) (sinceClear 1 10 exHistory) := by decide +kernel

/-- Read from the code: the count is not started again when the pause is over. Once the threshold is reached, one further error is enough to be skipped again, as long as the errors are neither cleared nor wiped. -/
theorem C88_one_more_error : ∃ (t : Tracking) (l : List (Nat × Ev)) (now : Nat), Fresh t ∧ Ordered l ∧ 2 ≤ Limit t 1 ∧
    hadTooMany (run t l) 1 10 now = none ∧ (hadTooMany (run t (l ++ [(now, .record 1 10 100)])) 1 10 now).isSome = true :=
  ⟨exTracking, exHistory, 200, fun _ _ => rfl, by decide, by decide, by decide +kernel, by decide +kernel⟩

end Errors
end Mango
