import Verif.Bots.TriggerRun
import Verif.Props.Slots
import Verif.ListSum
import Mathlib.Data.List.Induction
import Mathlib.Data.List.Nodup
import Mathlib.Tactic.Tauto
/-!
# C91: the run over the conditional swaps found
-/
namespace Mango
namespace TriggerRun

/-! ## Specification -/

/-- the list of swaps: u64 volumes, small enough that two of them (or of the budget) can be added -/
structure Found (maxVol : Int) (items : List Item) : Prop where
  some : items ≠ []
  budget : 0 ≤ maxVol ∧ maxVol + maxVol ≤ U64MAX
  volume : ∀ i ∈ items, 0 ≤ i.volume
  room : ∀ i ∈ items, i.volume ≠ U64MAX → i.volume + maxVol ≤ U64MAX

/-- a state the loop can reach -/
def Reachable (maxVol : Int) (items : List Item) (s : St) : Prop := ∃ n, Steps maxVol n (init items) s

/-- the total volume of executions -/
def total (l : List Prep) : Int := (l.map (·.volume)).sum

/-! ## The invariant -/

structure Inv (maxVol : Int) (items : List Item) (s : St) : Prop where
  len : s.items.length = items.length
  untried : ∀ i, i ∉ s.tried → s.items[i]? = items[i]?
  marked : ∀ i ∈ s.tried, ∃ it, items[i]? = some it ∧ it.volume ≠ U64MAX ∧ s.items[i]? = some { it with volume := U64MAX }
  once : s.tried.Nodup
  distinct : (s.pending.map (·.item) ++ s.prepared.map (·.item)).Nodup
  sub : ∀ i ∈ s.pending.map (·.item) ++ s.prepared.map (·.item), i ∈ s.tried
  pvol : s.pendingVol = (s.pending.map (·.volume)).sum
  jobs : ∀ j ∈ s.pending, 0 ≤ j.volume
  vol : s.preparedVol = total s.prepared
  preps : ∀ p ∈ s.prepared, 0 ≤ p.volume ∧ p.volume ≤ maxVol
  count : s.prepared.length + s.pending.length ≤ MAXPREP
  last : s.prepared = [] ∨ total s.prepared.dropLast < maxVol
  room : 0 ≤ s.pendingVol ∧ s.pendingVol + maxVol ≤ U64MAX
  stuck : s.noNewJob = true → ∀ it ∈ s.items, weight maxVol (maxVol - s.pendingVol - s.preparedVol) it = 0

theorem total_nonneg {l : List Prep} (h : ∀ p ∈ l, 0 ≤ p.volume) : 0 ≤ total l := by
  induction l with
  | nil => simp [total]
  | cons a l ih =>
    have h1 := h a (by simp)
    have h2 := ih (fun p hp => h p (by simp [hp]))
    unfold total at h2 ⊢
    simp only [List.map_cons, List.sum_cons]
    omega

theorem total_append (l : List Prep) (p : Prep) : total (l ++ [p]) = total l + p.volume := by
  simp [total]

theorem sum_nonneg {l : List Job} (h : ∀ j ∈ l, 0 ≤ j.volume) : 0 ≤ (l.map (·.volume)).sum := by
  induction l with
  | nil => simp
  | cons a l ih =>
    have h1 := h a (by simp)
    have h2 := ih (fun p hp => h p (by simp [hp]))
    simp only [List.map_cons, List.sum_cons]
    omega

theorem turn_cases {maxVol : Int} {s : St} {t : Turn} (h : turn maxVol s = .ok t) :
    (t = .finish ∧ (¬ (s.prepared.length < MAXPREP ∧ s.preparedVol < maxVol) ∨
      (s.pending = [] ∧ (s.prepared.length + s.pending.length ≥ MAXPREP ∨ s.preparedVol + s.pendingVol ≥ maxVol ∨ s.noNewJob = true)))) ∨
    ((s.prepared.length < MAXPREP ∧ s.preparedVol < maxVol) ∧
      ((t = .await ∧ s.pending ≠ [] ∧ (s.prepared.length + s.pending.length ≥ MAXPREP ∨ s.preparedVol + s.pendingVol ≥ maxVol ∨ s.noNewJob = true)) ∨
       (s.prepared.length + s.pending.length < MAXPREP ∧ s.preparedVol + s.pendingVol < maxVol ∧ s.noNewJob = false ∧
        ((t = .stall ∧ ∀ it ∈ s.items, weight maxVol (maxVol - s.pendingVol - s.preparedVol) it = 0) ∨
         (t = .start (maxVol - s.pendingVol - s.preparedVol) ∧ ∃ it ∈ s.items, weight maxVol (maxVol - s.pendingVol - s.preparedVol) it ≠ 0))))) := by
  unfold turn at h
  by_cases h0 : s.prepared.length < MAXPREP ∧ s.preparedVol < maxVol
  · rw [if_neg (not_not.2 h0)] at h
    simp only [bind_ok, cku64_ok] at h
    obtain ⟨sum, ⟨rfl, _⟩, h⟩ := h
    split at h
    · rename_i hc
      rw [ok_inj] at h
      by_cases hp : s.pending = []
      · rw [if_pos hp] at h
        exact Or.inl ⟨h.symm, Or.inr ⟨hp, hc⟩⟩
      · rw [if_neg hp] at h
        exact Or.inr ⟨h0, Or.inl ⟨h.symm, hp, hc⟩⟩
    · rename_i hc
      simp only [bind_ok, cku64_ok] at h
      obtain ⟨a, ⟨rfl, _⟩, av, ⟨rfl, _⟩, h⟩ := h
      rw [not_or, not_or] at hc
      refine Or.inr ⟨h0, Or.inr ⟨by omega, by omega, by simpa using hc.2.2, ?_⟩⟩
      split at h
      · cases h
      · split at h
        · rename_i hall
          rw [ok_inj] at h
          rw [List.all_eq_true] at hall
          exact Or.inl ⟨h.symm, fun it hit => by simpa using hall it hit⟩
        · rename_i hall
          rw [ok_inj] at h
          refine Or.inr ⟨h.symm, ?_⟩
          rw [Bool.not_eq_true, List.all_eq_false] at hall
          obtain ⟨it, h1, h2⟩ := hall
          exact ⟨it, h1, by simpa using h2⟩
  · rw [if_pos h0, ok_inj] at h
    exact Or.inl ⟨h.symm, Or.inl h0⟩

theorem inv_init {maxVol : Int} {items : List Item} (h : Found maxVol items) : Inv maxVol items (init items) := by
  have := h.budget
  refine ⟨rfl, fun _ _ => rfl, by simp [init], by simp [init], by simp [init], by simp [init], rfl, by simp [init], rfl, by simp [init], by simp [init, MAXPREP], Or.inl rfl, ?_, by simp [init]⟩
  simp only [init]
  omega

theorem sum_eraseIdx {l : List Job} {j : Nat} {x : Job} (h : l[j]? = some x) : ((l.eraseIdx j).map (·.volume)).sum = (l.map (·.volume)).sum - x.volume := by
  obtain ⟨hj, rfl⟩ := List.getElem?_eq_some_iff.1 h
  have hp : (l[j] :: l.eraseIdx j).Perm l := List.getElem_cons_eraseIdx_perm hj
  have := (hp.map (·.volume)).sum_eq
  simp only [List.map_cons, List.sum_cons] at this
  omega

theorem inv_step {maxVol : Int} {items : List Item} (hF : Found maxVol items) {s t : St} (hi : Inv maxVol items s) (h : Step maxVol s t) : Inv maxVol items t := by
  cases h with
  | stall ht =>
    rcases turn_cases ht with ⟨h1, _⟩ | ⟨_, ⟨h1, _⟩ | ⟨_, _, _, ⟨_, h1⟩ | ⟨h1, _⟩⟩⟩
    · cases h1
    · cases h1
    · exact { hi with stuck := fun _ => h1 }
    · cases h1
  | @await _ j job r ht hj hr hc =>
    obtain ⟨h32, hvol⟩ : s.prepared.length < MAXPREP ∧ s.preparedVol < maxVol := by
      rcases turn_cases ht with ⟨h1, _⟩ | ⟨h1, _⟩
      · cases h1
      · exact h1
    unfold complete at hc
    rw [hj] at hc
    simp only [bind_ok, cku64_ok] at hc
    obtain ⟨pv, ⟨rfl, hpv0, _⟩, hc⟩ := hc
    obtain ⟨hlt, hjx⟩ := List.getElem?_eq_some_iff.1 hj
    have hperm : (job :: s.pending.eraseIdx j).Perm s.pending := by rw [← hjx]; exact List.getElem_cons_eraseIdx_perm hlt
    have hpm := hperm.map (·.item)
    have hjob0 : 0 ≤ job.volume := hi.jobs job (List.mem_of_getElem? hj)
    have hnd : (job.item :: ((s.pending.eraseIdx j).map (·.item) ++ s.prepared.map (·.item))).Nodup := by
      have : (job.item :: ((s.pending.eraseIdx j).map (·.item) ++ s.prepared.map (·.item))).Perm (s.pending.map (·.item) ++ s.prepared.map (·.item)) := by
        rw [← List.cons_append]
        exact List.Perm.append_right _ hpm
      exact this.nodup_iff.2 hi.distinct
    have hsubset : ∀ x ∈ (s.pending.eraseIdx j).map (·.item), x ∈ s.pending.map (·.item) := fun x hx => by
      obtain ⟨y, hy, rfl⟩ := List.mem_map.1 hx
      exact List.mem_map.2 ⟨y, List.mem_of_mem_eraseIdx hy, rfl⟩
    have hlen : (s.pending.eraseIdx j).length + 1 = s.pending.length := by
      rw [List.length_eraseIdx, if_pos hlt]; omega
    have hroom := hi.room
    cases r with
    | none =>
      rw [ok_inj] at hc
      subst hc
      exact { hi with
        distinct := (List.nodup_cons.1 hnd).2
        sub := fun i hx => hi.sub i (by
          rcases List.mem_append.1 hx with hx | hx
          · exact List.mem_append_left _ (hsubset i hx)
          · exact List.mem_append_right _ hx)
        pvol := by show s.pendingVol - job.volume = _; rw [sum_eraseIdx hj, hi.pvol]
        jobs := fun x hx => hi.jobs x (List.mem_of_mem_eraseIdx hx)
        count := by
          have := hi.count
          show s.prepared.length + (s.pending.eraseIdx j).length ≤ _
          omega
        room := by dsimp only; omega
        stuck := fun h => (by cases h) }
    | some p =>
      simp only [bind_ok, cku64_ok, ok_inj] at hc
      obtain ⟨v, ⟨rfl, _⟩, hc⟩ := hc
      subst hc
      obtain ⟨hp1, hp2, hp3⟩ := hr p rfl
      exact { hi with
        distinct := by
          show ((s.pending.eraseIdx j).map (·.item) ++ (s.prepared ++ [p]).map (·.item)).Nodup
          have : ((s.pending.eraseIdx j).map (·.item) ++ (s.prepared ++ [p]).map (·.item)).Perm (job.item :: ((s.pending.eraseIdx j).map (·.item) ++ s.prepared.map (·.item))) := by
            rw [List.map_append, ← List.append_assoc, List.map_singleton, hp1]
            exact List.perm_append_singleton _ _
          exact this.nodup_iff.2 hnd
        sub := fun i hx => by
          dsimp only at hx ⊢
          rcases List.mem_append.1 hx with hx | hx
          · exact hi.sub i (List.mem_append_left _ (hsubset i hx))
          · rw [List.map_append, List.map_singleton] at hx
            rcases List.mem_append.1 hx with hx | hx
            · exact hi.sub i (List.mem_append_right _ hx)
            · rw [List.mem_singleton] at hx
              subst hx
              refine hi.sub _ (List.mem_append_left _ ?_)
              rw [hp1]
              exact List.mem_map.2 ⟨job, List.mem_of_getElem? hj, rfl⟩
        pvol := by show s.pendingVol - job.volume = _; rw [sum_eraseIdx hj, hi.pvol]
        jobs := fun x hx => hi.jobs x (List.mem_of_mem_eraseIdx hx)
        vol := by
          show s.preparedVol + p.volume = total (s.prepared ++ [p])
          rw [total_append, hi.vol]
        preps := fun x hx => by
          dsimp only at hx
          rcases List.mem_append.1 hx with hx | hx
          · exact hi.preps x hx
          · rw [List.mem_singleton] at hx
            subst hx
            exact ⟨hp2, hp3⟩
        count := by
          have := hi.count
          show (s.prepared ++ [p]).length + (s.pending.eraseIdx j).length ≤ _
          rw [List.length_append, List.length_singleton]
          omega
        last := by
          right
          show total (s.prepared ++ [p]).dropLast < maxVol
          rw [List.dropLast_concat, ← hi.vol]
          exact hvol
        room := by dsimp only; omega
        stuck := fun h => (by cases h) }
  | @start _ i it avail run ht hit hw hs =>
    rcases turn_cases ht with ⟨h1, _⟩ | ⟨hloop, ⟨h1, _⟩ | ⟨hcount, hsum, hnn, ⟨h1, _⟩ | ⟨h1, _⟩⟩⟩
    · cases h1
    · cases h1
    · cases h1
    simp only [Turn.start.injEq] at h1
    subst h1
    have hvolU : it.volume ≠ U64MAX := by
      intro hc
      unfold weight at hw
      rw [if_pos hc] at hw
      exact hw rfl
    have hwt : max (min it.volume maxVol) 1 ≤ maxVol - s.pendingVol - s.preparedVol := by
      unfold weight at hw
      rw [if_neg hvolU] at hw
      by_contra hc
      rw [if_neg hc] at hw
      exact hw rfl
    have hnt : i ∉ s.tried := by
      intro hc
      obtain ⟨it', _, _, h3⟩ := hi.marked i hc
      rw [hit, Option.some.injEq] at h3
      subst h3
      exact hvolU rfl
    have horig : items[i]? = some it := by rw [← hi.untried i hnt, hit]
    have hmem : it ∈ items := List.mem_of_getElem? horig
    have hv0 := hF.volume it hmem
    have hvr := hF.room it hmem hvolU
    have hlt : i < s.items.length := (List.getElem?_eq_some_iff.1 hit).1
    have base : Inv maxVol items { s with items := s.items.set i { it with volume := U64MAX }, tried := i :: s.tried } :=
      { hi with
        len := by simp [hi.len]
        untried := fun k hk => by
          dsimp only at hk ⊢
          rw [List.mem_cons, not_or] at hk
          rw [List.getElem?_set_ne (by omega)]
          exact hi.untried k hk.2
        marked := fun k hk => by
          dsimp only at hk ⊢
          by_cases hki : k = i
          · subst hki
            refine ⟨it, horig, hvolU, ?_⟩
            rw [List.getElem?_set_self hlt]
          · have hk' : k ∈ s.tried := by
              rcases List.mem_cons.1 hk with h | h
              · exact absurd h hki
              · exact h
            obtain ⟨it', a, b, c⟩ := hi.marked k hk'
            refine ⟨it', a, b, ?_⟩
            rw [List.getElem?_set_ne (by omega)]
            exact c
        once := List.nodup_cons.2 ⟨hnt, hi.once⟩
        sub := fun k hk => List.mem_cons_of_mem _ (hi.sub k hk)
        stuck := fun h => by
          dsimp only at h
          rw [hnn] at h
          cases h }
    unfold start at hs
    rw [hit] at hs
    simp only at hs
    by_cases hrun : run = true
    · rw [if_pos hrun] at hs
      simp only [bind_ok, cku64_ok, ok_inj] at hs
      obtain ⟨pv, ⟨rfl, _⟩, rfl⟩ := hs
      have hroom := hi.room
      have hpn : 0 ≤ s.preparedVol := by
        rw [hi.vol]
        exact total_nonneg (fun p hp => (hi.preps p hp).1)
      exact { base with
        distinct := by
          show ((s.pending ++ [Job.mk i it.volume]).map (·.item) ++ s.prepared.map (·.item)).Nodup
          have hp : ((s.pending ++ [Job.mk i it.volume]).map (·.item) ++ s.prepared.map (·.item)).Perm (i :: (s.pending.map (·.item) ++ s.prepared.map (·.item))) := by
            rw [List.map_append, List.map_singleton, List.append_assoc]
            exact List.perm_middle
          exact hp.nodup_iff.2 (List.nodup_cons.2 ⟨fun h => hnt (hi.sub i h), hi.distinct⟩)
        sub := fun k hk => by
          dsimp only at hk ⊢
          rcases List.mem_append.1 hk with hk | hk
          · rw [List.map_append, List.map_singleton] at hk
            rcases List.mem_append.1 hk with hk | hk
            · exact List.mem_cons_of_mem _ (hi.sub k (List.mem_append_left _ hk))
            · rw [List.mem_singleton] at hk
              subst hk
              exact List.mem_cons_self
          · exact List.mem_cons_of_mem _ (hi.sub k (List.mem_append_right _ hk))
        pvol := by
          show s.pendingVol + it.volume = ((s.pending ++ [Job.mk i it.volume]).map (·.volume)).sum
          rw [hi.pvol]; simp
        jobs := fun x hx => by
          dsimp only at hx
          rcases List.mem_append.1 hx with hx | hx
          · exact hi.jobs x hx
          · rw [List.mem_singleton] at hx
            subst hx
            exact hv0
        count := by
          show s.prepared.length + (s.pending ++ [_]).length ≤ _
          rw [List.length_append, List.length_singleton]
          omega
        room := by
          have := hF.budget
          dsimp only
          omega
        stuck := fun h => by
          dsimp only at h
          rw [hnn] at h
          cases h }
    · rw [if_neg hrun, ok_inj] at hs
      subst hs
      exact base

theorem inv_steps {maxVol : Int} {items : List Item} (hF : Found maxVol items) {n : Nat} {s t : St} (hi : Inv maxVol items s) (h : Steps maxVol n s t) : Inv maxVol items t := by
  induction h with
  | zero => exact hi
  | succ _ hst ih => exact inv_step hF (ih hi) hst

theorem inv_reach {maxVol : Int} {items : List Item} (hF : Found maxVol items) {s : St} (h : Reachable maxVol items s) : Inv maxVol items s := by
  obtain ⟨n, h⟩ := h
  exact inv_steps hF (inv_init hF) h

/-! ## Theorems -/

/-- **C91, no panic** No iteration overflows, underflows or indexes out of bounds, whatever was picked and however the preparations ended -/
theorem C91_no_panic {maxVol : Int} {items : List Item} (hF : Found maxVol items) {s : St} (h : Reachable maxVol items s) :
    (∃ t, turn maxVol s = .ok t) ∧
    (turn maxVol s = .ok .await → ∀ j r, j < s.pending.length → (∀ p, r = some p → 0 ≤ p.volume ∧ p.volume ≤ maxVol) → ∃ s', complete s j r = .ok s') ∧
    (∀ avail, turn maxVol s = .ok (.start avail) → ∀ i it run, s.items[i]? = some it → weight maxVol avail it ≠ 0 → ∃ s', start s i run = .ok s') := by
  have hi := inv_reach hF h
  have hroom := hi.room
  have hbud := hF.budget
  have hpn : 0 ≤ s.preparedVol := by
    rw [hi.vol]
    exact total_nonneg (fun p hp => (hi.preps p hp).1)
  refine ⟨?_, ?_, ?_⟩
  · unfold turn
    by_cases h0 : s.prepared.length < MAXPREP ∧ s.preparedVol < maxVol
    · rw [if_neg (not_not.2 h0)]
      have hne : s.items ≠ [] := by
        intro hc
        have := hi.len
        rw [hc] at this
        exact hF.some (List.length_eq_zero_iff.1 this.symm)
      have e1 : cku64 (s.preparedVol + s.pendingVol) = .ok (s.preparedVol + s.pendingVol) := cku64_ok.2 ⟨rfl, by omega, by omega⟩
      by_cases hc : s.prepared.length + s.pending.length ≥ MAXPREP ∨ s.preparedVol + s.pendingVol ≥ maxVol ∨ s.noNewJob = true
      · refine ⟨if s.pending = [] then .finish else .await, ?_⟩
        simp only [bind_ok]
        exact ⟨_, e1, by rw [if_pos hc]⟩
      · have hc' := hc
        rw [not_or, not_or] at hc'
        have e2 : cku64 (maxVol - s.pendingVol) = .ok (maxVol - s.pendingVol) := cku64_ok.2 ⟨rfl, by omega, by omega⟩
        have e3 : cku64 (maxVol - s.pendingVol - s.preparedVol) = .ok (maxVol - s.pendingVol - s.preparedVol) := cku64_ok.2 ⟨rfl, by omega, by omega⟩
        by_cases hall : s.items.all (fun i => decide (weight maxVol (maxVol - s.pendingVol - s.preparedVol) i = 0)) = true
        · refine ⟨.stall, ?_⟩
          simp only [bind_ok]
          refine ⟨_, e1, ?_⟩
          rw [if_neg hc]
          simp only [bind_ok]
          exact ⟨_, e2, _, e3, by rw [if_neg hne, if_pos hall]⟩
        · refine ⟨.start (maxVol - s.pendingVol - s.preparedVol), ?_⟩
          simp only [bind_ok]
          refine ⟨_, e1, ?_⟩
          rw [if_neg hc]
          simp only [bind_ok]
          exact ⟨_, e2, _, e3, by rw [if_neg hne, if_neg hall]⟩
    · rw [if_pos h0]
      exact ⟨_, rfl⟩
  · intro ht j r hj hr
    obtain ⟨h32, hvol⟩ : s.prepared.length < MAXPREP ∧ s.preparedVol < maxVol := by
      rcases turn_cases ht with ⟨h1, _⟩ | ⟨h1, _⟩
      · cases h1
      · exact h1
    have hjs : s.pending[j]? = some s.pending[j] := List.getElem?_eq_getElem hj
    have h0 := hi.jobs s.pending[j] (List.getElem_mem hj)
    have hle : s.pending[j].volume ≤ s.pendingVol := by
      have h1 := sum_eraseIdx hjs
      have h2 : 0 ≤ ((s.pending.eraseIdx j).map (·.volume)).sum := by
        exact sum_nonneg (fun y hy => hi.jobs y (List.mem_of_mem_eraseIdx hy))
      rw [hi.pvol]
      omega
    unfold complete
    rw [hjs]
    simp only
    rw [show cku64 (s.pendingVol - s.pending[j].volume) = .ok (s.pendingVol - s.pending[j].volume) from cku64_ok.2 ⟨rfl, by omega, by omega⟩]
    cases r with
    | none => exact ⟨_, rfl⟩
    | some p =>
      have hp := hr p rfl
      show ∃ s', (do let v ← cku64 (s.preparedVol + p.volume); _) = Except.ok s'
      rw [show cku64 (s.preparedVol + p.volume) = .ok (s.preparedVol + p.volume) from cku64_ok.2 ⟨rfl, by omega, by omega⟩]
      exact ⟨_, rfl⟩
  · intro avail ht i it run hit hw
    rcases turn_cases ht with ⟨h1, _⟩ | ⟨_, ⟨h1, _⟩ | ⟨_, _, _, ⟨h1, _⟩ | ⟨h1, _⟩⟩⟩
    · cases h1
    · cases h1
    · cases h1
    simp only [Turn.start.injEq] at h1
    subst h1
    have hvolU : it.volume ≠ U64MAX := by
      intro hc
      unfold weight at hw
      rw [if_pos hc] at hw
      exact hw rfl
    have hwt : max (min it.volume maxVol) 1 ≤ maxVol - s.pendingVol - s.preparedVol := by
      unfold weight at hw
      rw [if_neg hvolU] at hw
      by_contra hc
      rw [if_neg hc] at hw
      exact hw rfl
    have hnt : i ∉ s.tried := by
      intro hc
      obtain ⟨it', _, _, h3⟩ := hi.marked i hc
      rw [hit, Option.some.injEq] at h3
      subst h3
      exact hvolU rfl
    have horig : items[i]? = some it := by rw [← hi.untried i hnt, hit]
    have hmem : it ∈ items := List.mem_of_getElem? horig
    have hv0 := hF.volume it hmem
    have hvr := hF.room it hmem hvolU
    unfold start
    rw [hit]
    simp only
    split
    · rw [show cku64 (s.pendingVol + it.volume) = .ok (s.pendingVol + it.volume) from cku64_ok.2 ⟨rfl, by omega, by omega⟩]
      exact ⟨_, rfl⟩
    · exact ⟨_, rfl⟩

/-- swaps that can still be picked -/
def open_ (s : St) : Nat := (s.items.filter (fun i => i.volume ≠ U64MAX)).length

theorem filter_set {l : List Item} {i : Nat} {it : Item} (h : l[i]? = some it) (hv : it.volume ≠ U64MAX) :
    ((l.set i { it with volume := U64MAX }).filter (fun i => i.volume ≠ U64MAX)).length + 1 = (l.filter (fun i => i.volume ≠ U64MAX)).length := by
  induction l generalizing i with
  | nil => simp at h
  | cons a l ih =>
    cases i with
    | zero =>
      simp only [List.getElem?_cons_zero, Option.some.injEq] at h
      subst h
      simp [hv]
    | succ i =>
      simp only [List.getElem?_cons_succ] at h
      have := ih h
      simp only [List.set_cons_succ, List.filter_cons]
      split <;> simp_all

/-- what is left to do gets less with every iteration -/
def measure (s : St) : Nat := 4 * open_ s + 2 * s.pending.length + (if s.noNewJob = true then 0 else 1)

theorem step_measure {maxVol : Int} {s t : St} (h : Step maxVol s t) : measure t + 1 ≤ measure s := by
  cases h with
  | stall ht =>
    rcases turn_cases ht with ⟨h1, _⟩ | ⟨_, ⟨h1, _⟩ | ⟨_, _, hn, _⟩⟩
    · cases h1
    · cases h1
    · unfold measure open_
      simp only [hn]
      simp
  | @await _ j job r ht hj hr hc =>
    obtain ⟨hlt, hjx⟩ := List.getElem?_eq_some_iff.1 hj
    have hlen : (s.pending.eraseIdx j).length + 1 = s.pending.length := by
      rw [List.length_eraseIdx, if_pos hlt]; omega
    unfold complete at hc
    rw [hj] at hc
    simp only [bind_ok, cku64_ok] at hc
    obtain ⟨pv, ⟨rfl, _⟩, hc⟩ := hc
    cases r with
    | none =>
      rw [ok_inj] at hc
      subst hc
      unfold measure open_
      simp only [Bool.false_eq_true, if_false]
      omega
    | some p =>
      simp only [bind_ok, cku64_ok, ok_inj] at hc
      obtain ⟨v, _, rfl⟩ := hc
      unfold measure open_
      simp only [Bool.false_eq_true, if_false]
      omega
  | @start _ i it avail run ht hit hw hs =>
    have hv : it.volume ≠ U64MAX := by
      intro hc
      unfold weight at hw
      rw [if_pos hc] at hw
      exact hw rfl
    have hf := filter_set hit hv
    unfold start at hs
    rw [hit] at hs
    simp only at hs
    split at hs
    · simp only [bind_ok, cku64_ok, ok_inj] at hs
      obtain ⟨pv, _, rfl⟩ := hs
      unfold measure open_
      dsimp only
      rw [List.length_append, List.length_singleton]
      omega
    · rw [ok_inj] at hs
      subst hs
      unfold measure open_
      dsimp only
      omega

theorem steps_measure {maxVol : Int} {n : Nat} {s t : St} (h : Steps maxVol n s t) : measure t + n ≤ measure s := by
  induction h with
  | zero => omega
  | succ _ hst ih =>
    have := step_measure hst
    omega

/-- **C91, it ends** With `n` swaps the loop ends after at most 4n + 1 iterations -/
theorem C91_terminates {maxVol : Int} {items : List Item} {n : Nat} {s : St} (h : Steps maxVol n (init items) s) : n ≤ 4 * items.length + 1 := by
  have h1 := steps_measure h
  have h2 : measure (init items) ≤ 4 * items.length + 1 := by
    unfold measure open_ init
    have := List.length_filter_le (fun i : Item => decide (i.volume ≠ U64MAX)) items
    simp only [List.length_nil, Bool.false_eq_true, if_false]
    omega
  omega

/-- **C91, no deadlock** Unless the loop has finished, an iteration is possible, whichever of the running preparations ends and however it ends -/
theorem C91_progress {maxVol : Int} {items : List Item} (hF : Found maxVol items) {s : St} (h : Reachable maxVol items s) :
    turn maxVol s = .ok .finish ∨ (∃ t, Step maxVol s t) := by
  obtain ⟨⟨t, ht⟩, h2, h3⟩ := C91_no_panic hF h
  rcases turn_cases ht with ⟨h1, _⟩ | ⟨_, ⟨h1, hp, _⟩ | ⟨_, _, _, ⟨h1, _⟩ | ⟨h1, it, hit, hw⟩⟩⟩
  · subst h1; exact Or.inl ht
  · subst h1
    right
    have hlt : 0 < s.pending.length := List.length_pos_iff.2 hp
    obtain ⟨s', hs'⟩ := h2 ht 0 none hlt (fun p hp => (by cases hp))
    exact ⟨s', .await ht (List.getElem?_eq_getElem hlt) (fun p hp => (by cases hp)) hs'⟩
  · subst h1; exact Or.inr ⟨_, .stall ht⟩
  · subst h1
    right
    obtain ⟨i, hi⟩ := List.mem_iff_getElem?.1 hit
    obtain ⟨s', hs'⟩ := h3 _ ht i it true hi hw
    exact ⟨s', .start ht hi hw hs'⟩

/-- **C91, once** Each swap of the list is tried at most once, and only if its volume is not the mark; an execution belongs to a swap that was tried, and no two belong to the same -/
theorem C91_once {maxVol : Int} {items : List Item} (hF : Found maxVol items) {s : St} (h : Reachable maxVol items s) :
    s.tried.Nodup ∧ (∀ i ∈ s.tried, ∃ it, items[i]? = some it ∧ it.volume ≠ U64MAX) ∧
    (s.prepared.map (·.item)).Nodup ∧ (∀ p ∈ s.prepared, p.item ∈ s.tried) := by
  have hi := inv_reach hF h
  refine ⟨hi.once, fun i hm => ?_, (List.nodup_append.1 hi.distinct).2.1, fun p hp => hi.sub _ (List.mem_append_right _ (List.mem_map.2 ⟨p, hp, rfl⟩))⟩
  obtain ⟨it, a, b, _⟩ := hi.marked i hm
  exact ⟨it, a, b⟩

/-- **C91, budget** At most 32 executions, with running preparations never more than 32; the volume of all but the last is below the budget, that of all below twice the budget -/
theorem C91_budget {maxVol : Int} {items : List Item} (hF : Found maxVol items) {s : St} (h : Reachable maxVol items s) :
    s.prepared.length + s.pending.length ≤ 32 ∧ (s.prepared ≠ [] → total s.prepared.dropLast < maxVol ∧ total s.prepared < 2 * maxVol) := by
  have hi := inv_reach hF h
  refine ⟨hi.count, fun hne => ?_⟩
  rcases hi.last with hl | hl
  · exact absurd hl hne
  · refine ⟨hl, ?_⟩
    have e := List.dropLast_append_getLast hne
    have h1 := total_append s.prepared.dropLast (s.prepared.getLast hne)
    rw [e] at h1
    have := (hi.preps _ (List.getLast_mem hne)).2
    omega

/-- **C91, complete** When the loop ends with less than 32 executions and budget left, no preparation is running and every swap that was not tried is too large for the rest of the budget -/
theorem C91_complete {maxVol : Int} {items : List Item} (hF : Found maxVol items) {s : St} (h : Reachable maxVol items s) (hfin : turn maxVol s = .ok .finish)
    (h32 : s.prepared.length < 32) (hv : total s.prepared < maxVol) :
    s.pending = [] ∧ ∀ i it, items[i]? = some it → i ∉ s.tried → it.volume = U64MAX ∨ maxVol - total s.prepared < max (min it.volume maxVol) 1 := by
  have hi := inv_reach hF h
  rw [← hi.vol] at hv
  rcases turn_cases hfin with ⟨_, h1 | ⟨hp, h1⟩⟩ | ⟨_, ⟨h1, _⟩ | ⟨_, _, _, ⟨h1, _⟩ | ⟨h1, _⟩⟩⟩
  · exact absurd ⟨h32, hv⟩ h1
  · have hp0 : s.pendingVol = 0 := by rw [hi.pvol, hp]; rfl
    refine ⟨hp, fun i it hit hnt => ?_⟩
    have hnn : s.noNewJob = true := by
      rw [hp] at h1
      rcases h1 with h1 | h1 | h1
      · simp only [List.length_nil] at h1
        have : MAXPREP = 32 := rfl
        omega
      · omega
      · exact h1
    have hmem : it ∈ s.items := by
      rw [← hi.untried i hnt] at hit
      exact List.mem_of_getElem? hit
    have hw := hi.stuck hnn it hmem
    by_cases hu : it.volume = U64MAX
    · exact Or.inl hu
    · right
      unfold weight at hw
      rw [if_neg hu, hp0, hi.vol] at hw
      by_contra hc
      rw [if_pos (by omega)] at hw
      omega
  · cases h1
  · cases h1
  · cases h1

/-- **C91, eager** The loop waits only if it must: 32 preparations and executions, or the budget used up by executions and running preparations, or every swap that was not tried is too large for the rest -/
theorem C91_eager {maxVol : Int} {items : List Item} (hF : Found maxVol items) {s : St} (h : Reachable maxVol items s) (hw : turn maxVol s = .ok .await) :
    s.pending ≠ [] ∧ (s.prepared.length + s.pending.length = 32 ∨ maxVol ≤ total s.prepared + (s.pending.map (·.volume)).sum ∨
      ∀ i it, items[i]? = some it → i ∉ s.tried → it.volume = U64MAX ∨ maxVol - total s.prepared - (s.pending.map (·.volume)).sum < max (min it.volume maxVol) 1) := by
  have hi := inv_reach hF h
  rcases turn_cases hw with ⟨h1, _⟩ | ⟨h0, ⟨_, hp, hc⟩ | ⟨_, _, _, ⟨h1, _⟩ | ⟨h1, _⟩⟩⟩
  · cases h1
  · refine ⟨hp, ?_⟩
    rcases hc with hc | hc | hc
    · left
      have := hi.count
      have : MAXPREP = 32 := rfl
      omega
    · right; left
      rw [← hi.vol, ← hi.pvol]
      exact hc
    · right; right
      intro i it hit hnt
      have hmem : it ∈ s.items := by
        rw [← hi.untried i hnt] at hit
        exact List.mem_of_getElem? hit
      have hw := hi.stuck hc it hmem
      by_cases hu : it.volume = U64MAX
      · exact Or.inl hu
      · right
        unfold weight at hw
        rw [← hi.vol, ← hi.pvol]
        rw [if_neg hu] at hw
        by_contra hcc
        rw [if_pos (by omega)] at hw
        omega
  · cases h1
  · cases h1

/-! ### Token positions -/

open Slots in
/-- free slots -/
def freeSlots (ts : List TokenSlot) : Nat := (ts.filter (fun p => p.index = FREE)).length

open Slots in
/-- the token has a position -/
def Has (ts : List TokenSlot) (t : Nat) : Prop := ∃ p ∈ ts, p.index = t

open Slots in
theorem free_set {ts : List TokenSlot} {raw : Nat} {p : TokenSlot} {t : Nat} (ht : t ≠ FREE) (h : ts[raw]? = some p) (hp : p.index = FREE) :
    freeSlots (ts.set raw ⟨t, 0, 0⟩) + 1 = freeSlots ts := by
  unfold freeSlots
  induction ts generalizing raw with
  | nil => simp at h
  | cons a l ih =>
    cases raw with
    | zero =>
      simp only [List.getElem?_cons_zero, Option.some.injEq] at h
      subst h
      simp [hp, ht]
    | succ i =>
      simp only [List.getElem?_cons_succ] at h
      have := ih h
      simp only [List.set_cons_succ, List.filter_cons]
      split <;> simp_all

open Slots in
theorem has_set {ts : List TokenSlot} {raw : Nat} {p : TokenSlot} {t u : Nat} (h : ts[raw]? = some p) (hp : p.index = FREE) (hu : u ≠ FREE) :
    Has (ts.set raw ⟨t, 0, 0⟩) u ↔ Has ts u ∨ u = t := by
  obtain ⟨hlt, hpx⟩ := List.getElem?_eq_some_iff.1 h
  unfold Has
  constructor
  · rintro ⟨q, hq, rfl⟩
    rcases List.mem_or_eq_of_mem_set hq with h1 | h1
    · exact Or.inl ⟨q, h1, rfl⟩
    · subst h1; exact Or.inr rfl
  · rintro (⟨q, hq, rfl⟩ | rfl)
    · obtain ⟨i, hi, rfl⟩ := List.getElem_of_mem hq
      have hne : raw ≠ i := by
        rintro rfl
        rw [hpx] at hu
        exact hu hp
      exact ⟨ts[i], List.mem_iff_getElem?.2 ⟨i, by rw [List.getElem?_set_ne hne, List.getElem?_eq_getElem hi]⟩, rfl⟩
    · exact ⟨⟨u, 0, 0⟩, List.mem_set hlt _, rfl⟩

open Slots in
theorem ensure_ok {ts ts' : List TokenSlot} {t raw act : Nat} (ht : t ≠ FREE) (h : ensureToken ts t = .ok (ts', raw, act)) :
    (Has ts t ∧ ts' = ts) ∨ (¬ Has ts t ∧ freeSlots ts' + 1 = freeSlots ts ∧ ∀ u, u ≠ FREE → (Has ts' u ↔ Has ts u ∨ u = t)) := by
  rcases ensureToken_spec ht h with ⟨p, h1, h2, h3, _⟩ | ⟨h0, p, h1, h2, h3, _⟩
  · exact Or.inl ⟨⟨p, List.mem_of_getElem? h1, h2⟩, h3⟩
  · right
    subst h3
    exact ⟨fun ⟨q, hq, he⟩ => h0 q hq he, free_set ht h1 h2, fun u hu => has_set h1 h2 hu⟩

open Slots in
theorem ensure_err {ts : List TokenSlot} {t : Nat} {e : Err} (ht : t ≠ FREE) (h : ensureToken ts t = .error e) : ¬ Has ts t ∧ freeSlots ts = 0 := by
  have hs := C32_ensure_token (a := ⟨ts, [], [], [], 0⟩) ht
  simp only [h] at hs
  refine ⟨fun ⟨q, hq, he⟩ => (hs.2 q hq).1 he, ?_⟩
  unfold freeSlots
  rw [List.length_eq_zero_iff, List.filter_eq_nil_iff]
  intro p hp
  simpa using (hs.2 p hp).2

/-- tokens of a list without a position -/
noncomputable def missing (ts : List Slots.TokenSlot) (l : List Nat) : Nat := by
  classical
  exact (l.filter (fun t => decide (¬ Has ts t))).length

open Slots in
theorem missing_step {ts ts' : List TokenSlot} {t : Nat} {l : List Nat} (hl : ∀ u ∈ l, u ≠ FREE) (hnd : l.Nodup) (hn : ¬ Has ts t) (h : ∀ u, u ≠ FREE → (Has ts' u ↔ Has ts u ∨ u = t)) :
    missing ts' l + (if t ∈ l then 1 else 0) = missing ts l := by
  classical
  unfold missing
  induction l with
  | nil => simp
  | cons a l ih =>
    have ih' := ih (fun u hu => hl u (by simp [hu])) (List.nodup_cons.1 hnd).2
    have ha := h a (hl a (by simp))
    have hna := (List.nodup_cons.1 hnd).1
    simp only [List.filter_cons, List.mem_cons]
    by_cases hat : a = t
    · subst hat
      have h1 : Has ts' a := ha.2 (Or.inr rfl)
      simp only [h1, hn, not_true_eq_false, decide_false, Bool.false_eq_true, if_false, not_false_eq_true, decide_true, if_true, true_or, List.length_cons]
      rw [if_neg hna] at ih'
      omega
    · have hta : ¬ t = a := fun e => hat e.symm
      have h1 : Has ts' a ↔ Has ts a := by rw [ha]; simp [hat]
      simp only [h1, hta, false_or]
      split
      · simp only [List.length_cons]; omega
      · exact ih'

open Slots in
theorem missing_zero {ts : List TokenSlot} {l : List Nat} (h : ∀ t ∈ l, Has ts t) : missing ts l = 0 := by
  classical
  unfold missing
  rw [List.length_eq_zero_iff, List.filter_eq_nil_iff]
  intro t ht
  simpa using h t ht

open Slots in
theorem missing_pos {ts : List TokenSlot} {l : List Nat} {t : Nat} (ht : t ∈ l) (h : ¬ Has ts t) : 0 < missing ts l := by
  classical
  unfold missing
  exact List.length_pos_iff.2 (List.ne_nil_of_mem (List.mem_filter.2 ⟨ht, by simpa using h⟩))

/-- what the pass over the tokens gives -/
theorem allowed_spec {l : List Nat} : ∀ {ts : List Slots.TokenSlot}, (∀ t ∈ l, t ≠ Slots.FREE) → l.Nodup →
    let r := allowedFrom ts l
    (∀ t ∈ r.2, t ∈ l) ∧ r.2.Nodup ∧ missing ts r.2 ≤ freeSlots ts ∧ (∀ u, u ≠ Slots.FREE → (Has r.1 u ↔ Has ts u ∨ u ∈ r.2)) ∧ freeSlots r.1 ≤ freeSlots ts ∧
    (∀ t ∈ l, t ∉ r.2 → ¬ Has r.1 t ∧ freeSlots r.1 = 0) := by
  induction l with
  | nil =>
    intro ts _ _
    simp only [allowedFrom]
    refine ⟨by simp, by simp, ?_, by simp, Nat.le_refl _, by simp⟩
    rw [missing_zero (by simp)]
    exact Nat.zero_le _
  | cons a l ih =>
    intro ts hl hnd
    have ha := hl a (by simp)
    have hl' : ∀ t ∈ l, t ≠ Slots.FREE := fun t ht => hl t (by simp [ht])
    obtain ⟨hna, hnd'⟩ := List.nodup_cons.1 hnd
    simp only [allowedFrom]
    cases he : Slots.ensureToken ts a with
    | error e =>
      obtain ⟨e1, e2⟩ := ensure_err ha he
      obtain ⟨i1, i2, i3, i4, i5, i6⟩ := ih (ts := ts) hl' hnd'
      simp only
      refine ⟨fun t ht => by simp [i1 t ht], i2, i3, i4, i5, fun t ht hnt => ?_⟩
      rcases List.mem_cons.1 ht with rfl | ht'
      · refine ⟨fun hc => ?_, by omega⟩
        rcases (i4 t ha).1 hc with h1 | h1
        · exact e1 h1
        · exact hnt h1
      · exact i6 t ht' hnt
    | ok x =>
      obtain ⟨ts', raw, act⟩ := x
      obtain ⟨i1, i2, i3, i4, i5, i6⟩ := ih (ts := ts') hl' hnd'
      simp only
      have hnd2 : (a :: (allowedFrom ts' l).2).Nodup := List.nodup_cons.2 ⟨fun hc => hna (i1 a hc), i2⟩
      have hfree : ∀ u ∈ a :: (allowedFrom ts' l).2, u ≠ Slots.FREE := fun u hu => by
        rcases List.mem_cons.1 hu with rfl | hu'
        · exact ha
        · exact hl' u (i1 u hu')
      have hmem : ∀ t ∈ a :: (allowedFrom ts' l).2, t ∈ a :: l := fun t ht => by
        rcases List.mem_cons.1 ht with rfl | ht'
        · exact List.mem_cons_self
        · exact List.mem_cons_of_mem _ (i1 t ht')
      have hleft : ∀ t ∈ a :: l, t ∉ a :: (allowedFrom ts' l).2 → ¬ Has (allowedFrom ts' l).1 t ∧ freeSlots (allowedFrom ts' l).1 = 0 := fun t ht hnt => by
        rw [List.mem_cons, not_or] at hnt
        rcases List.mem_cons.1 ht with h1 | h1
        · exact absurd h1 hnt.1
        · exact i6 t h1 hnt.2
      rcases ensure_ok ha he with ⟨hh, rfl⟩ | ⟨hn, hf, hhas⟩
      · refine ⟨hmem, hnd2, ?_, fun u hu => ?_, i5, hleft⟩
        · classical
          have : missing ts' (a :: (allowedFrom ts' l).2) = missing ts' (allowedFrom ts' l).2 := by
            unfold missing
            simp [hh]
          omega
        · rw [i4 u hu, List.mem_cons]
          constructor
          · rintro (h | h)
            · exact Or.inl h
            · exact Or.inr (Or.inr h)
          · rintro (h | rfl | h)
            · exact Or.inl h
            · exact Or.inl hh
            · exact Or.inr h
      · refine ⟨hmem, hnd2, ?_, fun u hu => ?_, by omega, hleft⟩
        · have h1 := missing_step hfree hnd2 hn hhas
          rw [if_pos List.mem_cons_self] at h1
          classical
          have hh' : Has ts' a := (hhas a ha).2 (Or.inr rfl)
          have : missing ts' (a :: (allowedFrom ts' l).2) = missing ts' (allowedFrom ts' l).2 := by
            unfold missing
            simp [hh']
          omega
        · rw [i4 u hu, hhas u hu, List.mem_cons]
          tauto

/-- tokens of a set that fits can be given positions one after the other in any order -/
theorem ensure_any {A : List Nat} (hA : ∀ t ∈ A, t ≠ Slots.FREE) (hnd : A.Nodup) : ∀ {L : List Nat} {a : Slots.Acc}, (∀ t ∈ L, t ∈ A) → missing a.tokens A ≤ freeSlots a.tokens →
    ∃ b, ClientAccounts.ensureTokens a L = .ok b ∧ ∀ t ∈ L, Has b.tokens t := by
  intro L
  suffices H : ∀ {a : Slots.Acc}, (∀ t ∈ L, t ∈ A) → missing a.tokens A ≤ freeSlots a.tokens →
      ∃ b, ClientAccounts.ensureTokens a L = .ok b ∧ (∀ t ∈ L, Has b.tokens t) ∧ ∀ u, u ≠ Slots.FREE → Has a.tokens u → Has b.tokens u by
    intro a h1 h2
    obtain ⟨b, hb, h3, _⟩ := H h1 h2
    exact ⟨b, hb, h3⟩
  induction L with
  | nil => intro a _ _; exact ⟨a, rfl, by simp, fun _ _ h => h⟩
  | cons t L ih =>
    intro a h1 h2
    have htA := h1 t (by simp)
    have htF := hA t htA
    cases he : Slots.ensureToken a.tokens t with
    | error e =>
      obtain ⟨e1, e2⟩ := ensure_err htF he
      have := missing_pos htA e1
      omega
    | ok x =>
      obtain ⟨ts', raw, act⟩ := x
      have hkey : missing ts' A ≤ freeSlots ts' ∧ Has ts' t ∧ ∀ u, u ≠ Slots.FREE → Has a.tokens u → Has ts' u := by
        rcases ensure_ok htF he with ⟨hh, rfl⟩ | ⟨hn, hf, hhas⟩
        · exact ⟨h2, hh, fun _ _ h => h⟩
        · have h3 := missing_step hA hnd hn hhas
          rw [if_pos htA] at h3
          exact ⟨by omega, (hhas t htF).2 (Or.inr rfl), fun u hu h => (hhas u hu).2 (Or.inl h)⟩
      obtain ⟨b, hb, h4, h5⟩ := ih (a := { a with tokens := ts' }) (fun u hu => h1 u (by simp [hu])) hkey.1
      refine ⟨b, ?_, fun u hu => ?_, fun u hu h => h5 u hu (hkey.2.2 u hu h)⟩
      · simp only [ClientAccounts.ensureTokens, bind_ok]
        exact ⟨(ts', raw, act), he, hb⟩
      · rcases List.mem_cons.1 hu with rfl | hu'
        · exact h5 u htF hkey.2.1
        · exact h4 u hu'

theorem unique_nodup (l : List Nat) : (ClientAccounts.unique l).Nodup := by
  unfold ClientAccounts.unique
  suffices H : ∀ (n : Nat) (l : List Nat), l.length ≤ n → l.eraseDups.Nodup from H l.length l (Nat.le_refl _)
  intro n
  induction n with
  | zero =>
    intro l hl
    have : l = [] := List.length_eq_zero_iff.1 (by omega)
    subst this
    simp
  | succ n ih =>
    intro l hl
    cases l with
    | nil => simp
    | cons a l =>
      rw [List.eraseDups_cons, List.nodup_cons]
      have hlen := List.length_filter_le (fun b => !b == a) l
      rw [List.length_cons] at hl
      refine ⟨fun hc => ?_, ih _ (by omega)⟩
      have := List.mem_eraseDups.1 hc
      simp at this

theorem unique_mem {l : List Nat} {t : Nat} : t ∈ ClientAccounts.unique l ↔ t ∈ l := by
  unfold ClientAccounts.unique
  exact List.mem_eraseDups

/-- **C91, positions** Whatever executions are sent, in whatever order they land: the liquidator's account can get positions for all their tokens one after the other -/
theorem C91_positions {liqor : Slots.Acc} {prepared : List Prep} (hF : ∀ p ∈ prepared, ∀ t ∈ p.tokens, t ≠ Slots.FREE) {L : List Nat}
    (hL : ∀ t ∈ L, ∃ p ∈ executed liqor prepared, t ∈ p.tokens) : ∃ b, ClientAccounts.ensureTokens liqor L = .ok b ∧ ∀ t ∈ L, Has b.tokens t := by
  have hfree : ∀ t ∈ ClientAccounts.unique (prepared.flatMap (·.tokens)), t ≠ Slots.FREE := fun t ht => by
    rw [unique_mem, List.mem_flatMap] at ht
    obtain ⟨p, hp, ht⟩ := ht
    exact hF p hp t ht
  obtain ⟨i1, i2, i3, _⟩ := allowed_spec (ts := liqor.tokens) hfree (unique_nodup _)
  refine ensure_any (A := allowedTokens liqor prepared) (fun t ht => hfree t (i1 t ht)) i2 (fun t ht => ?_) i3
  obtain ⟨p, hp, htp⟩ := hL t ht
  unfold executed at hp
  have := (List.mem_filter.1 hp).2
  rw [List.all_eq_true] at this
  simpa using this t htp

/-- **C91, sent** Exactly the prepared executions are sent whose tokens are all among the allowed ones. One that is left out needs a token for which no position is left: all slots of the account are taken once the allowed tokens (of
this run) have theirs. If all tokens find a position, all are sent; those that only close an expired swap are always sent. -/
theorem C91_sent {liqor : Slots.Acc} {prepared : List Prep} (hF : ∀ p ∈ prepared, ∀ t ∈ p.tokens, t ≠ Slots.FREE) :
    (∀ p ∈ executed liqor prepared, p ∈ prepared) ∧ (∀ p ∈ prepared, p.tokens = [] → p ∈ executed liqor prepared) ∧
    (∀ p ∈ prepared, p ∉ executed liqor prepared → ∃ t ∈ p.tokens, ¬ Has liqor.tokens t ∧
      ∃ b, ClientAccounts.ensureTokens liqor (allowedTokens liqor prepared) = .ok b ∧ freeSlots b.tokens = 0 ∧ ¬ Has b.tokens t) := by
  have hfree : ∀ t ∈ ClientAccounts.unique (prepared.flatMap (·.tokens)), t ≠ Slots.FREE := fun t ht => by
    rw [unique_mem, List.mem_flatMap] at ht
    obtain ⟨p, hp, ht⟩ := ht
    exact hF p hp t ht
  obtain ⟨i1, i2, i3, i4, i5, i6⟩ := allowed_spec (ts := liqor.tokens) hfree (unique_nodup _)
  have hens : ∀ (l : List Nat) (a : Slots.Acc), (∀ t ∈ l, t ≠ Slots.FREE) → ClientAccounts.ensureTokens a (allowedFrom a.tokens l).2 = .ok { a with tokens := (allowedFrom a.tokens l).1 } := by
    intro l
    induction l with
    | nil => intro a _; rfl
    | cons t l ih =>
      intro a hl
      simp only [allowedFrom]
      cases he : Slots.ensureToken a.tokens t with
      | error e => exact ih a (fun u hu => hl u (by simp [hu]))
      | ok x =>
        obtain ⟨ts', raw, act⟩ := x
        simp only [ClientAccounts.ensureTokens, bind_ok]
        exact ⟨(ts', raw, act), he, ih { a with tokens := ts' } (fun u hu => hl u (by simp [hu]))⟩
  refine ⟨fun p hp => (List.mem_filter.1 hp).1, fun p hp he => List.mem_filter.2 ⟨hp, by simp [he]⟩, fun p hp hnp => ?_⟩
  have : ∃ t ∈ p.tokens, t ∉ allowedTokens liqor prepared := by
    by_contra hc
    apply hnp
    refine List.mem_filter.2 ⟨hp, ?_⟩
    rw [List.all_eq_true]
    intro t ht
    by_contra h2
    exact hc ⟨t, ht, by simpa using h2⟩
  obtain ⟨t, ht, hnt⟩ := this
  have htl : t ∈ ClientAccounts.unique (prepared.flatMap (·.tokens)) := unique_mem.2 (List.mem_flatMap.2 ⟨p, hp, ht⟩)
  obtain ⟨h1, h2⟩ := i6 t htl hnt
  refine ⟨t, ht, fun hc => h1 ((i4 t (hfree t htl)).2 (Or.inl hc)), _, hens _ liqor hfree, h2, h1⟩

/-! ## Examples: three swaps of 60, 50 and 0 (very small), and one marked as done, with a budget of 100 -/

def exItems : List Item := [⟨1, 1, 60⟩, ⟨1, 2, 50⟩, ⟨2, 1, 0⟩, ⟨3, 1, U64MAX⟩]

theorem exFound : Found 100 exItems := ⟨by decide, by decide, by decide, by decide⟩

/-- the first is started; the second does not fit next to it, the third does; then nothing fits and the first ends, with a volume of 55 -/
def exStates : List St :=
  let s0 := init exItems
  let s1 : St := { s0 with items := [⟨1, 1, U64MAX⟩, ⟨1, 2, 50⟩, ⟨2, 1, 0⟩, ⟨3, 1, U64MAX⟩], tried := [0], pending := [⟨0, 60⟩], pendingVol := 60 }
  let s2 : St := { s1 with items := [⟨1, 1, U64MAX⟩, ⟨1, 2, 50⟩, ⟨2, 1, U64MAX⟩, ⟨3, 1, U64MAX⟩], tried := [2, 0], pending := [⟨0, 60⟩, ⟨2, 0⟩] }
  let s3 : St := { s2 with noNewJob := true }
  let s4 : St := { s3 with noNewJob := false, pending := [⟨2, 0⟩], pendingVol := 0, prepared := [⟨0, 55, [7, 8]⟩], preparedVol := 55 }
  let s5 : St := { s4 with noNewJob := true }
  let s6 : St := { s5 with noNewJob := false, pending := [] }
  let s7 : St := { s6 with noNewJob := true }
  [s0, s1, s2, s3, s4, s5, s6, s7]

theorem exReach : ∃ s, Reachable 100 exItems s ∧ turn 100 s = .ok .finish ∧ s.prepared = [⟨0, 55, [7, 8]⟩] ∧ s.tried = [2, 0] := by
  have t0 : turn 100 exStates[0] = .ok (.start 100) := by decide +kernel
  have t1 : turn 100 exStates[1] = .ok (.start 40) := by decide +kernel
  have t2 : turn 100 exStates[2] = .ok .stall := by decide +kernel
  have t3 : turn 100 exStates[3] = .ok .await := by decide +kernel
  have t4 : turn 100 exStates[4] = .ok .stall := by decide +kernel
  have t5 : turn 100 exStates[5] = .ok .await := by decide +kernel
  have t6 : turn 100 exStates[6] = .ok .stall := by decide +kernel
  have t7 : turn 100 exStates[7] = .ok .finish := by decide +kernel
  have s1 : Step 100 exStates[0] exStates[1] := .start (i := 0) (it := ⟨1, 1, 60⟩) (run := true) t0 (by decide +kernel) (by decide +kernel) (by decide +kernel)
  have s2 : Step 100 exStates[1] exStates[2] := .start (i := 2) (it := ⟨2, 1, 0⟩) (run := true) t1 (by decide +kernel) (by decide +kernel) (by decide +kernel)
  have s3 : Step 100 exStates[2] exStates[3] := .stall t2
  have s4 : Step 100 exStates[3] exStates[4] := .await (j := 0) (job := ⟨0, 60⟩) (r := some ⟨0, 55, [7, 8]⟩) t3 (by decide +kernel)
    (fun p hp => by rw [Option.some.injEq] at hp; subst hp; decide) (by decide +kernel)
  have s5 : Step 100 exStates[4] exStates[5] := .stall t4
  have s6 : Step 100 exStates[5] exStates[6] := .await (j := 0) (job := ⟨2, 0⟩) (r := none) t5 (by decide +kernel) (fun p hp => (by cases hp)) (by decide +kernel)
  have s7 : Step 100 exStates[6] exStates[7] := .stall t6
  exact ⟨exStates[7], ⟨7, .succ (.succ (.succ (.succ (.succ (.succ (.succ .zero s1) s2) s3) s4) s5) s6) s7⟩, t7, by decide +kernel, by decide +kernel⟩

/-- a liquidator with two slots left: the second execution needs a third token and is not sent, the third only needs those there are -/
def exLiqor : Slots.Acc := ⟨[⟨1, 0, 5⟩, ⟨Slots.FREE, 0, 0⟩, ⟨Slots.FREE, 0, 0⟩], [], [], [], 0⟩
def exPrepared : List Prep := [⟨0, 55, [7, 8]⟩, ⟨1, 10, [1, 9]⟩, ⟨2, 10, [8, 1]⟩, ⟨3, 0, []⟩]
example : executed exLiqor exPrepared = [⟨0, 55, [7, 8]⟩, ⟨2, 10, [8, 1]⟩, ⟨3, 0, []⟩] ∧ allowedTokens exLiqor exPrepared = [7, 8, 1] := by decide +kernel
example : ∀ p ∈ exPrepared, ∀ t ∈ p.tokens, t ≠ Slots.FREE := by decide

/-- an empty list would panic (the caller does not call it then) -/
example : turn 100 (init []) = .error .panic := by decide +kernel

end TriggerRun
end Mango
