import Verif.Client.Fetcher
/-!
# C85: the caching account fetcher
-/
namespace Mango
namespace Fetcher

theorem get_set {l : List Job} {i j : Nat} {x y : Job} (h : (l.set i x)[j]? = some y) : (j = i ∧ y = x) ∨ (j ≠ i ∧ l[j]? = some y) := by
  by_cases e : j = i
  · subst e
    rw [List.getElem?_set] at h
    simp only [if_true] at h
    split at h
    · cases h; exact .inl ⟨rfl, rfl⟩
    · cases h
  · rw [List.getElem?_set_ne (fun h => e h.symm)] at h
    exact .inr ⟨e, h⟩

theorem set_get {l : List Job} {i j : Nat} {x y : Job} (hi : l[i]? = some y) : (l.set i x)[j]? = if j = i then some x else l[j]? := by
  by_cases e : j = i
  · subst e
    rw [if_pos rfl, List.getElem?_set_self (List.getElem?_eq_some_iff.1 hi).1]
  · rw [if_neg e, List.getElem?_set_ne (fun h => e h.symm)]

theorem push_get {l : List Job} {x y : Job} {j : Nat} : (l ++ [x])[j]? = some y ↔ l[j]? = some y ∨ (j = l.length ∧ y = x) := by
  by_cases h : j < l.length
  · rw [List.getElem?_append_left h]
    constructor
    · exact .inl
    · rintro (h1 | ⟨rfl, _⟩)
      · exact h1
      · omega
  · rw [List.getElem?_append_right (by omega)]
    have hn : l[j]? = none := List.getElem?_eq_none (by omega)
    rw [hn]
    by_cases e : j = l.length
    · subst e; simp [eq_comm]
    · have : j - l.length ≠ 0 := by omega
      obtain ⟨m, hm⟩ := Nat.exists_eq_succ_of_ne_zero this
      rw [hm]; simp [e]

/-- `c`: a time all data was read after -/
structure Inv (c : Nat) (s : State) : Prop where
  now : c ≤ s.time
  data : ∀ a d, s.accounts a = some d → d.addr = a ∧ c ≤ d.time ∧ d.time ≤ s.time
  keys : ∀ p l, s.keys p = some l → ∀ a ∈ l, (s.accounts a).isSome = true
  reg : ∀ k (j : Nat), s.registered k = some j ↔ ∃ st, s.jobs[j]? = some ⟨k, st, none⟩
  started : ∀ (j : Nat) k st, s.jobs[j]? = some ⟨k, st, none⟩ → c ≤ st ∧ st ≤ s.time
  answered : ∀ (j : Nat) k st a, s.jobs[j]? = some ⟨k, st, some a⟩ → Fits k st s.time a

theorem Fits.later {k : Kind} {st n m : Nat} {a : Answer} (h : Fits k st n a) (hn : n ≤ m) : Fits k st m a := by
  cases a with
  | failed => trivial
  | ok l => exact ⟨fun x hx => ⟨(h.1 x hx).1, (h.1 x hx).2.1, Nat.le_trans (h.1 x hx).2.2 hn⟩, h.2⟩

theorem inv_new : Inv 0 .new := ⟨Nat.le_refl _, (by intro a d h; cases h), (by intro p l h; cases h), (by intro k j; simp [State.new]), (by intro j k st h; cases h), (by intro j k st a h; cases h)⟩

theorem coalesce_same (s : State) (k : Kind) : (coalesce s k).1.accounts = s.accounts ∧ (coalesce s k).1.keys = s.keys ∧ (coalesce s k).1.time = s.time := by
  unfold coalesce; split <;> exact ⟨rfl, rfl, rfl⟩

theorem inv_coalesce {c : Nat} {s : State} (I : Inv c s) (k : Kind) : Inv c (coalesce s k).1 := by
  unfold coalesce
  split
  · exact I
  · rename_i hn
    refine ⟨I.now, I.data, I.keys, ?_, ?_, ?_⟩
    · intro k' j
      dsimp only
      by_cases e : k' = k
      · subst e
        rw [if_pos rfl]
        constructor
        · rintro h; cases h; exact ⟨_, push_get.2 (.inr ⟨rfl, rfl⟩)⟩
        · rintro ⟨st, h⟩
          rcases push_get.1 h with h | ⟨rfl, _⟩
          · have := (I.reg k' j).2 ⟨st, h⟩
            rw [hn] at this; cases this
          · rfl
      · rw [if_neg e, I.reg]
        constructor
        · rintro ⟨st, h⟩; exact ⟨st, push_get.2 (.inl h)⟩
        · rintro ⟨st, h⟩
          rcases push_get.1 h with h | ⟨_, h⟩
          · exact ⟨st, h⟩
          · cases h; exact absurd rfl e
    · intro j k' st h
      rcases push_get.1 h with h | ⟨_, h⟩
      · exact I.started j k' st h
      · cases h; exact ⟨I.now, Nat.le_refl _⟩
    · intro j k' st a h
      rcases push_get.1 h with h | ⟨_, h⟩
      · exact I.answered j k' st a h
      · cases h

theorem coalesce_running {c : Nat} {s : State} (I : Inv c s) {k : Kind} {r : Reply} {s' : State} (h : coalesce s k = (s', r)) : ∃ j st, r = .wait j ∧ s'.jobs[j]? = some ⟨k, st, none⟩ := by
  unfold coalesce at h
  split at h
  · rename_i j hj
    cases h
    obtain ⟨st, hst⟩ := (I.reg k j).1 hj
    exact ⟨j, st, rfl, hst⟩
  · cases h
    exact ⟨_, _, rfl, push_get.2 (.inr ⟨rfl, rfl⟩)⟩

theorem insertAll_get (l : List (Nat × Data)) (c : Nat → Option Data) (x : Nat) : (∃ d, (x, d) ∈ l ∧ insertAll c l x = some d) ∨ ((∀ d, (x, d) ∉ l) ∧ insertAll c l x = c x) := by
  induction l generalizing c with
  | nil => exact .inr ⟨by simp, rfl⟩
  | cons y l ih =>
    obtain ⟨a, d⟩ := y
    rw [insertAll]
    rcases ih (fun y => if y = a then some d else c y) with ⟨d', h1, h2⟩ | ⟨h1, h2⟩
    · exact .inl ⟨d', List.mem_cons_of_mem _ h1, h2⟩
    · by_cases e : x = a
      · subst e
        rw [if_pos rfl] at h2
        exact .inl ⟨d, List.mem_cons_self, h2⟩
      · rw [if_neg e] at h2
        refine .inr ⟨?_, h2⟩
        intro d' hd
        rcases List.mem_cons.1 hd with hd | hd
        · cases hd; exact e rfl
        · exact h1 d' hd

theorem insertAll_some {l : List (Nat × Data)} {c : Nat → Option Data} {x : Nat} (h : (c x).isSome = true) : (insertAll c l x).isSome = true := by
  rcases insertAll_get l c x with ⟨d, _, h2⟩ | ⟨_, h2⟩
  · rw [h2]; rfl
  · rw [h2]; exact h

theorem inv_complete {c : Nat} {s s' : State} {j : Nat} {ans : Answer} {k : Kind} {st : Nat} (I : Inv c s) (hj : s.jobs[j]? = some ⟨k, st, none⟩) (hf : Fits k st s.time ans)
    (h : complete s j ans = .ok s') : Inv c s' := by
  unfold complete at h
  rw [hj] at h
  dsimp only at h
  have hreg := (I.reg k j).2 ⟨st, hj⟩
  have reg' : ∀ (k' : Kind) (i : Nat), (if k' = k then none else s.registered k') = some i ↔ ∃ st', (s.jobs.set j ⟨k, st, some ans⟩)[i]? = some ⟨k', st', none⟩ := by
    intro k' i
    rw [set_get hj]
    by_cases e : k' = k
    · subst e
      rw [if_pos rfl]
      constructor
      · intro h; cases h
      · rintro ⟨st', h⟩
        split at h
        · cases h
        · rename_i hne
          have := (I.reg k' i).2 ⟨st', h⟩
          rw [hreg] at this; cases this; exact absurd rfl hne
    · rw [if_neg e, I.reg]
      constructor
      · rintro ⟨st', h⟩
        refine ⟨st', ?_⟩
        rw [if_neg]
        · exact h
        · intro ei; rw [ei, hj] at h; cases h; exact e rfl
      · rintro ⟨st', h⟩
        split at h
        · cases h
        · exact ⟨st', h⟩
  have started' : ∀ (i : Nat) k' st', (s.jobs.set j ⟨k, st, some ans⟩)[i]? = some ⟨k', st', none⟩ → c ≤ st' ∧ st' ≤ s.time := by
    intro i k' st' h
    rcases get_set h with ⟨_, h⟩ | ⟨_, h⟩
    · cases h
    · exact I.started i k' st' h
  have ans' : ∀ (i : Nat) k' st' a, (s.jobs.set j ⟨k, st, some ans⟩)[i]? = some ⟨k', st', some a⟩ → Fits k' st' s.time a := by
    intro i k' st' a h
    rcases get_set h with ⟨_, h⟩ | ⟨_, h⟩
    · cases h; exact hf
    · exact I.answered i k' st' a h
  cases ans with
  | failed =>
    simp only [ok_inj] at h
    subst h
    exact ⟨I.now, I.data, I.keys, reg', started', ans'⟩
  | ok l =>
    simp only [ok_inj] at h
    subst h
    refine ⟨I.now, ?_, ?_, reg', started', ans'⟩
    · intro a d hd
      dsimp only at hd
      rcases insertAll_get l s.accounts a with ⟨d', h1, h2⟩ | ⟨_, h2⟩
      · rw [h2] at hd; cases hd
        obtain ⟨k1, k2, k3⟩ := hf.1 _ h1
        exact ⟨k1, Nat.le_trans (I.started j k st hj).1 k2, k3⟩
      · rw [h2] at hd; exact I.data a d hd
    · intro p m hm a ha
      dsimp only at hm ⊢
      have old : s.keys p = some m → (insertAll s.accounts l a).isSome = true := fun h => insertAll_some (I.keys p m h a ha)
      cases k with
      | one b => exact old hm
      | many ks => exact old hm
      | program q =>
        dsimp only at hm
        by_cases e : p = q
        · rw [if_pos e] at hm
          cases hm
          obtain ⟨x, hx, rfl⟩ := List.mem_map.1 ha
          rcases insertAll_get l s.accounts x.1 with ⟨d', _, h2⟩ | ⟨h1, _⟩
          · rw [h2]; rfl
          · exact absurd hx (h1 x.2)
        · rw [if_neg e] at hm; exact old hm

theorem inv_step {c : Nat} {s s' : State} {op : Op} (I : Inv c s) (h : Step s op s') : Inv c s' := by
  cases h with
  | one =>
    rename_i a
    unfold fetchOne
    split
    · exact I
    · exact inv_coalesce I _
  | many =>
    rename_i ks
    unfold fetchMany
    dsimp only
    split
    · exact I
    · exact inv_coalesce I _
  | program h =>
    rename_i p r
    unfold fetchProgram at h
    split at h
    · split at h
      · cases h; exact I
      · cases h
    · simp only [ok_inj] at h
      have := inv_coalesce I (k := .program p)
      rw [h] at this; exact this
  | complete hj hf h => exact inv_complete I hj hf h
  | clear => exact ⟨I.now, (by intro a d h; cases h), (by intro p l h; cases h), I.reg, I.started, I.answered⟩
  | tick => exact ⟨Nat.le_succ_of_le I.now, fun a d h => ⟨(I.data a d h).1, (I.data a d h).2.1, Nat.le_succ_of_le (I.data a d h).2.2⟩, I.keys, I.reg,
      fun j k st h => ⟨(I.started j k st h).1, Nat.le_succ_of_le (I.started j k st h).2⟩, fun j k st a h => (I.answered j k st a h).later (Nat.le_succ _)⟩

theorem inv_runs {c : Nat} {s s' : State} {ops : List Op} (I : Inv c s) (h : Runs s ops s') : Inv c s' := by
  induction h with
  | nil => exact I
  | cons h _ ih => exact ih (inv_step I h)

theorem Reachable.inv {s : State} (h : Reachable s) : Inv 0 s := by
  obtain ⟨ops, h⟩ := h
  exact inv_runs inv_new h

theorem Reachable.step {s s' : State} {op : Op} (h : Reachable s) (hs : Step s op s') : Reachable s' := by
  obtain ⟨ops, h⟩ := h
  refine ⟨ops ++ [op], ?_⟩
  generalize State.new = s0 at h
  induction h with
  | nil => exact .cons hs .nil
  | cons h1 _ ih => exact .cons h1 (ih hs)

/-! ### claims -/

/-- **C85, one account** A call for one account returns the cached data of that account or waits for a request for that account that is still running; such a request answers with data of the account, read
since the request started. -/
theorem C85_one {s s' : State} (hs : Reachable s) {a : Nat} {r : Reply} (h : fetchOne s a = (s', r)) :
    ((∃ d, s.accounts a = some d ∧ d.addr = a ∧ r = .ready [(a, d)] ∧ s' = s) ∨
     (s.accounts a = none ∧ ∃ j st, r = .wait j ∧ s'.jobs[j]? = some ⟨.one a, st, none⟩)) ∧
    (∀ (j : Nat) st l, s.jobs[j]? = some ⟨.one a, st, some (.ok l)⟩ → ∃ d, l = [(a, d)] ∧ d.addr = a ∧ st ≤ d.time ∧ d.time ≤ s.time) := by
  have I := hs.inv
  refine ⟨?_, ?_⟩
  · unfold fetchOne at h
    split at h
    · rename_i d hd
      cases h
      exact .inl ⟨d, hd, (I.data a d hd).1, rfl, rfl⟩
    · rename_i hn
      exact .inr ⟨hn, coalesce_running I h⟩
  · intro j st l hj
    obtain ⟨h1, d, rfl⟩ := I.answered j _ st _ hj
    obtain ⟨k1, k2, k3⟩ := h1 (a, d) (by simp)
    exact ⟨d, rfl, k1, k2, k3⟩

/-- **C85, one request** At any time at most one request is running for the same account, set of accounts or program. -/
theorem C85_one_request {s : State} (hs : Reachable s) {i j : Nat} {k : Kind} {st st' : Nat} (hi : s.jobs[i]? = some ⟨k, st, none⟩) (hj : s.jobs[j]? = some ⟨k, st', none⟩) : i = j := by
  have h1 := (hs.inv.reg k i).2 ⟨st, hi⟩
  have h2 := (hs.inv.reg k j).2 ⟨st', hj⟩
  rw [h1] at h2; cases h2; rfl

/-- **C85, cached** What a request delivers is cached, and an account that is cached stays so until the cache is cleared: calls for it are answered at once, without a request. -/
theorem C85_cached {s s' : State} (hs : Reachable s) :
    (∀ (j : Nat) k st l, s.jobs[j]? = some ⟨k, st, none⟩ → complete s j (.ok l) = .ok s' → ∀ x ∈ l, (s'.accounts x.1).isSome = true) ∧
    (∀ ops a, Runs s ops s' → (∀ op ∈ ops, op ≠ .clear) → (s.accounts a).isSome = true →
      ∃ d, fetchOne s' a = (s', .ready [(a, d)]) ∧ d.addr = a) := by
  refine ⟨?_, ?_⟩
  · intro j k st l hj h x hx
    unfold complete at h
    rw [hj] at h
    simp only [ok_inj] at h
    subst h
    dsimp only
    rcases insertAll_get l s.accounts x.1 with ⟨d, _, h2⟩ | ⟨h1, _⟩
    · rw [h2]; rfl
    · exact absurd hx (h1 x.2)
  · intro ops a hr hc ha
    have keep : (s'.accounts a).isSome = true := by
      induction hr with
      | nil => exact ha
      | @cons s s1 s2 op ops h1 _ ih =>
        refine ih (hs.step h1) ?_ ?_
        · intro op hm; exact hc op (List.mem_cons_of_mem _ hm)
        · cases h1 with
          | one =>
            unfold fetchOne
            split
            · exact ha
            · rw [(coalesce_same s _).1]; exact ha
          | many =>
            unfold fetchMany
            dsimp only
            split
            · exact ha
            · rw [(coalesce_same s _).1]; exact ha
          | program h =>
            rename_i p r
            unfold fetchProgram at h
            split at h
            · split at h
              · cases h; exact ha
              · cases h
            · simp only [ok_inj] at h
              have := (coalesce_same s (.program p)).1
              rw [h] at this; rw [this]; exact ha
          | complete hj hf h =>
            unfold complete at h
            rw [hj] at h
            dsimp only at h
            split at h
            · cases h; exact ha
            · cases h; exact insertAll_some ha
          | clear => exact absurd rfl (hc _ List.mem_cons_self)
          | tick => exact ha
    have I := inv_runs hs.inv hr
    cases hd : s'.accounts a with
    | none => rw [hd] at keep; cases keep
    | some d => exact ⟨d, by unfold fetchOne; rw [hd], (I.data a d hd).1⟩

/-- **C85, errors** A failed request is not cached: the next call for the account starts a new request. -/
theorem C85_retry {s s' : State} {j a st : Nat} (hj : s.jobs[j]? = some ⟨.one a, st, none⟩) (h : complete s j .failed = .ok s') :
    s'.accounts = s.accounts ∧ s'.keys = s.keys ∧ (s.accounts a = none → (fetchOne s' a).2 = .wait s'.jobs.length) := by
  unfold complete at h
  rw [hj] at h
  simp only [ok_inj] at h
  subst h
  refine ⟨rfl, rfl, fun ha => ?_⟩
  simp [fetchOne, ha, coalesce]

/-- **C85, programs** A call for all accounts of a program never panics; it returns the accounts of the last answer with cached data of theirs, or waits for a running request. -/
theorem C85_program {s : State} (hs : Reachable s) (p : Nat) :
    ∃ s' r, fetchProgram s p = .ok (s', r) ∧
      ((∃ ks l, s.keys p = some ks ∧ r = .ready l ∧ s' = s ∧ l.map Prod.fst = ks ∧ ∀ x ∈ l, s.accounts x.1 = some x.2 ∧ x.2.addr = x.1) ∨
       (s.keys p = none ∧ ∃ j st, r = .wait j ∧ s'.jobs[j]? = some ⟨.program p, st, none⟩)) := by
  have I := hs.inv
  unfold fetchProgram
  cases hk : s.keys p with
  | none =>
    dsimp only
    exact ⟨_, _, rfl, .inr ⟨rfl, coalesce_running I rfl⟩⟩
  | some ks =>
    have hall := I.keys p ks hk
    dsimp only
    rw [if_pos (by rw [List.all_eq_true]; exact hall)]
    refine ⟨_, _, rfl, .inl ⟨ks, _, rfl, rfl, rfl, ?_, ?_⟩⟩
    · clear hk
      induction ks with
      | nil => rfl
      | cons a ks ih =>
        have h1 := hall a (by simp)
        obtain ⟨d, hd⟩ := Option.isSome_iff_exists.1 h1
        have := ih (fun b hb => hall b (by simp [hb]))
        simp only [List.filterMap_cons, hd, Option.map_some, List.map_cons, this]
    · intro x hx
      obtain ⟨a, _, ha⟩ := List.mem_filterMap.1 hx
      cases hd : s.accounts a with
      | none => rw [hd] at ha; cases ha
      | some d => rw [hd] at ha; cases ha; exact ⟨hd, (I.data a d hd).1⟩

/-- **C85, several accounts** If all accounts asked for are cached, the call returns them in order. Otherwise it waits for a running request for exactly those that are not; the request answers with
data of accounts it was asked for. -/
theorem C85_many {s s' : State} (hs : Reachable s) {ks : List Nat} {r : Reply} (h : fetchMany s ks = (s', r)) :
    ((∀ k ∈ ks, (s.accounts k).isSome = true) → ∃ l, r = .ready l ∧ s' = s ∧ l.map Prod.fst = ks ∧ ∀ x ∈ l, s.accounts x.1 = some x.2 ∧ x.2.addr = x.1) ∧
    ((∃ k ∈ ks, s.accounts k = none) → ∃ j st ms, r = .wait j ∧ s'.jobs[j]? = some ⟨.many ms, st, none⟩ ∧ ∀ k, k ∈ ms ↔ k ∈ ks ∧ s.accounts k = none) ∧
    (∀ (j : Nat) st ms l, s.jobs[j]? = some ⟨.many ms, st, some (.ok l)⟩ → ∀ x ∈ l, x.1 ∈ ms ∧ x.2.addr = x.1 ∧ st ≤ x.2.time) := by
  have I := hs.inv
  unfold fetchMany at h
  dsimp only at h
  refine ⟨?_, ?_, ?_⟩
  · intro hall
    have h0 : (ks.filter (fun k => (s.accounts k).isNone)).length = 0 := by
      rw [List.length_eq_zero_iff, List.filter_eq_nil_iff]
      intro k hk
      have := hall k hk
      cases hd : s.accounts k <;> simp [hd] at this ⊢
    rw [if_pos h0] at h
    cases h
    refine ⟨_, rfl, rfl, ?_, ?_⟩
    · clear h0
      induction ks with
      | nil => rfl
      | cons a ks ih =>
        have h1 := hall a (by simp)
        obtain ⟨d, hd⟩ := Option.isSome_iff_exists.1 h1
        have := ih (fun b hb => hall b (by simp [hb]))
        simp only [List.filterMap_cons, hd, Option.map_some, List.map_cons, this]
    · intro x hx
      obtain ⟨a, _, ha⟩ := List.mem_filterMap.1 hx
      cases hd : s.accounts a with
      | none => rw [hd] at ha; cases ha
      | some d => rw [hd] at ha; cases ha; exact ⟨hd, (I.data a d hd).1⟩
  · rintro ⟨k, hk, hn⟩
    have h0 : (ks.filter (fun k => (s.accounts k).isNone)).length ≠ 0 := by
      rw [ne_eq, List.length_eq_zero_iff, List.filter_eq_nil_iff]
      intro hh
      have := hh k hk
      simp [hn] at this
    rw [if_neg h0] at h
    obtain ⟨j, st, hr, hj⟩ := coalesce_running I h
    refine ⟨j, st, _, hr, hj, fun k => ?_⟩
    rw [List.mem_insertionSort, List.mem_filter, Option.isNone_iff_eq_none]
  · intro j st ms l hj x hx
    obtain ⟨h1, h2⟩ := I.answered j _ st _ hj
    exact ⟨h2 x hx, (h1 x hx).1, (h1 x hx).2.1⟩

/-- **C85, clearing** If no request is running when the cache is cleared, all data in the cache from then on was read after the clearing, and all running requests started after it. -/
theorem C85_fresh {s s' : State} (hs : Reachable s) (hn : ∀ (j : Nat) k st, s.jobs[j]? ≠ some ⟨k, st, none⟩) {ops : List Op} (h : Runs (clear s) ops s') :
    (∀ a d, s'.accounts a = some d → s.time ≤ d.time) ∧ (∀ (j : Nat) k st, s'.jobs[j]? = some ⟨k, st, none⟩ → s.time ≤ st) := by
  have I := hs.inv
  have J : Inv s.time (clear s) := ⟨Nat.le_refl _, (by intro a d h; cases h), (by intro p l h; cases h), I.reg, fun j k st h => absurd h (hn j k st), I.answered⟩
  have J' := inv_runs J h
  exact ⟨fun a d hd => (J'.data a d hd).2.1, fun j k st hj => (J'.started j k st hj).1⟩

/-- **C85, finding** A request that is running when the cache is cleared stores its answer afterwards: data read before the clearing is then returned. -/
theorem C85_stale_after_clear : ∃ (s s' : State) (ops : List Op), Reachable s ∧ Runs (clear s) ops s' ∧ ∃ d, (fetchOne s' 5).2 = .ready [(5, d)] ∧ d.time < s.time := by
  refine ⟨_, _, [.complete 0 (.ok [(5, ⟨5, 0⟩)])], ⟨[.one 5, .tick], .cons .one (.cons .tick .nil)⟩, .cons (.complete (k := .one 5) (st := 0) rfl ?_ rfl) .nil, ⟨5, 0⟩, ?_, ?_⟩
  · exact ⟨by intro x hx; simp at hx; subst hx; exact ⟨rfl, Nat.le_refl _, Nat.zero_le _⟩, _, rfl⟩
  · rfl
  · decide

/-- **C85, finding** If only some of several accounts are cached, the call returns only the others. -/
theorem C85_many_drops_cached : ∃ (s s' : State) (j : Nat), Reachable s ∧ (s.accounts 1).isSome = true ∧ fetchMany s [1, 2] = (s', .wait j) ∧
    ∃ st, s'.jobs[j]? = some ⟨.many [2], st, none⟩ ∧ ∀ l now, Fits (.many [2]) st now (.ok l) → ∀ x ∈ l, x.1 ≠ 1 := by
  refine ⟨_, _, 1, ⟨[.one 1, .complete 0 (.ok [(1, ⟨1, 0⟩)])], .cons .one (.cons (.complete (k := .one 1) (st := 0) rfl ?_ rfl) .nil)⟩, rfl, rfl, 0, rfl, ?_⟩
  · exact ⟨by intro x hx; simp at hx; subst hx; exact ⟨rfl, Nat.le_refl _, Nat.zero_le _⟩, _, rfl⟩
  · intro l now h x hx e
    have := h.2 x hx
    simp at this; omega

end Fetcher
end Mango
