import Verif.Client.PerpPnl
/-! # C86: the accounts with the largest settleable perp pnl -/
namespace Mango
namespace PerpPnl

/-- Specification: what can be settled of an account's pnl. Gains can be settled as they are; losses only up to what the account's health allows. -/
def canSettle (c : Cand) : Int := if 0 ≤ c.pnl then c.pnl else max c.pnl (-(max 0 c.maxSettle))

theorem settleable_eq (c : Cand) (h : c.pnl < 0) : settleable c = canSettle c := by
  unfold settleable canSettle; split_ifs <;> omega

theorem settleable_ge (c : Cand) (h : c.pnl < 0) : c.pnl ≤ settleable c := by
  unfold settleable; split_ifs <;> omega

theorem adjust_split (count : Nat) : ∀ (l : List Cand) (st : Nat), l.Pairwise (fun a b => a.pnl ≤ b.pnl) →
    ∃ P Q, l = P ++ Q ∧ adjust count st l = P.map fixed ++ Q.map raw ∧
      (Q = [] ∨ ∃ t, (∀ q ∈ Q, t ≤ q.pnl) ∧ count ≤ st + (P.filter (fun p => decide (settleable p ≤ t))).length) := by
  intro l
  induction l with
  | nil => intro st _; exact ⟨[], [], rfl, rfl, .inl rfl⟩
  | cons c rest ih =>
    intro st hp
    obtain ⟨hc, hr⟩ := List.pairwise_cons.mp hp
    have hnext : ∀ P Q, rest = P ++ Q → Q ≠ [] → ∃ d Q', Q = d :: Q' ∧ nextPnl rest ≤ d.pnl ∧ ∀ q ∈ Q, d.pnl ≤ q.pnl := by
      intro P Q e hQ
      obtain ⟨d, Q', rfl⟩ := List.exists_cons_of_ne_nil hQ
      refine ⟨d, Q', rfl, ?_, ?_⟩
      · subst e
        cases P with
        | nil => simp [nextPnl]
        | cons x P =>
          simp only [List.cons_append, nextPnl]
          exact (List.pairwise_cons.mp hr).1 d (by simp)
      · subst e
        have h2 := (List.pairwise_append.mp hr).2.1
        intro q hq
        rcases List.mem_cons.mp hq with rfl | hq
        · exact Int.le_refl _
        · exact (List.pairwise_cons.mp h2).1 q hq
    by_cases h1 : settleable c ≤ nextPnl rest
    · by_cases h2 : count ≤ st + 1
      · refine ⟨[c], rest, rfl, by simp [adjust, h1, h2], ?_⟩
        by_cases hn : rest = []
        · exact .inl hn
        · right
          obtain ⟨d, Q', e, hd, hq⟩ := hnext [] rest rfl hn
          refine ⟨d.pnl, hq, ?_⟩
          have : settleable c ≤ d.pnl := by omega
          simpa [this] using h2
      · obtain ⟨P, Q, e, ha, hq⟩ := ih (st + 1) hr
        refine ⟨c :: P, Q, by simp [e], by simp [adjust, h1, h2, ha], ?_⟩
        by_cases hn : Q = []
        · exact .inl hn
        · right
          obtain ⟨d, Q', e', hd, hq'⟩ := hnext P Q e hn
          rcases hq with hq | ⟨t, ht, hl⟩
          · exact absurd hq hn
          · have htd : t ≤ d.pnl := ht d (by simp [e'])
            refine ⟨d.pnl, hq', ?_⟩
            have hcd : settleable c ≤ d.pnl := by omega
            rw [List.filter_cons_of_pos (by simpa using hcd), List.length_cons]
            have hmono : (P.filter (fun p => decide (settleable p ≤ t))).length ≤ (P.filter (fun p => decide (settleable p ≤ d.pnl))).length := by
              rw [← List.countP_eq_length_filter, ← List.countP_eq_length_filter]
              apply List.countP_mono_left
              intro x _ hx
              simp only [decide_eq_true_eq] at hx ⊢
              omega
            omega
    · obtain ⟨P, Q, e, ha, hq⟩ := ih st hr
      refine ⟨c :: P, Q, by simp [e], by simp [adjust, h1, ha], ?_⟩
      rcases hq with hq | ⟨t, ht, hl⟩
      · exact .inl hq
      · right
        refine ⟨t, ht, ?_⟩
        have : (P.filter (fun p => decide (settleable p ≤ t))).length ≤ ((c :: P).filter (fun p => decide (settleable p ≤ t))).length := by
          rw [List.filter_cons]; split <;> simp
        omega

theorem oi_left (x : Entry) (t : Int) (hx : x.v ≤ t) (A R : List Entry) (hR : ∀ r ∈ R, t ≤ r.v) :
    (A ++ R).orderedInsert (fun a b => a.v ≤ b.v) x = A.orderedInsert (fun a b => a.v ≤ b.v) x ++ R := by
  induction A with
  | nil =>
    cases R with
    | nil => rfl
    | cons r R =>
      have := hR r (by simp)
      have h : x.v ≤ r.v := by omega
      simp [h]
  | cons a A ih =>
    simp only [List.cons_append, List.orderedInsert_cons]
    split
    · rfl
    · rw [ih]; rfl

theorem oi_right (x : Entry) (t : Int) (hx : t < x.v) (A R : List Entry) (hA : ∀ r ∈ A, r.v ≤ t) :
    (A ++ R).orderedInsert (fun a b => a.v ≤ b.v) x = A ++ R.orderedInsert (fun a b => a.v ≤ b.v) x := by
  induction A with
  | nil => rfl
  | cons a A ih =>
    have := hA a (by simp)
    simp only [List.cons_append, List.orderedInsert_cons]
    rw [if_neg (by omega), ih (fun r hr => hA r (by simp [hr]))]

theorem isort_split (t : Int) (Q : List Entry) (hQ : ∀ q ∈ Q, t ≤ q.v) (P : List Entry) :
    ∃ R, (P ++ Q).insertionSort (fun a b => a.v ≤ b.v) = (P.filter (fun p => decide (p.v ≤ t))).insertionSort (fun a b => a.v ≤ b.v) ++ R ∧
      (∀ r ∈ R, t ≤ r.v) ∧ R.Perm (P.filter (fun p => !decide (p.v ≤ t)) ++ Q) := by
  induction P with
  | nil =>
    refine ⟨Q.insertionSort (fun a b => a.v ≤ b.v), by simp, ?_, by simpa using List.perm_insertionSort _ Q⟩
    intro r hr; exact hQ r ((List.mem_insertionSort _).mp hr)
  | cons p P ih =>
    obtain ⟨R, e, hR, hp⟩ := ih
    by_cases h : p.v ≤ t
    · refine ⟨R, ?_, hR, by simpa [h] using hp⟩
      rw [List.cons_append, List.insertionSort_cons, e, oi_left p t h _ _ hR, List.filter_cons_of_pos (by simpa using h), List.insertionSort_cons]
    · refine ⟨R.orderedInsert (fun a b => a.v ≤ b.v) p, ?_, ?_, ?_⟩
      · rw [List.cons_append, List.insertionSort_cons, e, List.filter_cons_of_neg (by simpa using h)]
        apply oi_right p t (by omega)
        intro r hr
        have := (List.mem_insertionSort _).mp hr
        simpa using (List.mem_filter.mp this).2
      · intro r hr
        rcases List.mem_cons.mp ((List.perm_orderedInsert _ p R).mem_iff.mp hr) with rfl | hr
        · omega
        · exact hR r hr
      · refine (List.perm_orderedInsert _ p R).trans ?_
        rw [List.filter_cons_of_pos (by simpa using h), List.cons_append]
        exact hp.cons p

/-- Among the accounts that have a loss, `fetch_top` for losses returns the `count` (or all, if there are fewer) from which most can be settled, with the amounts that can be settled from them, largest loss
first: with the accounts left out they make up all of them, and none of those left out has more to settle than one that is returned. This although the limit from the health is only computed for some of the accounts. -/
theorem C86_losses (l : List Cand) (count : Nat) :
    let out := fetchTop l .maxNegative count
    ∃ rest : List Cand,
      (out.map Entry.cand ++ rest).Perm (l.filter (fun c => decide (c.pnl < 0))) ∧
      (∀ e ∈ out, e.v = canSettle e.cand) ∧
      out.Pairwise (fun a b => a.v ≤ b.v) ∧
      (∀ e ∈ out, ∀ c ∈ rest, e.v ≤ canSettle c) ∧
      out.length = min count (l.filter (fun c => decide (c.pnl < 0))).length := by
  intro out
  have hsort := List.pairwise_insertionSort (fun a b : Cand => a.pnl ≤ b.pnl) (l.filter (fun c => decide (c.pnl < 0)))
  obtain ⟨P, Q, hl, ha, hq⟩ := adjust_split count _ 0 hsort
  have hPQ : (P ++ Q).Perm (l.filter (fun c => decide (c.pnl < 0))) := hl ▸ List.perm_insertionSort _ _
  have hneg : ∀ c ∈ P ++ Q, c.pnl < 0 := by
    intro c hc
    simpa using (List.mem_filter.mp (hPQ.mem_iff.mp hc)).2
  have hout : out = ((P.map fixed ++ Q.map raw).insertionSort (fun a b => a.v ≤ b.v)).take count := by
    simp only [out, fetchTop, ha]
  have hs := List.pairwise_insertionSort (fun a b : Entry => a.v ≤ b.v) (P.map fixed ++ Q.map raw)
  have hperm := List.perm_insertionSort (fun a b : Entry => a.v ≤ b.v) (P.map fixed ++ Q.map raw)
  have hlen : ((P.map fixed ++ Q.map raw).insertionSort (fun a b => a.v ≤ b.v)).length = (l.filter (fun c => decide (c.pnl < 0))).length := by
    rw [hperm.length_eq, ← hPQ.length_eq]; simp
  have hmapc : (P.map fixed ++ Q.map raw).map Entry.cand = P ++ Q := by
    simp [Function.comp_def, fixed, raw]
  refine ⟨(((P.map fixed ++ Q.map raw).insertionSort (fun a b => a.v ≤ b.v)).drop count).map Entry.cand, ?_, ?_, ?_, ?_, ?_⟩
  · rw [hout, ← List.map_append, List.take_append_drop]
    exact ((hperm.map Entry.cand).trans (by rw [hmapc])).trans hPQ
  · -- values
    rcases hq with hq | ⟨t, ht, hcnt⟩
    · intro e he
      rw [hout] at he
      have := hperm.mem_iff.mp (List.mem_of_mem_take he)
      rw [hq] at this
      simp only [List.map_nil, List.append_nil, List.mem_map] at this
      obtain ⟨c, hc, rfl⟩ := this
      exact settleable_eq c (hneg c (by simp [hc]))
    · obtain ⟨R, e, hR, hp⟩ := isort_split t (Q.map raw) (by simpa [raw] using ht) (P.map fixed)
      intro x hx
      rw [hout, e] at hx
      have hcl : count ≤ ((List.filter (fun p => decide (p.v ≤ t)) (P.map fixed)).insertionSort (fun a b => a.v ≤ b.v)).length := by
        rw [List.length_insertionSort, List.filter_map, List.length_map]
        have e2 : (fun p : Entry => decide (p.v ≤ t)) ∘ fixed = fun p => decide (settleable p ≤ t) := rfl
        rw [e2]; omega
      rw [List.take_append_of_le_length hcl] at hx
      have := (List.mem_filter.mp ((List.mem_insertionSort _).mp (List.mem_of_mem_take hx))).1
      obtain ⟨c, hc, rfl⟩ := List.mem_map.mp this
      exact settleable_eq c (hneg c (by simp [hc]))
  · rw [hout]; exact hs.sublist (List.take_sublist _ _)
  · intro e he c hc
    rw [hout] at he
    obtain ⟨y, hy, rfl⟩ := List.mem_map.mp hc
    have hey : e.v ≤ y.v := by
      have h2 := hs
      rw [← List.take_append_drop count (List.insertionSort _ _)] at h2
      exact (List.pairwise_append.mp h2).2.2 e he y hy
    have hym := hperm.mem_iff.mp (List.mem_of_mem_drop hy)
    rcases List.mem_append.mp hym with h | h
    · obtain ⟨d, hd, rfl⟩ := List.mem_map.mp h
      show _ ≤ canSettle d
      rw [← settleable_eq d (hneg d (by simp [hd]))]; exact hey
    · obtain ⟨d, hd, rfl⟩ := List.mem_map.mp h
      have := hneg d (by simp [hd])
      show _ ≤ canSettle d
      rw [← settleable_eq d this]
      have := settleable_ge d this
      simp only [raw] at hey
      omega
  · rw [hout, List.length_take, hlen]

/-- The same for gains, which are not limited by the health. -/
theorem C86_gains (l : List Cand) (count : Nat) :
    let out := fetchTop l .maxPositive count
    ∃ rest : List Cand,
      (out.map Entry.cand ++ rest).Perm (l.filter (fun c => decide (0 < c.pnl))) ∧
      (∀ e ∈ out, e.v = canSettle e.cand) ∧
      out.Pairwise (fun a b => b.v ≤ a.v) ∧
      (∀ e ∈ out, ∀ c ∈ rest, canSettle c ≤ e.v) ∧
      out.length = min count (l.filter (fun c => decide (0 < c.pnl))).length := by
  intro out
  set S := (l.filter (fun c => decide (0 < c.pnl))).insertionSort (fun a b => b.pnl ≤ a.pnl) with hS
  have hout : out = (S.take count).map raw := by simp only [out, fetchTop, List.map_take]; rfl
  have hs : S.Pairwise (fun a b => b.pnl ≤ a.pnl) := by
    have : IsTotal Cand (fun a b => b.pnl ≤ a.pnl) := ⟨fun a b => by omega⟩
    have : IsTrans Cand (fun a b => b.pnl ≤ a.pnl) := ⟨fun a b c h1 h2 => by omega⟩
    exact List.pairwise_insertionSort (fun a b : Cand => b.pnl ≤ a.pnl) _
  have hperm : S.Perm (l.filter (fun c => decide (0 < c.pnl))) := List.perm_insertionSort _ _
  have hval : ∀ c ∈ S, c.pnl = canSettle c := by
    intro c hc
    have h : 0 < c.pnl := by simpa using (List.mem_filter.mp (hperm.mem_iff.mp hc)).2
    unfold canSettle; rw [if_pos (by omega)]
  refine ⟨S.drop count, ?_, ?_, ?_, ?_, ?_⟩
  · have : out.map Entry.cand = S.take count := by rw [hout]; simp [Function.comp_def, raw]
    rw [this, List.take_append_drop]; exact hperm
  · intro e he
    rw [hout] at he
    obtain ⟨c, hc, rfl⟩ := List.mem_map.mp he
    exact hval c (List.mem_of_mem_take hc)
  · rw [hout, List.pairwise_map]; exact hs.sublist (List.take_sublist _ _)
  · intro e he c hc
    rw [hout] at he
    obtain ⟨d, hd, rfl⟩ := List.mem_map.mp he
    rw [← hval c (List.mem_of_mem_drop hc)]
    have h2 := hs
    rw [← List.take_append_drop count S] at h2
    exact (List.pairwise_append.mp h2).2.2 d hd c hc
  · rw [hout, List.length_map, List.length_take, hperm.length_eq]

/-- a later account can have more to settle than the first ones: the health of the first two lets them settle 10 and nothing -/
def exCands : List Cand := [⟨1, -50, 60⟩, ⟨2, -100, 10⟩, ⟨3, 40, 0⟩, ⟨4, -80, -5⟩, ⟨5, -20, 60⟩, ⟨6, 70, 0⟩]

example : (fetchTop exCands .maxNegative 2).map (fun e => (e.cand.key, e.v)) = [(1, -50), (5, -20)] := by decide +kernel
example : (fetchTop exCands .maxPositive 5).map (fun e => (e.cand.key, e.v)) = [(6, 70), (3, 40)] := by decide +kernel

/-- Read from the code: the filter on the sign is not repeated after the limit from the health is applied, so accounts from which nothing can be settled are returned if there are not enough others. -/
theorem C86_returns_nothing_to_settle :
    ∃ (l : List Cand) (count : Nat), ∃ e ∈ fetchTop l .maxNegative count, canSettle e.cand = 0 :=
  ⟨exCands, 4, ⟨⟨4, -80, -5⟩, 0⟩, by decide +kernel, by decide⟩

end PerpPnl
end Mango
