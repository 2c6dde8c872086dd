import Verif.Bots.Persist
import Verif.Props.StablePrice
import Mathlib.Tactic.Linarith
import Mathlib.Tactic.Ring
import Mathlib.Tactic.Positivity
import Mathlib.Data.List.Nodup
/-!
# C100: the health monitoring service
-/
namespace Mango
namespace Persist

/-! ## Specification -/

/-- the view `health_current` shows `p` for the account -/
def Current (db : List (Nat × Point)) (k : Nat) (p : Point) : Prop := (k, p) ∈ db ∧ ∀ p', (k, p') ∈ db → p'.time < p.time ∨ p' = p

/-- what is stored is close to a new value `v` computed at `t`: younger than the period, of the same kind, with the same flag and on the same side of zero; a positive ratio differs by at most a tenth (up to `ε`, the precision of f64) -/
def Close (ε : ℚ) (period : Int) (p : Point) (t : Int) (v : Option Value) : Prop :=
  t - p.time < period ∧ ((p.value = none ∧ v = none) ∨ ∃ a b, p.value = some a ∧ v = some b ∧ a.being = b.being ∧ (a.ratio ≤ 0 ↔ b.ratio ≤ 0) ∧
    (0 < a.ratio → (1 - ε) ^ 2 * |a.ratio - b.ratio| ≤ (1 + ε) / 10 * a.ratio))

/-- a history of the service: it starts with what the view shows; events come in the order of their times, and each has all accounts of the one before (health.rs only ever adds accounts). `t`: the time of the latest event, `ks`: its accounts -/
inductive Hist (rnd : ℚ → ℚ) (period : Int) (cap : Nat) : State → Int → List Nat → Prop
  | start {previous : Map} {db : List (Nat × Point)} {t : Int} : (∀ k p, previous.get k = some p → Current db k p) → (∀ k, previous.get k = none → ∀ r ∈ db, r.1 ≠ k) → (∀ r ∈ db, r.2.time ≤ t) →
      Hist rnd period cap ⟨previous, db, []⟩ t []
  | event {s : State} {t : Int} {ks : List Nat} {e : Event} {os : List Outcome} : Hist rnd period cap s t ks → t < e.time → (e.components.map Prod.fst).Nodup → (∀ k ∈ ks, k ∈ e.components.map Prod.fst) →
      Hist rnd period cap (step rnd period cap s (e, os)) e.time (e.components.map Prod.fst)

/-! ## Maps -/

theorem get_cons (x : Nat × Point) (m : Map) (k : Nat) : Map.get (x :: m) k = if x.1 = k then some x.2 else Map.get m k := by
  unfold Map.get
  rw [List.find?_cons]
  by_cases h : x.1 = k
  · simp [h]
  · have : (x.1 == k) = false := by simpa using h
    rw [this, if_neg h]

theorem get_filter (m : Map) (a k : Nat) (h : k ≠ a) : Map.get (m.filter (fun y => y.1 != a)) k = Map.get m k := by
  induction m with
  | nil => rfl
  | cons x m ih =>
    by_cases hx : x.1 = a
    · rw [List.filter_cons_of_neg (by simp [hx]), ih, get_cons, if_neg (by omega)]
    · rw [List.filter_cons_of_pos (by simp [hx]), get_cons, get_cons, ih]

theorem get_put (m : Map) (x : Nat × Point) (k : Nat) : Map.get (m.put x) k = if x.1 = k then some x.2 else Map.get m k := by
  unfold Map.put
  rw [get_cons]
  by_cases h : x.1 = k
  · rw [if_pos h, if_pos h]
  · rw [if_neg h, if_neg h, get_filter _ _ _ (Ne.symm h)]

theorem get_isSome (m : Map) (k : Nat) : (Map.get m k).isSome = true ↔ k ∈ m.map Prod.fst := by
  induction m with
  | nil => simp [Map.get]
  | cons x m ih =>
    rw [get_cons, List.map_cons, List.mem_cons]
    by_cases h : x.1 = k
    · simp [h]
    · rw [if_neg h, ih]
      exact ⟨Or.inr, fun h' => h'.resolve_left (Ne.symm h)⟩

theorem get_mem {m : Map} {k : Nat} {p : Point} (h : Map.get m k = some p) : (k, p) ∈ m := by
  induction m with
  | nil => simp [Map.get] at h
  | cons x m ih =>
    rw [get_cons] at h
    by_cases hx : x.1 = k
    · rw [if_pos hx] at h; cases h; subst hx; exact List.mem_cons_self
    · rw [if_neg hx] at h; exact List.mem_cons_of_mem _ (ih h)

theorem mem_get {m : Map} (hn : (m.map Prod.fst).Nodup) {k : Nat} {p : Point} (h : (k, p) ∈ m) : Map.get m k = some p := by
  induction m with
  | nil => simp at h
  | cons x m ih =>
    rw [List.map_cons, List.nodup_cons] at hn
    rw [get_cons]
    rcases List.mem_cons.mp h with rfl | h
    · rw [if_pos rfl]
    · rw [if_neg, ih hn.2 h]
      intro hx
      exact hn.1 (List.mem_map.2 ⟨_, h, hx.symm⟩)

theorem nodup_put {m : Map} (hn : (m.map Prod.fst).Nodup) (x : Nat × Point) : ((m.put x).map Prod.fst).Nodup := by
  unfold Map.put
  rw [List.map_cons, List.nodup_cons]
  refine ⟨?_, hn.sublist (List.filter_sublist.map _)⟩
  intro h
  obtain ⟨y, hy, hyx⟩ := List.mem_map.1 h
  have := (List.mem_filter.1 hy).2
  simp [hyx] at this

theorem nodup_puts (us : List (Nat × Point)) : ∀ {m : Map}, (m.map Prod.fst).Nodup → ((m.puts us).map Prod.fst).Nodup := by
  induction us with
  | nil => intro m h; exact h
  | cons u us ih => intro m h; exact ih (nodup_put h u)

theorem get_puts (us : List (Nat × Point)) (hn : (us.map Prod.fst).Nodup) : ∀ (m : Map) (k : Nat), Map.get (m.puts us) k = (Map.get us k).or (Map.get m k) := by
  induction us with
  | nil => intro m k; rfl
  | cons u us ih =>
    intro m k
    rw [List.map_cons, List.nodup_cons] at hn
    show Map.get ((m.put u).puts us) k = _
    rw [ih hn.2, get_put, get_cons]
    by_cases h : u.1 = k
    · rw [if_pos h, if_pos h]
      have : Map.get us k = none := by
        cases hg : Map.get us k with
        | none => rfl
        | some p => exact absurd (List.mem_map.2 ⟨_, get_mem hg, h.symm⟩) hn.1
      rw [this]; rfl
    · rw [if_neg h, if_neg h]

/-! ## Invariant -/

/-- not later, and if at the same time the same -/
def Le (p q : Point) : Prop := p.time < q.time ∨ p = q

def Known (previous : Map) (db : List (Nat × Point)) (k : Nat) : Prop :=
  (∀ p, previous.get k = some p → Current db k p) ∧ (previous.get k = none → ∀ r ∈ db, r.1 ≠ k)

/-- about the points of the queue -/
structure QInv (db : List (Nat × Point)) (q : List Snapshot) : Prop where
  nodup : ∀ s ∈ q, (s.value.map Prod.fst).Nodup
  keys : q.Pairwise (fun s t => ∀ k p, s.value.get k = some p → ∃ p', t.value.get k = some p' ∧ Le p p')
  rows : ∀ k r, (k, r) ∈ db → ∀ s ∈ q, ∀ p, s.value.get k = some p → Le r p

theorem not_row {m : Map} {k : Nat} (h : Map.get m k = none) (r : Point) : (k, r) ∉ m := by
  intro hm
  have : (Map.get m k).isSome = true := (get_isSome m k).2 (List.mem_map.2 ⟨_, hm, rfl⟩)
  rw [h] at this
  cases this

theorem known_append {previous : Map} {db : List (Nat × Point)} {k : Nat} (h : Known previous db k) {m : Map} (hm : Map.get m k = none) : Known previous (db ++ m) k := by
  refine ⟨fun p hp => ⟨List.mem_append_left _ (h.1 p hp).1, fun p' hp' => ?_⟩, fun hp r hr => ?_⟩
  · rcases List.mem_append.1 hp' with h' | h'
    · exact (h.1 p hp).2 p' h'
    · exact absurd h' (not_row hm p')
  · rcases List.mem_append.1 hr with h' | h'
    · exact h.2 hp r h'
    · rintro rfl; exact not_row hm r.2 h'

theorem qinv_append {db : List (Nat × Point)} {s : Snapshot} {q : List Snapshot} (h : QInv db (s :: q)) : QInv (db ++ s.value) (s :: q) := by
  refine ⟨h.nodup, h.keys, ?_⟩
  intro k r hr t ht p hp
  rcases List.mem_append.1 hr with h' | h'
  · exact h.rows k r h' t ht p hp
  · have hg := mem_get (h.nodup s (by simp)) h'
    rcases List.mem_cons.mp ht with rfl | ht
    · rw [hg] at hp; cases hp; exact Or.inr rfl
    · obtain ⟨p', h1, h2⟩ := (List.pairwise_cons.1 h.keys).1 t ht k r hg
      rw [hp] at h1; cases h1; exact h2

theorem qinv_tail {db : List (Nat × Point)} {s : Snapshot} {q : List Snapshot} (h : QInv db (s :: q)) : QInv db q :=
  ⟨fun t ht => h.nodup t (List.mem_cons_of_mem _ ht), (List.pairwise_cons.1 h.keys).2, fun k r hr t ht => h.rows k r hr t (List.mem_cons_of_mem _ ht)⟩

theorem persist_spec (q : List Snapshot) : ∀ (os : List Outcome) (previous : Map) (db : List (Nat × Point)), QInv db q →
    (∀ k, (∀ s ∈ q, s.value.get k = none) → Known previous db k) →
    QInv (persist os previous db q).db (persist os previous db q).queue ∧ (persist os previous db q).queue <:+ q ∧
    (∀ k, (∀ s ∈ (persist os previous db q).queue, s.value.get k = none) → Known (persist os previous db q).previous (persist os previous db q).db k) ∧
    (∀ x ∈ (persist os previous db q).db, x ∈ db ∨ ∃ s ∈ q, x ∈ s.value) ∧
    (∀ k, (∀ s ∈ q, s.value.get k = none) → (persist os previous db q).previous.get k = previous.get k) ∧
    ((persist os previous db q).queue = [] → ∀ k s p, q.getLast? = some s → s.value.get k = some p → (persist os previous db q).previous.get k = some p) := by
  induction q with
  | nil =>
    intro os previous db h1 h2
    unfold persist
    exact ⟨h1, List.suffix_refl _, h2, fun x hx => Or.inl hx, fun _ _ => rfl, fun _ k s p h => by simp at h⟩
  | cons s q ih =>
    intro os previous db h1 h2
    have hlast : ∀ t, (s :: q).getLast? = some t → (q = [] ∧ t = s) ∨ q.getLast? = some t := by
      intro t ht
      cases q with
      | nil => left; simp at ht; exact ⟨rfl, ht.symm⟩
      | cons a q => right; rw [List.getLast?_cons_cons] at ht; exact ht
    by_cases he : s.value.length = 0
    · have hnil : s.value = [] := List.length_eq_zero_iff.1 he
      have hget : ∀ k, s.value.get k = none := by intro k; rw [hnil]; rfl
      have hr : persist os previous db (s :: q) = persist os previous db q := by rw [persist.eq_def]; dsimp only; rw [if_pos he]
      rw [hr]
      obtain ⟨i1, i2, i3, i4, i5, i6⟩ := ih os previous db (qinv_tail h1) (fun k hk => h2 k (by intro t ht; rcases List.mem_cons.mp ht with rfl | ht; exacts [hget k, hk t ht]))
      refine ⟨i1, i2.trans (List.suffix_cons _ _), i3, ?_, ?_, ?_⟩
      · intro x hx
        rcases i4 x hx with h | ⟨t, ht, hxt⟩
        · exact Or.inl h
        · exact Or.inr ⟨t, List.mem_cons_of_mem _ ht, hxt⟩
      · exact fun k hk => i5 k (fun t ht => hk t (List.mem_cons_of_mem _ ht))
      · intro hq k t p ht hp
        rcases hlast t ht with ⟨_, rfl⟩ | ht
        · rw [hget k] at hp; cases hp
        · exact i6 hq k t p ht hp
    have hfail : ∀ db', (db' = db ∨ db' = db ++ s.value) → QInv db' (s :: q) ∧ (s :: q) <:+ (s :: q) ∧ (∀ k, (∀ t ∈ s :: q, t.value.get k = none) → Known previous db' k) ∧
        (∀ x ∈ db', x ∈ db ∨ ∃ t ∈ s :: q, x ∈ t.value) ∧ (∀ k, (∀ t ∈ s :: q, t.value.get k = none) → previous.get k = previous.get k) ∧
        (s :: q = [] → ∀ k t p, (s :: q).getLast? = some t → t.value.get k = some p → previous.get k = some p) := by
      intro db' hdb
      rcases hdb with rfl | rfl
      · exact ⟨h1, List.suffix_refl _, h2, fun x hx => Or.inl hx, fun _ _ => rfl, fun h => by cases h⟩
      · refine ⟨qinv_append h1, List.suffix_refl _, fun k hk => known_append (h2 k hk) (hk s (by simp)), fun x hx => ?_, fun _ _ => rfl, fun h => by cases h⟩
        rcases List.mem_append.1 hx with h | h
        · exact Or.inl h
        · exact Or.inr ⟨s, by simp, h⟩
    cases os with
    | nil =>
      have hr : persist [] previous db (s :: q) = ⟨previous, db, s :: q⟩ := by rw [persist, if_neg he]
      rw [hr]; exact hfail db (Or.inl rfl)
    | cons o os =>
      cases o with
      | failed b =>
        cases b with
        | true =>
          have hr : persist (.failed true :: os) previous db (s :: q) = ⟨previous, db ++ s.value, s :: q⟩ := by rw [persist, if_neg he]
          rw [hr]; exact hfail _ (Or.inr rfl)
        | false =>
          have hr : persist (.failed false :: os) previous db (s :: q) = ⟨previous, db, s :: q⟩ := by rw [persist, if_neg he]
          rw [hr]; exact hfail _ (Or.inl rfl)
      | ok =>
        have hr : persist (.ok :: os) previous db (s :: q) = persist os (previous.puts s.value) (db ++ s.value) q := by rw [persist, if_neg he]
        rw [hr]
        have hnd := h1.nodup s (by simp)
        have hgp : ∀ k, (previous.puts s.value).get k = (s.value.get k).or (previous.get k) := fun k => get_puts s.value hnd previous k
        obtain ⟨i1, i2, i3, i4, i5, i6⟩ := ih os (previous.puts s.value) (db ++ s.value) (qinv_tail (qinv_append h1)) (by
          intro k hk
          cases hs : s.value.get k with
          | none =>
            have := known_append (h2 k (by intro t ht; rcases List.mem_cons.mp ht with rfl | ht; exacts [hs, hk t ht])) hs
            refine ⟨fun p hp => this.1 p ?_, fun hp => this.2 ?_⟩
            · rw [hgp, hs] at hp; exact hp
            · rw [hgp, hs] at hp; exact hp
          | some p =>
            refine ⟨fun p' hp' => ?_, fun hp' => ?_⟩
            · rw [hgp, hs] at hp'
              cases hp'
              refine ⟨List.mem_append_right _ (get_mem hs), fun r hr => ?_⟩
              rcases List.mem_append.1 hr with h | h
              · exact h1.rows k r h s (by simp) p hs
              · rw [mem_get hnd h] at hs; cases hs; exact Or.inr rfl
            · rw [hgp, hs] at hp'; cases hp')
        refine ⟨i1, i2.trans (List.suffix_cons _ _), i3, ?_, ?_, ?_⟩
        · intro x hx
          rcases i4 x hx with h | ⟨t, ht, hxt⟩
          · rcases List.mem_append.1 h with h | h
            · exact Or.inl h
            · exact Or.inr ⟨s, by simp, h⟩
          · exact Or.inr ⟨t, List.mem_cons_of_mem _ ht, hxt⟩
        · intro k hk
          rw [i5 k (fun t ht => hk t (List.mem_cons_of_mem _ ht)), hgp, hk s (by simp)]; rfl
        · intro hq k t p ht hp
          rcases hlast t ht with ⟨hqn, rfl⟩ | ht
          · rw [i5 k (by intro t ht; rw [hqn] at ht; simp at ht), hgp, hp]; rfl
          · exact i6 hq k t p ht hp

/-! ## Receiving an event -/

theorem round_eq {n t : Int} (h : 0 < n) : round n t = (2 * t + n) / (2 * n) * n := by
  unfold round
  rw [if_neg (by omega)]
  dsimp only
  have h1 := Int.emod_add_mul_ediv t n
  have h2 := Int.emod_nonneg t (by omega : n ≠ 0)
  have h3 := Int.emod_lt_of_pos t h
  generalize t % n = d at *
  generalize t / n = k at *
  have key : ∀ m : Int, 2 * n * m ≤ 2 * t + n → 2 * t + n < 2 * n * (m + 1) → (2 * t + n) / (2 * n) = m := by
    intro m ha hb
    apply le_antisymm
    · exact Int.lt_add_one_iff.1 (Int.ediv_lt_of_lt_mul (by omega) (by rw [show (m + 1) * (2 * n) = 2 * n * (m + 1) by ring]; exact hb))
    · exact Int.le_ediv_of_mul_le (by omega) (by rw [show m * (2 * n) = 2 * n * m by ring]; exact ha)
  by_cases h0 : d = 0
  · rw [if_pos h0, key k (by nlinarith) (by nlinarith)]; rw [Int.mul_comm]; omega
  · rw [if_neg h0]
    by_cases h4 : n - d ≤ d
    · rw [if_pos h4, key (k + 1) (by nlinarith) (by nlinarith), Int.add_mul, Int.mul_comm k n]; omega
    · rw [if_neg h4, key k (by nlinarith) (by nlinarith), Int.mul_comm k n]; omega

theorem round_mono {n t u : Int} (h : t ≤ u) : round n t ≤ round n u := by
  by_cases hn : 0 < n
  · rw [round_eq hn, round_eq hn]
    exact Int.mul_le_mul_of_nonneg_right (Int.ediv_le_ediv (by omega) (by omega)) (by omega)
  · unfold round
    rw [if_pos (by omega), if_pos (by omega)]

structure Inv (period : Int) (s : State) (t : Int) (ks : List Nat) : Prop where
  q : QInv s.db s.queue
  known : ∀ k, (∀ x ∈ s.queue, x.value.get k = none) → Known s.previous s.db k
  buckets : s.queue.Pairwise (fun x y => x.bucket < y.bucket)
  latest : ∀ x ∈ s.queue, x.bucket ≤ round period t
  times : ∀ r ∈ s.db, r.2.time ≤ t
  qtimes : ∀ x ∈ s.queue, ∀ k p, x.value.get k = some p → p.time ≤ t ∧ k ∈ ks

theorem amend_last {b : Int} {us : List (Nat × Point)} : ∀ {q : List Snapshot}, q.Pairwise (fun x y => x.bucket < y.bucket) → (∀ x ∈ q, x.bucket ≤ b) → (∃ x ∈ q, x.bucket = b) →
    ∃ init l, q = init ++ [l] ∧ l.bucket = b ∧ amend b us q = init ++ [⟨b, l.value.puts us⟩] := by
  intro q
  induction q with
  | nil => intro _ _ ⟨x, hx, _⟩; simp at hx
  | cons s q ih =>
    intro hp hle ⟨x, hx, hxb⟩
    have hp' := List.pairwise_cons.1 hp
    by_cases hs : s.bucket = b
    · have hq : q = [] := by
        cases q with
        | nil => rfl
        | cons a q =>
          have := hp'.1 a (by simp)
          have := hle a (by simp)
          omega
      subst hq
      refine ⟨[], s, rfl, hs, ?_⟩
      unfold amend
      rw [if_pos hs, hs]; rfl
    · have hxq : x ∈ q := by
        rcases List.mem_cons.mp hx with rfl | h
        · exact absurd hxb hs
        · exact h
      obtain ⟨init, l, h1, h2, h3⟩ := ih hp'.2 (fun y hy => hle y (List.mem_cons_of_mem _ hy)) ⟨x, hxq, hxb⟩
      refine ⟨s :: init, l, by rw [h1]; rfl, h2, ?_⟩
      unfold amend
      rw [if_neg hs, h3]; rfl

theorem ite_some' {α : Type} {c : Prop} [Decidable c] {a b : α} (h : (if c then some a else none) = some b) : c ∧ a = b := by
  by_cases hc : c
  · rw [if_pos hc] at h; exact ⟨hc, Option.some.inj h⟩
  · rw [if_neg hc] at h; cases h

theorem updates_get {rnd : ℚ → ℚ} {previous : Map} {q : List Snapshot} {e : Event} {period : Int} (hn : (e.components.map Prod.fst).Nodup) :
    ((updates rnd previous q e period).map Prod.fst).Nodup ∧
    (∀ k p, Map.get (updates rnd previous q e period) k = some p → p.time = e.time ∧ (k, p.value) ∈ e.components) ∧
    (∀ c ∈ e.components, (shouldInsert rnd previous c.1 ⟨e.time, c.2⟩ period = true ∨ ∃ l, q.getLast? = some l ∧ (l.value.get c.1).isSome = true) → Map.get (updates rnd previous q e period) c.1 = some ⟨e.time, c.2⟩) := by
  have hmem : ∀ x, x ∈ updates rnd previous q e period → x.2.time = e.time ∧ (x.1, x.2.value) ∈ e.components := by
    intro x hx
    unfold updates at hx
    obtain ⟨c, hc, hcx⟩ := List.mem_filterMap.1 hx
    obtain ⟨_, rfl⟩ := ite_some' hcx
    exact ⟨rfl, hc⟩
  have hnd : ((updates rnd previous q e period).map Prod.fst).Nodup := by
    unfold updates
    dsimp only
    generalize e.components = cs at hn
    induction cs with
    | nil => simp
    | cons c cs ih =>
      rw [List.map_cons, List.nodup_cons] at hn
      rw [List.filterMap_cons]
      split
      · exact ih hn.2
      · rename_i b hb
        rw [List.map_cons, List.nodup_cons]
        refine ⟨?_, ih hn.2⟩
        intro hin
        apply hn.1
        obtain ⟨y, hy, hyb⟩ := List.mem_map.1 hin
        obtain ⟨d, hd, hdy⟩ := List.mem_filterMap.1 hy
        have e1 : b.1 = c.1 := by
          obtain ⟨_, rfl⟩ := ite_some' hb; rfl
        have e2 : y.1 = d.1 := by
          obtain ⟨_, rfl⟩ := ite_some' hdy; rfl
        exact List.mem_map.2 ⟨d, hd, by rw [← e2, hyb, e1]⟩
  refine ⟨hnd, fun k p h => hmem (k, p) (get_mem h), ?_⟩
  intro c hc h
  apply mem_get hnd
  unfold updates
  refine List.mem_filterMap.2 ⟨c, hc, ?_⟩
  dsimp only
  rw [if_pos]
  rcases h with h | ⟨l, hl, hg⟩
  · exact Or.inl h
  · right; rw [hl]; exact hg

theorem store_spec {rnd : ℚ → ℚ} {period : Int} {cap : Nat} {s : State} {t : Int} {ks : List Nat} {e : Event} (h : Inv period s t ks) (ht : t < e.time)
    (hn : (e.components.map Prod.fst).Nodup) (hk : ∀ k ∈ ks, k ∈ e.components.map Prod.fst) :
    ∃ init v, store rnd s.previous s.queue e period cap = init ++ [⟨round period e.time, v⟩] ∧ init.Sublist s.queue ∧ (v.map Prod.fst).Nodup ∧ (∀ x ∈ init, x.bucket < round period e.time) ∧
      (∀ k, v.get k = Map.get (updates rnd s.previous s.queue e period) k) ∧
      (∀ x ∈ s.queue, ∀ k p, x.value.get k = some p → ∃ v, (k, v) ∈ e.components ∧ Map.get (updates rnd s.previous s.queue e period) k = some ⟨e.time, v⟩) := by
  obtain ⟨u1, u2, u3⟩ := updates_get (rnd := rnd) (previous := s.previous) (q := s.queue) (period := period) hn
  have hall : ∀ x ∈ s.queue, ∀ k p, x.value.get k = some p → ∃ v, (k, v) ∈ e.components ∧ Map.get (updates rnd s.previous s.queue e period) k = some ⟨e.time, v⟩ := by
    intro x hx k p hp
    obtain ⟨c, hc, hck⟩ := List.mem_map.1 (hk k (h.qtimes x hx k p hp).2)
    subst hck
    refine ⟨c.2, hc, u3 c hc (Or.inr ?_)⟩
    cases hq : s.queue.getLast? with
    | none => rw [List.getLast?_eq_none_iff] at hq; rw [hq] at hx; simp at hx
    | some l =>
      refine ⟨l, rfl, ?_⟩
      obtain ⟨init, hl⟩ := List.getLast?_eq_some_iff.1 hq
      rw [hl] at hx
      rcases List.mem_append.1 hx with hx | hx
      · have hpw := h.q.keys
        rw [hl, List.pairwise_append] at hpw
        obtain ⟨p', hp', _⟩ := hpw.2.2 x hx l (by simp) c.1 p hp
        rw [hp']; rfl
      · have : x = l := by simpa using hx
        subst this; rw [hp]; rfl
  have hle : ∀ x ∈ s.queue, x.bucket ≤ round period e.time := fun x hx => le_trans (h.latest x hx) (round_mono (le_of_lt ht))
  unfold store
  dsimp only
  by_cases hany : s.queue.any (fun x => decide (x.bucket = round period e.time)) = true
  · rw [if_pos hany]
    have hex : ∃ x ∈ s.queue, x.bucket = round period e.time := by
      obtain ⟨x, hx, hxb⟩ := List.any_eq_true.1 hany
      exact ⟨x, hx, of_decide_eq_true hxb⟩
    obtain ⟨init, l, h1, h2, h3⟩ := amend_last (us := updates rnd s.previous s.queue e period) h.buckets hle hex
    refine ⟨init, _, h3, by rw [h1]; exact List.sublist_append_left _ _, nodup_puts _ (h.q.nodup l (by rw [h1]; simp)), ?_, ?_, hall⟩
    · intro x hx
      have hb := h.buckets
      rw [h1, List.pairwise_append] at hb
      have := hb.2.2 x hx l (by simp)
      omega
    · intro k
      rw [get_puts _ u1]
      cases hg : l.value.get k with
      | none => cases Map.get (updates rnd s.previous s.queue e period) k <;> rfl
      | some p =>
        obtain ⟨v, _, hv⟩ := hall l (by rw [h1]; simp) k p hg
        rw [hv]; rfl
  · rw [if_neg hany]
    refine ⟨_, _, rfl, ?_, nodup_puts _ (by simp), ?_, ?_, hall⟩
    · split
      · exact List.drop_sublist _ _
      · exact List.Sublist.refl _
    · intro x hx
      have hx : x ∈ s.queue := by
        split at hx
        · exact List.mem_of_mem_drop hx
        · exact hx
      have hne : x.bucket ≠ round period e.time := by
        intro hb
        apply hany
        exact List.any_eq_true.2 ⟨x, hx, decide_eq_true hb⟩
      have := hle x hx
      omega
    · intro k
      rw [get_puts _ u1]
      cases Map.get (updates rnd s.previous s.queue e period) k <;> rfl

/-- the state before the snapshots are given to the database -/
theorem stored {rnd : ℚ → ℚ} {period : Int} {cap : Nat} {s : State} {t : Int} {ks : List Nat} {e : Event} (h : Inv period s t ks) (ht : t < e.time)
    (hn : (e.components.map Prod.fst).Nodup) (hk : ∀ k ∈ ks, k ∈ e.components.map Prod.fst) :
    QInv s.db (store rnd s.previous s.queue e period cap) ∧
    (∀ k, (∀ x ∈ store rnd s.previous s.queue e period cap, x.value.get k = none) → (∀ x ∈ s.queue, x.value.get k = none) ∧ Map.get (updates rnd s.previous s.queue e period) k = none) ∧
    (store rnd s.previous s.queue e period cap).Pairwise (fun x y => x.bucket < y.bucket) ∧ (∀ x ∈ store rnd s.previous s.queue e period cap, x.bucket ≤ round period e.time) ∧
    (∀ x ∈ store rnd s.previous s.queue e period cap, ∀ k p, x.value.get k = some p → p.time ≤ e.time ∧ k ∈ e.components.map Prod.fst) := by
  obtain ⟨init, v, h1, h2, h3, h4, h5, h6⟩ := store_spec (rnd := rnd) (cap := cap) h ht hn hk
  obtain ⟨u1, u2, u3⟩ := updates_get (rnd := rnd) (previous := s.previous) (q := s.queue) (period := period) hn
  rw [h1]
  refine ⟨⟨?_, ?_, ?_⟩, ?_, ?_, ?_, ?_⟩
  · intro x hx
    rcases List.mem_append.1 hx with hx | hx
    · exact h.q.nodup x (h2.subset hx)
    · have : x = ⟨round period e.time, v⟩ := by simpa using hx
      subst this; exact h3
  · rw [List.pairwise_append]
    refine ⟨h.q.keys.sublist h2, List.pairwise_singleton _ _, ?_⟩
    intro x hx y hy k p hp
    have : y = ⟨round period e.time, v⟩ := by simpa using hy
    subst this
    obtain ⟨w, _, hw⟩ := h6 x (h2.subset hx) k p hp
    refine ⟨_, (h5 k).trans hw, Or.inl ?_⟩
    have := (h.qtimes x (h2.subset hx) k p hp).1
    dsimp only
    omega
  · intro k r hr x hx p hp
    rcases List.mem_append.1 hx with hx | hx
    · exact h.q.rows k r hr x (h2.subset hx) p hp
    · have : x = ⟨round period e.time, v⟩ := by simpa using hx
      subst this
      have := (u2 k p ((h5 k).symm.trans hp)).1
      have := h.times (k, r) hr
      left
      dsimp only at this
      omega
  · intro k hkn
    have hu : Map.get (updates rnd s.previous s.queue e period) k = none := by rw [← h5 k]; exact hkn ⟨round period e.time, v⟩ (by simp)
    refine ⟨fun x hx => ?_, hu⟩
    cases hg : x.value.get k with
    | none => rfl
    | some p =>
      obtain ⟨w, _, hw⟩ := h6 x hx k p hg
      rw [hu] at hw; cases hw
  · rw [List.pairwise_append]
    refine ⟨h.buckets.sublist h2, List.pairwise_singleton _ _, fun x hx y hy => ?_⟩
    have : y = ⟨round period e.time, v⟩ := by simpa using hy
    subst this; exact h4 x hx
  · intro x hx
    rcases List.mem_append.1 hx with hx | hx
    · exact le_of_lt (h4 x hx)
    · have : x = ⟨round period e.time, v⟩ := by simpa using hx
      subst this; exact le_refl _
  · intro x hx k p hp
    rcases List.mem_append.1 hx with hx | hx
    · have := h.qtimes x (h2.subset hx) k p hp
      exact ⟨by omega, hk k this.2⟩
    · have : x = ⟨round period e.time, v⟩ := by simpa using hx
      subst this
      have := u2 k p ((h5 k).symm.trans hp)
      exact ⟨by omega, List.mem_map.2 ⟨_, this.2, rfl⟩⟩

theorem inv_step {rnd : ℚ → ℚ} {period : Int} {cap : Nat} {s : State} {t : Int} {ks : List Nat} {e : Event} {os : List Outcome} (h : Inv period s t ks) (ht : t < e.time)
    (hn : (e.components.map Prod.fst).Nodup) (hk : ∀ k ∈ ks, k ∈ e.components.map Prod.fst) : Inv period (step rnd period cap s (e, os)) e.time (e.components.map Prod.fst) := by
  obtain ⟨s1, s2, s3, s4, s5⟩ := stored (rnd := rnd) (cap := cap) h ht hn hk
  obtain ⟨p1, p2, p3, p4, p5, p6⟩ := persist_spec (store rnd s.previous s.queue e period cap) os s.previous s.db s1 (fun k hk => h.known k (s2 k hk).1)
  have hsub := p2.sublist
  unfold step
  refine ⟨p1, p3, s3.sublist hsub, fun x hx => s4 x (hsub.subset hx), ?_, fun x hx => s5 x (hsub.subset hx)⟩
  intro r hr
  rcases p4 r hr with hr | ⟨x, hx, hr⟩
  · have := h.times r hr; omega
  · exact (s5 x hx r.1 r.2 (mem_get (s1.nodup x hx) hr)).1

theorem inv_hist {rnd : ℚ → ℚ} {period : Int} {cap : Nat} {s : State} {t : Int} {ks : List Nat} (h : Hist rnd period cap s t ks) : Inv period s t ks := by
  induction h with
  | start h1 h2 h3 => exact ⟨⟨by simp, List.Pairwise.nil, by simp⟩, fun k _ => ⟨h1 k, h2 k⟩, List.Pairwise.nil, by simp, h3, by simp⟩
  | event _ ht hn hk ih => exact inv_step ih ht hn hk

/-! ## Theorems -/

theorem abs_rnd {rnd : ℚ → ℚ} {ε : ℚ} (R : Stable.IsRnd rnd ε) (x : ℚ) : (1 - ε) * |x| ≤ |rnd x| := by
  have h1 := R.err x
  have h2 : |x| ≤ |rnd x - x| + |rnd x| := by
    have := abs_sub_abs_le_abs_sub x (rnd x)
    rw [abs_sub_comm] at this
    linarith
  linarith

theorem close_of {rnd : ℚ → ℚ} {ε : ℚ} (R : Stable.IsRnd rnd ε) {previous : Map} {k : Nat} {p q : Point} {period : Int} (hq : previous.get k = some q) (h : shouldInsert rnd previous k p period ≠ true) :
    Close ε period q p.time p.value := by
  unfold shouldInsert at h
  rw [hq] at h
  dsimp only at h
  by_cases h1 : p.time - q.time ≥ period ∨ q.value.isSome ≠ p.value.isSome
  · rw [if_pos h1] at h; exact absurd rfl h
  rw [if_neg h1] at h
  obtain ⟨h2, h3⟩ := not_or.1 h1
  have h3 : q.value.isSome = p.value.isSome := not_not.1 h3
  refine ⟨by omega, ?_⟩
  cases hqv : q.value with
  | none =>
    left
    rw [hqv] at h3
    cases hpv : p.value with
    | none => exact ⟨rfl, rfl⟩
    | some b => rw [hpv] at h3; cases h3
  | some a =>
    rw [hqv] at h3 h
    cases hpv : p.value with
    | none => rw [hpv] at h3; cases h3
    | some b =>
      right
      rw [hpv] at h
      dsimp only at h
      rw [Ne, Bool.not_eq_true, Bool.or_eq_false_iff, Bool.or_eq_false_iff, decide_eq_false_iff_not] at h
      obtain ⟨⟨h4, h5⟩, h6⟩ := h
      refine ⟨a, b, rfl, rfl, (by have h5' := h5; simp at h5'; exact h5'.symm), ?_, ?_⟩
      · constructor
        · intro ha
          by_contra hb
          exact h4 (Or.inl ⟨ha, not_le.1 hb⟩)
        · intro hb
          by_contra ha
          exact h4 (Or.inr ⟨not_le.1 ha, hb⟩)
      · intro ha
        unfold bigMove at h6
        rw [decide_eq_false_iff_not, not_and] at h6
        have h7 := not_lt.1 (h6 (ne_of_gt ha))
        have e0 := R.eps
        have e1 := R.eps1
        -- rnd of the quotient
        have h8 := abs_rnd R (|rnd (a.ratio - b.ratio)| / a.ratio)
        have h9 := (abs_le.1 (R.err (1 / 10))).2
        have h10 : (0 : ℚ) ≤ |rnd (a.ratio - b.ratio)| / a.ratio := by positivity
        have h11 : 0 ≤ rnd (|rnd (a.ratio - b.ratio)| / a.ratio) := by have := R.mono 0 _ h10; rwa [R.zero] at this
        rw [abs_of_nonneg h10, abs_of_nonneg h11] at h8
        rw [abs_of_nonneg (by norm_num : (0 : ℚ) ≤ 1 / 10)] at h9
        have h12 : (1 - ε) * (|rnd (a.ratio - b.ratio)| / a.ratio) ≤ (1 + ε) / 10 := by linarith
        have h13 := abs_rnd R (a.ratio - b.ratio)
        have h14 : (1 - ε) * |rnd (a.ratio - b.ratio)| ≤ (1 + ε) / 10 * a.ratio := by
          have := mul_le_mul_of_nonneg_right h12 (le_of_lt ha)
          rwa [mul_assoc, div_mul_cancel₀ _ (ne_of_gt ha)] at this
        have h15 := mul_le_mul_of_nonneg_left h13 (by linarith : (0 : ℚ) ≤ 1 - ε)
        calc (1 - ε) ^ 2 * |a.ratio - b.ratio| = (1 - ε) * ((1 - ε) * |a.ratio - b.ratio|) := by ring
          _ ≤ _ := h15
          _ ≤ _ := h14

/-- C100: once the database works again (nothing is waiting after an event), whatever failed before, in whatever way, the view shows of every account the value just computed, or one close to it -/
theorem C100_current {rnd : ℚ → ℚ} {ε : ℚ} (R : Stable.IsRnd rnd ε) {period : Int} {cap : Nat} {s : State} {t : Int} {ks : List Nat} (h : Hist rnd period cap s t ks)
    {e : Event} {os : List Outcome} (ht : t < e.time) (hn : (e.components.map Prod.fst).Nodup) (hk : ∀ k ∈ ks, k ∈ e.components.map Prod.fst)
    (hq : (step rnd period cap s (e, os)).queue = []) :
    ∀ c ∈ e.components, ∃ p, Current (step rnd period cap s (e, os)).db c.1 p ∧ ((p.time = e.time ∧ p.value = c.2) ∨ Close ε period p e.time c.2) := by
  intro c hc
  have hi := inv_hist h
  obtain ⟨s1, s2, s3, s4, s5⟩ := stored (rnd := rnd) (cap := cap) hi ht hn hk
  obtain ⟨p1, p2, p3, p4, p5, p6⟩ := persist_spec (store rnd s.previous s.queue e period cap) os s.previous s.db s1 (fun k hk => hi.known k (s2 k hk).1)
  obtain ⟨init, v, h1, h2, h3, h4, h5, h6⟩ := store_spec (rnd := rnd) (cap := cap) hi ht hn hk
  obtain ⟨u1, u2, u3⟩ := updates_get (rnd := rnd) (previous := s.previous) (q := s.queue) (period := period) hn
  have hfin := inv_hist (Hist.event (os := os) h ht hn hk)
  have hknown := hfin.known c.1 (by rw [hq]; simp)
  cases hu : Map.get (updates rnd s.previous s.queue e period) c.1 with
  | some p =>
    have hp := u2 c.1 p hu
    refine ⟨p, hknown.1 p ?_, Or.inl ⟨hp.1, ?_⟩⟩
    · exact p6 hq c.1 ⟨round period e.time, v⟩ p (by rw [h1]; simp) ((h5 c.1).trans hu)
    · have := List.inj_on_of_nodup_map hn hp.2 hc rfl
      exact (Prod.mk.inj this).2
  | none =>
    have hns : shouldInsert rnd s.previous c.1 ⟨e.time, c.2⟩ period ≠ true := fun hs => by
      rw [u3 c hc (Or.inl hs)] at hu; cases hu
    cases hpv : s.previous.get c.1 with
    | none => exact absurd (by unfold shouldInsert; rw [hpv]) hns
    | some q =>
      refine ⟨q, hknown.1 q ?_, Or.inr (close_of R hpv hns)⟩
      have habs : ∀ x ∈ store rnd s.previous s.queue e period cap, x.value.get c.1 = none := by
        rw [h1]
        intro x hx
        rcases List.mem_append.1 hx with hx | hx
        · cases hg : x.value.get c.1 with
          | none => rfl
          | some p =>
            obtain ⟨w, _, hw⟩ := h6 x (h2.subset hx) c.1 p hg
            rw [hu] at hw; cases hw
        · have : x = ⟨round period e.time, v⟩ := by simpa using hx
          subst this
          exact (h5 c.1).trans hu
      exact (p5 c.1 habs).trans hpv

/-- C100: however long the database does not work, no more snapshots wait than configured (or one) -/
theorem C100_bounded {rnd : ℚ → ℚ} {period : Int} {cap : Nat} {s : State} {t : Int} {ks : List Nat} (h : Hist rnd period cap s t ks) : s.queue.length ≤ max cap 1 := by
  induction h with
  | start => simp
  | @event s t ks e os hh ht hn hk ih =>
    have hi := inv_hist hh
    obtain ⟨s1, s2, _⟩ := stored (rnd := rnd) (cap := cap) hi ht hn hk
    obtain ⟨_, p2, _⟩ := persist_spec (store rnd s.previous s.queue e period cap) os s.previous s.db s1 (fun k hk => hi.known k (s2 k hk).1)
    refine le_trans p2.length_le ?_
    have ham : ∀ (b : Int) (us : List (Nat × Point)) (q : List Snapshot), (amend b us q).length = q.length := by
      intro b us q
      induction q with
      | nil => rfl
      | cons x q ih =>
        unfold amend
        split
        · rfl
        · rw [List.length_cons, List.length_cons, ih]
    unfold store
    dsimp only
    split
    · rw [ham]; exact ih
    · rw [List.length_append, List.length_singleton]
      split
      · rw [List.length_drop]; omega
      · omega

/-- C100, a defect: while a ratio stays negative (or falls to zero), no change of it is large enough to be stored before the period is over -/
theorem C100_negative {rnd : ℚ → ℚ} {ε : ℚ} (R : Stable.IsRnd rnd ε) {previous : Map} {k : Nat} {now then_ period : Int} {a b : Value} (hp : previous.get k = some ⟨then_, some a⟩)
    (ht : now - then_ < period) (ha : a.ratio < 0) (hb : b.ratio ≤ 0) (hf : a.being = b.being) : shouldInsert rnd previous k ⟨now, some b⟩ period = false := by
  unfold shouldInsert
  rw [hp]
  dsimp only
  rw [if_neg (by
    rintro (h | h)
    · omega
    · exact h rfl)]
  rw [Bool.or_eq_false_iff, Bool.or_eq_false_iff, decide_eq_false_iff_not]
  refine ⟨⟨?_, by simp [hf]⟩, ?_⟩
  · rintro (⟨_, h⟩ | ⟨h, _⟩)
    · exact absurd h (not_lt.2 hb)
    · exact absurd h (not_lt.2 (le_of_lt ha))
  · unfold bigMove
    rw [decide_eq_false_iff_not]
    rintro ⟨_, h⟩
    have : |rnd (a.ratio - b.ratio)| / a.ratio ≤ 1 / 10 := le_trans (div_nonpos_of_nonneg_of_nonpos (abs_nonneg _) (le_of_lt ha)) (by norm_num)
    exact absurd h (not_lt.2 (R.mono _ _ this))

/-! ## Concrete cases -/

namespace Ex
def val (r : ℚ) : Option Value := some ⟨r, 10, 20, 15, false⟩
def ev (t : Int) (x y : ℚ) : Event := ⟨t, [(1, val x), (2, val y)]⟩
def s0 : State := ⟨[], [], []⟩
/-- the first event is stored and persisted -/
def s1 : State := step id 60 1 s0 (ev 100 50 70, [.ok])
/-- the ratio of 1 moves a lot, but the database fails after having stored it -/
def s2 : State := step id 60 1 s1 (ev 110 30 71, [.failed true])
/-- another snapshot takes its place; the database fails -/
def s3 : State := step id 60 1 s2 (ev 151 31 71, [.failed false])
/-- the database works again -/
def s4 : State := step id 60 1 s3 (ev 160 51 72, [.ok])

example : s1.db = [(2, ⟨100, val 70⟩), (1, ⟨100, val 50⟩)] ∧ s1.queue = [] := by
  constructor
  · decide +kernel
  · rfl
example : s2.db = [(2, ⟨100, val 70⟩), (1, ⟨100, val 50⟩), (1, ⟨110, val 30⟩)] ∧ s2.queue.length = 1 := by
  constructor <;> decide +kernel
example : s3.queue.map (fun x => (x.bucket, x.value)) = [(180, [(1, ⟨151, val 31⟩)])] := by decide +kernel
theorem s4_queue : s4.queue = [] := List.isEmpty_iff.1 (by decide +kernel)
example : (1, ⟨160, val 51⟩) ∈ s4.db ∧ s4.db.length = 5 := by constructor <;> decide +kernel

theorem hist : Hist id 60 1 s3 151 [1, 2] :=
  .event (ks := [1, 2]) (t := 110) (.event (ks := [1, 2]) (t := 100) (.event (ks := []) (t := 0) (.start (by intro k p h; cases h) (by intro k _ r h; cases h) (by intro r h; cases h))
    (by decide) (by decide) (by decide)) (by decide) (by decide) (by decide)) (by decide) (by decide) (by decide)

/-- after all this the view shows the two accounts as they are, or as they nearly are -/
example : (∃ p, Current s4.db 1 p ∧ ((p.time = 160 ∧ p.value = val 51) ∨ Close 0 60 p 160 (val 51))) ∧ (∃ p, Current s4.db 2 p ∧ ((p.time = 160 ∧ p.value = val 72) ∨ Close 0 60 p 160 (val 72))) := by
  have h := C100_current Stable.isRnd_id hist (e := ev 160 51 72) (os := [.ok]) (by decide) (by decide) (by decide) s4_queue
  exact ⟨h (1, val 51) (by simp [ev]), h (2, val 72) (by simp [ev])⟩

/-- from −1 to −99: not stored; from 99 to 1: stored -/
example : shouldInsert id [(1, ⟨100, val (-1)⟩)] 1 ⟨110, val (-99)⟩ 60 = false :=
  C100_negative Stable.isRnd_id (then_ := 100) (a := ⟨-1, 10, 20, 15, false⟩) (b := ⟨-99, 10, 20, 15, false⟩) rfl (by decide) (by norm_num) (by norm_num) rfl
example : shouldInsert id [(1, ⟨100, val 99⟩)] 1 ⟨110, val 1⟩ 60 = true := by decide +kernel
example : shouldInsert id [(1, ⟨100, val 99⟩)] 1 ⟨110, val 98⟩ 60 = false := by decide +kernel
example : shouldInsert id [(1, ⟨100, val 99⟩)] 1 ⟨160, val 98⟩ 60 = true := by decide +kernel
example : round 60 89 = 60 ∧ round 60 90 = 120 ∧ round 60 120 = 120 := by decide
end Ex

end Persist
end Mango
