import Verif.Client.SlotPlan
import Verif.Props.Slots
/-!
# C101: making room for a spot market
-/
namespace Mango
namespace SlotPlan
open Slots

/-! ## Specification -/

/-- free token positions -/
def free (ts : List TokenSlot) : Nat := (ts.filter (fun p => p.index = FREE)).length

/-- 1 if the token has no position -/
def mis (ts : List TokenSlot) (x : Nat) : Nat := if ts.any (fun p => p.index == x) then 0 else 1

/-! ## Lists of positions -/

theorem filter_set {f : TokenSlot → Bool} : ∀ {l : List TokenSlot} {k : Nat} {p : TokenSlot} (q : TokenSlot), l[k]? = some p →
    ((l.set k q).filter f).length + (if f p then 1 else 0) = (l.filter f).length + (if f q then 1 else 0) := by
  intro l
  induction l with
  | nil => intro k p q h; simp at h
  | cons a l ih =>
    intro k p q h
    cases k with
    | zero =>
      simp only [List.getElem?_cons_zero, Option.some.injEq] at h
      subst h
      simp only [List.set_cons_zero, List.filter_cons]
      split <;> split <;> simp_all
    | succ k =>
      simp only [List.getElem?_cons_succ] at h
      have := ih q h
      simp only [List.set_cons_succ, List.filter_cons]
      split
      · simp only [List.length_cons]; omega
      · exact this

theorem counts_set {l : List TokenSlot} {k : Nat} {p : TokenSlot} (q : TokenSlot) (h : l[k]? = some p) :
    active (l.set k q) + (if p.index = FREE then 0 else 1) = active l + (if q.index = FREE then 0 else 1) ∧
    free (l.set k q) + (if p.index = FREE then 1 else 0) = free l + (if q.index = FREE then 1 else 0) := by
  have h1 := filter_set (f := fun p => p.index ≠ FREE) q h
  have h2 := filter_set (f := fun p => p.index = FREE) q h
  unfold active free
  constructor
  · by_cases e1 : p.index = FREE <;> by_cases e2 : q.index = FREE <;> simp_all
  · by_cases e1 : p.index = FREE <;> by_cases e2 : q.index = FREE <;> simp_all

theorem mis_le (ts : List TokenSlot) (x : Nat) : mis ts x ≤ 1 := by unfold mis; split <;> omega

theorem mis_zero {ts : List TokenSlot} {x : Nat} : mis ts x = 0 ↔ ∃ p ∈ ts, p.index = x := by
  unfold mis; split
  · rename_i h; simpa using h
  · rename_i h; simp only [List.any_eq_true, beq_iff_eq] at h; simp [h]

theorem mis_one {ts : List TokenSlot} {x : Nat} : mis ts x = 1 ↔ ∀ p ∈ ts, p.index ≠ x := by
  have h1 := mis_le ts x
  have h2 := mis_zero (ts := ts) (x := x)
  constructor
  · intro h p hp e
    have := h2.2 ⟨p, hp, e⟩
    omega
  · intro h
    by_contra hc
    obtain ⟨p, hp, e⟩ := h2.1 (by omega)
    exact h p hp e

theorem mis_congr {ts ts' : List TokenSlot} {x : Nat} (h : (∃ p ∈ ts, p.index = x) ↔ ∃ p ∈ ts', p.index = x) : mis ts x = mis ts' x := by
  have h1 := mis_le ts x
  have h2 := mis_le ts' x
  have h3 := mis_zero (ts := ts) (x := x)
  have h4 := mis_zero (ts := ts') (x := x)
  by_cases e : mis ts x = 0
  · rw [e, h4.2 (h.1 (h3.1 e))]
  · have : mis ts' x ≠ 0 := fun e' => e (h3.2 (h.2 (h4.1 e')))
    omega

/-- a position replaced by one for another token -/
theorem mis_set {l : List TokenSlot} {k : Nat} {p q : TokenSlot} (h : l[k]? = some p) {y : Nat} (h1 : p.index ≠ y) (h2 : q.index ≠ y) : mis (l.set k q) y = mis l y := by
  refine mis_congr ⟨?_, ?_⟩
  · rintro ⟨z, hz, e⟩
    obtain ⟨i, hi⟩ := List.mem_iff_getElem?.1 hz
    rcases getElem?_set_cases hi with ⟨_, rfl⟩ | ⟨_, hi'⟩
    · exact absurd e h2
    · exact ⟨z, List.mem_iff_getElem?.2 ⟨i, hi'⟩, e⟩
  · rintro ⟨z, hz, e⟩
    exact ⟨z, mem_set_other h hz (fun hc => h1 (by rw [← hc]; exact e)), e⟩

theorem mis_set_new {l : List TokenSlot} {k : Nat} {p q : TokenSlot} (h : l[k]? = some p) : mis (l.set k q) q.index = 0 :=
  mis_zero.2 ⟨q, mem_set_self h, rfl⟩

/-- the facts about positions that matter: their numbers, and what is missing -/
structure Same (l l' : List TokenSlot) : Prop where
  act : active l' = active l
  free : free l' = SlotPlan.free l
  mis : ∀ y, y ≠ FREE → mis l' y = SlotPlan.mis l y

theorem same_set {l : List TokenSlot} {k : Nat} {p q : TokenSlot} (h : l[k]? = some p) (e : q.index = p.index) : Same l (l.set k q) := by
  obtain ⟨h1, h2⟩ := counts_set q h
  rw [e] at h1 h2
  refine ⟨by omega, by omega, fun y hy => ?_⟩
  by_cases hp : p.index = y
  · rw [mis_zero.2 ⟨p, List.mem_iff_getElem?.2 ⟨k, h⟩, hp⟩, ← hp, ← e]
    exact mis_set_new h
  · exact mis_set h hp (by rw [e]; exact hp)

theorem Same.trans {a b c : List TokenSlot} (h1 : Same a b) (h2 : Same b c) : Same a c :=
  ⟨h2.act.trans h1.act, h2.free.trans h1.free, fun y hy => (h2.mis y hy).trans (h1.mis y hy)⟩

theorem free_pos {l : List TokenSlot} : 0 < free l ↔ ∃ p ∈ l, p.index = FREE := by
  unfold free
  rw [List.length_pos_iff_exists_mem]
  simp

section
variable {r : Nat → Int}

theorem r_zero (hr : ∀ x, 0 ≤ r x) {T : List TokenSlot} (U : Uses T r) {x : Nat} (hx : x ≠ FREE) (h : mis T x = 1) : r x = 0 := by
  by_contra hc
  have h0 := hr x
  obtain ⟨p, hp, e⟩ := U.held x hx (by omega)
  exact mis_one.1 h p hp e

/-- what `ensure_token_position` does -/
theorem ens (hr : ∀ x, 0 ≤ r x) {T : List TokenSlot} (U : Uses T r) {x : Nat} (hx : x ≠ FREE) :
    (mis T x = 0 ∧ ∃ raw act p, ensureToken T x = .ok (T, raw, act) ∧ T[raw]? = some p ∧ p.index = x) ∨
    (mis T x = 1 ∧ free T = 0 ∧ ensureToken T x = .error .noFreeTokenPositionIndex) ∨
    (mis T x = 1 ∧ ∃ T' raw act, ensureToken T x = .ok (T', raw, act) ∧ T'[raw]? = some ⟨x, 0, 0⟩ ∧ free T' + 1 = free T ∧ active T' = active T + 1 ∧
      (∀ y, y ≠ FREE → mis T' y = if y = x then 0 else mis T y) ∧ Uses T' r) := by
  by_cases hm : mis T x = 0
  · left
    obtain ⟨⟨T', raw, act⟩, h⟩ := ensureToken_total hx (Or.inl (mis_zero.1 hm))
    rcases ensureToken_spec hx h with ⟨p, h1, h2, rfl, _, _⟩ | ⟨h0, _⟩
    · exact ⟨hm, raw, act, p, h, h1, h2⟩
    · obtain ⟨p, hp, e⟩ := mis_zero.1 hm
      exact absurd e (h0 p hp)
  have hm1 : mis T x = 1 := by have := mis_le T x; omega
  right
  by_cases hf : free T = 0
  · left
    refine ⟨hm1, hf, ?_⟩
    unfold ensureToken
    rcases ensureLoop_spec hx T 0 0 none with ⟨i, p, a1, a2, _⟩ | ⟨a1, ⟨hc, _⟩ | ⟨_, ⟨i, p, b1, b2, _⟩ | ⟨b1, b2⟩⟩⟩
    · exact absurd a2 (mis_one.1 hm1 p (List.mem_iff_getElem?.2 ⟨i, a1⟩))
    · exact absurd rfl hc
    · have := free_pos.2 ⟨p, List.mem_iff_getElem?.2 ⟨i, b1⟩, b2⟩
      omega
    · rw [b2]
  · right
    obtain ⟨⟨T', raw, act⟩, h⟩ := ensureToken_total hx (Or.inr ((free_pos (l := T)).1 (by omega)))
    rcases ensureToken_spec hx h with ⟨p, h1, h2, _, _, _⟩ | ⟨h0, p, h1, h2, rfl, _, _⟩
    · exact absurd h2 (mis_one.1 hm1 p (List.mem_iff_getElem?.2 ⟨raw, h1⟩))
    · refine ⟨hm1, _, raw, act, h, by rw [List.getElem?_set_self', h1]; rfl, ?_, ?_, ?_, ?_⟩
      · have := (counts_set ⟨x, 0, 0⟩ h1).2
        dsimp only at this
        rw [if_pos h2, if_neg hx] at this
        omega
      · have := (counts_set ⟨x, 0, 0⟩ h1).1
        dsimp only at this
        rw [if_pos h2, if_neg hx] at this
        omega
      · intro y hy
        by_cases e : y = x
        · rw [if_pos e, e]; exact mis_set_new h1
        · rw [if_neg e]; exact mis_set h1 (by rw [h2]; exact fun hc => hy hc.symm) (show (⟨x, 0, 0⟩ : TokenSlot).index ≠ y from fun hc => e hc.symm)
      · exact U.activate (q := ⟨x, 0, 0⟩) h1 h2 h0 hx (by show ((0 : Nat) : Int) = r x; rw [r_zero hr U hx hm1]; rfl) (fun _ _ => rfl)

/-- closing a position -/
theorem deact {T : List TokenSlot} (U : Uses T r) {raw : Nat} {p : TokenSlot} (h : T[raw]? = some p) (hp : p.index ≠ FREE) (hu : p.inUse = 0) :
    ∃ T', deactivateToken T raw = .ok T' ∧ free T' = free T + 1 ∧ active T' + 1 = active T ∧ (∀ y, y ≠ FREE → mis T' y = if y = p.index then 1 else mis T y) ∧ Uses T' r := by
  refine ⟨T.set raw { p with index := FREE }, ?_, ?_, ?_, ?_, U.free h hu⟩
  · unfold deactivateToken; rw [h]; dsimp only; rw [if_pos hu]
  · have := (counts_set { p with index := FREE } h).2
    rw [if_neg hp, if_pos rfl] at this
    omega
  · have := (counts_set { p with index := FREE } h).1
    rw [if_neg hp, if_pos rfl] at this
    omega
  · intro y hy
    by_cases e : y = p.index
    · rw [if_pos e]
      refine mis_one.2 (fun z hz hzy => ?_)
      obtain ⟨i, hi⟩ := List.mem_iff_getElem?.1 hz
      rcases getElem?_set_cases hi with ⟨_, rfl⟩ | ⟨hne, hi'⟩
      · exact hy hzy.symm
      · exact hne (U.uniq i raw z p hi' h (hzy.trans e) (by rw [hzy]; exact hy))
    · rw [if_neg e]
      exact mis_set h (fun hc => e hc.symm) (fun hc => hy hc.symm)

theorem closable_iff {p : TokenSlot} : closable p = true ↔ p.index ≠ FREE ∧ p.inUse = 0 ∧ 0 ≤ p.pos ∧ p.pos ≤ S := by
  unfold closable; rw [decide_eq_true_eq]

theorem freeOne_spec {T : List TokenSlot} (U : Uses T r) :
    (freeOne T = .error .noFreeTokenPositionIndex ∧ ∀ p ∈ T, closable p = false) ∨
    ∃ p T', p ∈ T ∧ closable p = true ∧ freeOne T = .ok (.withdraw p.index (active T), T') ∧ free T' = free T + 1 ∧ active T' + 1 = active T ∧
      (∀ y, y ≠ FREE → mis T' y = if y = p.index then 1 else mis T y) ∧ Uses T' r := by
  unfold freeOne
  cases e : T.findIdx? closable with
  | none => exact Or.inl ⟨rfl, findIdx?_none e⟩
  | some raw =>
    right
    obtain ⟨p, h1, h2, _⟩ := findIdx?_some e
    have hc := closable_iff.1 h2
    obtain ⟨T', d1, d2⟩ := deact U h1 hc.1 hc.2.1
    refine ⟨p, T', List.mem_iff_getElem?.2 ⟨raw, h1⟩, h2, ?_, d2⟩
    dsimp only
    rw [h1]
    dsimp only
    rw [d1]
    rfl

/-- what the client does for one token -/
theorem ensureOne_spec (hr : ∀ x, 0 ≤ r x) {T : List TokenSlot} (U : Uses T r) {x : Nat} (hx : x ≠ FREE) :
    (mis T x = 0 ∧ ensureOne T x = .ok ([], T)) ∨
    (mis T x = 1 ∧ ∃ T', ensureOne T x = .ok ([], T') ∧ free T' + 1 = free T ∧ active T' = active T + 1 ∧ (∀ y, y ≠ FREE → mis T' y = if y = x then 0 else mis T y) ∧ Uses T' r ∧
      ⟨x, 0, 0⟩ ∈ T') ∨
    (mis T x = 1 ∧ free T = 0 ∧ (∃ e, ensureOne T x = .error e) ∧ ∀ p ∈ T, closable p = false) ∨
    (mis T x = 1 ∧ free T = 0 ∧ ∃ p T', p ∈ T ∧ closable p = true ∧ ensureOne T x = .ok ([.withdraw p.index (active T)], T') ∧ free T' = 0 ∧ active T' = active T ∧
      (∀ y, y ≠ FREE → mis T' y = if y = x then 0 else if y = p.index then 1 else mis T y) ∧ Uses T' r ∧ ⟨x, 0, 0⟩ ∈ T') := by
  unfold ensureOne
  rcases ens hr U hx with ⟨h1, raw, act, p, h2, _⟩ | ⟨h1, h2, h3⟩ | ⟨h1, T', raw, act, h2, h3, h4, h5, h6, h7⟩
  · rw [h2]; exact Or.inl ⟨h1, rfl⟩
  · right; right
    rw [h3]
    dsimp only
    rcases freeOne_spec U with ⟨f1, f2⟩ | ⟨p, T1, f1, f2, f3, f4, f5, f6, f7⟩
    · left
      exact ⟨h1, h2, ⟨_, by rw [f1]; rfl⟩, f2⟩
    · right
      have hp : p.index ≠ FREE := (closable_iff.1 f2).1
      have hpx : x ≠ p.index := fun hc => mis_one.1 h1 p f1 hc.symm
      have hm : mis T1 x = 1 := by rw [f6 x hx, if_neg hpx]; exact h1
      rcases ens hr f7 hx with ⟨g1, _⟩ | ⟨_, g2, _⟩ | ⟨g1, T', raw, act, g2, g3, g4, g5, g6, g7⟩
      · omega
      · omega
      · refine ⟨h1, h2, p, T', f1, f2, ?_, by omega, by omega, ?_, g7, List.mem_iff_getElem?.2 ⟨raw, g3⟩⟩
        · rw [f3]
          simp only [bind, Except.bind, g2]
        · intro y hy
          rw [g6 y hy]
          by_cases e : y = x
          · rw [if_pos e, if_pos e]
          · rw [if_neg e, if_neg e, f6 y hy]
  · right; left
    rw [h2]
    exact ⟨h1, T', rfl, h4, h5, h6, h7, List.mem_iff_getElem?.2 ⟨raw, h3⟩⟩

theorem new_closable {x : Nat} (hx : x ≠ FREE) : closable ⟨x, 0, 0⟩ = true := closable_iff.2 ⟨hx, rfl, Int.le_refl 0, (by show (0 : Int) ≤ S; decide)⟩

/-- what the client does for both: nothing if there is room; one or two withdrawals -/
theorem ensureBoth_spec (hr : ∀ x, 0 ≤ r x) {T : List TokenSlot} (U : Uses T r) {p q : Nat} (hp : p ≠ FREE) (hq : q ≠ FREE) (hpq : p ≠ q) :
    ((ensureBoth T p q).1 = none ∧ (ensureBoth T p q).2 = T ∧ free T < mis T p + mis T q) ∨
    (mis T p + mis T q ≤ free T ∧ (ensureBoth T p q).1 = some []) ∨
    (∃ z, mis T p + mis T q = 1 ∧ free T = 0 ∧ z ∈ T ∧ closable z = true ∧ z.index ≠ p ∧ z.index ≠ q ∧ (ensureBoth T p q).1 = some [.withdraw z.index (active T)]) ∨
    (∃ z rest, mis T p + mis T q = 1 ∧ free T = 0 ∧ z ∈ T ∧ closable z = true ∧ (z.index = p ∨ z.index = q) ∧ (ensureBoth T p q).1 = some (.withdraw z.index (active T) :: rest) ∧ (rest = [] ∨ ∃ t, t ≠ FREE ∧ rest = [.withdraw t (active T)])) ∨
    (∃ t, t ≠ FREE ∧ mis T p + mis T q = 2 ∧ free T = 1 ∧ (ensureBoth T p q).1 = some [.withdraw t (active T + 1)]) ∨
    (∃ t t', t ≠ FREE ∧ t' ≠ FREE ∧ mis T p + mis T q = 2 ∧ free T = 0 ∧ mis T t = 0 ∧ (∃ z ∈ T, closable z = true) ∧ (ensureBoth T p q).1 = some [.withdraw t (active T), .withdraw t' (active T)]) := by
  have hqp : ¬ q = p := fun h => hpq h.symm
  unfold ensureBoth
  rcases ensureOne_spec hr U hp with ⟨a1, a2⟩ | ⟨a1, T1, a2, a3, a4, a5, a6, a7⟩ | ⟨a1, a2, ⟨e, a3⟩, a4⟩ | ⟨a1, a2, z, T1, a3, a4, a5, a6, a7, a8, a9, a10⟩
  · -- the payer's is there
    rw [a2]
    dsimp only
    rcases ensureOne_spec hr U hq with ⟨b1, b2⟩ | ⟨b1, T2, b2, b3, b4, b5, b6, b7⟩ | ⟨b1, b2, ⟨e, b3⟩, b4⟩ | ⟨b1, b2, z, T2, b3, b4, b5, b6, b7, b8, b9, b10⟩
    · rw [b2]; right; left; exact ⟨by omega, rfl⟩
    · rw [b2]; right; left; exact ⟨by omega, rfl⟩
    · rw [b3]; left; exact ⟨rfl, rfl, by omega⟩
    · rw [b5]
      right; right
      have hzq : z.index ≠ q := fun hc => mis_one.1 b1 z b3 hc
      by_cases hzp : z.index = p
      · right; left
        exact ⟨z, [], by omega, b2, b3, b4, Or.inl hzp, rfl, Or.inl rfl⟩
      · left
        exact ⟨z, by omega, b2, b3, b4, hzp, hzq, rfl⟩
  · -- the payer's got a free slot
    rw [a2]
    dsimp only
    have hmq : mis T1 q = mis T q := by rw [a5 q hq, if_neg hqp]
    rcases ensureOne_spec hr a6 hq with ⟨b1, b2⟩ | ⟨b1, T2, b2, b3, b4, b5, b6, b7⟩ | ⟨b1, b2, ⟨e, b3⟩, b4⟩ | ⟨b1, b2, z, T2, b3, b4, b5, b6, b7, b8, b9, b10⟩
    · rw [b2]; right; left; exact ⟨by omega, rfl⟩
    · rw [b2]; right; left; exact ⟨by omega, rfl⟩
    · have := b4 _ a7
      rw [new_closable hp] at this
      cases this
    · rw [b5]
      right; right; right; right; left
      exact ⟨z.index, (closable_iff.1 b4).1, by omega, by omega, by rw [a4]; rfl⟩
  · rw [a3]
    left
    exact ⟨rfl, rfl, by omega⟩
  · rw [a5]
    dsimp only
    have hzp : z.index ≠ p := fun hc => mis_one.1 a1 z a3 hc
    have hmq := a8 q hq
    rw [if_neg hqp] at hmq
    rcases ensureOne_spec hr a9 hq with ⟨b1, b2⟩ | ⟨b1, T2, b2, b3, b4, b5, b6, b7⟩ | ⟨b1, b2, ⟨e, b3⟩, b4⟩ | ⟨b1, b2, z2, T2, b3, b4, b5, b6, b7, b8, b9, b10⟩
    · rw [b2]
      right; right; left
      by_cases hzq : q = z.index
      · rw [if_pos hzq] at hmq; omega
      · rw [if_neg hzq] at hmq
        exact ⟨z, by omega, a2, a3, a4, hzp, fun hc => hzq hc.symm, rfl⟩
    · omega
    · have := b4 _ a10
      rw [new_closable hp] at this
      cases this
    · rw [b5]
      right; right; right
      have hz2 := (closable_iff.1 b4).1
      have hz1 : mis T z.index = 0 := mis_zero.2 ⟨z, a3, rfl⟩
      by_cases hzq : q = z.index
      · left
        exact ⟨z, [.withdraw z2.index (active T)], by rw [hzq, hz1]; omega, a2, a3, a4, Or.inr hzq.symm, by rw [a7]; rfl, Or.inr ⟨_, hz2, rfl⟩⟩
      · rw [if_neg hzq] at hmq
        right; right
        exact ⟨z.index, z2.index, (closable_iff.1 a4).1, hz2, by omega, a2, hz1, ⟨z, a3, a4⟩, by rw [a7]; rfl⟩

/-! ## The instructions -/

/-- creating or finding a position and counting it as used -/
theorem hold_facts (hr : ∀ x, 0 ≤ r x) {T T' : List TokenSlot} (U : Uses T r) {x : Nat} (hx : x ≠ FREE) (h : holdToken T x = .ok T') :
    mis T x ≤ free T ∧ free T' + mis T x = free T ∧ (∀ y, y ≠ FREE → mis T' y = if y = x then 0 else mis T y) := by
  unfold holdToken at h
  rw [bind_ok] at h
  obtain ⟨⟨T1, raw, act⟩, h1, h2⟩ := h
  dsimp only at h2
  unfold incUse at h2
  rcases ens hr U hx with ⟨a1, raw', act', p, a2, a3, a4⟩ | ⟨_, _, a3⟩ | ⟨a1, T1', raw', act', a2, a3, a4, a5, a6, a7⟩
  · rw [h1] at a2
    cases a2
    rw [a3] at h2
    dsimp only at h2
    split at h2
    · cases h2
      have hs := same_set a3 (q := { p with inUse := p.inUse + 1 }) rfl
      refine ⟨by omega, by rw [hs.free]; omega, fun y hy => ?_⟩
      rw [hs.mis y hy]
      by_cases e : y = x
      · rw [if_pos e, e]; exact a1
      · rw [if_neg e]
    · cases h2
  · rw [h1] at a3; cases a3
  · rw [h1] at a2
    cases a2
    rw [a3] at h2
    dsimp only at h2
    split at h2
    · cases h2
      have hs := same_set a3 (q := { (⟨x, 0, 0⟩ : TokenSlot) with inUse := 0 + 1 }) rfl
      refine ⟨by omega, by rw [hs.free]; omega, fun y hy => ?_⟩
      rw [hs.mis y hy, a6 y hy]
    · cases h2

theorem hold_ok (hr : ∀ x, 0 ≤ r x) {T : List TokenSlot} (U : Uses T r) {x : Nat} (hx : x ≠ FREE) (h1 : mis T x ≤ free T) (h2 : r x < 65535) : ∃ T', holdToken T x = .ok T' := by
  unfold holdToken
  rcases ens hr U hx with ⟨a1, raw, act, p, a2, a3, a4⟩ | ⟨a1, a2, a3⟩ | ⟨a1, T1, raw, act, a2, a3, _⟩
  · have hc := U.count p (List.mem_iff_getElem?.2 ⟨raw, a3⟩) (by rw [a4]; exact hx)
    rw [a4] at hc
    refine ⟨T.set raw { p with inUse := p.inUse + 1 }, ?_⟩
    rw [a2]
    simp only [bind, Except.bind, incUse, a3]
    rw [if_pos (by omega)]
  · omega
  · refine ⟨T1.set raw { (⟨x, 0, 0⟩ : TokenSlot) with inUse := 0 + 1 }, ?_⟩
    rw [a2]
    simp only [bind, Except.bind, incUse, a3]
    rw [if_pos (by omega)]

theorem release_same {T T' : List TokenSlot} {x : Nat} (h : releaseToken T x = .ok T') : Same T T' ∧ ∀ z ∈ T, ∃ z' ∈ T', z'.index = z.index ∧ z'.pos = z.pos := by
  unfold releaseToken at h
  rw [bind_ok] at h
  obtain ⟨raw, _, h⟩ := h
  unfold decUse at h
  split at h
  · rename_i p hp
    cases h
    refine ⟨same_set hp rfl, fun z hz => ?_⟩
    by_cases e : z = p
    · exact ⟨_, mem_set_self hp, by rw [e], by rw [e]⟩
    · exact ⟨z, mem_set_other hp hz e, rfl, rfl⟩
  · cases h

end

section
variable {mk : Markets} {a b : Acc}

/-- creating an open orders account needs room for both tokens -/
theorem create_needs (I : Inv mk a) {m : Nat} (hb : mk.base m ≠ FREE) (hq : mk.quote m ≠ FREE) (hbq : mk.base m ≠ mk.quote m) {d : Int} (h : createSerum mk a m d = .ok b) :
    mis a.tokens (mk.base m) + mis a.tokens (mk.quote m) ≤ free a.tokens ∧ mis b.tokens (mk.base m) = 0 ∧ mis b.tokens (mk.quote m) = 0 ∧ ∃ s ∈ b.serums, s.market = m := by
  unfold createSerum at h
  split at h
  · simp at h
  · split at h
    · simp at h
    · rename_i raw hraw
      rw [bind_ok] at h
      obtain ⟨t1, e1, h⟩ := h
      rw [bind_ok] at h
      obtain ⟨t2, e2, h⟩ := h
      rw [pure_ok] at h
      subst h
      have hr := refs_nonneg mk a
      obtain ⟨a1, a2, a3⟩ := hold_facts hr I.uses hq e1
      have u1 := hold_spec I.uses hq hr e1
      obtain ⟨b1, b2, b3⟩ := hold_facts (fun x => by have := hr x; have := one_nonneg (mk.quote m) x; omega) u1 hb e2
      have c1 := a3 _ hb
      rw [if_neg hbq] at c1
      refine ⟨by omega, ?_, ?_, ?_⟩
      · have := b3 _ hb; rw [if_pos rfl] at this; exact this
      · have := b3 _ hq
        rw [if_neg (fun hc => hbq hc.symm), a3 _ hq, if_pos rfl] at this
        exact this
      · obtain ⟨p, hp, _⟩ := findIdx?_some hraw
        exact ⟨⟨m, mk.base m, mk.quote m, d⟩, List.mem_iff_getElem?.2 ⟨raw, by dsimp only; rw [List.getElem?_set_self', hp]; rfl⟩, rfl⟩

theorem create_ok (I : Inv mk a) {m : Nat} (hb : mk.base m ≠ FREE) (hq : mk.quote m ≠ FREE) (hbq : mk.base m ≠ mk.quote m) {d : Int}
    (hm : ∀ s ∈ a.serums, s.market ≠ m) (hf : ∃ s ∈ a.serums, s.market = FREE) (hn : mis a.tokens (mk.base m) + mis a.tokens (mk.quote m) ≤ free a.tokens)
    (hu : ∀ x, x ≠ FREE → refs mk a x < 65535) : ∃ c, createSerum mk a m d = .ok c := by
  have hr := refs_nonneg mk a
  obtain ⟨t1, e1⟩ := hold_ok hr I.uses hq (by omega) (hu _ hq)
  obtain ⟨a1, a2, a3⟩ := hold_facts hr I.uses hq e1
  have u1 := hold_spec I.uses hq hr e1
  have c1 := a3 _ hb
  rw [if_neg hbq] at c1
  obtain ⟨t2, e2⟩ := hold_ok (r := fun x => refs mk a x + one (mk.quote m) x) (fun x => by have := hr x; have := one_nonneg (mk.quote m) x; omega) u1 hb (by omega)
    (by rw [one_ne hbq]; have := hu _ hb; omega)
  unfold createSerum
  rw [if_neg (by simpa using hm)]
  cases e : a.serums.findIdx? (fun p => p.market == FREE) with
  | none =>
    obtain ⟨s, hs, hs2⟩ := hf
    have := findIdx?_none e s hs
    simp [hs2] at this
  | some raw =>
    refine ⟨{ a with tokens := t2, serums := a.serums.set raw ⟨m, mk.base m, mk.quote m, d⟩ }, ?_⟩
    simp only [e1, e2, bind, Except.bind]
    rfl

/-- closing one -/
theorem close_facts (I : Inv mk a) {k : Nat} (hk : k ≠ FREE) (hex : ∃ s ∈ a.serums, s.market = k) :
    ∃ b, closeSerum mk a k = .ok b ∧ Inv mk b ∧ Same a.tokens b.tokens ∧ (∀ z ∈ a.tokens, ∃ z' ∈ b.tokens, z'.index = z.index ∧ z'.pos = z.pos) ∧
      (∃ s ∈ b.serums, s.market = FREE) ∧ (∀ m, m ≠ FREE → (∀ s ∈ a.serums, s.market ≠ m) → ∀ s ∈ b.serums, s.market ≠ m) ∧ ∀ x, refs mk b x ≤ refs mk a x := by
  obtain ⟨b, h1, h2⟩ := closeSerum_spec I hk hex
  refine ⟨b, h1, h2, ?_⟩
  unfold closeSerum at h1
  rw [if_pos (by simpa using hex), bind_ok] at h1
  obtain ⟨t1, e1, h1⟩ := h1
  rw [bind_ok] at h1
  obtain ⟨t2, e2, h1⟩ := h1
  split at h1
  · cases h1
  · rename_i raw hraw
    split at h1
    · cases h1
    · rename_i p hp
      rw [pure_ok] at h1
      subst h1
      obtain ⟨s1, k1⟩ := release_same e1
      obtain ⟨s2, k2⟩ := release_same e2
      refine ⟨s1.trans s2, ?_, ⟨{ p with market := FREE }, List.mem_iff_getElem?.2 ⟨raw, by rw [List.getElem?_set_self', hp]; rfl⟩, rfl⟩, ?_, ?_⟩
      · intro z hz
        obtain ⟨z1, g1, g2, g3⟩ := k1 z hz
        obtain ⟨z2, g4, g5, g6⟩ := k2 z1 g1
        exact ⟨z2, g4, g5.trans g2, g6.trans g3⟩
      · intro m hm hno s hs
        obtain ⟨i, hi⟩ := List.mem_iff_getElem?.1 hs
        rcases getElem?_set_cases hi with ⟨_, rfl⟩ | ⟨_, hi'⟩
        · exact fun hc => hm hc.symm
        · exact hno s (List.mem_iff_getElem?.2 ⟨i, hi'⟩)
      · intro x
        unfold refs
        dsimp only
        rw [sumOf_set _ hp]
        have : serumRefs x { p with market := FREE } = 0 := by unfold serumRefs; rw [if_pos rfl]
        have := serumRefs_nonneg x p
        omega

/-- what an attempt to withdraw does to a position: at most closes it -/
theorem change_facts (I : Inv mk a) {t : Nat} (ht : t ≠ FREE) {np : Int} {c : Bool} (h : changeToken a t np c = .ok b) :
    Inv mk b ∧ b.serums = a.serums ∧ (∀ x, refs mk b x = refs mk a x) ∧
    ((mis a.tokens t = 0 ∧ ∃ d, d ≤ 1 ∧ mis b.tokens t = d ∧ free b.tokens = free a.tokens + d ∧ active b.tokens + d = active a.tokens ∧ (∀ y, y ≠ FREE → y ≠ t → mis b.tokens y = mis a.tokens y) ∧
        (c = true → (∃ p ∈ a.tokens, p.index = t ∧ p.inUse = 0) → d = 1)) ∨
      (mis a.tokens t = 1 ∧ (c = true → Same a.tokens b.tokens))) := by
  have hI := changeToken_inv I ht h
  unfold changeToken at h
  rw [bind_ok] at h
  obtain ⟨⟨T1, raw, act⟩, h1, h2⟩ := h
  dsimp only at h2
  have hr := refs_nonneg mk a
  have hser : b.serums = a.serums ∧ b.perps = a.perps ∧ b.tcss = a.tcss := by
    split at h2
    · cases h2
    · split at h2
      · rw [bind_ok] at h2
        obtain ⟨_, _, h4⟩ := h2
        rw [pure_ok] at h4; subst h4; exact ⟨rfl, rfl, rfl⟩
      · rw [pure_ok] at h2; subst h2; exact ⟨rfl, rfl, rfl⟩
  refine ⟨hI, hser.1, fun x => by unfold refs; rw [hser.1, hser.2.1, hser.2.2], ?_⟩
  -- closing what was set
  have key : ∀ p : TokenSlot, T1[raw]? = some p → p.index = t →
      (c = true ∧ p.inUse = 0 ∧ free b.tokens = free T1 + 1 ∧ active b.tokens + 1 = active T1 ∧ (∀ y, y ≠ FREE → y ≠ t → mis b.tokens y = mis T1 y)) ∨
      (¬ (c = true ∧ p.inUse = 0) ∧ Same T1 b.tokens) := by
    intro p hp hpt
    rw [hp] at h2
    dsimp only at h2
    have hs := same_set hp (q := { p with pos := np }) rfl
    have hget : (T1.set raw { p with pos := np })[raw]? = some { p with pos := np } := by rw [List.getElem?_set_self', hp]; rfl
    split at h2
    · rename_i hc
      left
      rw [bind_ok] at h2
      obtain ⟨t2, e3, e4⟩ := h2
      unfold deactivateToken at e3
      rw [hget] at e3
      dsimp only at e3
      rw [if_pos hc.2, Except.ok.injEq] at e3
      rw [pure_ok] at e4
      subst e3; subst e4
      obtain ⟨c1, c2⟩ := counts_set { { p with pos := np } with index := FREE } hget
      dsimp only at c1 c2
      rw [if_neg (by rw [hpt]; exact ht), if_pos rfl] at c1
      rw [if_neg (by rw [hpt]; exact ht), if_pos rfl] at c2
      refine ⟨hc.1, hc.2, ?_, ?_, ?_⟩
      · have := hs.free; dsimp only; omega
      · have := hs.act; dsimp only; omega
      · intro y hy hyt
        dsimp only
        rw [mis_set hget (show p.index ≠ y from fun hcc => hyt (by rw [← hcc]; exact hpt)) (fun hcc => hy hcc.symm), hs.mis y hy]
    · rename_i hc
      right
      rw [pure_ok] at h2; subst h2
      exact ⟨hc, hs⟩
  rcases ens hr I.uses ht with ⟨a1, raw', act', p, a2, a3, a4⟩ | ⟨_, _, a3⟩ | ⟨a1, T1', raw', act', a2, a3, a4, a5, a6, a7⟩
  · left
    rw [h1] at a2
    cases a2
    refine ⟨a1, ?_⟩
    rcases key p a3 a4 with ⟨k1, k2, k3, k4, k5⟩ | ⟨k1, k2⟩
    · refine ⟨1, by omega, ?_, k3, k4, k5, fun _ _ => rfl⟩
      -- it is gone: no other position had the token
      by_contra hne
      have hz : mis b.tokens t = 0 := by have := mis_le b.tokens t; omega
      rw [a3] at h2
      dsimp only at h2
      rw [if_pos ⟨k1, k2⟩, bind_ok] at h2
      obtain ⟨t2, e3, e4⟩ := h2
      unfold deactivateToken at e3
      have hget : (a.tokens.set raw { p with pos := np })[raw]? = some { p with pos := np } := by rw [List.getElem?_set_self', a3]; rfl
      rw [hget] at e3
      dsimp only at e3
      rw [if_pos k2, Except.ok.injEq] at e3
      rw [pure_ok] at e4
      subst e3; subst e4
      obtain ⟨z, g1, g2⟩ := mis_zero.1 hz
      dsimp only at g1
      rw [List.set_set] at g1
      obtain ⟨i, hi⟩ := List.mem_iff_getElem?.1 g1
      rcases getElem?_set_cases hi with ⟨_, rfl⟩ | ⟨hne', hi'⟩
      · exact ht g2.symm
      · exact hne' (I.uses.uniq i raw z p hi' a3 (g2.trans a4.symm) (by rw [g2]; exact ht))
    · refine ⟨0, by omega, by rw [k2.mis t ht]; exact a1, k2.free, k2.act, fun y hy _ => k2.mis y hy, ?_⟩
      rintro hc ⟨p', g1, g2, g3⟩
      exfalso
      obtain ⟨i, hi⟩ := List.mem_iff_getElem?.1 g1
      have := I.uses.uniq i raw p' p hi a3 (g2.trans a4.symm) (by rw [g2]; exact ht)
      subst this
      rw [hi] at a3
      cases a3
      exact k1 ⟨hc, g3⟩
  · rw [h1] at a3; cases a3
  · right
    rw [h1] at a2
    cases a2
    refine ⟨a1, fun hc => ?_⟩
    rcases key ⟨t, 0, 0⟩ a3 rfl with ⟨k1, k2, k3, k4, k5⟩ | ⟨k1, k2⟩
    · refine ⟨by omega, by omega, fun y hy => ?_⟩
      by_cases e : y = t
      · rw [e, a1]
        by_contra hne
        have hz : mis b.tokens t = 0 := by have := mis_le b.tokens t; omega
        rw [a3] at h2
        dsimp only at h2
        rw [if_pos ⟨hc, rfl⟩, bind_ok] at h2
        obtain ⟨t2, e3, e4⟩ := h2
        unfold deactivateToken at e3
        rw [List.getElem?_set_self', a3] at e3
        simp only [Option.map_eq_map, Option.map_some, Function.const_apply, if_true, Except.ok.injEq] at e3
        rw [pure_ok] at e4
        subst e3; subst e4
        obtain ⟨z, g1, g2⟩ := mis_zero.1 hz
        dsimp only at g1
        rw [List.set_set] at g1
        obtain ⟨i, hi⟩ := List.mem_iff_getElem?.1 g1
        rcases getElem?_set_cases hi with ⟨_, rfl⟩ | ⟨hne', hi'⟩
        · exact ht g2.symm
        · exact hne' (a7.uniq i raw z ⟨t, 0, 0⟩ hi' a3 g2 (by rw [g2]; exact ht))
      · rw [k5 y hy e, a6 y hy, if_neg e]
    · exact absurd ⟨hc, rfl⟩ k1

/-- an attempt to withdraw, in a transaction -/
theorem exec_w (I : Inv mk a) {t n : Nat} (ht : t ≠ FREE) (h : exec mk a (.withdraw t n) = .ok b) :
    Inv mk b ∧ b.serums = a.serums ∧ (∀ x, refs mk b x = refs mk a x) ∧
    ((mis a.tokens t = 0 ∧ n ≤ active a.tokens ∧ ∃ d, d ≤ 1 ∧ mis b.tokens t = d ∧ free b.tokens = free a.tokens + d ∧ active b.tokens + d = active a.tokens ∧
        (∀ y, y ≠ FREE → y ≠ t → mis b.tokens y = mis a.tokens y) ∧ ((∃ p ∈ a.tokens, p.index = t ∧ closable p = true) → d = 1)) ∨
      (mis a.tokens t = 1 ∧ Same a.tokens b.tokens)) := by
  simp only [exec] at h
  rw [bind_ok] at h
  obtain ⟨⟨T1, raw, act⟩, h1, h⟩ := h
  dsimp only at h
  rw [bind_ok] at h
  obtain ⟨_, h2, h⟩ := h
  rw [require_ok] at h2
  split at h
  · cases h
  · rename_i p hp
    have hr := refs_nonneg mk a
    rcases ens hr I.uses ht with ⟨a1, raw', act', p', a2, a3, a4⟩ | ⟨_, _, a3⟩ | ⟨a1, T1', raw', act', a2, a3, a4, a5, a6, a7⟩
    · rw [h1] at a2
      cases a2
      by_cases hneg : p.pos < 0
      · rw [if_pos hneg] at h
        obtain ⟨b1, b2, b3, b4⟩ := change_facts I ht h
        refine ⟨b1, b2, b3, ?_⟩
        rcases b4 with ⟨c1, d, c2, c3, c4, c5, c6, _⟩ | ⟨c1, _⟩
        · refine Or.inl ⟨a1, h2, d, c2, c3, c4, c5, c6, ?_⟩
          rintro ⟨z, g1, g2, g3⟩
          exfalso
          obtain ⟨i, hi⟩ := List.mem_iff_getElem?.1 g1
          have := I.uses.uniq i raw z p' hi a3 (g2.trans a4.symm) (by rw [g2]; exact ht)
          subst this
          rw [hi] at a3
          rw [hp] at hi
          cases hi
          have := (closable_iff.1 g3).2.2.1
          omega
        · omega
      · rw [if_neg hneg] at h
        obtain ⟨b1, b2, b3, b4⟩ := change_facts I ht h
        refine ⟨b1, b2, b3, ?_⟩
        rcases b4 with ⟨c1, d, c2, c3, c4, c5, c6, c7⟩ | ⟨c1, _⟩
        · refine Or.inl ⟨a1, h2, d, c2, c3, c4, c5, c6, ?_⟩
          rintro ⟨z, g1, g2, g3⟩
          exact c7 rfl ⟨z, g1, g2, (closable_iff.1 g3).2.1⟩
        · omega
    · rw [h1] at a3; cases a3
    · rw [h1] at a2
      cases a2
      rw [hp] at a3
      cases a3
      rw [if_neg (by dsimp only; omega)] at h
      obtain ⟨b1, b2, b3, b4⟩ := change_facts I ht h
      refine ⟨b1, b2, b3, ?_⟩
      rcases b4 with ⟨c1, _⟩ | ⟨c1, c2⟩
      · omega
      · exact Or.inr ⟨c1, c2 rfl⟩

theorem exec_w_ok (I : Inv mk a) {z : TokenSlot} (hz : z ∈ a.tokens) (hc : closable z = true) {n : Nat} (hn : n ≤ active a.tokens) : ∃ b, exec mk a (.withdraw z.index n) = .ok b := by
  obtain ⟨k1, k2, k3, k4⟩ := closable_iff.1 hc
  have hr := refs_nonneg mk a
  rcases ens hr I.uses k1 with ⟨a1, raw, act, p, a2, a3, a4⟩ | ⟨a1, _, a3⟩ | ⟨a1, _⟩
  · obtain ⟨i, hi⟩ := List.mem_iff_getElem?.1 hz
    have := I.uses.uniq i raw z p hi a3 a4.symm k1
    subst this
    rw [hi] at a3
    cases a3
    have hget : (a.tokens.set i { z with pos := z.pos % S })[i]? = some { z with pos := z.pos % S } := by rw [List.getElem?_set_self', hi]; rfl
    refine ⟨{ a with tokens := (a.tokens.set i { z with pos := z.pos % S }).set i { { z with pos := z.pos % S } with index := FREE } }, ?_⟩
    simp only [exec]
    rw [a2]
    have hreq : require (n ≤ active a.tokens) .requireFailed = .ok () := require_ok.2 hn
    simp only [bind, Except.bind, hreq, hi]
    rw [if_neg (by omega)]
    unfold changeToken
    rw [a2]
    simp only [bind, Except.bind, hi]
    rw [if_pos ⟨trivial, k2⟩]
    unfold deactivateToken
    rw [hget]
    dsimp only
    rw [if_pos k2]
    rfl
  · exact absurd rfl (mis_one.1 a1 z hz)
  · exact absurd rfl (mis_one.1 a1 z hz)

theorem run_append (x y : List Ix) (c : Acc) : run mk a (x ++ y) = .ok c ↔ ∃ b, run mk a x = .ok b ∧ run mk b y = .ok c := by
  induction x generalizing a with
  | nil =>
    simp only [List.nil_append, run]
    constructor
    · intro h; exact ⟨a, rfl, h⟩
    · rintro ⟨b, h1, h2⟩; cases h1; exact h2
  | cons i x ih =>
    simp only [List.cons_append, run, bind_ok]
    constructor
    · rintro ⟨d, h1, h2⟩
      obtain ⟨b, h3, h4⟩ := ih.1 h2
      exact ⟨b, ⟨d, h1, h3⟩, h4⟩
    · rintro ⟨b, ⟨d, h1, h3⟩, h4⟩
      exact ⟨d, h1, ih.2 ⟨b, h3, h4⟩⟩

/-- what may come between the withdrawals and the creation -/
def Mid (a : Acc) (mid : List Ix) : Prop :=
  (mid = [] ∧ ∃ s ∈ a.serums, s.market = FREE) ∨ ∃ k, k ≠ FREE ∧ mid = [.close k] ∧ ∃ s ∈ a.serums, s.market = k

/-- the last part of the transaction -/
theorem tail_iff (I : Inv mk a) {m : Nat} (hm : m ≠ FREE) (hb : mk.base m ≠ FREE) (hq : mk.quote m ≠ FREE) (hbq : mk.base m ≠ mk.quote m) (hno : ∀ s ∈ a.serums, s.market ≠ m)
    (hu : ∀ x, x ≠ FREE → refs mk a x < 65535) {mid : List Ix} (hmid : Mid a mid) :
    (∃ c, run mk a (mid ++ [.create m]) = .ok c) ↔ mis a.tokens (mk.base m) + mis a.tokens (mk.quote m) ≤ free a.tokens := by
  have one : ∀ {b : Acc}, Inv mk b → (∀ s ∈ b.serums, s.market ≠ m) → (∀ x, x ≠ FREE → refs mk b x < 65535) → (∃ s ∈ b.serums, s.market = FREE) →
      ((∃ c, run mk b [.create m] = .ok c) ↔ mis b.tokens (mk.base m) + mis b.tokens (mk.quote m) ≤ free b.tokens) := by
    intro b J g1 g2 g3
    constructor
    · rintro ⟨c, h⟩
      simp only [run, exec, bind_ok] at h
      obtain ⟨d, h1, _⟩ := h
      exact (create_needs J hb hq hbq h1).1
    · intro h
      obtain ⟨c, hc⟩ := create_ok J hb hq hbq (d := 0) g1 g3 h g2
      exact ⟨c, by simp only [run, exec, bind_ok]; exact ⟨c, hc, rfl⟩⟩
  rcases hmid with ⟨rfl, hf⟩ | ⟨k, hk, rfl, hex⟩
  · exact one I hno hu hf
  · obtain ⟨b, h1, h2, h3, _, h5, h6, h7⟩ := close_facts I hk hex
    have := one h2 (h6 m hm hno) (fun x hx => Int.lt_of_le_of_lt (h7 x) (hu x hx)) h5
    rw [h3.mis _ hb, h3.mis _ hq, h3.free] at this
    rw [← this]
    simp only [List.cons_append, List.nil_append]
    constructor
    · rintro ⟨c, h⟩
      rw [run, bind_ok] at h
      obtain ⟨d, g1, g2⟩ := h
      simp only [exec] at g1
      rw [h1] at g1
      cases g1
      exact ⟨c, g2⟩
    · rintro ⟨c, h⟩
      refine ⟨c, ?_⟩
      rw [run, bind_ok]
      exact ⟨b, h1, h⟩

theorem core_iff (I : Inv mk a) {m p q : Nat} (hm : m ≠ FREE) (hb : mk.base m ≠ FREE) (hq : mk.quote m ≠ FREE) (hbq : mk.base m ≠ mk.quote m)
    (hpq : (p = mk.base m ∧ q = mk.quote m) ∨ (p = mk.quote m ∧ q = mk.base m)) (hno : ∀ s ∈ a.serums, s.market ≠ m)
    (hu : ∀ x, x ≠ FREE → refs mk a x < 65535) {mid w : List Ix} (hmid : Mid a mid) (hw : (ensureBoth a.tokens p q).1 = some w) :
    (∃ c, run mk a (w ++ (mid ++ [.create m])) = .ok c) ↔
      (mis a.tokens (mk.base m) + mis a.tokens (mk.quote m) ≤ free a.tokens ∨
        (mis a.tokens (mk.base m) + mis a.tokens (mk.quote m) = 1 ∧ ∀ t n, .withdraw t n ∈ w → t ≠ mk.base m ∧ t ≠ mk.quote m)) := by
  have hp0 : p ≠ FREE := by rcases hpq with ⟨h, _⟩ | ⟨h, _⟩ <;> rw [h] <;> assumption
  have hq0 : q ≠ FREE := by rcases hpq with ⟨_, h⟩ | ⟨_, h⟩ <;> rw [h] <;> assumption
  have hne : p ≠ q := by
    rcases hpq with ⟨h1, h2⟩ | ⟨h1, h2⟩ <;> rw [h1, h2]
    · exact hbq
    · exact fun h => hbq h.symm
  have hsum : ∀ T : List TokenSlot, mis T (mk.base m) + mis T (mk.quote m) = mis T p + mis T q := by
    intro T
    rcases hpq with ⟨h1, h2⟩ | ⟨h1, h2⟩ <;> rw [h1, h2]
    omega
  have hnm : ∀ t, (t ≠ mk.base m ∧ t ≠ mk.quote m) ↔ (t ≠ p ∧ t ≠ q) := by
    intro t
    rcases hpq with ⟨h1, h2⟩ | ⟨h1, h2⟩ <;> rw [h1, h2]
    exact ⟨fun h => ⟨h.2, h.1⟩, fun h => ⟨h.2, h.1⟩⟩
  simp only [hsum, hnm]
  have tl : ∀ {b : Acc}, Inv mk b → b.serums = a.serums → (∀ x, refs mk b x = refs mk a x) →
      ((∃ c, run mk b (mid ++ [.create m]) = .ok c) ↔ mis b.tokens p + mis b.tokens q ≤ free b.tokens) := by
    intro b J g1 g2
    have hmid' : Mid b mid := by unfold Mid at hmid ⊢; rw [g1]; exact hmid
    rw [tail_iff J hm hb hq hbq (by rw [g1]; exact hno) (fun x hx => by rw [g2]; exact hu x hx) hmid', hsum]
  have hr := refs_nonneg mk a
  have m1 := mis_le a.tokens p
  have m2 := mis_le a.tokens q
  rcases ensureBoth_spec hr I.uses hp0 hq0 hne with ⟨e, _⟩ | ⟨h1, e⟩ | ⟨z, h1, h2, h3, h4, h5, h6, e⟩ | ⟨z, rest, h1, h2, h3, h4, h5, e, hrest⟩ | ⟨t, ht, h1, h2, e⟩ | ⟨t, t', ht, ht', h1, h2, h3, _, e⟩
  · rw [e] at hw; cases hw
  · rw [e] at hw
    cases hw
    rw [List.nil_append, tl I rfl (fun _ => rfl)]
    exact ⟨Or.inl, fun _ => h1⟩
  · rw [e] at hw
    cases hw
    refine ⟨fun _ => Or.inr ⟨h1, ?_⟩, fun _ => ?_⟩
    · intro t n hmem
      rw [List.mem_singleton] at hmem
      cases hmem
      exact ⟨h5, h6⟩
    · obtain ⟨b, hbx⟩ := exec_w_ok I h3 h4 (Nat.le_refl (active a.tokens))
      have hzf := (closable_iff.1 h4).1
      obtain ⟨b1, b2, b3, b4⟩ := exec_w I hzf hbx
      rcases b4 with ⟨c1, _, d, c2, c3, c4, c5, c6, c7⟩ | ⟨c1, _⟩
      · have hd := c7 ⟨z, h3, rfl, h4⟩
        subst hd
        have k1 := c6 p hp0 (fun h => h5 h.symm)
        have k2 := c6 q hq0 (fun h => h6 h.symm)
        obtain ⟨c, hc⟩ := (tl b1 b2 b3).2 (by omega)
        refine ⟨c, ?_⟩
        rw [List.singleton_append, run, bind_ok]
        exact ⟨b, hbx, hc⟩
      · exact absurd rfl (mis_one.1 c1 z h3)
  · rw [e] at hw
    cases hw
    constructor
    · rintro ⟨c, h⟩
      exfalso
      rw [List.cons_append, run, bind_ok] at h
      obtain ⟨b, g1, g2⟩ := h
      have hzf := (closable_iff.1 h4).1
      obtain ⟨b1, b2, b3, b4⟩ := exec_w I hzf g1
      rcases b4 with ⟨c1, _, d, c2, c3, c4, c5, c6, c7⟩ | ⟨c1, _⟩
      · have hd := c7 ⟨z, h3, rfl, h4⟩
        subst hd
        have hsum2 : mis b.tokens p + mis b.tokens q = 2 := by
          rcases h5 with h5 | h5
          · have := c6 q hq0 (fun h => hne (by rw [← h5, ← h]))
            rw [h5] at c1 c3; omega
          · have := c6 p hp0 (fun h => hne (by rw [← h5, ← h]))
            rw [h5] at c1 c3; omega
        rcases hrest with rfl | ⟨t, ht, rfl⟩
        · rw [List.nil_append] at g2
          have := (tl b1 b2 b3).1 ⟨c, g2⟩
          omega
        · rw [List.singleton_append, run, bind_ok] at g2
          obtain ⟨b', g3, g4⟩ := g2
          obtain ⟨e1, e2, e3, e4⟩ := exec_w b1 ht g3
          have := (tl e1 (e2.trans b2) (fun x => (e3 x).trans (b3 x))).1 ⟨c, g4⟩
          rcases e4 with ⟨_, k2, _⟩ | ⟨_, k2⟩
          · omega
          · rw [k2.mis _ hp0, k2.mis _ hq0, k2.free] at this
            omega
      · exact absurd rfl (mis_one.1 c1 z h3)
    · rintro (h | ⟨_, h⟩)
      · omega
      · have := h z.index _ List.mem_cons_self
        rcases h5 with h5 | h5
        · exact absurd h5 this.1
        · exact absurd h5 this.2
  · rw [e] at hw
    cases hw
    constructor
    · rintro ⟨c, h⟩
      exfalso
      rw [List.singleton_append, run, bind_ok] at h
      obtain ⟨b, g1, g2⟩ := h
      obtain ⟨b1, b2, b3, b4⟩ := exec_w I ht g1
      have := (tl b1 b2 b3).1 ⟨c, g2⟩
      rcases b4 with ⟨_, k2, _⟩ | ⟨_, k2⟩
      · omega
      · rw [k2.mis _ hp0, k2.mis _ hq0, k2.free] at this
        omega
    · rintro (h | ⟨h, _⟩) <;> omega
  · rw [e] at hw
    cases hw
    constructor
    · rintro ⟨c, h⟩
      exfalso
      rw [List.cons_append, run, bind_ok] at h
      obtain ⟨b, g1, g2⟩ := h
      rw [List.singleton_append, run, bind_ok] at g2
      obtain ⟨b', g3, g4⟩ := g2
      obtain ⟨b1, b2, b3, b4⟩ := exec_w I ht g1
      obtain ⟨e1, e2, e3, e4⟩ := exec_w b1 ht' g3
      have fin := (tl e1 (e2.trans b2) (fun x => (e3 x).trans (b3 x))).1 ⟨c, g4⟩
      have htp : t ≠ p := by rintro rfl; omega
      have htq : t ≠ q := by rintro rfl; omega
      rcases b4 with ⟨_, _, d, c2, c3, c4, c5, c6, _⟩ | ⟨c1, _⟩
      · have k1 := c6 p hp0 (fun h => htp h.symm)
        have k2 := c6 q hq0 (fun h => htq h.symm)
        rcases e4 with ⟨f1, f2, d', f3, f4, f5, f6, f7, _⟩ | ⟨_, f2⟩
        · have htp' : t' ≠ p := by rintro rfl; omega
          have htq' : t' ≠ q := by rintro rfl; omega
          have k3 := f7 p hp0 (fun h => htp' h.symm)
          have k4 := f7 q hq0 (fun h => htq' h.symm)
          omega
        · rw [f2.mis _ hp0, f2.mis _ hq0, f2.free] at fin
          omega
      · omega
    · rintro (h | ⟨h, _⟩) <;> omega

/-- the shape of a plan -/
theorem plan_spec {oo : SerumSlot → Bool} {m p q : Nat} {ixs : List Ix} (hno : ∀ s ∈ a.serums, s.market ≠ m) (h : plan mk oo a m p q = .ok ixs) :
    (∃ w mid, (ensureBoth a.tokens p q).1 = some w ∧ ixs = w ++ (mid ++ [.create m]) ∧
      ((mid = [] ∧ ∃ s ∈ a.serums, s.market = FREE) ∨ ∃ k, firstClosable oo a.serums = .ok k ∧ mid = [.close k])) ∨
    ((ensureBoth a.tokens p q).1 = none ∧ ∃ k b w, firstClosable oo a.serums = .ok k ∧ closeSerum mk { a with tokens := (ensureBoth a.tokens p q).2 } k = .ok b ∧
      (ensureBoth b.tokens p q).1 = some w ∧ ixs = .close k :: (w ++ [.create m])) := by
  unfold plan at h
  dsimp only at h
  rw [if_neg (by simpa using hno), bind_ok] at h
  obtain ⟨⟨i2, a2⟩, e2, h⟩ := h
  dsimp only at h
  rw [bind_ok] at h
  obtain ⟨i3, e3, h⟩ := h
  by_cases hc : a.serums.any (fun p => p.market == FREE) = false ∨ (ensureBoth a.tokens p q).1.isNone = true
  · rw [if_pos hc, bind_ok] at e2
    obtain ⟨k, k1, e2⟩ := e2
    rw [bind_ok] at e2
    obtain ⟨b, k2, e2⟩ := e2
    rw [ok_inj] at e2
    cases e2
    by_cases hs : a2.serums.any (fun p => p.market == FREE)
    · rw [if_pos hs, ok_inj] at h
      subst h
      cases e : (ensureBoth a.tokens p q).1 with
      | some w =>
        rw [e] at e3
        dsimp only at e3
        rw [ok_inj] at e3
        subst e3
        left
        exact ⟨w, [.close k], rfl, by simp, Or.inr ⟨k, k1, rfl⟩⟩
      | none =>
        rw [e] at e3
        dsimp only at e3
        right
        cases e' : (ensureBoth a2.tokens p q).1 with
        | none => rw [e'] at e3; cases e3
        | some w =>
          rw [e'] at e3
          dsimp only at e3
          rw [ok_inj] at e3
          subst e3
          exact ⟨rfl, k, _, w, k1, k2, e', by simp⟩
    · rw [if_neg hs] at h; cases h
  · rw [if_neg hc, ok_inj] at e2
    cases e2
    rw [not_or] at hc
    by_cases hs : a.serums.any (fun p => p.market == FREE)
    · dsimp only at h
      rw [if_pos hs, ok_inj] at h
      subst h
      cases e : (ensureBoth a.tokens p q).1 with
      | some w =>
        rw [e] at e3
        dsimp only at e3
        rw [ok_inj] at e3
        subst e3
        left
        exact ⟨w, [], rfl, by simp, Or.inl ⟨rfl, by simpa using hs⟩⟩
      | none => rw [e] at hc; exact absurd rfl hc.2
    · dsimp only at h; rw [if_neg hs] at h; cases h

theorem firstClosable_ok {oo : SerumSlot → Bool} {k : Nat} : ∀ {l : List SerumSlot}, firstClosable oo l = .ok k → k ≠ FREE ∧ ∃ s ∈ l, s.market = k ∧ oo s = true := by
  intro l
  induction l with
  | nil => intro h; cases h
  | cons s l ih =>
    intro h
    unfold firstClosable at h
    by_cases h1 : s.market = FREE
    · rw [if_pos h1] at h; cases h
    · rw [if_neg h1] at h
      by_cases h2 : oo s = true
      · rw [if_pos h2] at h
        cases h
        exact ⟨h1, s, List.mem_cons_self, rfl, h2⟩
      · rw [if_neg h2] at h
        obtain ⟨g1, s', g2, g3⟩ := ih h
        exact ⟨g1, s', List.mem_cons_of_mem _ g2, g3⟩

theorem refs_lt (I : Inv mk a) (hu : ∀ p ∈ a.tokens, p.index ≠ FREE → p.inUse < 65535) (x : Nat) (hx : x ≠ FREE) : refs mk a x < 65535 := by
  by_contra hc
  obtain ⟨p, hp, e⟩ := I.uses.held x hx (by omega)
  have h1 := I.uses.count p hp (by rw [e]; exact hx)
  have h2 := hu p hp (by rw [e]; exact hx)
  rw [e] at h1
  omega

/-! ## What the plan withdraws -/

theorem freeOne_names {T T' : List TokenSlot} {ix : Ix} (h : freeOne T = .ok (ix, T')) :
    (∀ z ∈ T', z.index ≠ FREE → z ∈ T) ∧ ∃ z ∈ T, closable z = true ∧ ix = .withdraw z.index (active T) := by
  unfold freeOne at h
  cases e : T.findIdx? closable with
  | none => rw [e] at h; cases h
  | some raw =>
    obtain ⟨p, h1, h2, _⟩ := findIdx?_some e
    rw [e] at h
    dsimp only at h
    rw [h1] at h
    dsimp only at h
    rw [bind_ok] at h
    obtain ⟨t, h3, h⟩ := h
    cases h
    unfold deactivateToken at h3
    rw [h1] at h3
    dsimp only at h3
    rw [if_pos (closable_iff.1 h2).2.1] at h3
    cases h3
    refine ⟨fun z hz hf => ?_, p, List.mem_iff_getElem?.2 ⟨raw, h1⟩, h2, rfl⟩
    obtain ⟨i, hi⟩ := List.mem_iff_getElem?.1 hz
    rcases getElem?_set_cases hi with ⟨_, rfl⟩ | ⟨_, hi'⟩
    · exact absurd rfl hf
    · exact List.mem_iff_getElem?.2 ⟨i, hi'⟩

/-- the positions after a token's was made -/
theorem ensureToken_names {T T' : List TokenSlot} {x raw act : Nat} (hx : x ≠ FREE) (h : ensureToken T x = .ok (T', raw, act)) :
    ∀ z ∈ T', z ∈ T ∨ (z = ⟨x, 0, 0⟩ ∧ ∀ y ∈ T, y.index ≠ x) := by
  intro z hz
  rcases ensureToken_spec hx h with ⟨_, _, _, rfl, _⟩ | ⟨h0, p, h1, h2, rfl, _⟩
  · exact Or.inl hz
  · obtain ⟨i, hi⟩ := List.mem_iff_getElem?.1 hz
    rcases getElem?_set_cases hi with ⟨_, rfl⟩ | ⟨_, hi'⟩
    · exact Or.inr ⟨rfl, h0⟩
    · exact Or.inl (List.mem_iff_getElem?.2 ⟨i, hi'⟩)

theorem ensureOne_names {T T' : List TokenSlot} {x : Nat} {w : List Ix} (hx : x ≠ FREE) (h : ensureOne T x = .ok (w, T')) :
    (∀ z ∈ T', z.index ≠ FREE → z ∈ T ∨ (z = ⟨x, 0, 0⟩ ∧ ∀ y ∈ T, y.index ≠ x)) ∧ ∀ t n, .withdraw t n ∈ w → ∃ z ∈ T, closable z = true ∧ z.index = t := by
  unfold ensureOne at h
  cases e : ensureToken T x with
  | ok r =>
    obtain ⟨T1, raw, act⟩ := r
    rw [e] at h
    cases h
    exact ⟨fun z hz _ => ensureToken_names hx e z hz, fun t n hm => by cases hm⟩
  | error er =>
    rw [e] at h
    by_cases he : er = .noFreeTokenPositionIndex
    · subst he
      dsimp only at h
      rw [bind_ok] at h
      obtain ⟨⟨ix, T1⟩, h1, h⟩ := h
      dsimp only at h
      rw [bind_ok] at h
      obtain ⟨⟨T2, raw, act⟩, h2, h⟩ := h
      cases h
      obtain ⟨f1, z, f2, f3, rfl⟩ := freeOne_names h1
      have hno : ∀ y ∈ T, y.index ≠ x := by
        intro y hy hyx
        obtain ⟨r, hr⟩ := ensureToken_total hx (Or.inl ⟨y, hy, hyx⟩)
        rw [hr] at e; cases e
      refine ⟨fun y hy hf => ?_, fun t n hm => ?_⟩
      · rcases ensureToken_names hx h2 y hy with g | ⟨g, _⟩
        · exact Or.inl (f1 y g hf)
        · exact Or.inr ⟨g, hno⟩
      · rw [List.mem_singleton] at hm
        cases hm
        exact ⟨z, f2, f3, rfl⟩
    · have : w = [] ∧ T' = T := by
        cases er <;> first | exact absurd rfl he | (cases h; exact ⟨rfl, rfl⟩)
      obtain ⟨rfl, rfl⟩ := this
      exact ⟨fun z hz _ => Or.inl hz, fun t n hm => by cases hm⟩

/-- every position of a token that is to be withdrawn is closable -/
theorem ensureBoth_names {T : List TokenSlot} {r : Nat → Int} (U : Uses T r) {p q : Nat} (hp : p ≠ FREE) (hq : q ≠ FREE) {w : List Ix} (h : (ensureBoth T p q).1 = some w) {t n : Nat}
    (hm : .withdraw t n ∈ w) : t ≠ FREE ∧ ∀ z ∈ T, z.index = t → closable z = true := by
  unfold ensureBoth at h
  cases e1 : ensureOne T p with
  | error e => rw [e1] at h; cases h
  | ok r1 =>
    obtain ⟨i1, T1⟩ := r1
    rw [e1] at h
    dsimp only at h
    cases e2 : ensureOne T1 q with
    | error e => rw [e2] at h; cases h
    | ok r2 =>
      obtain ⟨i2, T2⟩ := r2
      rw [e2] at h
      cases h
      obtain ⟨a1, a2⟩ := ensureOne_names hp e1
      obtain ⟨b1, b2⟩ := ensureOne_names hq e2
      have uniq : ∀ z ∈ T, closable z = true → ∀ y ∈ T, y.index = z.index → closable y = true := by
        intro z hz hc y hy e
        obtain ⟨i, hi⟩ := List.mem_iff_getElem?.1 hz
        obtain ⟨j, hj⟩ := List.mem_iff_getElem?.1 hy
        have := U.uniq j i y z hj hi e (by rw [e]; exact (closable_iff.1 hc).1)
        subst this
        rw [hi] at hj
        cases hj
        exact hc
      rcases List.mem_append.1 hm with hm | hm
      · obtain ⟨z, z1, z2, rfl⟩ := a2 t n hm
        exact ⟨(closable_iff.1 z2).1, fun y hy e => uniq z z1 z2 y hy e⟩
      · obtain ⟨z, z1, z2, rfl⟩ := b2 t n hm
        refine ⟨(closable_iff.1 z2).1, fun y hy e => ?_⟩
        rcases a1 z z1 (closable_iff.1 z2).1 with g | ⟨rfl, g⟩
        · exact uniq z g z2 y hy e
        · exact absurd e (g y hy)

end

/-! ## C101 -/

/-- the market, its tokens and what the client is told: the payer's token and the receiver's are the market's -/
structure Trade (mk : Markets) (m payer receiver : Nat) : Prop where
  market : m ≠ FREE
  base : mk.base m ≠ FREE
  quote : mk.quote m ≠ FREE
  distinct : mk.base m ≠ mk.quote m
  sides : (payer = mk.base m ∧ receiver = mk.quote m) ∨ (payer = mk.quote m ∧ receiver = mk.base m)

/-- how many of the market's tokens the account has no position for -/
def missing (mk : Markets) (a : Acc) (m : Nat) : Nat := mis a.tokens (mk.base m) + mis a.tokens (mk.quote m)

theorem payer_ne {mk : Markets} {m p q : Nat} (t : Trade mk m p q) : p ≠ FREE ∧ q ≠ FREE := by
  rcases t.sides with ⟨h1, h2⟩ | ⟨h1, h2⟩ <;> rw [h1, h2]
  · exact ⟨t.base, t.quote⟩
  · exact ⟨t.quote, t.base⟩

theorem payer_distinct {mk : Markets} {m p q : Nat} (t : Trade mk m p q) : p ≠ q := by
  rcases t.sides with ⟨h1, h2⟩ | ⟨h1, h2⟩ <;> rw [h1, h2]
  · exact t.distinct
  · exact fun h => t.distinct h.symm

/-- the account the second part of a plan is about, when the first attempt found nothing to close -/
theorem second {mk : Markets} {a b : Acc} (I : Inv mk a) {oo : SerumSlot → Bool} {m p q k : Nat} (t : Trade mk m p q) (hno : ∀ s ∈ a.serums, s.market ≠ m)
    (e : (ensureBoth a.tokens p q).1 = none) (h1 : firstClosable oo a.serums = .ok k) (h2 : closeSerum mk { a with tokens := (ensureBoth a.tokens p q).2 } k = .ok b) :
    closeSerum mk a k = .ok b ∧ Inv mk b ∧ Same a.tokens b.tokens ∧ (∀ z ∈ a.tokens, ∃ z' ∈ b.tokens, z'.index = z.index ∧ z'.pos = z.pos) ∧
      (∃ s ∈ b.serums, s.market = FREE) ∧ (∀ s ∈ b.serums, s.market ≠ m) ∧ ∀ x, refs mk b x ≤ refs mk a x := by
  obtain ⟨k0, s, hs, hsk, _⟩ := firstClosable_ok h1
  obtain ⟨b', g1, g2, g3, g4, g5, g6, g7⟩ := close_facts I k0 ⟨s, hs, hsk⟩
  have hT : (ensureBoth a.tokens p q).2 = a.tokens := by
    rcases ensureBoth_spec (refs_nonneg mk a) I.uses (payer_ne t).1 (payer_ne t).2 (payer_distinct t) with ⟨_, h, _⟩ | ⟨_, h⟩ | ⟨_, _, _, _, _, _, _, h⟩ | ⟨_, _, _, _, _, _, _, h, _⟩ |
      ⟨_, _, _, _, h⟩ | ⟨_, _, _, _, _, _, _, _, h⟩
    · exact h
    all_goals rw [e] at h; cases h
  rw [hT] at h2
  have h2 : closeSerum mk a k = .ok b := h2
  rw [g1] at h2
  cases h2
  exact ⟨g1, g2, g3, g4, g5, g6 m t.market hno, g7⟩

/-- The client's plan for a market the account has no open orders account for succeeds on chain exactly if there are free positions for the missing tokens, or one token is missing and the plan withdraws neither of the market's own. -/
theorem C101_iff {mk : Markets} {a : Acc} (hR : Reach mk a) {oo : SerumSlot → Bool} {m payer receiver : Nat} (t : Trade mk m payer receiver)
    (hno : ∀ s ∈ a.serums, s.market ≠ m) (hu : ∀ p ∈ a.tokens, p.index ≠ FREE → p.inUse < 65535) {ixs : List Ix} (h : plan mk oo a m payer receiver = .ok ixs) :
    (∃ c, run mk a ixs = .ok c) ↔ (missing mk a m ≤ free a.tokens ∨ (missing mk a m = 1 ∧ ∀ x n, .withdraw x n ∈ ixs → x ≠ mk.base m ∧ x ≠ mk.quote m)) := by
  have I := reach_inv hR
  have hu' := refs_lt I hu
  unfold missing
  rcases plan_spec hno h with ⟨w, mid, e, rfl, hmid⟩ | ⟨e, k, b, w, h1, h2, e', rfl⟩
  · have hmid' : Mid a mid := by
      rcases hmid with hmid | ⟨k, k1, rfl⟩
      · exact Or.inl hmid
      · obtain ⟨k0, s, hs, hsk, _⟩ := firstClosable_ok k1
        exact Or.inr ⟨k, k0, rfl, s, hs, hsk⟩
    have hw : ∀ x n, (Ix.withdraw x n ∈ w ++ (mid ++ [.create m]) ↔ Ix.withdraw x n ∈ w) := by
      intro x n
      rcases hmid with ⟨rfl, _⟩ | ⟨k, _, rfl⟩ <;> simp
    simp only [hw]
    exact core_iff I t.market t.base t.quote t.distinct t.sides hno hu' hmid' e
  · obtain ⟨g1, g2, g3, _, g5, g6, g7⟩ := second I t hno e h1 h2
    have hw : ∀ x n, (Ix.withdraw x n ∈ Ix.close k :: (w ++ [.create m]) ↔ Ix.withdraw x n ∈ w) := by
      intro x n; simp
    simp only [hw]
    have := core_iff g2 t.market t.base t.quote t.distinct t.sides g6 (fun x hx => Int.lt_of_le_of_lt (g7 x) (hu' x hx)) (Or.inl ⟨rfl, g5⟩ : Mid b []) e'
    rw [g3.mis _ t.base, g3.mis _ t.quote, g3.free, List.nil_append] at this
    rw [← this]
    constructor
    · rintro ⟨c, hc⟩
      rw [run, bind_ok] at hc
      obtain ⟨d, d1, d2⟩ := hc
      simp only [exec] at d1
      rw [g1] at d1
      cases d1
      exact ⟨c, d2⟩
    · rintro ⟨c, hc⟩
      refine ⟨c, ?_⟩
      rw [run, bind_ok]
      exact ⟨b, g1, hc⟩

/-- When the transaction succeeds the market is open and both of its tokens have positions. -/
theorem C101_opens {mk : Markets} {a c : Acc} (hR : Reach mk a) {oo : SerumSlot → Bool} {m payer receiver : Nat} (t : Trade mk m payer receiver)
    (hno : ∀ s ∈ a.serums, s.market ≠ m) {ixs : List Ix} (h : plan mk oo a m payer receiver = .ok ixs) (hc : run mk a ixs = .ok c) :
    (∃ s ∈ c.serums, s.market = m) ∧ (∃ p ∈ c.tokens, p.index = mk.base m) ∧ ∃ p ∈ c.tokens, p.index = mk.quote m := by
  have key : ∃ pre, ixs = pre ++ [.create m] ∧ ∀ i ∈ pre, (∃ x n, i = .withdraw x n ∧ x ≠ FREE) ∨ ∃ k, k ≠ FREE ∧ i = .close k := by
    have I := reach_inv hR
    rcases plan_spec hno h with ⟨w, mid, e, rfl, hmid⟩ | ⟨e, k, b, w, h1, h2, e', rfl⟩
    · refine ⟨w ++ mid, by simp, fun i hi => ?_⟩
      rcases List.mem_append.1 hi with hi | hi
      · left
        cases i with
        | withdraw x n => exact ⟨x, n, rfl, (ensureBoth_names I.uses (payer_ne t).1 (payer_ne t).2 e hi).1⟩
        | close k => exact absurd hi (by
            rcases ensureBoth_spec (refs_nonneg mk a) I.uses (payer_ne t).1 (payer_ne t).2 (payer_distinct t) with ⟨h, _⟩ | ⟨_, h⟩ | ⟨_, _, _, _, _, _, _, h⟩ | ⟨_, _, _, _, _, _, _, h, hr⟩ |
              ⟨_, _, _, _, h⟩ | ⟨_, _, _, _, _, _, _, _, h⟩ <;> rw [e] at h <;> cases h
            · simp
            · simp
            · rcases hr with rfl | ⟨_, _, rfl⟩ <;> simp
            · simp
            · simp)
        | create k => exact absurd hi (by
            rcases ensureBoth_spec (refs_nonneg mk a) I.uses (payer_ne t).1 (payer_ne t).2 (payer_distinct t) with ⟨h, _⟩ | ⟨_, h⟩ | ⟨_, _, _, _, _, _, _, h⟩ | ⟨_, _, _, _, _, _, _, h, hr⟩ |
              ⟨_, _, _, _, h⟩ | ⟨_, _, _, _, _, _, _, _, h⟩ <;> rw [e] at h <;> cases h
            · simp
            · simp
            · rcases hr with rfl | ⟨_, _, rfl⟩ <;> simp
            · simp
            · simp)
      · right
        rcases hmid with ⟨rfl, _⟩ | ⟨k, k1, rfl⟩
        · cases hi
        · rw [List.mem_singleton] at hi
          exact ⟨k, (firstClosable_ok k1).1, hi⟩
    · obtain ⟨g1, g2, g3, _, g5, g6, g7⟩ := second I t hno e h1 h2
      refine ⟨.close k :: w, by simp, fun i hi => ?_⟩
      rcases List.mem_cons.1 hi with rfl | hi
      · exact Or.inr ⟨k, (firstClosable_ok h1).1, rfl⟩
      · left
        cases i with
        | withdraw x n => exact ⟨x, n, rfl, (ensureBoth_names g2.uses (payer_ne t).1 (payer_ne t).2 e' hi).1⟩
        | close k => exact absurd hi (by
            rcases ensureBoth_spec (refs_nonneg mk b) g2.uses (payer_ne t).1 (payer_ne t).2 (payer_distinct t) with ⟨h, _⟩ | ⟨_, h⟩ | ⟨_, _, _, _, _, _, _, h⟩ | ⟨_, _, _, _, _, _, _, h, hr⟩ |
              ⟨_, _, _, _, h⟩ | ⟨_, _, _, _, _, _, _, _, h⟩ <;> rw [e'] at h <;> cases h
            · simp
            · simp
            · rcases hr with rfl | ⟨_, _, rfl⟩ <;> simp
            · simp
            · simp)
        | create k => exact absurd hi (by
            rcases ensureBoth_spec (refs_nonneg mk b) g2.uses (payer_ne t).1 (payer_ne t).2 (payer_distinct t) with ⟨h, _⟩ | ⟨_, h⟩ | ⟨_, _, _, _, _, _, _, h⟩ | ⟨_, _, _, _, _, _, _, h, hr⟩ |
              ⟨_, _, _, _, h⟩ | ⟨_, _, _, _, _, _, _, _, h⟩ <;> rw [e'] at h <;> cases h
            · simp
            · simp
            · rcases hr with rfl | ⟨_, _, rfl⟩ <;> simp
            · simp
            · simp)
  obtain ⟨pre, rfl, hpre⟩ := key
  obtain ⟨b, h1, h2⟩ := (run_append pre _ c).1 hc
  have keep : ∀ (l : List Ix) (x : Acc), (∀ i ∈ l, (∃ x n, i = .withdraw x n ∧ x ≠ FREE) ∨ ∃ k, k ≠ FREE ∧ i = .close k) → Inv mk x → ∀ y, run mk x l = .ok y → Inv mk y := by
    intro l
    induction l with
    | nil => intro x _ J y hy; cases hy; exact J
    | cons i l ih =>
      intro x hl J y hy
      rw [run, bind_ok] at hy
      obtain ⟨z, z1, z2⟩ := hy
      refine ih z (fun j hj => hl j (List.mem_cons_of_mem _ hj)) ?_ y z2
      rcases hl i List.mem_cons_self with ⟨x', n, rfl, hx⟩ | ⟨k, hk, rfl⟩
      · exact (exec_w J hx z1).1
      · exact closeSerum_inv J hk z1
  have J := keep pre a hpre (reach_inv hR) b h1
  rw [run, bind_ok] at h2
  obtain ⟨d, d1, d2⟩ := h2
  cases d2
  obtain ⟨_, n1, n2, n3⟩ := create_needs J t.base t.quote t.distinct (show createSerum mk b m 0 = .ok c from d1)
  exact ⟨n3, mis_zero.1 n1, mis_zero.1 n2⟩

/-- What the plan withdraws: nothing of tokens the account has more of than one native unit, and it does not try borrows. -/
theorem C101_harmless {mk : Markets} {a : Acc} (hR : Reach mk a) {oo : SerumSlot → Bool} {m payer receiver : Nat} (t : Trade mk m payer receiver)
    (hno : ∀ s ∈ a.serums, s.market ≠ m) {ixs : List Ix} (h : plan mk oo a m payer receiver = .ok ixs) {x n : Nat} (hx : .withdraw x n ∈ ixs) :
    ∀ z ∈ a.tokens, z.index = x → 0 ≤ z.pos ∧ z.pos ≤ S := by
  have I := reach_inv hR
  rcases plan_spec hno h with ⟨w, mid, e, rfl, hmid⟩ | ⟨e, k, b, w, h1, h2, e', rfl⟩
  · have hw : Ix.withdraw x n ∈ w := by
      rcases hmid with ⟨rfl, _⟩ | ⟨k, _, rfl⟩ <;> simpa using hx
    intro z hz hzx
    have := closable_iff.1 ((ensureBoth_names I.uses (payer_ne t).1 (payer_ne t).2 e hw).2 z hz hzx)
    exact ⟨this.2.2.1, this.2.2.2⟩
  · obtain ⟨g1, g2, g3, g4, g5, g6, g7⟩ := second I t hno e h1 h2
    have hw : Ix.withdraw x n ∈ w := by simpa using hx
    intro z hz hzx
    obtain ⟨z', z1, z2, z3⟩ := g4 z hz
    have := closable_iff.1 ((ensureBoth_names g2.uses (payer_ne t).1 (payer_ne t).2 e' hw).2 z' z1 (z2.trans hzx))
    rw [z3] at this
    exact ⟨this.2.2.1, this.2.2.2⟩

/-- Open orders accounts are closed only where `oo` says that they can be. -/
theorem C101_closes {mk : Markets} {a : Acc} {oo : SerumSlot → Bool} {m payer receiver : Nat}
    (hno : ∀ s ∈ a.serums, s.market ≠ m) {ixs : List Ix} (h : plan mk oo a m payer receiver = .ok ixs) {k : Nat} (hk : .close k ∈ ixs) (hR : Reach mk a) (t : Trade mk m payer receiver) :
    ∃ s ∈ a.serums, s.market = k ∧ k ≠ FREE ∧ oo s = true := by
  have I := reach_inv hR
  have no : ∀ {T : List TokenSlot} {r : Nat → Int} (_ : ∀ x, 0 ≤ r x) (_ : Uses T r) {w : List Ix}, (ensureBoth T payer receiver).1 = some w → ¬ .close k ∈ w := by
    intro T r hr U w e
    rcases ensureBoth_spec hr U (payer_ne t).1 (payer_ne t).2 (payer_distinct t) with ⟨h, _⟩ | ⟨_, h⟩ | ⟨_, _, _, _, _, _, _, h⟩ | ⟨_, _, _, _, _, _, _, h, hr⟩ |
      ⟨_, _, _, _, h⟩ | ⟨_, _, _, _, _, _, _, _, h⟩ <;> rw [e] at h <;> cases h
    · simp
    · simp
    · rcases hr with rfl | ⟨_, _, rfl⟩ <;> simp
    · simp
    · simp
  rcases plan_spec hno h with ⟨w, mid, e, rfl, hmid⟩ | ⟨e, k', b, w, h1, h2, e', rfl⟩
  · rcases hmid with ⟨rfl, _⟩ | ⟨k', k1, rfl⟩
    · exact absurd (by simpa using hk) (no (refs_nonneg mk a) I.uses e)
    · have : Ix.close k ∈ w ∨ k = k' := by simpa using hk
      rcases this with h' | rfl
      · exact absurd h' (no (refs_nonneg mk a) I.uses e)
      · obtain ⟨k0, s, hs, hsk, ho⟩ := firstClosable_ok k1
        exact ⟨s, hs, hsk, k0, ho⟩
  · obtain ⟨_, g2, _⟩ := second I t hno e h1 h2
    have : k = k' ∨ Ix.close k ∈ w := by simpa using hk
    rcases this with rfl | h'
    · obtain ⟨k0, s, hs, hsk, ho⟩ := firstClosable_ok h1
      exact ⟨s, hs, hsk, k0, ho⟩
    · exact absurd h' (no (refs_nonneg mk b) g2.uses e')

/-- A token missing, no free position and none that can be closed: if a free spot market slot comes before the ones in use there is no plan, although closing an open orders account would make positions closable. -/
theorem C101_inactive {mk : Markets} {a : Acc} (hR : Reach mk a) {oo : SerumSlot → Bool} {m payer receiver : Nat} (t : Trade mk m payer receiver)
    (hno : ∀ s ∈ a.serums, s.market ≠ m) (hmis : 0 < missing mk a m) (hfull : ∀ p ∈ a.tokens, p.index ≠ FREE) (hc : ∀ p ∈ a.tokens, closable p = false)
    {s : SerumSlot} {rest : List SerumSlot} (hs : a.serums = s :: rest) (hsf : s.market = FREE) : ¬ ∃ ixs, plan mk oo a m payer receiver = .ok ixs := by
  rintro ⟨ixs, h⟩
  have I := reach_inv hR
  have hf0 : free a.tokens = 0 := by
    by_contra hne
    obtain ⟨p, hp, e⟩ := (free_pos (l := a.tokens)).1 (by omega)
    exact hfull p hp e
  have hmis' : 0 < mis a.tokens payer + mis a.tokens receiver := by
    unfold missing at hmis
    rcases t.sides with ⟨h1, h2⟩ | ⟨h1, h2⟩ <;> rw [h1, h2]
    · exact hmis
    · omega
  have none : (ensureBoth a.tokens payer receiver).1 = none := by
    rcases ensureBoth_spec (refs_nonneg mk a) I.uses (payer_ne t).1 (payer_ne t).2 (payer_distinct t) with ⟨h, _⟩ | ⟨h, _⟩ | ⟨z, _, _, hz, hz2, _⟩ | ⟨z, _, _, _, hz, hz2, _⟩ |
      ⟨_, _, _, h, _⟩ | ⟨_, _, _, _, _, _, _, ⟨z, hz, hz2⟩, _⟩
    · exact h
    · omega
    · rw [hc z hz] at hz2; cases hz2
    · rw [hc z hz] at hz2; cases hz2
    · omega
    · rw [hc z hz] at hz2; cases hz2
  rcases plan_spec hno h with ⟨w, mid, e, _⟩ | ⟨_, k, b, w, h1, _⟩
  · rw [none] at e; cases e
  · rw [hs] at h1
    unfold firstClosable at h1
    rw [if_pos hsf] at h1
    cases h1

/-! ## Examples -/

/-- markets 3 and 4 trade tokens 5 and 6 for token 0; the perp market settles in token 0 -/
def exMk : Markets := ⟨fun m => m + 2, fun _ => 0, fun _ => 0⟩

theorem exTrade : Trade exMk 3 0 5 := ⟨by decide, by decide, by decide, by decide, Or.inr ⟨rfl, rfl⟩⟩

def runOps : Acc → List Op → Res Acc
  | a, [] => .ok a
  | a, op :: ops => do
    let a ← step exMk a op
    runOps a ops

theorem runOps_reach {a a' : Acc} {ops : List Op} (h : Reach exMk a) (hr : ∀ op ∈ ops, op.Registered exMk) (e : runOps a ops = .ok a') : Reach exMk a' := by
  induction ops generalizing a with
  | nil => cases e; exact h
  | cons op ops ih =>
    rw [runOps, bind_ok] at e
    obtain ⟨b, e1, e2⟩ := e
    exact ih (Reach.step op h (hr op List.mem_cons_self) e1) (fun x hx => hr x (List.mem_cons_of_mem _ hx)) e2

def all (_ : SerumSlot) : Bool := true

/-- three positions: token 9 with less than a unit, tokens 7 and 0 with more; no market open -/
def exA : Acc := ⟨[⟨9, 0, 5⟩, ⟨7, 0, 10 * S⟩, ⟨0, 0, 100 * S⟩], [freeSerum], [], [], 0⟩

theorem exA_reach : Reach exMk exA := by
  refine runOps_reach (ops := [.token 9 5 false, .token 7 (10 * S) false, .token 0 (100 * S) false]) (.new 3 1 0 0) ?_ (by decide +kernel)
  intro op hop
  simp only [List.mem_cons, List.not_mem_nil, or_false] at hop
  rcases hop with rfl | rfl | rfl <;> (unfold Op.Registered; decide)

/-- token 9's position makes room for token 5 -/
example : plan exMk all exA 3 0 5 = .ok [.withdraw 9 3, .create 3] ∧
    run exMk exA [.withdraw 9 3, .create 3] = .ok ⟨[⟨5, 1, 0⟩, ⟨7, 0, 10 * S⟩, ⟨0, 1, 100 * S⟩], [⟨3, 5, 0, 0⟩], [], [], 0⟩ ∧ missing exMk exA 3 = 1 ∧ free exA.tokens = 0 := by
  refine ⟨by decide +kernel, by decide +kernel, by decide +kernel, by decide +kernel⟩

example : ∃ c, run exMk exA [.withdraw 9 3, .create 3] = .ok c :=
  (C101_iff exA_reach exTrade (by decide +kernel) (by decide +kernel) (show plan exMk all exA 3 0 5 = .ok _ by decide +kernel)).2
    (Or.inr ⟨by decide +kernel, by intro x n h; simp at h; obtain ⟨rfl, rfl⟩ := h; decide⟩)

/-- the quote token's own position is empty and comes first: the plan closes it and the market cannot be opened -/
def exB : Acc := ⟨[⟨0, 0, 0⟩, ⟨9, 0, 5⟩, ⟨7, 0, 10 * S⟩], [freeSerum], [], [], 0⟩

theorem exB_reach : Reach exMk exB := by
  refine runOps_reach (ops := [.token 0 0 false, .token 9 5 false, .token 7 (10 * S) false]) (.new 3 1 0 0) ?_ (by decide +kernel)
  intro op hop
  simp only [List.mem_cons, List.not_mem_nil, or_false] at hop
  rcases hop with rfl | rfl | rfl <;> (unfold Op.Registered; decide)

example : plan exMk all exB 3 0 5 = .ok [.withdraw 0 3, .create 3] ∧ run exMk exB [.withdraw 0 3, .create 3] = .error .noFreeTokenPositionIndex := by
  refine ⟨by decide +kernel, by decide +kernel⟩

example : ¬ ∃ c, run exMk exB [.withdraw 0 3, .create 3] = .ok c := fun h => by
  rcases (C101_iff exB_reach exTrade (by decide +kernel) (by decide +kernel) (show plan exMk all exB 3 0 5 = .ok _ by decide +kernel)).1 h with h | ⟨_, h⟩
  · exact absurd h (by decide +kernel)
  · exact absurd rfl (h 0 3 (by decide)).2

/-- both tokens missing, two positions that could be closed: the bank listed for a position that exists only in the client's account is one too many, or the second token finds no room -/
def exC : Acc := ⟨[⟨8, 0, 0⟩, ⟨9, 0, 5⟩, ⟨7, 0, 10 * S⟩], [freeSerum], [], [], 0⟩

theorem exC_plan : plan exMk all exC 3 0 5 = .ok [.withdraw 8 3, .withdraw 0 3, .create 3] ∧ run exMk exC [.withdraw 8 3, .withdraw 0 3, .create 3] = .error .noFreeTokenPositionIndex := by
  refine ⟨by decide +kernel, by decide +kernel⟩

/-- market 4 is open and its tokens are in use: it is closed first, and then token 6's position makes room -/
def exD : Acc := ⟨[⟨0, 1, 50 * S⟩, ⟨6, 1, 5⟩, ⟨7, 0, 10 * S⟩], [⟨4, 6, 0, 0⟩], [], [], 0⟩

theorem exD_reach : Reach exMk exD := by
  refine runOps_reach (ops := [.createSerum 4 0, .token 0 (50 * S) false, .token 6 5 false, .token 7 (10 * S) false]) (.new 3 1 0 0) ?_ (by decide +kernel)
  intro op hop
  simp only [List.mem_cons, List.not_mem_nil, or_false] at hop
  rcases hop with rfl | rfl | rfl | rfl <;> (unfold Op.Registered; decide)

theorem exD_plan : plan exMk all exD 3 0 5 = .ok [.close 4, .withdraw 6 3, .create 3] ∧
    run exMk exD [.close 4, .withdraw 6 3, .create 3] = .ok ⟨[⟨0, 1, 50 * S⟩, ⟨5, 1, 0⟩, ⟨7, 0, 10 * S⟩], [⟨3, 5, 0, 0⟩], [], [], 0⟩ := by
  refine ⟨by decide +kernel, by decide +kernel⟩

example : (∃ s ∈ exD.serums, s.market = 4 ∧ (4 : Nat) ≠ FREE ∧ all s = true) := C101_closes (by decide +kernel) exD_plan.1 (k := 4) (by decide) exD_reach exTrade
example : ∀ z ∈ exD.tokens, z.index = 6 → 0 ≤ z.pos ∧ z.pos ≤ S := C101_harmless exD_reach exTrade (by decide +kernel) exD_plan.1 (x := 6) (n := 3) (by decide)
example : ∃ c : Acc, (∃ s ∈ c.serums, s.market = 3) := ⟨_, (C101_opens exD_reach exTrade (by decide +kernel) exD_plan.1 exD_plan.2).1⟩

/-- with a second, free slot before it there is no plan -/
def exE : Acc := ⟨[⟨0, 1, 50 * S⟩, ⟨7, 0, 10 * S⟩, ⟨6, 1, 5⟩], [⟨FREE, 10, 0, 0⟩, ⟨4, 6, 0, 0⟩], [], [], 0⟩

theorem exE_reach : Reach exMk exE := by
  refine runOps_reach (ops := [.createSerum 8 0, .createSerum 4 0, .closeSerum 8, .token 10 0 true, .token 6 5 false, .token 7 (10 * S) false, .token 0 (50 * S) false]) (.new 3 2 0 0) ?_ ?_
  · intro op hop
    simp only [List.mem_cons, List.not_mem_nil, or_false] at hop
    rcases hop with rfl | rfl | rfl | rfl | rfl | rfl | rfl <;> (unfold Op.Registered; decide)
  · decide +kernel

example : ¬ ∃ ixs, plan exMk all exE 3 0 5 = .ok ixs :=
  C101_inactive exE_reach exTrade (by decide +kernel) (by decide +kernel) (by decide +kernel) (by decide +kernel) rfl rfl

end SlotPlan
end Mango
