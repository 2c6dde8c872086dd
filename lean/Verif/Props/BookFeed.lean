import Verif.Feeds.Book
import Mathlib.Tactic.Linarith
import Mathlib.Data.List.Basic
/-!
# C78: subscribers of the order book feed have the right levels

Specification: `depth rnd orders p` is the sum of the quantities of the orders at price `p` (added up in f64, in the order of the book).
-/
namespace Mango
namespace BookFeed

/-- the quantity at a price -/
def depth (rnd : ℚ → ℚ) (orders : List Order) (p : ℚ) : ℚ := total rnd ((orders.filter (fun o => decide (o.price = p))).map Order.quantity)

/-- orders sorted by price, upwards or downwards -/
def Sorted (orders : List Order) : Prop :=
  (orders.map Order.price).Pairwise (· ≤ ·) ∨ (orders.map Order.price).Pairwise (· ≥ ·)

/-- the books the subscriber should see: both sides -/
def depths (rnd : ℚ → ℚ) (bids asks : List Order) : Depth := fun sd p => match sd with
  | .bid => depth rnd bids p
  | .ask => depth rnd asks p

theorem groups_spec (r : ℚ → ℚ → Prop) (anti : ∀ a b, r a b → r b a → a = b) (orders : List Order) (hs : (orders.map Order.price).Pairwise r) :
    ((groups orders).map Prod.fst).Nodup ∧
    (∀ g ∈ groups orders, g.2 = (orders.filter (fun o => decide (o.price = g.1))).map Order.quantity) ∧
    (∀ p, p ∈ (groups orders).map Prod.fst ↔ p ∈ orders.map Order.price) ∧
    ((groups orders).head?.map Prod.fst = orders.head?.map Order.price) := by
  induction orders with
  | nil => simp [groups]
  | cons o rest ih =>
    simp only [List.map_cons, List.pairwise_cons] at hs
    obtain ⟨h1, h2⟩ := hs
    obtain ⟨i1, i2, i3, i4⟩ := ih h2
    cases hg : groups rest with
    | nil =>
      have hr : rest = [] := by
        cases rest with
        | nil => rfl
        | cons a l => rw [hg] at i4; simp at i4
      subst hr
      simp [groups]
    | cons g gs =>
      obtain ⟨p, qs⟩ := g
      rw [hg] at i1 i2 i3 i4
      obtain ⟨a, l, hal⟩ : ∃ a l, rest = a :: l := by
        cases rest with
        | nil => simp [groups] at hg
        | cons a l => exact ⟨a, l, rfl⟩
      have hpa : p = a.price := by rw [hal] at i4; simpa using i4
      have hgr : groups (o :: rest) = if p = o.price then (p, o.quantity :: qs) :: gs else (o.price, [o.quantity]) :: (p, qs) :: gs := by
        rw [groups, hg]
      by_cases hp : p = o.price
      · rw [hgr, if_pos hp]
        refine ⟨by simpa using i1, ?_, ?_, by simp [hp]⟩
        · intro g hgm
          rcases List.mem_cons.mp hgm with rfl | hgm
          · have := i2 (p, qs) (by simp)
            simp only at this ⊢
            rw [List.filter_cons_of_pos (by simp [hp]), List.map_cons, ← this]
          · have hne : o.price ≠ g.1 := by
              have : p ≠ g.1 := by
                simp only [List.map_cons, List.nodup_cons] at i1
                intro e; exact i1.1 (e ▸ List.mem_map_of_mem hgm)
              rw [← hp]; exact this
            rw [List.filter_cons_of_neg (by simpa using hne)]
            exact i2 g (List.mem_cons_of_mem _ hgm)
        · intro x
          have := i3 x
          simp only [List.map_cons, List.mem_cons] at this ⊢
          rw [← this, ← hp]; tauto
      · rw [hgr, if_neg hp]
        have hnot : ∀ b ∈ rest, b.price ≠ o.price := by
          intro b hb e
          rw [hal] at h1 h2 hb
          have hoa : r o.price a.price := h1 a.price (by simp)
          rcases List.mem_cons.mp hb with rfl | hb
          · exact hp (hpa.trans e)
          · simp only [List.map_cons, List.pairwise_cons] at h2
            have hab : r a.price b.price := h2.1 _ (List.mem_map_of_mem hb)
            rw [e] at hab
            exact hp (hpa.trans (anti _ _ hab hoa))
        refine ⟨?_, ?_, ?_, by simp⟩
        · rw [List.map_cons, List.nodup_cons]
          refine ⟨?_, i1⟩
          intro hm
          rw [i3] at hm
          obtain ⟨b, hb, e⟩ := List.mem_map.mp hm
          exact hnot b hb e
        · intro g hgm
          rcases List.mem_cons.mp hgm with rfl | hgm
          · simp only
            rw [List.filter_cons_of_pos (by simp)]
            have : rest.filter (fun x => decide (x.price = o.price)) = [] := by
              rw [List.filter_eq_nil_iff]; intro b hb; simpa using hnot b hb
            rw [this]; rfl
          · have hne : o.price ≠ g.1 := by
              intro e
              have : g.1 ∈ ((p, qs) :: gs).map Prod.fst := List.mem_map_of_mem hgm
              rw [i3] at this
              obtain ⟨b, hb, e2⟩ := List.mem_map.mp this
              exact hnot b hb (e2.trans e.symm)
            rw [List.filter_cons_of_neg (by simpa using hne)]
            exact i2 g hgm
        · intro x
          have := i3 x
          rw [List.map_cons, List.mem_cons, this, List.map_cons, List.mem_cons]

/-- what the levels of a sorted book side are -/
theorem levels_spec (rnd : ℚ → ℚ) {orders : List Order} (hs : Sorted orders) :
    ((levels rnd orders).map Prod.fst).Nodup ∧ (∀ l ∈ levels rnd orders, l.2 = depth rnd orders l.1) ∧
    (∀ p, p ∈ (levels rnd orders).map Prod.fst ↔ p ∈ orders.map Order.price) := by
  have hg : ((groups orders).map Prod.fst).Nodup ∧
      (∀ g ∈ groups orders, g.2 = (orders.filter (fun o => decide (o.price = g.1))).map Order.quantity) ∧
      (∀ p, p ∈ (groups orders).map Prod.fst ↔ p ∈ orders.map Order.price) ∧
      ((groups orders).head?.map Prod.fst = orders.head?.map Order.price) := by
    rcases hs with h | h
    · exact groups_spec (· ≤ ·) (fun a b => le_antisymm) orders h
    · exact groups_spec (· ≥ ·) (fun a b x y => le_antisymm y x) orders h
  obtain ⟨h1, h2, h3, _⟩ := hg
  have hm : (levels rnd orders).map Prod.fst = (groups orders).map Prod.fst := by simp [levels]
  refine ⟨hm ▸ h1, ?_, fun p => hm ▸ h3 p⟩
  intro l hl
  obtain ⟨g, hg, rfl⟩ := List.mem_map.mp hl
  simp only [depth]
  rw [h2 g hg]

theorem depth_none (rnd : ℚ → ℚ) {orders : List Order} {p : ℚ} (h : p ∉ orders.map Order.price) : depth rnd orders p = 0 := by
  unfold depth
  have : orders.filter (fun o => decide (o.price = p)) = [] := by
    rw [List.filter_eq_nil_iff]; intro o ho; simp; intro e; exact h (List.mem_map.mpr ⟨o, ho, e⟩)
  rw [this]; rfl

/-- the level found for a price -/
theorem find_spec (rnd : ℚ → ℚ) {orders : List Order} (hs : Sorted orders) (p : ℚ) (t : Level → Bool) (ht : ∀ l, t l = true ↔ l.1 = p) :
    (levels rnd orders).find? t = if p ∈ orders.map Order.price then some (p, depth rnd orders p) else none := by
  obtain ⟨h1, h2, h3⟩ := levels_spec rnd hs
  by_cases hp : p ∈ orders.map Order.price
  · rw [if_pos hp]
    obtain ⟨l, hl⟩ : ∃ l, (levels rnd orders).find? t = some l := by
      rw [← Option.isSome_iff_exists, List.find?_isSome]
      obtain ⟨l, hl, e⟩ := List.mem_map.mp ((h3 p).mpr hp)
      exact ⟨l, hl, (ht l).mpr e⟩
    rw [hl]
    have e1 : l.1 = p := (ht l).mp (List.find?_some hl)
    have e2 := h2 l (List.mem_of_find?_eq_some hl)
    rw [e1] at e2
    obtain ⟨a, b⟩ := l
    simp only at e1 e2
    rw [e1, e2]
  · rw [if_neg hp, List.find?_eq_none]
    intro l hl e
    exact hp ((h3 p).mp (List.mem_map.mpr ⟨l, hl, (ht l).mp e⟩))

/-- which prices an update has, and that it has the new quantities -/
theorem update_spec (rnd : ℚ → ℚ) {cur prev : List Order} (hc : Sorted cur) (hp : Sorted prev) :
    (∀ l ∈ levelUpdate rnd cur prev, l.2 = depth rnd cur l.1) ∧
    (∀ p, p ∉ (levelUpdate rnd cur prev).map Prod.fst → depth rnd prev p = depth rnd cur p) := by
  obtain ⟨c1, c2, c3⟩ := levels_spec rnd hc
  obtain ⟨p1, p2, p3⟩ := levels_spec rnd hp
  constructor
  · intro l hl
    unfold levelUpdate at hl
    simp only at hl
    rcases List.mem_append.mp hl with hl | hl
    · obtain ⟨g, hg, rfl⟩ := List.mem_map.mp hl
      have hg := (List.mem_filter.mp hg).2
      rw [find_spec rnd hc g.1 _ (by intro l; simp [eq_comm])] at hg
      by_cases hm : g.1 ∈ cur.map Order.price
      · rw [if_pos hm] at hg; simp at hg
      · exact (depth_none rnd hm).symm
    · exact c2 l (List.mem_filter.mp hl).1
  · intro p hpn
    by_cases hcm : p ∈ cur.map Order.price
    · obtain ⟨l, hl, e⟩ := List.mem_map.mp ((c3 p).mpr hcm)
      by_contra hne
      apply hpn
      refine List.mem_map.mpr ⟨l, ?_, e⟩
      unfold levelUpdate
      simp only
      refine List.mem_append_right _ (List.mem_filter.mpr ⟨hl, ?_⟩)
      rw [find_spec rnd hp l.1 _ (by intro l; simp)]
      by_cases hpm : l.1 ∈ prev.map Order.price
      · rw [if_pos hpm]
        simp only [decide_eq_true_eq]
        rw [c2 l hl, e]; exact hne
      · rw [if_neg hpm]
    · rw [depth_none rnd hcm]
      by_cases hpm : p ∈ prev.map Order.price
      · exfalso
        apply hpn
        obtain ⟨l, hl, e⟩ := List.mem_map.mp ((p3 p).mpr hpm)
        refine List.mem_map.mpr ⟨(l.1, 0), ?_, e⟩
        unfold levelUpdate
        simp only
        refine List.mem_append_left _ (List.mem_map.mpr ⟨l, List.mem_filter.mpr ⟨hl, ?_⟩, rfl⟩)
        rw [find_spec rnd hc l.1 _ (by intro l; simp [eq_comm]), if_neg (by rw [e]; exact hcm)]
        rfl
      · exact depth_none rnd hpm

theorem apply_other (d : Depth) (sd x : Side) (hx : x ≠ sd) (u : List Level) (p : ℚ) : applyLevels d sd u x p = d x p := by
  induction u generalizing d with
  | nil => rfl
  | cons l u ih => obtain ⟨a, b⟩ := l; rw [applyLevels, ih, if_neg (by tauto)]

theorem apply_same (d : Depth) (sd : Side) (u : List Level) (f : ℚ → ℚ) (hu : ∀ l ∈ u, l.2 = f l.1) (p : ℚ) :
    applyLevels d sd u sd p = if p ∈ u.map Prod.fst then f p else d sd p := by
  induction u generalizing d with
  | nil => simp [applyLevels]
  | cons l u ih =>
    obtain ⟨a, b⟩ := l
    rw [applyLevels, ih _ (fun l hl => hu l (List.mem_cons_of_mem _ hl))]
    have hb : b = f a := hu (a, b) (by simp)
    by_cases h1 : p ∈ u.map Prod.fst
    · rw [if_pos h1, if_pos (by simp only [List.map_cons, List.mem_cons]; exact Or.inr h1)]
    · rw [if_neg h1]
      by_cases h2 : p = a
      · subst h2; simp [hb]
      · rw [if_neg (by tauto), if_neg (by simp only [List.map_cons, List.mem_cons]; tauto)]

/-- **C78** Applying the level update to the old levels gives the new levels, exactly; applying it to the new levels changes nothing; the other side is not touched. -/
theorem C78_update (rnd : ℚ → ℚ) {cur prev : List Order} (hc : Sorted cur) (hp : Sorted prev) (sd : Side) (d : Depth)
    (hd : d sd = depth rnd prev ∨ d sd = depth rnd cur) :
    applyLevels d sd (levelUpdate rnd cur prev) sd = depth rnd cur ∧ applyLevels d sd (levelUpdate rnd cur prev) sd.other = d sd.other := by
  obtain ⟨h1, h2⟩ := update_spec rnd hc hp
  constructor
  · funext p
    rw [apply_same d sd _ (depth rnd cur) h1]
    by_cases hm : p ∈ (levelUpdate rnd cur prev).map Prod.fst
    · rw [if_pos hm]
    · rw [if_neg hm]
      rcases hd with hd | hd <;> rw [hd]
      exact h2 p hm
  · funext p
    exact apply_other d sd sd.other (by cases sd <;> decide) _ p

/-- **C78** A checkpoint has the levels of both sides. -/
theorem C78_checkpoint (rnd : ℚ → ℚ) {bids asks : List Order} (hb : Sorted bids) (ha : Sorted asks) :
    fromCheckpoint (levels rnd bids) (levels rnd asks) = depths rnd bids asks := by
  have key : ∀ (d : Depth) (sd : Side) (o : List Order), Sorted o → (∀ p, d sd p = 0) → ∀ p, applyLevels d sd (levels rnd o) sd p = depth rnd o p := by
    intro d sd o ho hd p
    obtain ⟨_, h2, h3⟩ := levels_spec rnd ho
    rw [apply_same d sd _ (depth rnd o) h2]
    by_cases hm : p ∈ (levels rnd o).map Prod.fst
    · rw [if_pos hm]
    · rw [if_neg hm, hd, depth_none rnd (fun h => hm ((h3 p).mpr h))]
  funext sd p
  cases sd with
  | bid =>
    unfold fromCheckpoint depths
    rw [apply_other _ _ _ (by decide), key _ _ _ hb (fun _ => rfl)]
  | ask =>
    unfold fromCheckpoint depths
    rw [key _ _ _ ha (fun p => by rw [apply_other _ _ _ (by decide)])]

end BookFeed
end Mango
