import Verif.Perp.Trace
/-! Helper: applying the collected changes and deletes to the opposing book side. -/
namespace Mango
namespace Perp
open Book

/-- identity of a resting order on one side -/
def ck (i : Item) : Comp × Nat := (i.comp, i.leaf.key)

def setQ (s : SpecSide) (x : Item × Int) : SpecSide := s.set x.1.comp (sSetQty x.1.leaf.key x.2 (s.get x.1.comp))
def del (s : SpecSide) (i : Item) : SpecSide := s.set i.comp (sRemove i.leaf.key (s.get i.comp))
def specApply (s : SpecSide) (cs : List (Item × Int)) (ds : List Item) : SpecSide := ds.foldl del (cs.foldl setQ s)

def Ref (tf tp : Option Tree) (i : Item) : Prop := (i.handle, i.leaf) ∈ optHLeaves (pick i.comp tf tp)

theorem ref_node {b : BookSide} {tf tp : Option Tree} (hR : Reps b tf tp) {c : Comp} {h : Nat} {l : Leaf}
    (hm : (h, l) ∈ optHLeaves (pick c tf tp)) : b.nodes.nodes[h]? = some (.leaf l) ∧ h ∈ optHandles (pick c tf tp) := by
  obtain ⟨hI, hH⟩ := hR.sel c
  cases hp : pick c tf tp with
  | none => rw [hp] at hm; simp [optHLeaves] at hm
  | some t =>
    rw [hp] at hm hH
    exact ⟨Tree.rep_hleaves hH.2.2.1 hm, Tree.hleaves_mem_handles hm⟩

theorem ref_handle_inj {b : BookSide} {tf tp : Option Tree} (hR : Reps b tf tp) {i j : Item} (hi : Ref tf tp i)
    (hj : Ref tf tp j) (h : i.handle = j.handle) : ck i = ck j := by
  obtain ⟨a1, a2⟩ := ref_node hR hi
  obtain ⟨b1, b2⟩ := ref_node hR hj
  rw [h, b1] at a1
  have hl : j.leaf = i.leaf := by simpa using a1
  have hnd := hR.inv.nodup
  have hdis := (List.nodup_append.mp hnd).2.2
  unfold ck
  rw [hl]
  congr 1
  rw [h] at a2
  cases hc : i.comp <;> cases hd : j.comp <;> first | rfl | skip
  · rw [hc] at a2; rw [hd] at b2; exact absurd rfl (hdis _ a2 _ b2)
  · rw [hc] at a2; rw [hd] at b2; exact absurd rfl (hdis _ b2 _ a2)

theorem pick_same (c : Comp) (t' tf tp : Option Tree) : pick c (pick c t' tf) (pick c tp t') = t' := by cases c <;> rfl
theorem pick_other {c d : Comp} (h : d ≠ c) (t' tf tp : Option Tree) : pick d (pick c t' tf) (pick c tp t') = pick d tf tp := by
  cases c <;> cases d <;> first | rfl | exact absurd rfl h

theorem simOf {b : BookSide} {tf tp : Option Tree} {s : SpecSide} (hR : Reps b tf tp) (h : ∀ c, s.get c = optLeaves (pick c tf tp)) :
    Sim b s := ⟨tf, tp, hR, h .fixed, h .pegged⟩

theorem applyChanges_sim : ∀ (cs : List (Item × Int)) {b : BookSide} {tf tp : Option Tree} {s : SpecSide}, Reps b tf tp →
    (∀ c, s.get c = optLeaves (pick c tf tp)) → (∀ x ∈ cs, Ref tf tp x.1) → (cs.map (fun x => ck x.1)).Nodup →
    ∃ b', applyChanges b (cs.map (fun x => (x.1.handle, x.2))) = .ok b' ∧ Sim b' (cs.foldl setQ s) ∧
      b'.nodes.nodes.length = b.nodes.nodes.length ∧ b'.nodes.isBids = b.nodes.isBids := by
  intro cs
  induction cs with
  | nil => intro b tf tp s hR hs _ _; exact ⟨b, rfl, simOf hR hs, rfl, rfl⟩
  | cons x cs ih =>
    intro b tf tp s hR hs hrefs hnd
    have hx := hrefs x (by simp)
    obtain ⟨b1, t', e1, e2, e3, e4, e5, e6⟩ := setQuantity_sim hR x.1.comp hx x.2
    simp only [List.map_cons, List.nodup_cons] at hnd
    have hs' : ∀ c, (setQ s x).get c = optLeaves (pick c (pick x.1.comp t' tf) (pick x.1.comp tp t')) := by
      intro c
      by_cases hc : c = x.1.comp
      · rw [hc, pick_same, e3, ← hs]; unfold setQ; cases x.1.comp <;> rfl
      · rw [pick_other hc, ← hs]; unfold setQ
        cases hxc : x.1.comp <;> cases c <;> first | rfl | exact absurd hxc.symm hc
    obtain ⟨b', f1, f2, f3, f4⟩ := ih e2 hs' (by
      intro y hy
      have hy0 := hrefs y (by simp [hy])
      have hne : y.1.handle ≠ x.1.handle := by
        intro e
        apply hnd.1
        rw [List.mem_map]
        exact ⟨y, hy, ref_handle_inj hR hy0 hx e⟩
      unfold Ref at *
      by_cases hc : y.1.comp = x.1.comp
      · rw [hc, pick_same, e4, List.mem_map]
        rw [hc] at hy0
        exact ⟨_, hy0, by simp [hne]⟩
      · rw [pick_other hc]; exact hy0) hnd.2
    refine ⟨b', ?_, f2, by rw [f3, e5], by rw [f4, e6]⟩
    simp only [List.map_cons, applyChanges, e1, bind, Except.bind]
    exact f1

theorem mem_setQ_get {s : SpecSide} {x : Item × Int} {c : Comp} {y : Leaf} :
    y ∈ (setQ s x).get c ↔ if c = x.1.comp then y ∈ sSetQty x.1.leaf.key x.2 (s.get c) else y ∈ s.get c := by
  unfold setQ
  cases hxc : x.1.comp <;> cases c <;> simp [SpecSide.get, SpecSide.set]

theorem get_del {s : SpecSide} {i : Item} {c : Comp} :
    (del s i).get c = if c = i.comp then sRemove i.leaf.key (s.get c) else s.get c := by
  unfold del
  cases hxc : i.comp <;> cases c <;> simp [SpecSide.get, SpecSide.set]

theorem get_setQ {s : SpecSide} {x : Item × Int} {c : Comp} :
    (setQ s x).get c = if c = x.1.comp then sSetQty x.1.leaf.key x.2 (s.get c) else s.get c := by
  unfold setQ
  cases hxc : x.1.comp <;> cases c <;> simp [SpecSide.get, SpecSide.set]

def SpecSide.keysOk (s : SpecSide) : Prop := ∀ c, ((s.get c).map Leaf.key).Nodup

theorem keysOk_of_sim {b : BookSide} {s : SpecSide} (h : Sim b s) : SpecSide.keysOk s := by
  intro c
  have := sorted_sim h c
  rw [← List.pairwise_map (f := Leaf.key) (R := fun a b => a < b)] at this
  exact this.imp (fun h => by omega)

theorem sSetQty_keys (k : Nat) (q : Int) (xs : List Leaf) : (sSetQty k q xs).map Leaf.key = xs.map Leaf.key := by
  unfold sSetQty
  rw [List.map_map]
  apply List.map_congr_left
  intro x _
  simp only [Function.comp]
  split <;> rfl

theorem keysOk_setQ {s : SpecSide} (h : SpecSide.keysOk s) (x : Item × Int) : SpecSide.keysOk (setQ s x) := by
  intro c
  rw [get_setQ]
  split
  · rw [sSetQty_keys]; exact h c
  · exact h c

theorem keysOk_del {s : SpecSide} (h : SpecSide.keysOk s) (i : Item) : SpecSide.keysOk (del s i) := by
  intro c
  rw [get_del]
  split
  · unfold sRemove; exact (h c).sublist (List.filter_sublist.map _)
  · exact h c

theorem key_inj {xs : List Leaf} (h : (xs.map Leaf.key).Nodup) {x y : Leaf} (hx : x ∈ xs) (hy : y ∈ xs) (e : x.key = y.key) : x = y :=
  List.inj_on_of_nodup_map h hx hy e

theorem sFind_of_mem {xs : List Leaf} (h : (xs.map Leaf.key).Nodup) {x : Leaf} (hx : x ∈ xs) : sFind x.key xs = some x := by
  unfold sFind
  cases hf : xs.find? (fun y => decide (y.key = x.key)) with
  | none => rw [List.find?_eq_none] at hf; have := hf x hx; simp at this
  | some y =>
    have h1 := List.find?_some hf
    have h2 := List.mem_of_find?_eq_some hf
    rw [key_inj h h2 hx (by simpa using h1)]

theorem applyDeletes_sim : ∀ (ds : List Item) {b : BookSide} {s : SpecSide}, Sim b s →
    (∀ d ∈ ds, ∃ l ∈ s.get d.comp, l.key = d.leaf.key) → (ds.map ck).Nodup →
    ∃ b', applyDeletes b (ds.map ck) = .ok b' ∧ Sim b' (ds.foldl del s) ∧
      b'.nodes.nodes.length = b.nodes.nodes.length ∧ b'.nodes.isBids = b.nodes.isBids := by
  intro ds
  induction ds with
  | nil => intro b s h _ _; exact ⟨b, rfl, h, rfl, rfl⟩
  | cons d ds ih =>
    intro b s h hm hnd
    obtain ⟨b1, e1, e2, e3, e4⟩ := remove_sim h d.comp d.leaf.key
    obtain ⟨l, hl, hk⟩ := hm d (by simp)
    simp only [List.map_cons, List.nodup_cons] at hnd
    have hf : sFind d.leaf.key (s.get d.comp) = some l := by
      rw [← hk]; exact sFind_of_mem (keysOk_of_sim h d.comp) hl
    obtain ⟨b', f1, f2, f3, f4⟩ := ih e2 (by
      intro y hy
      obtain ⟨ly, h1, h2⟩ := hm y (by simp [hy])
      refine ⟨ly, ?_, h2⟩
      have hne : ck y ≠ ck d := by intro e; apply hnd.1; rw [List.mem_map]; exact ⟨y, hy, e⟩
      have hg : (s.set d.comp (sRemove d.leaf.key (s.get d.comp))).get y.comp =
          if y.comp = d.comp then sRemove d.leaf.key (s.get y.comp) else s.get y.comp := get_del (s := s) (i := d)
      rw [hg]
      split
      · next hc =>
        rw [C13_spec_remove]
        refine ⟨h1, ?_⟩
        intro e; apply hne; unfold ck; rw [hc, ← h2, e]
      · exact h1) hnd.2
    refine ⟨b', ?_, f2, by rw [f3, e3], by rw [f4, e4]⟩
    simp only [List.map_cons, applyDeletes, ck, e1, hf, bind, Except.bind]
    exact f1

/-! ### sums over a side -/

def sideSum (w : Comp → Leaf → Int) (s : SpecSide) : Int := sumOf (w .fixed) s.fixedL + sumOf (w .pegged) s.peggedL

theorem sumOf_setQty {w : Leaf → Int} {xs : List Leaf} (h : (xs.map Leaf.key).Nodup) {l : Leaf} (hl : l ∈ xs) (q : Int) :
    sumOf w (sSetQty l.key q xs) = sumOf w xs - w l + w { l with quantity := q } := by
  induction xs with
  | nil => simp at hl
  | cons x xs ih =>
    simp only [List.map_cons, List.nodup_cons] at h
    simp only [sSetQty, List.map_cons, sumOf_cons]
    rcases List.mem_cons.mp hl with rfl | hl'
    · have : xs.map (fun y => if y.key = l.key then { y with quantity := q } else y) = xs := by
        conv_rhs => rw [← List.map_id xs]
        apply List.map_congr_left
        intro y hy
        have : y.key ≠ l.key := by intro e; apply h.1; rw [← e]; exact List.mem_map.mpr ⟨y, hy, rfl⟩
        simp [this]
      rw [this]; simp; omega
    · have hne : x.key ≠ l.key := by intro e; apply h.1; rw [e]; exact List.mem_map.mpr ⟨l, hl', rfl⟩
      have := ih h.2 hl'
      unfold sSetQty at this
      rw [this, if_neg hne]; omega

theorem sumOf_remove {w : Leaf → Int} {xs : List Leaf} (h : (xs.map Leaf.key).Nodup) {l : Leaf} (hl : l ∈ xs) :
    sumOf w (sRemove l.key xs) = sumOf w xs - w l := by
  induction xs with
  | nil => simp at hl
  | cons x xs ih =>
    simp only [List.map_cons, List.nodup_cons] at h
    unfold sRemove at *
    simp only [List.filter_cons, sumOf_cons]
    rcases List.mem_cons.mp hl with rfl | hl'
    · have : xs.filter (fun y => decide (y.key ≠ l.key)) = xs := by
        rw [List.filter_eq_self]; intro y hy
        have : y.key ≠ l.key := by intro e; apply h.1; rw [← e]; exact List.mem_map.mpr ⟨y, hy, rfl⟩
        simp [this]
      simp only [ne_eq, not_true_eq_false, decide_false, Bool.false_eq_true, if_false]
      simp only [ne_eq] at this
      rw [this]; omega
    · have hne : x.key ≠ l.key := by intro e; apply h.1; rw [e]; exact List.mem_map.mpr ⟨l, hl', rfl⟩
      rw [if_pos (by simpa using hne), sumOf_cons, ih h.2 hl']; omega

theorem sideSum_set (w : Comp → Leaf → Int) (s : SpecSide) (c : Comp) (xs : List Leaf) :
    sideSum w (s.set c xs) = sideSum w s - sumOf (w c) (s.get c) + sumOf (w c) xs := by
  cases c <;> simp [sideSum, SpecSide.set, SpecSide.get] <;> omega

theorem sideSum_changes {w : Comp → Leaf → Int} : ∀ (cs : List (Item × Int)) {s : SpecSide}, SpecSide.keysOk s →
    (∀ x ∈ cs, x.1.leaf ∈ s.get x.1.comp) → (cs.map (fun x => ck x.1)).Nodup →
    sideSum w (cs.foldl setQ s) = sideSum w s - sumOf (fun x => w x.1.comp x.1.leaf - w x.1.comp { x.1.leaf with quantity := x.2 }) cs := by
  intro cs
  induction cs with
  | nil => intros; simp
  | cons x cs ih =>
    intro s hk hm hnd
    simp only [List.map_cons, List.nodup_cons] at hnd
    have hx := hm x (by simp)
    rw [List.foldl_cons, ih (keysOk_setQ hk x) ?_ hnd.2]
    · unfold setQ
      rw [sideSum_set, sumOf_setQty (hk x.1.comp) hx]
      simp only [sumOf_cons]; omega
    · intro y hy
      rw [get_setQ]
      have h1 := hm y (by simp [hy])
      split
      · next hc =>
        unfold sSetQty
        rw [List.mem_map]
        refine ⟨y.1.leaf, h1, ?_⟩
        have : y.1.leaf.key ≠ x.1.leaf.key := by
          intro e; apply hnd.1; rw [List.mem_map]; exact ⟨y, hy, by unfold ck; rw [hc, e]⟩
        simp [this]
      · exact h1

theorem sideSum_deletes {w : Comp → Leaf → Int} : ∀ (ds : List Item) {s : SpecSide}, SpecSide.keysOk s →
    (∀ d ∈ ds, d.leaf ∈ s.get d.comp) → (ds.map ck).Nodup →
    sideSum w (ds.foldl del s) = sideSum w s - sumOf (fun d => w d.comp d.leaf) ds := by
  intro ds
  induction ds with
  | nil => intros; simp
  | cons x ds ih =>
    intro s hk hm hnd
    simp only [List.map_cons, List.nodup_cons] at hnd
    have hx := hm x (by simp)
    rw [List.foldl_cons, ih (keysOk_del hk x) ?_ hnd.2]
    · unfold del
      rw [sideSum_set, sumOf_remove (hk x.comp) hx]
      simp only [sumOf_cons]; omega
    · intro y hy
      rw [get_del]
      have h1 := hm y (by simp [hy])
      split
      · next hc =>
        rw [C13_spec_remove]
        refine ⟨h1, ?_⟩
        intro e; apply hnd.1; rw [List.mem_map]; exact ⟨y, hy, by unfold ck; rw [hc, e]⟩
      · exact h1

/-! ### membership after applying -/

theorem mem_changes : ∀ (cs : List (Item × Int)) {s : SpecSide} {c : Comp} {y : Leaf}, (cs.map (fun x => ck x.1)).Nodup →
    (y ∈ (cs.foldl setQ s).get c ↔ ∃ l ∈ s.get c, ((y = l ∧ ∀ x ∈ cs, ck x.1 ≠ (c, l.key)) ∨
      ∃ x ∈ cs, ck x.1 = (c, l.key) ∧ y = { l with quantity := x.2 })) := by
  intro cs
  induction cs with
  | nil => intro s c y _; simp
  | cons x cs ih =>
    intro s c y hnd
    simp only [List.map_cons, List.nodup_cons] at hnd
    rw [List.foldl_cons, ih hnd.2]
    have hck : ∀ k, ck x.1 = (c, k) ↔ (c = x.1.comp ∧ x.1.leaf.key = k) := by
      intro k; unfold ck; simp only [Prod.mk.injEq]; constructor <;> (rintro ⟨a, b⟩; exact ⟨a.symm, b⟩)
    have hnot : ∀ k, ck x.1 = (c, k) → ∀ z ∈ cs, ck z.1 ≠ (c, k) := by
      intro k e z hz e2; apply hnd.1; rw [List.mem_map]; exact ⟨z, hz, by rw [e2, e]⟩
    constructor
    · rintro ⟨l, hl, h⟩
      rw [get_setQ] at hl
      split at hl
      · next hc =>
        unfold sSetQty at hl
        rw [List.mem_map] at hl
        obtain ⟨l0, hl0, rfl⟩ := hl
        refine ⟨l0, hl0, ?_⟩
        by_cases hk : l0.key = x.1.leaf.key
        · rw [if_pos hk] at h
          have hxk := (hck l0.key).mpr ⟨hc, hk.symm⟩
          right
          refine ⟨x, by simp, hxk, ?_⟩
          rcases h with ⟨e, _⟩ | ⟨z, hz, e, _⟩
          · exact e
          · exact absurd e (hnot _ hxk z hz)
        · rw [if_neg hk] at h
          rcases h with ⟨e, h⟩ | ⟨z, hz, e, h⟩
          · left; refine ⟨e, ?_⟩
            intro z hz
            rcases List.mem_cons.mp hz with rfl | hz
            · intro e2; exact hk ((hck _).mp e2).2.symm
            · exact h z hz
          · right; exact ⟨z, by simp [hz], e, h⟩
      · next hc =>
        refine ⟨l, hl, ?_⟩
        rcases h with ⟨e, h⟩ | ⟨z, hz, e, h⟩
        · left; refine ⟨e, ?_⟩
          intro z hz
          rcases List.mem_cons.mp hz with rfl | hz
          · intro e2; exact hc ((hck _).mp e2).1
          · exact h z hz
        · right; exact ⟨z, by simp [hz], e, h⟩
    · rintro ⟨l, hl, h⟩
      by_cases hx : ck x.1 = (c, l.key)
      · obtain ⟨hc, hk⟩ := (hck _).mp hx
        refine ⟨{ l with quantity := x.2 }, ?_, ?_⟩
        · rw [get_setQ, if_pos hc]; unfold sSetQty; rw [List.mem_map]
          exact ⟨l, hl, by simp [hk]⟩
        · left
          rcases h with ⟨_, h⟩ | ⟨z, hz, e, h⟩
          · exact absurd hx (h x (by simp))
          · rcases List.mem_cons.mp hz with rfl | hz
            · exact ⟨h, fun z hz => hnot _ hx z hz⟩
            · exact absurd e (hnot _ hx z hz)
      · refine ⟨l, ?_, ?_⟩
        · rw [get_setQ]
          split
          · next hc =>
            unfold sSetQty; rw [List.mem_map]
            refine ⟨l, hl, ?_⟩
            have : l.key ≠ x.1.leaf.key := fun e => hx ((hck _).mpr ⟨hc, e.symm⟩)
            simp [this]
          · exact hl
        · rcases h with ⟨e, h⟩ | ⟨z, hz, e, h⟩
          · left; exact ⟨e, fun z hz => h z (by simp [hz])⟩
          · right
            rcases List.mem_cons.mp hz with rfl | hz
            · exact absurd e hx
            · exact ⟨z, hz, e, h⟩

theorem mem_deletes : ∀ (ds : List Item) {s : SpecSide} {c : Comp} {y : Leaf},
    (y ∈ (ds.foldl del s).get c ↔ y ∈ s.get c ∧ ∀ d ∈ ds, ck d ≠ (c, y.key)) := by
  intro ds
  induction ds with
  | nil => intro s c y; simp
  | cons d ds ih =>
    intro s c y
    rw [List.foldl_cons, ih, get_del]
    have hck : ck d = (c, y.key) ↔ (c = d.comp ∧ d.leaf.key = y.key) := by
      unfold ck; simp only [Prod.mk.injEq]; constructor <;> (rintro ⟨a, b⟩; exact ⟨a.symm, b⟩)
    rw [List.forall_mem_cons]
    split
    · next hc =>
      rw [C13_spec_remove, ne_eq (ck d), hck]
      constructor
      · rintro ⟨⟨h1, h2⟩, h3⟩; exact ⟨h1, fun h => h2 h.2.symm, h3⟩
      · rintro ⟨h1, h2, h3⟩; exact ⟨⟨h1, fun e => h2 ⟨hc, e.symm⟩⟩, h3⟩
    · next hc =>
      rw [ne_eq (ck d), hck]
      constructor
      · rintro ⟨h1, h3⟩; exact ⟨h1, fun h => hc h.1, h3⟩
      · rintro ⟨h1, h2, h3⟩; exact ⟨h1, h3⟩

theorem mem_specApply {s : SpecSide} {cs : List (Item × Int)} {ds : List Item} (hnd : (cs.map (fun x => ck x.1)).Nodup) {c : Comp} {y : Leaf} :
    y ∈ (specApply s cs ds).get c ↔ ∃ l ∈ s.get c, (∀ d ∈ ds, ck d ≠ (c, l.key)) ∧
      ((y = l ∧ ∀ x ∈ cs, ck x.1 ≠ (c, l.key)) ∨ ∃ x ∈ cs, ck x.1 = (c, l.key) ∧ y = { l with quantity := x.2 }) := by
  unfold specApply
  rw [mem_deletes, mem_changes cs hnd]
  constructor
  · rintro ⟨⟨l, hl, h⟩, hd⟩
    refine ⟨l, hl, ?_, h⟩
    have : y.key = l.key := by rcases h with ⟨rfl, _⟩ | ⟨x, _, _, rfl⟩ <;> rfl
    rw [← this]; exact hd
  · rintro ⟨l, hl, hd, h⟩
    refine ⟨⟨l, hl, h⟩, ?_⟩
    have : y.key = l.key := by rcases h with ⟨rfl, _⟩ | ⟨x, _, _, rfl⟩ <;> rfl
    rw [this]; exact hd

theorem keysOk_changes : ∀ (cs : List (Item × Int)) {s : SpecSide}, SpecSide.keysOk s → SpecSide.keysOk (cs.foldl setQ s) := by
  intro cs; induction cs with
  | nil => intro s h; exact h
  | cons x cs ih => intro s h; exact ih (keysOk_setQ h x)

/-! ### from the items of a book side to its new state -/

/-- what iteration of a side gives: everything matching needs to know -/
structure Offers (s : SpecSide) (side : Side) (now : Nat) (oracle : Int) (xs : List Item) : Prop where
  perm : (xs.map (fun i => (i.comp, i.leaf))).Perm
    (s.fixedL.map (fun l => (Comp.fixed, l)) ++ (s.peggedL.filter (pegVisible oracle)).map (fun l => (Comp.pegged, l)))
  sorted : xs.Pairwise (priorTo side)
  ok : ∀ i ∈ xs, itemOK side now oracle i

theorem Offers.mem {s : SpecSide} {side : Side} {now : Nat} {oracle : Int} {xs : List Item} (h : Offers s side now oracle xs)
    {i : Item} (hi : i ∈ xs) : i.leaf ∈ s.get i.comp := by
  have : (i.comp, i.leaf) ∈ xs.map (fun i => (i.comp, i.leaf)) := List.mem_map.mpr ⟨i, hi, rfl⟩
  have := h.perm.subset this
  rw [List.mem_append, List.mem_map, List.mem_map] at this
  rcases this with ⟨l, hl, e⟩ | ⟨l, hl, e⟩
  · simp only [Prod.mk.injEq] at e; rw [← e.1, ← e.2]; exact hl
  · simp only [Prod.mk.injEq] at e; rw [← e.1, ← e.2]; exact (List.mem_filter.mp hl).1

theorem Offers.nodup {s : SpecSide} {side : Side} {now : Nat} {oracle : Int} {xs : List Item} (h : Offers s side now oracle xs)
    (hk : SpecSide.keysOk s) : (xs.map ck).Nodup := by
  have e : xs.map ck = (xs.map (fun i => (i.comp, i.leaf))).map (fun x => (x.1, x.2.key)) := by
    rw [List.map_map]; rfl
  rw [e]
  refine ((h.perm.map _).nodup_iff).mpr ?_
  rw [List.map_append, List.map_map, List.map_map, List.nodup_append]
  refine ⟨?_, ?_, ?_⟩
  · have := hk .fixed
    change (s.fixedL.map Leaf.key).Nodup at this
    have := List.Nodup.map (f := fun k : Nat => (Comp.fixed, k)) (fun a b e => by simpa using e) this
    rw [List.map_map] at this; exact this
  · have := hk .pegged
    change (s.peggedL.map Leaf.key).Nodup at this
    have := this.sublist (List.filter_sublist (p := pegVisible oracle) |>.map Leaf.key)
    have := List.Nodup.map (f := fun k : Nat => (Comp.pegged, k)) (fun a b e => by simpa using e) this
    rw [List.map_map] at this; exact this
  · intro a ha b hb e
    rw [List.mem_map] at ha hb
    obtain ⟨x, _, rfl⟩ := ha
    obtain ⟨y, _, rfl⟩ := hb
    simp at e

theorem items_offers {b : BookSide} {s : SpecSide} (h : Sim b s) (hg : s.good) (now : Nat) (oracle : Int) :
    ∃ xs, b.items now oracle = .ok xs ∧ Offers s b.side now oracle xs ∧
      ∀ cs ds, List.Subperm (cs.map Prod.fst ++ ds) xs →
        ∃ b1 b', applyChanges b (cs.map (fun x => (x.1.handle, x.2))) = .ok b1 ∧
          applyDeletes b1 (ds.map ck) = .ok b' ∧ Sim b' (specApply s cs ds) ∧
          b'.nodes.nodes.length = b.nodes.nodes.length ∧ b'.nodes.isBids = b.nodes.isBids := by
  obtain ⟨xs, e1, e2, e3, e4⟩ := items_spec h hg now oracle
  have hO : Offers s b.side now oracle xs := ⟨e2, e3, e4⟩
  refine ⟨xs, e1, hO, ?_⟩
  intro cs ds hsp
  have hkeys := keysOk_of_sim h
  have hnd := hO.nodup hkeys
  obtain ⟨zs, hz1, hz2⟩ := hsp
  have hnd2 : ((cs.map Prod.fst ++ ds).map ck).Nodup := ((hz1.map ck).nodup_iff).mp (hnd.sublist (hz2.map ck))
  have hmem : ∀ i ∈ cs.map Prod.fst ++ ds, i ∈ xs := fun i hi => hz2.subset (hz1.symm.subset hi)
  have hmem1 : ∀ x ∈ cs, x.1 ∈ xs := fun x hx => hmem x.1 (by simp only [List.mem_append, List.mem_map]; exact .inl ⟨x, hx, rfl⟩)
  have hmem2 : ∀ x ∈ ds, x ∈ xs := fun x hx => hmem x (by simp [hx])
  rw [List.map_append, List.map_map, List.nodup_append] at hnd2
  obtain ⟨nd1, nd2, ndd⟩ := hnd2
  have hsim := h
  obtain ⟨tf, tp, hR, h1, h2⟩ := h
  have hgf : ∀ x ∈ optLeaves tf, goodFixed x := by rw [← h1]; exact hg.1
  have hitems := items_reps hR hgf now oracle
  rw [e1, ok_inj] at hitems
  have href : ∀ i ∈ xs, Ref tf tp i := by
    intro i hi
    rw [hitems] at hi
    unfold mergeItems at hi
    rw [List.mem_merge, List.mem_map, List.mem_map] at hi
    rcases hi with ⟨x, hx, rfl⟩ | ⟨x, hx, rfl⟩
    · rw [List.mem_filter] at hx
      exact (ord_perm _ _).subset hx.1
    · exact (ord_perm _ _).subset hx
  obtain ⟨b1, f1, f2, f3, f4⟩ := applyChanges_sim cs hR (s := s) (fun c => by cases c; exact h1; exact h2)
    (fun x hx => href x.1 (hmem1 x hx)) nd1
  obtain ⟨b2, g1, g2, g3, g4⟩ := applyDeletes_sim ds f2 (by
    intro d hd
    refine ⟨d.leaf, ?_, rfl⟩
    rw [mem_changes cs nd1]
    refine ⟨d.leaf, hO.mem (hmem2 d hd), .inl ⟨rfl, ?_⟩⟩
    intro x hx e
    exact ndd _ (List.mem_map.mpr ⟨x, hx, rfl⟩) _ (List.mem_map.mpr ⟨d, hd, rfl⟩) (by rw [Function.comp]; exact e)) nd2
  exact ⟨b1, b2, f1, g1, g2, by rw [g3, f3], by rw [g4, f4]⟩

/-- the changes and deletes of an action list refer to distinct visited items -/
theorem acts_subperm (acts : List Act) : List.Subperm ((changesOf acts).map Prod.fst ++ deletesOf acts) (acts.map Act.item) := by
  induction acts with
  | nil => exact List.Subperm.refl _
  | cons a acts ih =>
    cases a with
    | drop i =>
      simp only [changesOf, deletesOf, List.flatMap_cons, Act.change, Act.delete, List.nil_append, List.singleton_append, List.map_cons,
        Act.item] at *
      refine List.Subperm.trans (List.Perm.subperm List.perm_middle) ?_
      exact (List.subperm_cons i).mpr ih
    | cancel i =>
      simp only [changesOf, deletesOf, List.flatMap_cons, Act.change, Act.delete, List.nil_append, List.singleton_append, List.map_cons,
        Act.item] at *
      refine List.Subperm.trans (List.Perm.subperm List.perm_middle) ?_
      exact (List.subperm_cons i).mpr ih
    | ignore i =>
      simp only [changesOf, deletesOf, List.flatMap_cons, Act.change, Act.delete, List.nil_append, List.map_cons, Act.item] at *
      exact ih.trans (List.sublist_cons_self _ _).subperm
    | fill i b =>
      simp only [changesOf, deletesOf, List.flatMap_cons, Act.change, Act.delete, List.map_cons, Act.item] at *
      split
      · simp only [List.nil_append, List.singleton_append]
        refine List.Subperm.trans (List.Perm.subperm List.perm_middle) ?_
        exact (List.subperm_cons i).mpr ih
      · simp only [List.singleton_append, List.nil_append, List.map_cons, List.cons_append]
        exact (List.subperm_cons i).mpr ih

/-- an order-selecting predicate that does not look at the quantity -/
def qtyFree (P : Comp → Leaf → Bool) : Prop := ∀ c l q, P c { l with quantity := q } = P c l

def qtyW (P : Comp → Leaf → Bool) (c : Comp) (l : Leaf) : Int := if P c l = true then l.quantity else 0

/-- lots leaving the book, restricted to the selected orders -/
def actW (P : Comp → Leaf → Bool) (a : Act) : Int := if P a.item.comp a.item.leaf = true then a.lots else 0

theorem sideSum_specApply {w : Comp → Leaf → Int} {s : SpecSide} (hk : SpecSide.keysOk s) {cs : List (Item × Int)} {ds : List Item}
    (hm1 : ∀ x ∈ cs, x.1.leaf ∈ s.get x.1.comp) (hm2 : ∀ d ∈ ds, d.leaf ∈ s.get d.comp)
    (hnd : ((cs.map Prod.fst ++ ds).map ck).Nodup) :
    sideSum w (specApply s cs ds) = sideSum w s -
      sumOf (fun x => w x.1.comp x.1.leaf - w x.1.comp { x.1.leaf with quantity := x.2 }) cs - sumOf (fun d => w d.comp d.leaf) ds := by
  rw [List.map_append, List.map_map, List.nodup_append] at hnd
  obtain ⟨nd1, nd2, ndd⟩ := hnd
  unfold specApply
  rw [sideSum_deletes ds (keysOk_changes cs hk) ?_ nd2, sideSum_changes cs hk hm1 nd1]
  intro d hd
  rw [mem_changes cs nd1]
  refine ⟨d.leaf, hm2 d hd, .inl ⟨rfl, ?_⟩⟩
  intro x hx e
  exact ndd _ (List.mem_map.mpr ⟨x, hx, rfl⟩) _ (List.mem_map.mpr ⟨d, hd, rfl⟩) (by rw [Function.comp]; exact e)

theorem act_weight {P : Comp → Leaf → Bool} (hP : qtyFree P) (a : Act) :
    sumOf (fun x : Item × Int => qtyW P x.1.comp x.1.leaf - qtyW P x.1.comp { x.1.leaf with quantity := x.2 }) a.change +
      sumOf (fun d : Item => qtyW P d.comp d.leaf) a.delete = actW P a := by
  cases a with
  | drop i => cases hp : P i.comp i.leaf <;> simp [Act.change, Act.delete, actW, qtyW, Act.item, Act.lots, hp]
  | cancel i => cases hp : P i.comp i.leaf <;> simp [Act.change, Act.delete, actW, qtyW, Act.item, Act.lots, hp]
  | ignore i => cases hp : P i.comp i.leaf <;> simp [Act.change, Act.delete, actW, Act.item, Act.lots, hp]
  | fill i b =>
    have h2 := hP i.comp i.leaf (i.leaf.quantity - b)
    simp only [Act.change, Act.delete]
    split
    · next h0 =>
      cases hp : P i.comp i.leaf <;> simp [actW, qtyW, Act.item, Act.lots, hp]
      omega
    · cases hp : P i.comp i.leaf <;> rw [hp] at h2 <;> simp [actW, qtyW, Act.item, Act.lots, hp, h2]

theorem acts_weights {P : Comp → Leaf → Bool} (hP : qtyFree P) (acts : List Act) :
    sumOf (fun x : Item × Int => qtyW P x.1.comp x.1.leaf - qtyW P x.1.comp { x.1.leaf with quantity := x.2 }) (changesOf acts) +
      sumOf (fun d : Item => qtyW P d.comp d.leaf) (deletesOf acts) = sumOf (actW P) acts := by
  induction acts with
  | nil => rfl
  | cons a acts ih =>
    have := act_weight hP a
    unfold changesOf deletesOf at *
    rw [List.flatMap_cons, List.flatMap_cons, sumOf_append, sumOf_append, sumOf_cons, ← this, ← ih]
    omega

theorem sideSum_acts {P : Comp → Leaf → Bool} (hP : qtyFree P) {s : SpecSide} (hk : SpecSide.keysOk s) {side : Side} {now : Nat}
    {oracle : Int} {xs : List Item} (hO : Offers s side now oracle xs) {acts : List Act} (hpre : acts.map Act.item <+: xs) :
    sideSum (qtyW P) (specApply s (changesOf acts) (deletesOf acts)) = sideSum (qtyW P) s - sumOf (actW P) acts := by
  have hsp := (acts_subperm acts).trans hpre.sublist.subperm
  obtain ⟨zs, hz1, hz2⟩ := hsp
  have hnd2 := ((hz1.map ck).nodup_iff).mp ((hO.nodup hk).sublist (hz2.map ck))
  have hmem : ∀ i ∈ (changesOf acts).map Prod.fst ++ deletesOf acts, i ∈ xs := fun i hi => hz2.subset (hz1.symm.subset hi)
  have hmem1 : ∀ x ∈ changesOf acts, x.1.leaf ∈ s.get x.1.comp :=
    fun x hx => hO.mem (hmem x.1 (by simp only [List.mem_append, List.mem_map]; exact .inl ⟨x, hx, rfl⟩))
  have hmem2 : ∀ x ∈ deletesOf acts, x.leaf ∈ s.get x.comp := fun x hx => hO.mem (hmem x (by simp [hx]))
  rw [sideSum_specApply hk hmem1 hmem2 hnd2, ← acts_weights hP acts]
  omega

end Perp
end Mango
