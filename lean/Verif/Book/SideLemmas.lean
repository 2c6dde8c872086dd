import Verif.Book.TreeOps3
import Verif.Book.Side
/-!
# Book sides refine a pair of sorted order lists
-/
namespace Mango
namespace Book
open Arena

/-- Specification state of a book side: the resting orders of the two components, sorted by key. -/
structure SpecSide where
  fixedL : List Leaf
  peggedL : List Leaf
  deriving DecidableEq, Repr

def SpecSide.get (s : SpecSide) : Comp → List Leaf
  | .fixed => s.fixedL
  | .pegged => s.peggedL
def SpecSide.set (s : SpecSide) (c : Comp) (xs : List Leaf) : SpecSide :=
  match c with
  | .fixed => { s with fixedL := xs }
  | .pegged => { s with peggedL := xs }

/-- the book side stores exactly these ghost trees -/
structure Reps (b : BookSide) (tf tp : Option Tree) : Prop where
  inv : ArenaInv b.nodes (optHandles tf ++ optHandles tp)
  hf : Holds b.nodes b.rootF tf
  hp : Holds b.nodes b.rootP tp

def pick (c : Comp) (tf tp : Option Tree) : Option Tree := match c with | .fixed => tf | .pegged => tp

/-- the book side represents this specification state -/
def Sim (b : BookSide) (s : SpecSide) : Prop := ∃ tf tp, Reps b tf tp ∧ s.fixedL = optLeaves tf ∧ s.peggedL = optLeaves tp

theorem Reps.sel {b : BookSide} {tf tp : Option Tree} (h : Reps b tf tp) (c : Comp) :
    ArenaInv b.nodes (optHandles (pick c tf tp) ++ optHandles (pick c.other tf tp)) ∧
    Holds b.nodes (b.root c) (pick c tf tp) := by
  cases c
  · exact ⟨h.inv, h.hf⟩
  · exact ⟨h.inv.perm List.perm_append_comm, h.hp⟩

/-- one component changes, the other's nodes are untouched -/
theorem Reps.update {b : BookSide} {tf tp t' : Option Tree} {c : Comp} {n' : Arena} {r' : Root} (h : Reps b tf tp)
    (hI : ArenaInv n' (optHandles t' ++ optHandles (pick c.other tf tp))) (hH : Holds n' r' t')
    (hag : ∀ x ∈ optHandles (pick c.other tf tp), n'.nodes[x]? = b.nodes.nodes[x]?) :
    Reps (b.setRoot c n' r') (pick c t' tf) (pick c tp t') := by
  cases c
  · exact ⟨hI, hH, holds_frame h.hp hag⟩
  · exact ⟨hI.perm List.perm_append_comm, holds_frame h.hf hag, hH⟩

theorem setRoot_isBids {b : BookSide} {c : Comp} {n : Arena} {r : Root} : (b.setRoot c n r).nodes = n := by
  cases c <;> rfl

/-- nodes a component of `k` orders occupies -/
def treeNodes (xs : List Leaf) : Nat := 2 * xs.length - 1

theorem optHandles_length (t : Option Tree) : (optHandles t).length = treeNodes (optLeaves t) := by
  cases t with
  | none => rfl
  | some t => have := handles_length t; simp only [optHandles, optLeaves, treeNodes]; omega

theorem sInsert_length {l : Leaf} {xs : List Leaf} (h : sFind l.key xs = none) : (sInsert l xs).length = xs.length + 1 := by
  unfold sFind at h
  rw [List.find?_eq_none] at h
  induction xs with
  | nil => rfl
  | cons x xs ih =>
    have hx := h x (by simp)
    have := ih (fun y hy => h y (by simp [hy]))
    simp only [decide_eq_true_eq] at hx
    unfold sInsert at *
    simp only [List.filter_cons]
    rcases Nat.lt_or_gt_of_ne hx with h1 | h1
    · have h2 : ¬ l.key < x.key := by omega
      simp [h1, h2] at this ⊢; omega
    · have h2 : ¬ x.key < l.key := by omega
      simp [h1, h2] at this ⊢; omega

theorem insert_sim {b : BookSide} {s : SpecSide} (h : Sim b s) (c : Comp) (l : Leaf) (hk : l.key < 2 ^ 128) :
    (b.insertLeaf c l = .error .someError ∧ sFind l.key (s.get c) = none ∧
      b.nodes.nodes.length < treeNodes (sInsert l (s.get c)) + treeNodes (s.get c.other)) ∨
    ∃ hd b', b.insertLeaf c l = .ok (hd, sFind l.key (s.get c), b') ∧ Sim b' (s.set c (sInsert l (s.get c))) ∧
      b'.nodes.nodes.length = b.nodes.nodes.length ∧ b'.nodes.isBids = b.nodes.isBids ∧
      treeNodes (sInsert l (s.get c)) + treeNodes (s.get c.other) ≤ b.nodes.nodes.length := by
  obtain ⟨tf, tp, hR, hsf, hsp⟩ := h
  obtain ⟨hI, hH⟩ := hR.sel c
  have hg : s.get c = optLeaves (pick c tf tp) := by cases c <;> assumption
  have hgo : s.get c.other = optLeaves (pick c.other tf tp) := by cases c <;> assumption
  unfold BookSide.insertLeaf
  rcases insertLeaf_spec (l := l) hI hH hk with ⟨e1, e2, e3, e4⟩ | ⟨hd, n', r', t', e1, e2, e3, e4, e5, e6, e7, e8⟩
  · left
    rw [e1]
    refine ⟨rfl, by rw [hg]; exact e2, ?_⟩
    have hc := hI.count
    simp only [List.length_append, optHandles_length] at hc
    rw [hg, hgo]
    have hsl := sInsert_length e2
    unfold treeNodes at *
    by_cases h0 : optLeaves (pick c tf tp) = []
    · have h1 := e4 h0
      have h2 : (optLeaves (pick c tf tp)).length = 0 := by rw [h0]; rfl
      omega
    · have : (optLeaves (pick c tf tp)).length ≠ 0 := fun e => h0 (List.length_eq_zero_iff.mp e)
      omega
  · right
    rw [e1]
    refine ⟨hd, b.setRoot c n' r', ?_, ⟨pick c (some t') tf, pick c tp (some t'), hR.update e2 e3 e5, ?_, ?_⟩, ?_, ?_, ?_⟩
    · simp [bind, Except.bind, hg]
    · cases c <;> simp [SpecSide.set, pick, hsf, e4, optLeaves, hg]
    · cases c <;> simp [SpecSide.set, pick, hsp, e4, optLeaves, hg]
    · rw [setRoot_isBids]; exact e6
    · rw [setRoot_isBids]; exact e7
    · have := e2.length_le
      simp only [List.length_append, optHandles_length, e6] at this
      rw [hg, hgo, ← e4]; exact this

theorem remove_sim {b : BookSide} {s : SpecSide} (h : Sim b s) (c : Comp) (key : Nat) :
    ∃ b', b.removeByKey c key = .ok (sFind key (s.get c), b') ∧ Sim b' (s.set c (sRemove key (s.get c))) ∧
      b'.nodes.nodes.length = b.nodes.nodes.length ∧ b'.nodes.isBids = b.nodes.isBids := by
  obtain ⟨tf, tp, hR, hsf, hsp⟩ := h
  obtain ⟨hI, hH⟩ := hR.sel c
  have hg : s.get c = optLeaves (pick c tf tp) := by cases c <;> assumption
  unfold BookSide.removeByKey
  obtain ⟨n', r', t', e1, e2, e3, e4, e5, e6, e7⟩ := removeByKey_spec (key := key) hI hH
  rw [e1]
  refine ⟨b.setRoot c n' r', ?_, ⟨pick c t' tf, pick c tp t', hR.update e2 e3 e5, ?_, ?_⟩, ?_, ?_⟩
  · simp [bind, Except.bind, hg]
  · cases c <;> simp [SpecSide.set, pick, hsf, e4, hg]
  · cases c <;> simp [SpecSide.set, pick, hsp, e4, hg]
  · rw [setRoot_isBids]; exact e6
  · rw [setRoot_isBids]; exact e7

theorem expired_one_sim {b : BookSide} {s : SpecSide} (h : Sim b s) (c : Comp) (now : Nat) :
    ∃ n' r', b.nodes.removeOneExpired (b.root c) now = .ok (sExpired now (s.get c), n', r') ∧
      Sim (b.setRoot c n' r') (s.set c (match sExpired now (s.get c) with
                                         | none => s.get c
                                         | some x => sRemove x.key (s.get c))) ∧
      n'.nodes.length = b.nodes.nodes.length ∧ n'.isBids = b.nodes.isBids := by
  obtain ⟨tf, tp, hR, hsf, hsp⟩ := h
  obtain ⟨hI, hH⟩ := hR.sel c
  have hg : s.get c = optLeaves (pick c tf tp) := by cases c <;> assumption
  obtain ⟨n', r', t', e1, e2, e3, e4, e5, e6, e7⟩ := removeOneExpired_spec (now := now) hI hH
  refine ⟨n', r', by rw [e1, hg], ⟨pick c t' tf, pick c tp t', hR.update e2 e3 e5, ?_, ?_⟩, e6, e7⟩
  · rw [hg]; cases hx : sExpired now (optLeaves (pick c tf tp)) <;> simp only [hx] at e4 ⊢ <;> rw [← e4] <;>
      cases c <;> simp [SpecSide.set, pick, hsf]
  · rw [hg]; cases hx : sExpired now (optLeaves (pick c tf tp)) <;> simp only [hx] at e4 ⊢ <;> rw [← e4] <;>
      cases c <;> simp [SpecSide.set, pick, hsp]

theorem set_get (s : SpecSide) (c : Comp) : s.set c (s.get c) = s := by cases c <;> rfl

/-- remove-one-expired on the specification: first the component, then the other one -/
def SpecSide.removeExpired (s : SpecSide) (c : Comp) (now : Nat) : Option Leaf × SpecSide :=
  match sExpired now (s.get c) with
  | some x => (some x, s.set c (sRemove x.key (s.get c)))
  | none => match sExpired now (s.get c.other) with
    | some x => (some x, s.set c.other (sRemove x.key (s.get c.other)))
    | none => (none, s)

theorem expired_sim {b : BookSide} {s : SpecSide} (h : Sim b s) (c : Comp) (now : Nat) :
    ∃ b', b.removeOneExpired c now = .ok ((s.removeExpired c now).1, b') ∧ Sim b' (s.removeExpired c now).2 ∧
      b'.nodes.nodes.length = b.nodes.nodes.length ∧ b'.nodes.isBids = b.nodes.isBids := by
  unfold BookSide.removeOneExpired SpecSide.removeExpired
  obtain ⟨n', r', e1, e2, e3, e4⟩ := expired_one_sim h c now
  rw [e1]
  simp only [bind, Except.bind]
  cases hx : sExpired now (s.get c) with
  | some x =>
    simp only [hx] at e2
    refine ⟨b.setRoot c n' r', rfl, e2, ?_, ?_⟩
    · rw [setRoot_isBids]; exact e3
    · rw [setRoot_isBids]; exact e4
  | none =>
    simp only [hx] at e2
    rw [set_get] at e2
    obtain ⟨n2, r2, f1, f2, f3, f4⟩ := expired_one_sim e2 c.other now
    simp only [f1]
    rw [setRoot_isBids] at f3 f4
    cases hy : sExpired now (s.get c.other) with
    | some y =>
      simp only [hy] at f2
      refine ⟨_, rfl, f2, ?_, ?_⟩
      · rw [setRoot_isBids, f3, e3]
      · rw [setRoot_isBids, f4, e4]
    | none =>
      simp only [hy] at f2
      rw [set_get] at f2
      refine ⟨_, rfl, f2, ?_, ?_⟩
      · rw [setRoot_isBids, f3, e3]
      · rw [setRoot_isBids, f4, e4]

theorem sim_init (isBids : Bool) (cap : Nat) (h : cap ≤ U32MAX) : Sim (BookSide.init isBids cap) ⟨[], []⟩ := by
  refine ⟨none, none, ⟨⟨[], rfl, trivial, ?_, ?_, ?_⟩, rfl, rfl⟩, rfl, rfl⟩
  · simp [optHandles, BookSide.init, Arena.init]
  · simp [BookSide.init, Arena.init]
  · simpa [BookSide.init, Arena.init] using h

/-- iteration order: key-descending for bids -/
def ord (isBids : Bool) {α : Type} (xs : List α) : List α := if isBids = true then xs.reverse else xs

theorem toList_sim {b : BookSide} {s : SpecSide} (h : Sim b s) (c : Comp) :
    ∃ xs, b.nodes.toList (b.root c) = .ok xs ∧ xs.map Prod.snd = ord b.nodes.isBids (s.get c) := by
  obtain ⟨tf, tp, hR, hsf, hsp⟩ := h
  obtain ⟨hI, hH⟩ := hR.sel c
  have hg : s.get c = optLeaves (pick c tf tp) := by cases c <;> assumption
  refine ⟨_, toList_spec hI hH, ?_⟩
  rw [hg, ← optHLeaves_map]
  unfold ord; split <;> simp

theorem minmax_sim {b : BookSide} {s : SpecSide} (h : Sim b s) (c : Comp) :
    (∃ x, b.nodes.minLeaf (b.root c) = .ok x ∧ x.map Prod.snd = (s.get c).head?) ∧
    (∃ x, b.nodes.maxLeaf (b.root c) = .ok x ∧ x.map Prod.snd = (s.get c).getLast?) := by
  obtain ⟨tf, tp, hR, hsf, hsp⟩ := h
  obtain ⟨hI, hH⟩ := hR.sel c
  have hg : s.get c = optLeaves (pick c tf tp) := by cases c <;> assumption
  refine ⟨⟨_, leafMinMax_spec false hI hH, ?_⟩, ⟨_, leafMinMax_spec true hI hH, ?_⟩⟩
  · rw [hg, ← optHLeaves_map]; simp
  · rw [hg, ← optHLeaves_map]; simp

theorem sorted_sim {b : BookSide} {s : SpecSide} (h : Sim b s) (c : Comp) :
    (s.get c).Pairwise (fun x y => x.key < y.key) := by
  obtain ⟨tf, tp, hR, hsf, hsp⟩ := h
  obtain ⟨hI, hH⟩ := hR.sel c
  have hg : s.get c = optLeaves (pick c tf tp) := by cases c <;> assumption
  rw [hg]
  cases hp : pick c tf tp with
  | none => simp [optLeaves]
  | some t => rw [hp] at hH; exact Tree.sorted hH.2.2.2

/-! ## writing a quantity through a handle -/

def Tree.mapLeaf (h0 : Nat) (f : Leaf → Leaf) : Tree → Tree
  | .leaf h l => if h = h0 then .leaf h (f l) else .leaf h l
  | .node h p k a b => .node h p k (a.mapLeaf h0 f) (b.mapLeaf h0 f)

section
variable {h0 : Nat} {f : Leaf → Leaf}
theorem mapLeaf_handle (t : Tree) : (t.mapLeaf h0 f).handle = t.handle := by
  cases t with
  | leaf h l => simp only [Tree.mapLeaf]; split <;> rfl
  | node h p k a b => rfl
theorem mapLeaf_tail (t : Tree) : (t.mapLeaf h0 f).tail = t.tail := by
  induction t with
  | leaf h l => simp only [Tree.mapLeaf]; split <;> rfl
  | node h p k a b iha ihb => simp only [Tree.mapLeaf, Tree.tail, mapLeaf_handle, iha, ihb]
theorem mapLeaf_handles (t : Tree) : (t.mapLeaf h0 f).handles = t.handles := by
  simp only [Tree.handles, mapLeaf_handle, mapLeaf_tail]
theorem mapLeaf_minExp (he : ∀ l : Leaf, (f l).expiry = l.expiry) (t : Tree) : (t.mapLeaf h0 f).minExp = t.minExp := by
  induction t with
  | leaf h l => simp only [Tree.mapLeaf]; split <;> simp [Tree.minExp, he]
  | node h p k a b iha ihb => simp only [Tree.mapLeaf, Tree.minExp, iha, ihb]
theorem mapLeaf_hleaves (t : Tree) : (t.mapLeaf h0 f).hleaves = t.hleaves.map (fun x => if x.1 = h0 then (x.1, f x.2) else x) := by
  induction t with
  | leaf h l => simp only [Tree.mapLeaf]; split <;> simp_all [Tree.hleaves]
  | node h p k a b iha ihb => simp only [Tree.mapLeaf, Tree.hleaves, iha, ihb, List.map_append]
theorem mapLeaf_keys (hk : ∀ l : Leaf, (f l).key = l.key) (t : Tree) :
    (t.mapLeaf h0 f).leaves.map Leaf.key = t.leaves.map Leaf.key := by
  induction t with
  | leaf h l => simp only [Tree.mapLeaf]; split <;> simp [Tree.leaves, hk]
  | node h p k a b iha ihb => simp only [Tree.mapLeaf, Tree.leaves, List.map_append, iha, ihb]
theorem mapLeaf_wf (hk : ∀ l : Leaf, (f l).key = l.key) {t : Tree} (w : t.WF) : (t.mapLeaf h0 f).WF := by
  induction t with
  | leaf h l => simp only [Tree.mapLeaf]; split <;> simpa [Tree.WF, hk] using w
  | node h p k a b iha ihb =>
    obtain ⟨w1, w2, w3, w4, w5, w6⟩ := w
    have hx : ∀ (t : Tree) (q : Nat), (∀ x ∈ t.leaves, x.key / 2 ^ (127 - p) = q) →
        ∀ x ∈ (t.mapLeaf h0 f).leaves, x.key / 2 ^ (127 - p) = q := by
      intro t q hq x hx
      have : x.key ∈ (t.mapLeaf h0 f).leaves.map Leaf.key := List.mem_map.mpr ⟨x, hx, rfl⟩
      rw [mapLeaf_keys hk] at this
      obtain ⟨y, hy, hyk⟩ := List.mem_map.mp this
      rw [← hyk]; exact hq y hy
    exact ⟨w1, w2, hx a _ w3, hx b _ w4, iha w5, ihb w6⟩
theorem mapLeaf_rep {ns : List Node} (he : ∀ l : Leaf, (f l).expiry = l.expiry) {t : Tree} (hr : t.Rep ns)
    (hnd : t.handles.Nodup) {l0 : Leaf} (hm : (h0, l0) ∈ t.hleaves ∨ h0 ∉ t.handles) (hlt : h0 < ns.length) :
    (t.mapLeaf h0 f).Rep (ns.set h0 (.leaf (f l0))) := by
  induction t with
  | leaf h l =>
    rcases hm with hm | hm
    · simp only [Tree.hleaves, List.mem_singleton] at hm
      cases hm
      simp only [Tree.mapLeaf, if_true, Tree.Rep]; exact set_get_self hlt
    · have hne : h ≠ h0 := by intro e; apply hm; simp [Tree.handles, e]
      simp only [Tree.mapLeaf, hne, if_false, Tree.Rep]
      rw [set_get_ne hne]; exact hr
  | node h p k a b iha ihb =>
    obtain ⟨r1, r2, r3⟩ := hr
    have hnd' := hnd
    simp only [Tree.handles, Tree.tail, Tree.handle_node, List.nodup_cons] at hnd'
    obtain ⟨hn1, hn2⟩ := hnd'
    have hna : a.handles.Nodup := (List.nodup_append.mp hn2).1
    have hnb : b.handles.Nodup := (List.nodup_append.mp hn2).2.1
    have hdis := (List.nodup_append.mp hn2).2.2
    have hne : h ≠ h0 := by
      rcases hm with hm | hm
      · intro e
        simp only [Tree.hleaves, List.mem_append] at hm
        apply hn1
        rw [List.mem_append]
        rcases hm with hm | hm
        · left; rw [e]; exact Tree.hleaves_mem_handles hm
        · right; rw [e]; exact Tree.hleaves_mem_handles hm
      · intro e; apply hm; simp [Tree.handles, e]
    have hma : (h0, l0) ∈ a.hleaves ∨ h0 ∉ a.handles := by
      rcases hm with hm | hm
      · simp only [Tree.hleaves, List.mem_append] at hm
        rcases hm with hm | hm
        · exact Or.inl hm
        · right; intro hx; exact hdis h0 hx h0 (Tree.hleaves_mem_handles hm) rfl
      · right; intro hx; apply hm
        simp only [Tree.handles, Tree.tail, List.mem_cons, List.mem_append] at *; tauto
    have hmb : (h0, l0) ∈ b.hleaves ∨ h0 ∉ b.handles := by
      rcases hm with hm | hm
      · simp only [Tree.hleaves, List.mem_append] at hm
        rcases hm with hm | hm
        · right; intro hx; exact hdis h0 (Tree.hleaves_mem_handles hm) h0 hx rfl
        · exact Or.inl hm
      · right; intro hx; apply hm
        simp only [Tree.handles, Tree.tail, List.mem_cons, List.mem_append] at *; tauto
    refine ⟨?_, iha r2 hna hma, ihb r3 hnb hmb⟩
    rw [set_get_ne hne, r1, mapLeaf_handle, mapLeaf_handle, mapLeaf_minExp he, mapLeaf_minExp he]
end

/-- set the quantity of the order with a given key -/
def sSetQty (k : Nat) (q : Int) (xs : List Leaf) : List Leaf := xs.map (fun l => if l.key = k then { l with quantity := q } else l)

theorem hleaves_handle_inj {t : Tree} (hnd : t.handles.Nodup) {h : Nat} {l l' : Leaf} (h1 : (h, l) ∈ t.hleaves)
    (h2 : (h, l') ∈ t.hleaves) {ns : List Node} (hr : t.Rep ns) : l = l' := by
  have a := Tree.rep_hleaves hr h1
  have b := Tree.rep_hleaves hr h2
  rw [a] at b; simpa using b

theorem mapLeaf_leaves_qty {ns : List Node} {t : Tree} (hr : t.Rep ns) (hw : t.WF) {h0 : Nat} {l0 : Leaf} (hm : (h0, l0) ∈ t.hleaves) (q : Int)
    (hnd : t.handles.Nodup) :
    (t.mapLeaf h0 (fun l => { l with quantity := q })).leaves = sSetQty l0.key q t.leaves := by
  rw [← Tree.hleaves_map, ← Tree.hleaves_map, mapLeaf_hleaves]
  unfold sSetQty
  rw [List.map_map, List.map_map]
  apply List.map_congr_left
  rintro ⟨h, l⟩ hx
  simp only [Function.comp]
  have hs := Tree.sorted hw
  have hl : l ∈ t.leaves := by rw [← t.hleaves_map]; exact List.mem_map.mpr ⟨_, hx, rfl⟩
  have hl0 : l0 ∈ t.leaves := by rw [← t.hleaves_map]; exact List.mem_map.mpr ⟨_, hm, rfl⟩
  by_cases he : h = h0
  · subst he
    have := hleaves_handle_inj hnd hx hm hr
    subst this; simp
  · rw [if_neg he]
    have hne : l.key ≠ l0.key := by
      intro ek
      -- equal keys mean the same list position
      have hp : t.hleaves.Pairwise (fun x y => x.2.key < y.2.key) := by
        have := hs; rw [← t.hleaves_map, List.pairwise_map] at this; exact this
      have : ∀ (xs : List (Nat × Leaf)), xs.Pairwise (fun x y => x.2.key < y.2.key) → ∀ x ∈ xs, ∀ y ∈ xs,
          x.2.key = y.2.key → x = y := by
        intro xs
        induction xs with
        | nil => simp
        | cons z zs ih =>
          intro hp x hx y hy e
          rw [List.pairwise_cons] at hp
          simp only [List.mem_cons] at hx hy
          rcases hx with rfl | hx <;> rcases hy with rfl | hy
          · rfl
          · have := hp.1 y hy; omega
          · have := hp.1 x hx; omega
          · exact ih hp.2 x hx y hy e
      have := this _ hp _ hx _ hm ek
      exact he (by simpa using congrArg Prod.fst this)
    simp [hne]

/-- handle-level view of a component -/
theorem setQuantity_sim {b : BookSide} {tf tp : Option Tree} (hR : Reps b tf tp) (c : Comp) {h : Nat} {l : Leaf}
    (hm : (h, l) ∈ optHLeaves (pick c tf tp)) (q : Int) :
    ∃ b' t', b.setQuantity h q = .ok b' ∧ Reps b' (pick c t' tf) (pick c tp t') ∧
      optLeaves t' = sSetQty l.key q (optLeaves (pick c tf tp)) ∧
      optHLeaves t' = (optHLeaves (pick c tf tp)).map (fun x => if x.1 = h then (x.1, { x.2 with quantity := q }) else x) ∧
      b'.nodes.nodes.length = b.nodes.nodes.length ∧ b'.nodes.isBids = b.nodes.isBids := by
  obtain ⟨hI, hH⟩ := hR.sel c
  cases hp : pick c tf tp with
  | none => rw [hp] at hm; simp [optHLeaves] at hm
  | some t =>
    rw [hp] at hm hI hH
    simp only [optHLeaves, optHandles] at hm hI
    have hrl := Tree.rep_hleaves hH.2.2.1 hm
    have hmem := Tree.hleaves_mem_handles hm
    have hnd := hI.nodup
    have hndt := (List.nodup_append.mp hnd).1
    unfold BookSide.setQuantity
    rw [node_of_get hrl rfl]
    simp only
    have hI' := setNode_inv (v := .leaf { l with quantity := q }) hI (h := h) (by simp [hmem])
    have hlt := hI.lt (x := h) (by simp [hmem])
    refine ⟨_, some (t.mapLeaf h (fun l => { l with quantity := q })), rfl, ?_, ?_, ?_, ?_, rfl⟩
    · have := Reps.update (c := c) (t' := some (t.mapLeaf h (fun l => { l with quantity := q })))
        (n' := b.nodes.setNode h (.leaf { l with quantity := q })) (r' := b.root c) hR ?_ ?_ ?_
      · cases c
        · exact this
        · exact this
      · simp only [optHandles, mapLeaf_handles]; exact hI'
      · refine ⟨?_, ?_, ?_, ?_⟩
        · rw [mapLeaf_handle]; exact hH.1
        · rw [hH.2.1]
          have := congrArg List.length (mapLeaf_keys (h0 := h) (f := fun l => { l with quantity := q }) (fun _ => rfl) t)
          simpa using this.symm
        · exact mapLeaf_rep (f := fun l => { l with quantity := q }) (fun _ => rfl) hH.2.2.1 hndt (Or.inl hm) hlt
        · exact mapLeaf_wf (f := fun l => { l with quantity := q }) (fun _ => rfl) hH.2.2.2
      · intro x hx
        apply set_get_ne
        intro e; subst e
        exact (List.nodup_append.mp hnd).2.2 x hmem x hx rfl
    · simp only [optLeaves]
      exact mapLeaf_leaves_qty hH.2.2.1 hH.2.2.2 hm q hndt
    · simp only [optHLeaves]; exact mapLeaf_hleaves t
    · simp [setNode]

end Book
end Mango
