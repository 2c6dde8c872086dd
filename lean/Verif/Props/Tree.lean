import Verif.Book.SideLemmas
/-!
# C13, C14, C15: the order trees of a book side, for every history of operations

Specification: a book side is two lists of orders sorted by key (`SpecSide`), one for fixed-price and one for
oracle-pegged orders.  `specStep` says what every operation must answer and how it must change these lists; `run` is the
modelled code (arena, free list, crit-bit tree).  A failing instruction is rolled back (state unchanged).
-/
namespace Mango
namespace Book

/-- operations of a book side's trees -/
inductive TOp where
  | insert (c : Comp) (l : Leaf)
  | remove (c : Comp) (key : Nat)
  | expire (c : Comp) (now : Nat)
  /-- look an order up by iteration and write its quantity through the handle -/
  | setQty (c : Comp) (key : Nat) (q : Int)
  deriving DecidableEq, Repr

/-- observable answers -/
inductive TOut where
  | inserted (replaced : Option Leaf)
  | outOfSpace
  | removed (l : Option Leaf)
  | expired (l : Option Leaf)
  | wrote (found : Bool)
  | aborted (e : Err)
  deriving DecidableEq, Repr

/-- one operation of the modelled code -/
def tstep (b : BookSide) : TOp → TOut × BookSide
  | .insert c l => match b.insertLeaf c l with
    | .ok (_, old, b') => (.inserted old, b')
    | .error .someError => (.outOfSpace, b)
    | .error e => (.aborted e, b)
  | .remove c k => match b.removeByKey c k with
    | .ok (x, b') => (.removed x, b')
    | .error e => (.aborted e, b)
  | .expire c now => match b.removeOneExpired c now with
    | .ok (x, b') => (.expired x, b')
    | .error e => (.aborted e, b)
  | .setQty c k q => match b.nodes.toList (b.root c) with
    | .error e => (.aborted e, b)
    | .ok xs => match xs.find? (fun x => decide (x.2.key = k)) with
      | none => (.wrote false, b)
      | some x => match b.setQuantity x.1 q with
        | .ok b' => (.wrote true, b')
        | .error e => (.aborted e, b)

def trun (b : BookSide) : List TOp → List TOut × BookSide
  | [] => ([], b)
  | op :: ops => ((tstep b op).1 :: (trun (tstep b op).2 ops).1, (trun (tstep b op).2 ops).2)

/-- one operation on the sorted lists; `cap` is the number of nodes of the pool.  `k` orders in one tree need `2k - 1`
nodes (`treeNodes`). -/
def specStep (cap : Nat) (s : SpecSide) : TOp → TOut × SpecSide
  | .insert c l =>
    if treeNodes (sInsert l (s.get c)) + treeNodes (s.get c.other) ≤ cap then
      (.inserted (sFind l.key (s.get c)), s.set c (sInsert l (s.get c)))
    else (.outOfSpace, s)
  | .remove c k => (.removed (sFind k (s.get c)), s.set c (sRemove k (s.get c)))
  | .expire c now => (.expired (s.removeExpired c now).1, (s.removeExpired c now).2)
  | .setQty c k q => (.wrote (sFind k (s.get c)).isSome, s.set c (sSetQty k q (s.get c)))

def specRun (cap : Nat) (s : SpecSide) : List TOp → List TOut × SpecSide
  | [] => ([], s)
  | op :: ops => ((specStep cap s op).1 :: (specRun cap (specStep cap s op).2 ops).1, (specRun cap (specStep cap s op).2 ops).2)

/-- keys are 128-bit -/
def TOp.ok : TOp → Prop
  | .insert _ l => l.key < 2 ^ 128
  | _ => True

theorem sInsert_length_found {l x : Leaf} {xs : List Leaf} (hs : xs.Pairwise (fun x y => x.key < y.key)) (h : sFind l.key xs = some x) :
    (sInsert l xs).length = xs.length := by
  unfold sInsert
  induction xs with
  | nil => simp [sFind] at h
  | cons y ys ih =>
    rw [List.pairwise_cons] at hs
    by_cases hy : y.key = l.key
    · have h1 : ys.filter (fun x => decide (x.key < l.key)) = [] := by
        rw [List.filter_eq_nil_iff]; intro z hz; have := hs.1 z hz; simp; omega
      have h2 : ys.filter (fun x => decide (l.key < x.key)) = ys := by
        rw [List.filter_eq_self]; intro z hz; have := hs.1 z hz; simp; omega
      have h3 : ¬ y.key < l.key := by omega
      have h4 : ¬ l.key < y.key := by omega
      simp [h1, h2, h3, h4]
    · have h' : sFind l.key ys = some x := by simpa [sFind, hy] using h
      have := ih hs.2 h'
      simp only [List.filter_cons]
      rcases Nat.lt_or_gt_of_ne hy with h1 | h1
      · have h2 : ¬ l.key < y.key := by omega
        simp [h1, h2] at this ⊢; omega
      · have h2 : ¬ y.key < l.key := by omega
        simp [h1, h2] at this ⊢; omega

theorem find_rev_hl {xs : List (Nat × Leaf)} {k : Nat} (hs : (xs.map Prod.snd).Pairwise (fun x y => x.key < y.key)) (isB : Bool) :
    ((ord isB xs).find? (fun x => decide (x.2.key = k))).map Prod.snd = sFind k (xs.map Prod.snd) := by
  have hd : xs.find? (fun x => decide (x.2.key = k)) = (xs.reverse).find? (fun x => decide (x.2.key = k)) := by
    rw [List.pairwise_map] at hs
    induction xs with
    | nil => rfl
    | cons y ys ih =>
      rw [List.pairwise_cons] at hs
      rw [List.reverse_cons, List.find?_append, ← ih hs.2, List.find?_cons, List.find?_cons]
      by_cases hy : y.2.key = k
      · have : ys.find? (fun x => decide (x.2.key = k)) = none := by
          rw [List.find?_eq_none]; intro z hz; have := hs.1 z hz; simp; omega
        simp [hy, this]
      · simp [hy]
  have hm : (xs.find? (fun x => decide (x.2.key = k))).map Prod.snd = sFind k (xs.map Prod.snd) := by
    unfold sFind; rw [List.find?_map]; rfl
  unfold ord; split
  · rw [← hd]; exact hm
  · exact hm

theorem sSetQty_absent {k : Nat} {q : Int} {xs : List Leaf} (h : sFind k xs = none) : sSetQty k q xs = xs := by
  unfold sFind at h; rw [List.find?_eq_none] at h
  unfold sSetQty
  conv_rhs => rw [← List.map_id xs]
  apply List.map_congr_left
  intro x hx
  have := h x hx
  simp only [decide_eq_true_eq] at this
  simp [this]

theorem tstep_sim {b : BookSide} {s : SpecSide} (h : Sim b s) (op : TOp) (hop : op.ok) :
    (tstep b op).1 = (specStep b.nodes.nodes.length s op).1 ∧ Sim (tstep b op).2 (specStep b.nodes.nodes.length s op).2 ∧
      (tstep b op).2.nodes.nodes.length = b.nodes.nodes.length ∧ (tstep b op).2.nodes.isBids = b.nodes.isBids := by
  cases op with
  | insert c l =>
    rcases insert_sim h c l hop with ⟨e1, e2, e3⟩ | ⟨hd, b', e1, e2, e3, e4, e5⟩
    · simp only [tstep, e1, specStep]
      rw [if_neg (by omega)]
      exact ⟨rfl, h, trivial, trivial⟩
    · simp only [tstep, e1, specStep]
      rw [if_pos e5]
      exact ⟨rfl, e2, e3, e4⟩
  | remove c k =>
    obtain ⟨b', e1, e2, e3, e4⟩ := remove_sim h c k
    simp only [tstep, e1, specStep]
    exact ⟨trivial, e2, e3, e4⟩
  | expire c now =>
    obtain ⟨b', e1, e2, e3, e4⟩ := expired_sim h c now
    simp only [tstep, e1, specStep]
    exact ⟨trivial, e2, e3, e4⟩
  | setQty c k q =>
    have hs := sorted_sim h c
    obtain ⟨tf, tp, hR, hsf, hsp⟩ := h
    obtain ⟨hI, hH⟩ := hR.sel c
    have hg : s.get c = optLeaves (pick c tf tp) := by cases c <;> assumption
    have htl := toList_spec hI hH
    have hf := find_rev_hl (xs := optHLeaves (pick c tf tp)) (k := k) (by rw [optHLeaves_map, ← hg]; exact hs) b.nodes.isBids
    rw [optHLeaves_map, ← hg] at hf
    unfold ord at hf
    simp only [tstep, htl, specStep]
    cases hx : ((if b.nodes.isBids = true then (optHLeaves (pick c tf tp)).reverse else optHLeaves (pick c tf tp)).find?
        (fun x => decide (x.2.key = k))) with
    | none =>
      rw [hx] at hf
      simp only [Option.map_none] at hf
      rw [← hf, sSetQty_absent hf.symm, set_get]
      exact ⟨rfl, ⟨tf, tp, hR, hsf, hsp⟩, rfl, rfl⟩
    | some x =>
      rw [hx] at hf
      simp only [Option.map_some] at hf
      have hmem : x ∈ optHLeaves (pick c tf tp) := by
        have := List.mem_of_find?_eq_some hx
        split at this
        · simpa using this
        · exact this
      have hk : x.2.key = k := by simpa using List.find?_some hx
      obtain ⟨b', t', e1, e2, e3, _, e5, e6⟩ := setQuantity_sim hR c (h := x.1) (l := x.2) hmem q
      simp only [e1]
      rw [← hf]
      refine ⟨rfl, ⟨_, _, e2, ?_, ?_⟩, e5, e6⟩
      · rw [hg, ← hk, ← e3]; cases c <;> simp [SpecSide.set, pick, hsf]
      · rw [hg, ← hk, ← e3]; cases c <;> simp [SpecSide.set, pick, hsp]

theorem trun_sim {b : BookSide} {s : SpecSide} (h : Sim b s) (ops : List TOp) (hops : ∀ op ∈ ops, op.ok) :
    (trun b ops).1 = (specRun b.nodes.nodes.length s ops).1 ∧ Sim (trun b ops).2 (specRun b.nodes.nodes.length s ops).2 ∧
      (trun b ops).2.nodes.nodes.length = b.nodes.nodes.length ∧ (trun b ops).2.nodes.isBids = b.nodes.isBids := by
  induction ops generalizing b s with
  | nil => exact ⟨rfl, h, rfl, rfl⟩
  | cons op ops ih =>
    obtain ⟨e1, e2, e3, e4⟩ := tstep_sim h op (hops op (by simp))
    obtain ⟨f1, f2, f3, f4⟩ := ih e2 (fun o ho => hops o (by simp [ho]))
    rw [e3] at f1 f2 f3
    simp only [trun, specRun]
    exact ⟨by rw [e1, f1], f2, f3, f4.trans e4⟩

/-- the trees of the side iterate exactly as the lists of the specification state -/
def Shows (b : BookSide) (isBids : Bool) (s : SpecSide) : Prop :=
  ∀ c : Comp, ∃ xs, b.nodes.toList (b.root c) = .ok xs ∧ xs.map Prod.snd = if isBids then (s.get c).reverse else s.get c

theorem shows_of_sim {b : BookSide} {isBids : Bool} {s : SpecSide} (h : Sim b s) (hb : b.nodes.isBids = isBids) : Shows b isBids s := by
  intro c
  obtain ⟨xs, e1, e2⟩ := toList_sim h c
  exact ⟨xs, e1, by rw [e2, hb]; rfl⟩

/-- **C13.** For every history of inserts, removes, expirations and quantity writes with any 128-bit keys on a fresh book
side of any capacity, the arena/crit-bit code answers exactly what a pair of sorted lists answers (in particular it never
aborts), and afterwards each tree's iteration is exactly its list (descending for bids, ascending for asks), its minimum
and maximum are the list's first and last, and the list is strictly sorted by key. -/
theorem C13_order_tree_is_sorted_map (isBids : Bool) (cap : Nat) (hcap : cap ≤ U32MAX) (ops : List TOp)
    (hops : ∀ op ∈ ops, op.ok) :
    let b := (trun (BookSide.init isBids cap) ops).2
    let s := (specRun cap ⟨[], []⟩ ops).2
    (trun (BookSide.init isBids cap) ops).1 = (specRun cap ⟨[], []⟩ ops).1 ∧
    ∀ c : Comp,
      (∃ xs, b.nodes.toList (b.root c) = .ok xs ∧ xs.map Prod.snd = if isBids then (s.get c).reverse else s.get c) ∧
      (∃ x, b.nodes.minLeaf (b.root c) = .ok x ∧ x.map Prod.snd = (s.get c).head?) ∧
      (∃ x, b.nodes.maxLeaf (b.root c) = .ok x ∧ x.map Prod.snd = (s.get c).getLast?) ∧
      (s.get c).Pairwise (fun x y => x.key < y.key) := by
  have h := trun_sim (sim_init isBids cap hcap) ops hops
  have hl : (BookSide.init isBids cap).nodes.nodes.length = cap := by simp [BookSide.init, Arena.init]
  rw [hl] at h
  obtain ⟨h1, h2, h3, h4⟩ := h
  refine ⟨h1, fun c => ⟨?_, (minmax_sim h2 c).1, (minmax_sim h2 c).2, sorted_sim h2 c⟩⟩
  obtain ⟨xs, e1, e2⟩ := toList_sim h2 c
  refine ⟨xs, e1, ?_⟩
  rw [e2, h4]
  rfl

/-! What the sorted-list specification means, order by order. -/
theorem C13_spec_insert (l : Leaf) (xs : List Leaf) (x : Leaf) :
    x ∈ sInsert l xs ↔ x = l ∨ (x ∈ xs ∧ x.key ≠ l.key) := by
  unfold sInsert
  simp only [List.mem_append, List.mem_filter, List.mem_cons, decide_eq_true_eq]
  constructor
  · rintro (h | h | h)
    · exact Or.inr ⟨h.1, by omega⟩
    · exact Or.inl h
    · exact Or.inr ⟨h.1, by omega⟩
  · rintro (h | ⟨h1, h2⟩)
    · tauto
    · rcases Nat.lt_or_gt_of_ne h2 with h3 | h3
      · exact Or.inl ⟨h1, h3⟩
      · exact Or.inr (Or.inr ⟨h1, h3⟩)
theorem C13_spec_remove (k : Nat) (xs : List Leaf) (x : Leaf) : x ∈ sRemove k xs ↔ x ∈ xs ∧ x.key ≠ k := by
  unfold sRemove; simp

def leafOf (key : Nat) (q : Int) (ts tif : Nat) : Leaf :=
  { ownerSlot := 0, orderType := 0, timeInForce := tif, key, owner := 7, quantity := q, timestamp := ts, pegLimit := -1, clientOrderId := 0 }

def exOps : List TOp :=
  [.insert .fixed (leafOf 5 1 100 10), .insert .pegged (leafOf 5 2 100 0), .insert .fixed (leafOf 4 3 90 5), .remove .fixed 6,
   .insert .fixed (leafOf 12 4 90 50), .remove .fixed 5, .insert .pegged (leafOf 9 8 7 0), .insert .pegged (leafOf 9 5 90 50),
   .expire .pegged 96, .setQty .pegged 9 33, .insert .fixed (leafOf 1 1 1 0), .insert .fixed (leafOf 2 1 1 0)]

/-- a concrete history satisfying the hypothesis, with removals, a replacement, an expiry and an out-of-space answer -/
example : (∀ op ∈ exOps, op.ok) ∧
    (trun (BookSide.init true 5) exOps).1 =
      [.inserted none, .inserted none, .inserted none, .removed none, .outOfSpace,
       .removed (some (leafOf 5 1 100 10)), .inserted none, .inserted (some (leafOf 9 8 7 0)), .expired (some (leafOf 4 3 90 5)), .wrote true,
       .inserted none, .outOfSpace] := by
  refine ⟨?_, by decide +kernel⟩
  intro op hop
  simp only [exOps, List.mem_cons, List.not_mem_nil, or_false] at hop
  rcases hop with rfl | rfl | rfl | rfl | rfl | rfl | rfl | rfl | rfl | rfl | rfl | rfl <;> simp [TOp.ok, leafOf]

/-! ## C14 -/

/-- node `h'` is reachable from node `h` by following child pointers -/
inductive Reach (n : Arena) : Nat → Nat → Prop
  | refl (h : Nat) : Reach n h h
  | step {h h' : Nat} {i : Inner} (b : Bool) : n.nodes[h]? = some (.inner i) → Reach n (i.child b) h' → Reach n h h'

/-- nodes in use by component `c` -/
def Live (b : BookSide) (c : Comp) (h : Nat) : Prop := ∃ r, (b.root c).node = some r ∧ Reach b.nodes r h

/-- nodes on the free list, following its next pointers -/
inductive OnFree (n : Arena) : Nat → Nat → Nat → Prop
  | here (h k : Nat) : OnFree n h (k + 1) h
  | next {h k x nx : Nat} {last : Bool} : n.nodes[h]? = some (.free last nx) → OnFree n nx k x → OnFree n h (k + 1) x

theorem reach_iff {n : Arena} {t : Tree} (hr : t.Rep n.nodes) (x : Nat) : Reach n t.handle x ↔ x ∈ t.handles := by
  induction t with
  | leaf h l =>
    simp only [Tree.handle_leaf, Tree.handles, Tree.tail, List.mem_singleton]
    constructor
    · intro hx
      cases hx with
      | refl => rfl
      | step b h1 _ => rw [Tree.Rep] at hr; rw [hr] at h1; simp at h1
    · rintro rfl; exact .refl _
  | node h p k a b iha ihb =>
    obtain ⟨r1, r2, r3⟩ := hr
    have ia := iha r2
    have ib := ihb r3
    simp only [Tree.handle_node]
    rw [show (Tree.node h p k a b).handles = h :: (a.handles ++ b.handles) from by simp [Tree.handles, Tree.tail]]
    rw [List.mem_cons, List.mem_append, ← ia, ← ib]
    constructor
    · intro hx
      cases hx with
      | refl => exact Or.inl rfl
      | step c h1 h2 =>
        rw [r1] at h1
        simp only [Option.some.injEq, Node.inner.injEq] at h1
        subst h1
        cases c
        · right; left; exact h2
        · right; right; exact h2
    · rintro (rfl | hx | hx)
      · exact .refl _
      · exact .step false r1 hx
      · exact .step true r1 hx

theorem onFree_iff {n : Arena} {head : Nat} {F : List Nat} (h : Chain n.nodes head F) (x : Nat) : OnFree n head F.length x ↔ x ∈ F := by
  induction F generalizing head with
  | nil => simp only [List.length_nil, List.not_mem_nil, iff_false]; intro h; cases h
  | cons f F ih =>
    obtain ⟨h1, nx, h2, h3⟩ := h
    subst h1
    rw [List.length_cons, List.mem_cons, ← ih h3]
    constructor
    · intro hx
      cases hx with
      | here => exact Or.inl rfl
      | next g1 g2 =>
        rw [h2] at g1
        simp only [Option.some.injEq, Node.free.injEq] at g1
        obtain ⟨_, rfl⟩ := g1
        exact Or.inr g2
    · rintro (rfl | hx)
      · exact .here _ _
      · exact .next h2 hx

theorem live_iff {b : BookSide} {tf tp : Option Tree} (hR : Reps b tf tp) (c : Comp) (x : Nat) :
    Live b c x ↔ x ∈ optHandles (pick c tf tp) := by
  obtain ⟨_, hH⟩ := hR.sel c
  unfold Live
  cases hp : pick c tf tp with
  | none =>
    rw [hp] at hH
    have hH' : (b.root c).leafCount = 0 := hH
    simp [Root.node, hH', optHandles]
  | some t =>
    rw [hp] at hH
    rw [root_node_some hH]
    simp only [Option.some.injEq, optHandles, ← reach_iff hH.2.2.1]
    constructor
    · rintro ⟨r, rfl, h⟩; exact h
    · intro h; exact ⟨_, rfl, h⟩

/-- **C14 (pool partition).** After every history, every node below the bump index is in exactly one of: the free list,
the fixed-price tree, the oracle-pegged tree; none of them contains a node at or above the bump index, which never
exceeds the capacity.  -/
theorem C14_pool_partition (isBids : Bool) (cap : Nat) (hcap : cap ≤ U32MAX) (ops : List TOp) (hops : ∀ op ∈ ops, op.ok) :
    let b := (trun (BookSide.init isBids cap) ops).2
    let onFree := OnFree b.nodes b.nodes.freeListHead b.nodes.freeListLen
    b.nodes.nodes.length = cap ∧ b.nodes.bumpIndex ≤ cap ∧
    (∀ h, h < b.nodes.bumpIndex ↔ (onFree h ∨ Live b .fixed h ∨ Live b .pegged h)) ∧
    (∀ h, ¬ (onFree h ∧ Live b .fixed h) ∧ ¬ (onFree h ∧ Live b .pegged h) ∧ ¬ (Live b .fixed h ∧ Live b .pegged h)) := by
  intro b onFree
  have h := trun_sim (sim_init isBids cap hcap) ops hops
  have hl : (BookSide.init isBids cap).nodes.nodes.length = cap := by simp [BookSide.init, Arena.init]
  rw [hl] at h
  obtain ⟨_, ⟨tf, tp, hR, _, _⟩, h3, _⟩ := h
  obtain ⟨F, i1, i2, i3, i4, i5⟩ := hR.inv
  have hlf : ∀ x, Live b .fixed x ↔ x ∈ optHandles tf := live_iff hR .fixed
  have hlp : ∀ x, Live b .pegged x ↔ x ∈ optHandles tp := live_iff hR .pegged
  have hof : ∀ x, onFree x ↔ x ∈ F := by
    intro x
    have := onFree_iff i2 x
    rw [← i1] at this
    exact this
  have hnd : (F ++ (optHandles tf ++ optHandles tp)).Nodup := i3.nodup_iff.mpr List.nodup_range
  refine ⟨h3, h3 ▸ i4, ?_, ?_⟩
  · intro x
    rw [hof, hlf, hlp]
    have := i3.mem_iff (a := x)
    rw [List.mem_range, List.mem_append, List.mem_append] at this
    exact this.symm
  · intro x
    rw [hof, hlf, hlp]
    obtain ⟨n1, n2, n3⟩ := List.nodup_append.mp hnd
    obtain ⟨m1, m2, m3⟩ := List.nodup_append.mp n2
    refine ⟨fun ⟨a, c⟩ => n3 x a x (by simp [c]) rfl, fun ⟨a, c⟩ => n3 x a x (by simp [c]) rfl, fun ⟨a, c⟩ => m3 x a x c rfl⟩

/-- **C14 (out of space).** After every history an insert of any new order is refused exactly when the nodes needed
(`2k-1` for `k` orders per tree) exceed the capacity; and whenever `is_full` answers no, every insert into either tree
succeeds, while if it answers yes at most two nodes are unused. -/
theorem C14_out_of_space_iff (isBids : Bool) (cap : Nat) (hcap : cap ≤ U32MAX) (ops : List TOp) (hops : ∀ op ∈ ops, op.ok)
    (c : Comp) (l : Leaf) (hk : l.key < 2 ^ 128) :
    let b := (trun (BookSide.init isBids cap) ops).2
    let s := (specRun cap ⟨[], []⟩ ops).2
    ((tstep b (.insert c l)).1 = .outOfSpace ↔
        (sFind l.key (s.get c) = none ∧ cap < treeNodes (l :: s.get c) + treeNodes (s.get c.other))) ∧
    (b.isFull = false → ∃ old, (tstep b (.insert c l)).1 = .inserted old) ∧
    (b.isFull = true → cap ≤ treeNodes s.fixedL + treeNodes s.peggedL + 2) := by
  intro b s
  have h := trun_sim (sim_init isBids cap hcap) ops hops
  have hl : (BookSide.init isBids cap).nodes.nodes.length = cap := by simp [BookSide.init, Arena.init]
  rw [hl] at h
  obtain ⟨_, h2, h3, _⟩ := h
  have hst := tstep_sim h2 (.insert c l) hk
  have hsorted := sorted_sim h2 c
  obtain ⟨tf, tp, hR, hsf, hsp⟩ := h2
  have hcount := hR.inv.count
  simp only [List.length_append, optHandles_length] at hcount
  rw [← hsf, ← hsp] at hcount
  change treeNodes s.fixedL + treeNodes s.peggedL + freeSlots b.nodes = b.nodes.nodes.length at hcount
  change b.nodes.nodes.length = cap at h3
  obtain ⟨F, i1, i2, i3, i4, i5⟩ := hR.inv
  change b.nodes.freeListLen = _ at i1
  change b.nodes.bumpIndex ≤ b.nodes.nodes.length at i4
  have hsum : treeNodes (s.get c) + treeNodes (s.get c.other) = treeNodes s.fixedL + treeNodes s.peggedL := by
    cases c
    · rfl
    · exact Nat.add_comm _ _
  have htn : (sFind l.key (s.get c) = none ∧ treeNodes (sInsert l (s.get c)) = treeNodes (l :: s.get c)) ∨
      (sFind l.key (s.get c) ≠ none ∧ treeNodes (sInsert l (s.get c)) = treeNodes (s.get c)) := by
    cases hf : sFind l.key (s.get c) with
    | none => left; exact ⟨rfl, by unfold treeNodes; rw [sInsert_length hf]; rfl⟩
    | some x => right; exact ⟨by simp, by unfold treeNodes; rw [sInsert_length_found hsorted hf]⟩
  have hle : treeNodes (l :: s.get c) ≤ treeNodes (s.get c) + 2 := by unfold treeNodes; simp; omega
  have hfs : freeSlots b.nodes = b.nodes.freeListLen + (b.nodes.nodes.length - b.nodes.bumpIndex) := rfl
  have h1 := hst.1
  rw [h3] at h1
  change (tstep b (.insert c l)).1 = (specStep cap s (.insert c l)).1 at h1
  rw [h1]
  simp only [specStep]
  refine ⟨?_, ?_, ?_⟩
  · split
    · rename_i hle'
      constructor
      · intro h; simp at h
      · rintro ⟨a, d⟩
        rcases htn with ⟨_, e⟩ | ⟨e, _⟩
        · omega
        · exact absurd a e
    · rename_i hgt
      simp only [true_iff]
      rcases htn with ⟨a, e⟩ | ⟨a, e⟩
      · exact ⟨a, by omega⟩
      · exfalso; omega
  · intro hfull
    have : 2 ≤ freeSlots b.nodes := by
      unfold BookSide.isFull Arena.isFull at hfull
      simp only [Bool.and_eq_false_iff, decide_eq_false_iff_not] at hfull
      omega
    rw [if_pos (by rcases htn with ⟨_, e⟩ | ⟨_, e⟩ <;> omega)]
    exact ⟨_, rfl⟩
  · intro hfull
    unfold BookSide.isFull Arena.isFull at hfull
    simp only [Bool.and_eq_true, decide_eq_true_eq] at hfull
    omega

/-- the premise `is_full = no` and both answers occur -/
example : let b := (trun (BookSide.init true 5) exOps).2
    b.isFull = true ∧ (trun (BookSide.init true 5) (exOps.take 2)).2.isFull = false := by decide +kernel

/-! ## C15 -/

/-- order `l` is stored in the subtree of node `h` -/
def Below (n : Arena) (h : Nat) (l : Leaf) : Prop := ∃ h', Reach n h h' ∧ n.nodes[h']? = some (.leaf l)

theorem below_iff {n : Arena} {t : Tree} (hr : t.Rep n.nodes) (l : Leaf) : Below n t.handle l ↔ l ∈ t.leaves := by
  unfold Below
  constructor
  · rintro ⟨h', h1, h2⟩
    rw [reach_iff hr] at h1
    induction t with
    | leaf h l' =>
      simp only [Tree.handles, Tree.tail, Tree.handle_leaf, List.mem_singleton] at h1
      subst h1
      rw [Tree.Rep] at hr; rw [hr] at h2
      simp only [Option.some.injEq, Node.leaf.injEq] at h2
      simp [Tree.leaves, h2]
    | node h p k a b iha ihb =>
      obtain ⟨r1, r2, r3⟩ := hr
      rw [show (Tree.node h p k a b).handles = h :: (a.handles ++ b.handles) from by simp [Tree.handles, Tree.tail],
        List.mem_cons, List.mem_append] at h1
      simp only [Tree.leaves, List.mem_append]
      rcases h1 with rfl | h1 | h1
      · rw [r1] at h2; simp at h2
      · exact Or.inl (iha r2 h1)
      · exact Or.inr (ihb r3 h1)
  · intro hl
    rw [← t.hleaves_map, List.mem_map] at hl
    obtain ⟨⟨h', l'⟩, hm, rfl⟩ := hl
    exact ⟨h', (reach_iff hr h').mpr (Tree.hleaves_mem_handles hm), Tree.rep_hleaves hr hm⟩

theorem reach_sub {n : Arena} {t : Tree} (hr : t.Rep n.nodes) {x : Nat} (hx : Reach n t.handle x) :
    ∃ u : Tree, u.handle = x ∧ u.Rep n.nodes := by
  rw [reach_iff hr] at hx
  induction t with
  | leaf h l =>
    simp only [Tree.handles, Tree.tail, Tree.handle_leaf, List.mem_singleton] at hx
    exact ⟨.leaf h l, hx.symm, hr⟩
  | node h p k a b iha ihb =>
    have hr' := hr
    obtain ⟨r1, r2, r3⟩ := hr
    rw [show (Tree.node h p k a b).handles = h :: (a.handles ++ b.handles) from by simp [Tree.handles, Tree.tail],
      List.mem_cons, List.mem_append] at hx
    rcases hx with rfl | hx | hx
    · exact ⟨_, rfl, hr'⟩
    · exact iha r2 hx
    · exact ihb r3 hx

theorem minExp_attained (t : Tree) : ∃ l ∈ t.leaves, l.expiry = t.minExp := by
  induction t with
  | leaf h l => exact ⟨l, by simp [Tree.leaves], rfl⟩
  | node h p k a b iha ihb =>
    obtain ⟨x, hx, ex⟩ := iha
    obtain ⟨y, hy, ey⟩ := ihb
    simp only [Tree.leaves, Tree.minExp, List.mem_append]
    rcases Nat.le_total a.minExp b.minExp with h | h
    · exact ⟨x, Or.inl hx, by omega⟩
    · exact ⟨y, Or.inr hy, by omega⟩

/-- **C15 (bookkeeping).** After every history, for every inner node in use and both of its children, the stored
earliest expiry is a lower bound of the expiries of all orders below that child, and some order there has it. -/
theorem C15_earliest_expiry_exact (isBids : Bool) (cap : Nat) (hcap : cap ≤ U32MAX) (ops : List TOp) (hops : ∀ op ∈ ops, op.ok)
    (c : Comp) (h : Nat) (i : Inner) (side : Bool) :
    let b := (trun (BookSide.init isBids cap) ops).2
    Live b c h → b.nodes.nodes[h]? = some (.inner i) →
    (∀ l, Below b.nodes (i.child side) l → i.exp side ≤ l.expiry) ∧ (∃ l, Below b.nodes (i.child side) l ∧ l.expiry = i.exp side) := by
  intro b hlive hi
  obtain ⟨_, ⟨tf, tp, hR, _, _⟩, _, _⟩ := trun_sim (sim_init isBids cap hcap) ops hops
  obtain ⟨hI, hH⟩ := hR.sel c
  obtain ⟨r, hr1, hr2⟩ := hlive
  cases hp : pick c tf tp with
  | none =>
    rw [hp] at hH
    have hH' : (b.root c).leafCount = 0 := hH
    simp [Root.node, hH'] at hr1
  | some t =>
    rw [hp] at hH
    have hrn := root_node_some hH
    change (b.root c).node = some t.handle at hrn
    rw [hrn] at hr1
    have hr1' : t.handle = r := by simpa using hr1
    subst hr1'
    obtain ⟨u, hu1, hu2⟩ := reach_sub hH.2.2.1 hr2
    change u.Rep b.nodes.nodes at hu2
    cases u with
    | leaf h' l' =>
      subst hu1
      have hh : b.nodes.nodes[h']? = _ := hu2
      have hi' : b.nodes.nodes[h']? = _ := hi
      rw [hh] at hi'; simp at hi'
    | node h' p k x y =>
      subst hu1
      obtain ⟨r1, r2, r3⟩ := hu2
      have hi' : b.nodes.nodes[h']? = _ := hi
      rw [r1] at hi'
      simp only [Option.some.injEq, Node.inner.injEq] at hi'
      subst hi'
      cases side
      · have hb := below_iff r2
        obtain ⟨l, m1, m2⟩ := minExp_attained x
        exact ⟨fun l hl => Tree.minExp_le ((hb l).mp hl), l, (hb l).mpr m1, m2⟩
      · have hb := below_iff r3
        obtain ⟨l, m1, m2⟩ := minExp_attained y
        exact ⟨fun l hl => Tree.minExp_le ((hb l).mp hl), l, (hb l).mpr m1, m2⟩

theorem sExpired_none {now : Nat} {xs : List Leaf} : sExpired now xs = none ↔ ∀ x ∈ xs, now ≤ x.expiry := by
  unfold sExpired
  rw [List.find?_eq_none]
  constructor
  · intro h x hx
    by_contra hlt
    have hne : ∃ m ∈ xs, ∀ y ∈ xs, m.expiry ≤ y.expiry := by
      have : ∀ (ys : List Leaf), ys ≠ [] → ∃ m ∈ ys, ∀ y ∈ ys, m.expiry ≤ y.expiry := by
        intro ys
        induction ys with
        | nil => simp
        | cons y ys ih =>
          intro _
          by_cases hy : ys = []
          · subst hy; exact ⟨y, by simp, by simp⟩
          · obtain ⟨m, hm, hm2⟩ := ih hy
            rcases Nat.le_total m.expiry y.expiry with h | h
            · exact ⟨m, by simp [hm], by simp; exact ⟨h, hm2⟩⟩
            · exact ⟨y, by simp, by simp; intro a ha; exact le_trans h (hm2 a ha)⟩
      exact this xs (List.ne_nil_of_mem hx)
    obtain ⟨m, hm, hm2⟩ := hne
    have h1 := h m hm
    have h2 := hm2 x hx
    simp only [Bool.and_eq_true, decide_eq_true_eq] at h1
    exact h1 ⟨by omega, hm2⟩
  · intro h x hx
    have := h x hx
    simp; intro h; omega

theorem sExpired_some {now : Nat} {xs : List Leaf} {x : Leaf} (h : sExpired now xs = some x) :
    x ∈ xs ∧ x.expiry < now ∧ ∀ y ∈ xs, x.expiry ≤ y.expiry := by
  unfold sExpired at h
  have h1 := List.mem_of_find?_eq_some h
  have h2 := List.find?_some h
  simp at h2
  exact ⟨h1, h2.1, h2.2⟩

/-- **C15 (removal).** After every history, "remove one expired" (asked for either tree first) removes an order if and
only if some order of the side has an expiry before `now`; the removed order has expired and is the earliest-expiring one
of its tree; everything else stays. -/
theorem C15_remove_one_expired (isBids : Bool) (cap : Nat) (hcap : cap ≤ U32MAX) (ops : List TOp) (hops : ∀ op ∈ ops, op.ok)
    (c : Comp) (now : Nat) :
    let b := (trun (BookSide.init isBids cap) ops).2
    let s := (specRun cap ⟨[], []⟩ ops).2
    ∃ r, (tstep b (.expire c now)).1 = .expired r ∧
      (r = none ↔ ∀ c' x, x ∈ s.get c' → now ≤ x.expiry) ∧
      (∀ x, r = some x → ∃ c', x ∈ s.get c' ∧ x.expiry < now ∧ (∀ y ∈ s.get c', x.expiry ≤ y.expiry) ∧
        Shows (tstep b (.expire c now)).2 isBids (s.set c' (sRemove x.key (s.get c')))) := by
  intro b s
  obtain ⟨_, h2, _, hib⟩ := trun_sim (sim_init isBids cap hcap) ops hops
  change _ = isBids at hib
  rw [show (BookSide.init isBids cap).nodes.nodes.length = cap by simp [BookSide.init, Arena.init]] at h2
  change Sim b s at h2
  obtain ⟨e1, e2, _, e4⟩ := tstep_sim h2 (.expire c now) trivial
  have e2 := shows_of_sim e2 (e4.trans hib)
  simp only [specStep] at e1 e2
  refine ⟨_, e1, ?_, ?_⟩
  · unfold SpecSide.removeExpired
    cases h1 : sExpired now (s.get c) with
    | some x =>
      obtain ⟨m1, m2, _⟩ := sExpired_some h1
      simp only [reduceCtorEq, false_iff]
      intro h; have := h c x m1; omega
    | none =>
      rw [sExpired_none] at h1
      cases h2 : sExpired now (s.get c.other) with
      | some x =>
        obtain ⟨m1, m2, _⟩ := sExpired_some h2
        simp only [reduceCtorEq, false_iff]
        intro h; have := h c.other x m1; omega
      | none =>
        rw [sExpired_none] at h2
        simp only [true_iff]
        intro c' x hx
        have : c' = c ∨ c' = c.other := by cases c <;> cases c' <;> simp [Comp.other]
        rcases this with rfl | rfl
        · exact h1 x hx
        · exact h2 x hx
  · intro x hx
    unfold SpecSide.removeExpired at hx e2
    cases h1 : sExpired now (s.get c) with
    | some y =>
      simp only [h1] at hx e2
      have hxy : y = x := by simpa using hx
      subst hxy
      obtain ⟨m1, m2, m3⟩ := sExpired_some h1
      exact ⟨c, m1, m2, m3, e2⟩
    | none =>
      simp only [h1] at hx e2
      cases h2 : sExpired now (s.get c.other) with
      | some y =>
        simp only [h2] at hx e2
        have hxy : y = x := by simpa using hx
        subst hxy
        obtain ⟨m1, m2, m3⟩ := sExpired_some h2
        exact ⟨c.other, m1, m2, m3, e2⟩
      | none => simp [h2] at hx

/-- an order without time-in-force does not expire at any u64 time -/
theorem C15_no_tif_never (l : Leaf) (h : l.timeInForce = 0) (now : Nat) (hn : now ≤ U64MAXN) : ¬ l.expiry < now := by
  unfold Leaf.expiry; rw [if_pos h]; omega

end Book
end Mango
