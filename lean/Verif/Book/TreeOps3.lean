import Verif.Book.TreeOps2
/-!
# Extremes, expiry search and iteration
-/
namespace Mango
namespace Book
open Arena

theorem node_leaf {n : Arena} {h : Nat} {l : Leaf} (hr : Tree.Rep n.nodes (.leaf h l)) : n.node h = some (.leaf l) :=
  node_of_get hr rfl
theorem node_inner {n : Arena} {h p k : Nat} {a b : Tree} (hr : Tree.Rep n.nodes (.node h p k a b)) :
    n.node h = some (.inner ⟨p, k, a.handle, b.handle, a.minExp, b.minExp⟩) := node_of_get hr.1 rfl

theorem leafMinMaxAux_spec {n : Arena} (mx : Bool) : ∀ (fuel : Nat) (t : Tree), t.handles.length ≤ fuel → t.Rep n.nodes →
    leafMinMaxAux n mx fuel t.handle = .ok (if mx = true then t.hleaves.getLast? else t.hleaves.head?) := by
  intro fuel
  induction fuel with
  | zero => intro t h; simp [Tree.handles] at h
  | succ fuel ih =>
    intro t hf hr
    cases t with
    | leaf h l =>
      simp only [leafMinMaxAux, Tree.handle_leaf, node_leaf hr]
      cases mx <;> simp [Tree.hleaves]
    | node h p k a b =>
      simp only [leafMinMaxAux, Tree.handle_node, node_inner hr]
      have hne : ∀ t : Tree, t.hleaves ≠ [] := by
        intro t e; have := t.hleaves_map; rw [e] at this; exact t.leaves_ne_nil this.symm
      cases mx
      · simp only [Inner.child, Bool.false_eq_true, if_false]
        rw [ih a (by simp [Tree.handles, Tree.tail] at *; omega) hr.2.1]
        simp only [Bool.false_eq_true, if_false, Tree.hleaves]
        rw [List.head?_append_of_ne_nil _ (hne a)]
      · simp only [Inner.child, if_true]
        rw [ih b (by simp [Tree.handles, Tree.tail] at *; omega) hr.2.2]
        simp only [if_true, Tree.hleaves]
        rw [List.getLast?_append_of_ne_nil _ (hne b)]

theorem fuel_ok {n : Arena} {t : Tree} {R : List Nat} (hI : ArenaInv n (t.handles ++ R)) : t.handles.length ≤ n.fuel := by
  have := hI.length_le
  simp only [List.length_append] at this
  unfold Arena.fuel; omega

theorem leafMinMax_spec {n : Arena} {root : Root} {t : Option Tree} {R : List Nat} (mx : Bool)
    (hI : ArenaInv n (optHandles t ++ R)) (hH : Holds n root t) :
    n.leafMinMax mx root = .ok (if mx = true then (optHLeaves t).getLast? else (optHLeaves t).head?) := by
  unfold Arena.leafMinMax
  cases t with
  | none =>
    have hH' : root.leafCount = 0 := hH
    simp [Root.node, hH', optHLeaves]
  | some t =>
    rw [root_node_some hH]
    exact leafMinMaxAux_spec mx n.fuel t (fuel_ok hI) hH.2.2.1

theorem findEarliestAux_spec {n : Arena} : ∀ (fuel : Nat) (t : Tree), t.handles.length ≤ fuel → t.Rep n.nodes →
    ∃ h l pre post, t.hleaves = pre ++ (h, l) :: post ∧ (∀ y ∈ pre, t.minExp < y.2.expiry) ∧ l.expiry = t.minExp ∧
      findEarliestAux n fuel t.handle = .ok (h, t.minExp) := by
  intro fuel
  induction fuel with
  | zero => intro t h; simp [Tree.handles] at h
  | succ fuel ih =>
    intro t hf hr
    cases t with
    | leaf h l =>
      simp only [findEarliestAux, Tree.handle_leaf, node_leaf hr]
      exact ⟨h, l, [], [], by simp [Tree.hleaves], by simp, rfl, rfl⟩
    | node h p k a b =>
      simp only [findEarliestAux, Tree.handle_node, node_inner hr]
      by_cases hc : a.minExp > b.minExp
      · obtain ⟨h', l, pre, post, e1, e4, e2, e3⟩ := ih b (by simp [Tree.handles, Tree.tail] at *; omega) hr.2.2
        refine ⟨h', l, a.hleaves ++ pre, post, by simp [Tree.hleaves, e1], ?_, ?_, ?_⟩
        · intro y hy
          simp only [Tree.minExp]; rw [Nat.min_eq_right (by omega)]
          rw [List.mem_append] at hy
          rcases hy with hy | hy
          · have : y.2 ∈ a.leaves := by rw [← a.hleaves_map]; exact List.mem_map.mpr ⟨_, hy, rfl⟩
            have := Tree.minExp_le this
            omega
          · exact e4 y hy
        · simp only [Tree.minExp]; rw [e2, Nat.min_eq_right (by omega)]
        · simp only [Inner.child, hc, decide_true, if_true, Tree.minExp]; rw [e3, Nat.min_eq_right (by omega)]
      · obtain ⟨h', l, pre, post, e1, e4, e2, e3⟩ := ih a (by simp [Tree.handles, Tree.tail] at *; omega) hr.2.1
        refine ⟨h', l, pre, post ++ b.hleaves, by simp [Tree.hleaves, e1], ?_, ?_, ?_⟩
        · simp only [Tree.minExp]; rw [Nat.min_eq_left (by omega)]; exact e4
        · simp only [Tree.minExp]; rw [e2, Nat.min_eq_left (by omega)]
        · simp only [Inner.child, hc, decide_false, Bool.false_eq_true, if_false, Tree.minExp]
          rw [e3, Nat.min_eq_left (by omega)]

/-- leaves in iteration order: key-descending for bids (`left = true`), ascending for asks -/
def hl (left : Bool) (t : Tree) : List (Nat × Leaf) := if left = true then t.hleaves.reverse else t.hleaves

theorem hl_node (left : Bool) (h p k : Nat) (a b : Tree) :
    hl left (.node h p k a b) = hl left (if left = true then b else a) ++ hl left (if left = true then a else b) := by
  cases left <;> simp [hl, Tree.hleaves]

/-- pending inner nodes correspond to pending subtrees -/
def Pend (n : Arena) (left : Bool) (i : Inner) (t : Tree) : Prop :=
  i.child (!left) = t.handle ∧ t.Rep n.nodes ∧ t.handles.length ≤ n.fuel

theorem findLeftmost_spec {n : Arena} {left : Bool} : ∀ (fuel : Nat) (t : Tree) (stack : List Inner),
    t.handles.length ≤ fuel → t.handles.length ≤ n.fuel → t.Rep n.nodes →
    ∃ st ts x, findLeftmost n left fuel t.handle stack = .ok (st ++ stack, x) ∧ List.Forall₂ (Pend n left) st ts ∧
      hl left t = x :: ts.flatMap (hl left) := by
  intro fuel
  induction fuel with
  | zero => intro t st h; simp [Tree.handles] at h
  | succ fuel ih =>
    intro t stack hf hf2 hr
    cases t with
    | leaf h l =>
      simp only [findLeftmost, Tree.handle_leaf, node_leaf hr]
      exact ⟨[], [], (h, l), rfl, List.Forall₂.nil, by cases left <;> simp [hl, Tree.hleaves]⟩
    | node h p k a b =>
      simp only [findLeftmost, Tree.handle_node, node_inner hr]
      have ha : a.handles.length ≤ fuel ∧ a.handles.length ≤ n.fuel ∧ b.handles.length ≤ fuel ∧
          b.handles.length ≤ n.fuel := by
        simp [Tree.handles, Tree.tail] at *; omega
      cases left
      · obtain ⟨st, ts, x, e1, e2, e3⟩ := ih a
          (⟨p, k, a.handle, b.handle, a.minExp, b.minExp⟩ :: stack) ha.1 ha.2.1 hr.2.1
        refine ⟨st ++ [⟨p, k, a.handle, b.handle, a.minExp, b.minExp⟩], ts ++ [b], x, ?_, ?_, ?_⟩
        · simp only [Inner.child, Bool.false_eq_true, if_false]; rw [e1]; simp
        · exact List.rel_append e2 (List.Forall₂.cons ⟨by simp [Inner.child], hr.2.2, ha.2.2.2⟩ List.Forall₂.nil)
        · rw [hl_node]; simp only [Bool.false_eq_true, if_false]; rw [e3]; simp
      · obtain ⟨st, ts, x, e1, e2, e3⟩ := ih b
          (⟨p, k, a.handle, b.handle, a.minExp, b.minExp⟩ :: stack) ha.2.2.1 ha.2.2.2 hr.2.2
        refine ⟨st ++ [⟨p, k, a.handle, b.handle, a.minExp, b.minExp⟩], ts ++ [a], x, ?_, ?_, ?_⟩
        · simp only [Inner.child, if_true]; rw [e1]; simp
        · exact List.rel_append e2 (List.Forall₂.cons ⟨by simp [Inner.child], hr.2.1, ha.2.1⟩ List.Forall₂.nil)
        · rw [hl_node]; simp only [if_true]; rw [e3]; simp

/-- the iterator's remaining output -/
def IterRel (n : Arena) (it : Iter) (rest : List (Nat × Leaf)) : Prop :=
  match it.next with
  | none => rest = []
  | some x => ∃ ts, List.Forall₂ (Pend n n.isBids) it.stack ts ∧ rest = x :: ts.flatMap (hl n.isBids)

theorem iterNext_spec {n : Arena} {it : Iter} {rest : List (Nat × Leaf)} (h : IterRel n it rest) :
    ∃ it', iterNext n it = .ok (rest.head?, it') ∧ IterRel n it' rest.tail := by
  unfold IterRel at h
  unfold iterNext
  cases hn : it.next with
  | none => rw [hn] at h; simp only at h; subst h; exact ⟨it, by simp, by simp [IterRel, hn]⟩
  | some x =>
    rw [hn] at h
    simp only at h ⊢
    obtain ⟨ts, h1, h2⟩ := h
    subst h2
    cases hs : it.stack with
    | nil =>
      rw [hs] at h1; cases h1
      exact ⟨_, by simp; rfl, by simp [IterRel]⟩
    | cons i st =>
      rw [hs] at h1
      cases h1 with
      | cons hp hrest =>
        rename_i t ts'
        obtain ⟨hp1, hp2, hp3⟩ := hp
        simp only [hp1]
        obtain ⟨st', ts2, y, e1, e2, e3⟩ := findLeftmost_spec (left := n.isBids) n.fuel t st hp3 hp3 hp2
        rw [e1]
        refine ⟨⟨st' ++ st, some y⟩, by simp [bind, Except.bind], ?_⟩
        simp only [IterRel]
        refine ⟨ts2 ++ ts', List.rel_append e2 hrest, ?_⟩
        simp only [List.tail_cons, List.flatMap_cons, e3, List.flatMap_append]
        simp

theorem iterNew_spec {n : Arena} {root : Root} {t : Option Tree} {R : List Nat}
    (hI : ArenaInv n (optHandles t ++ R)) (hH : Holds n root t) :
    ∃ it, iterNew n root = .ok it ∧
      IterRel n it (if n.isBids = true then (optHLeaves t).reverse else optHLeaves t) := by
  unfold iterNew
  cases t with
  | none =>
    have hH' : root.leafCount = 0 := hH
    refine ⟨⟨[], none⟩, by simp [Root.node, hH'], ?_⟩
    simp [IterRel, optHLeaves]
  | some t =>
    rw [root_node_some hH]
    obtain ⟨st, ts, x, e1, e2, e3⟩ := findLeftmost_spec (left := n.isBids) n.fuel t [] (fuel_ok hI) (fuel_ok hI) hH.2.2.1
    simp only [e1]
    refine ⟨⟨st ++ [], some x⟩, by simp [bind, Except.bind], ?_⟩
    simp only [IterRel]
    exact ⟨ts, by simpa using e2, by rw [← e3]; rfl⟩

theorem iterCollect_spec {n : Arena} : ∀ (fuel : Nat) (it : Iter) (rest : List (Nat × Leaf)), IterRel n it rest →
    rest.length < fuel → iterCollect n fuel it = .ok rest := by
  intro fuel
  induction fuel with
  | zero => intro it rest _ h; omega
  | succ fuel ih =>
    intro it rest hr hl
    obtain ⟨it', e1, e2⟩ := iterNext_spec hr
    simp only [iterCollect, e1, bind, Except.bind]
    cases rest with
    | nil => rfl
    | cons x xs =>
      simp only [List.head?_cons]
      rw [ih it' xs e2 (by simp at hl; omega)]

theorem toList_spec {n : Arena} {root : Root} {t : Option Tree} {R : List Nat}
    (hI : ArenaInv n (optHandles t ++ R)) (hH : Holds n root t) :
    n.toList root = .ok (if n.isBids = true then (optHLeaves t).reverse else optHLeaves t) := by
  obtain ⟨it, e1, e2⟩ := iterNew_spec hI hH
  unfold Arena.toList
  rw [e1]
  simp only [bind, Except.bind]
  refine iterCollect_spec _ _ _ e2 ?_
  have hlen : (optHLeaves t).length ≤ (optHandles t).length := by
    cases t with
    | none => simp [optHLeaves, optHandles]
    | some t =>
      have := t.leaves_length_le
      rw [← t.hleaves_map] at this
      simpa [optHLeaves, optHandles] using this
  have := hI.length_le
  simp only [List.length_append] at this
  unfold Arena.fuel
  split <;> simp <;> omega

theorem optHLeaves_map (t : Option Tree) : (optHLeaves t).map Prod.snd = optLeaves t := by
  cases t with
  | none => rfl
  | some t => exact t.hleaves_map

theorem sFind_mem {t : Option Tree} {n : Arena} {root : Root} (hH : Holds n root t) {x : Leaf} (hx : x ∈ optLeaves t) :
    sFind x.key (optLeaves t) = some x := by
  cases t with
  | none => simp [optLeaves] at hx
  | some t =>
    simp only [optLeaves] at *
    have hs := Tree.sorted hH.2.2.2
    unfold sFind
    rw [List.find?_eq_some_iff_append]
    obtain ⟨as, bs, hab⟩ := List.append_of_mem hx
    refine ⟨by simp, as, bs, hab, ?_⟩
    intro a ha
    rw [hab, List.pairwise_append] at hs
    have := hs.2.2 a ha x (by simp)
    simp; omega

theorem minExp_optional {t : Tree} {now : Nat} : t.minExp < now ↔ ∃ x ∈ t.leaves, x.expiry < now := by
  constructor
  · intro h
    induction t with
    | leaf h' l => exact ⟨l, by simp [Tree.leaves], h⟩
    | node h' p k a b iha ihb =>
      simp only [Tree.minExp, min_lt_iff] at h
      rcases h with h | h
      · obtain ⟨x, hx, hlt⟩ := iha h; exact ⟨x, by simp [Tree.leaves, hx], hlt⟩
      · obtain ⟨x, hx, hlt⟩ := ihb h; exact ⟨x, by simp [Tree.leaves, hx], hlt⟩
  · rintro ⟨x, hx, hlt⟩
    exact Nat.lt_of_le_of_lt (Tree.minExp_le hx) hlt

/-- the first expired leaf of least expiry, in key order -/
def sExpired (now : Nat) (xs : List Leaf) : Option Leaf :=
  xs.find? (fun x => decide (x.expiry < now) && decide (∀ y ∈ xs, x.expiry ≤ y.expiry))

theorem removeOneExpired_spec {n : Arena} {root : Root} {t : Option Tree} {R : List Nat} {now : Nat}
    (hI : ArenaInv n (optHandles t ++ R)) (hH : Holds n root t) :
    ∃ n' root' t', n.removeOneExpired root now = .ok (sExpired now (optLeaves t), n', root') ∧
      ArenaInv n' (optHandles t' ++ R) ∧ Holds n' root' t' ∧
      optLeaves t' = (match sExpired now (optLeaves t) with
                      | none => optLeaves t
                      | some x => sRemove x.key (optLeaves t)) ∧
      (∀ x ∈ R, n'.nodes[x]? = n.nodes[x]?) ∧ n'.nodes.length = n.nodes.length ∧ n'.isBids = n.isBids := by
  unfold Arena.removeOneExpired Arena.findEarliestExpiry
  cases t with
  | none =>
    have hH' : root.leafCount = 0 := hH
    refine ⟨n, root, none, ?_, hI, hH, by simp [optLeaves, sExpired], fun _ _ => rfl, rfl, rfl⟩
    simp [Root.node, hH', bind, Except.bind, sExpired, optLeaves]
  | some t =>
    rw [root_node_some hH]
    obtain ⟨h, l, pre, post, e1, e4, e2, e3⟩ := findEarliestAux_spec (n := n) n.fuel t (fuel_ok hI) hH.2.2.1
    have hlv : t.leaves = pre.map Prod.snd ++ l :: post.map Prod.snd := by rw [← t.hleaves_map, e1]; simp
    have hlm : l ∈ t.leaves := by rw [hlv]; simp
    simp only [bind, Except.bind, e3]
    by_cases hlt : t.minExp < now
    · have hexp : sExpired now t.leaves = some l := by
        unfold sExpired
        rw [List.find?_eq_some_iff_append]
        refine ⟨?_, _, _, hlv, ?_⟩
        · simp only [Bool.and_eq_true, decide_eq_true_eq]
          exact ⟨by omega, fun y hy => by rw [e2]; exact Tree.minExp_le hy⟩
        · intro a ha
          obtain ⟨y, hy, rfl⟩ := List.mem_map.mp ha
          have := e4 y hy
          simp only [Bool.not_eq_true', Bool.and_eq_false_iff, decide_eq_false_iff_not]
          right
          intro hall
          have := hall l hlm
          omega
      rw [if_pos hlt, node_of_get (Tree.rep_hleaves (h := h) (l := l) hH.2.2.1 (by rw [e1]; simp)) rfl]
      simp only [Node.key?]
      obtain ⟨n', root', t', r1, r2, r3, r4, r5, r6, r7⟩ := removeByKey_spec (key := l.key) hI hH
      have hf := sFind_mem hH (x := l) hlm
      rw [hf] at r1
      refine ⟨n', root', t', ?_, r2, r3, ?_, r5, r6, r7⟩
      · rw [r1]; simp only [optLeaves]; rw [hexp]
      · simp only [optLeaves] at r4 ⊢; rw [hexp]; exact r4
    · have hexp : sExpired now t.leaves = none := by
        unfold sExpired
        rw [List.find?_eq_none]
        intro x hx
        simp only [Bool.and_eq_true, decide_eq_true_eq]
        intro h'
        exact hlt (minExp_optional.mpr ⟨x, hx, h'.1⟩)
      rw [if_neg hlt]
      refine ⟨n, root, some t, ?_, hI, hH, ?_, fun _ _ => rfl, rfl, rfl⟩
      · simp only [optLeaves]; rw [hexp]
      · simp only [optLeaves]; rw [hexp]

end Book
end Mango
