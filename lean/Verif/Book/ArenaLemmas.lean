import Verif.Book.TreeGhost
import Mathlib.Data.List.Nodup
/-!
# Node pool lemmas: free list, allocation, release
-/
namespace Mango
namespace Book
open Arena

/-- the free list starting at `head` is exactly `F` -/
def Chain (ns : List Node) : Nat → List Nat → Prop
  | _, [] => True
  | head, h :: F => head = h ∧ ∃ next, ns[h]? = some (.free (decide (F = [])) next) ∧ Chain ns next F

/-- pool invariant: the allocated part `0..bump` is partitioned into the free list and the live handles `L` -/
def ArenaInv (n : Arena) (L : List Nat) : Prop :=
  ∃ F, n.freeListLen = F.length ∧ Chain n.nodes n.freeListHead F ∧ (F ++ L).Perm (List.range n.bumpIndex) ∧
    n.bumpIndex ≤ n.nodes.length ∧ n.nodes.length ≤ U32MAX

/-- number of nodes that can still be allocated -/
def freeSlots (n : Arena) : Nat := n.freeListLen + (n.nodes.length - n.bumpIndex)

theorem chain_frame {ns ns' : List Node} {head : Nat} {F : List Nat} (h : Chain ns head F)
    (hag : ∀ x ∈ F, ns'[x]? = ns[x]?) : Chain ns' head F := by
  induction F generalizing head with
  | nil => trivial
  | cons f F ih =>
    obtain ⟨h1, next, h2, h3⟩ := h
    refine ⟨h1, next, ?_, ih h3 (fun x hx => hag x (List.mem_cons_of_mem _ hx))⟩
    rw [hag f (List.mem_cons_self), h2]

theorem ArenaInv.perm {n : Arena} {L L' : List Nat} (h : ArenaInv n L) (hp : L.Perm L') : ArenaInv n L' := by
  obtain ⟨F, h1, h2, h3, h4⟩ := h
  exact ⟨F, h1, h2, (List.Perm.append_left F hp.symm).trans h3, h4⟩

theorem ArenaInv.nodup {n : Arena} {L : List Nat} (h : ArenaInv n L) : L.Nodup := by
  obtain ⟨F, _, _, h3, _⟩ := h
  exact (List.nodup_append.mp (h3.nodup_iff.mpr List.nodup_range)).2.1

theorem ArenaInv.lt {n : Arena} {L : List Nat} (h : ArenaInv n L) {x : Nat} (hx : x ∈ L) : x < n.nodes.length := by
  obtain ⟨F, _, _, h3, h4, _⟩ := h
  have : x ∈ List.range n.bumpIndex := h3.subset (List.mem_append_right _ hx)
  rw [List.mem_range] at this; omega

theorem ArenaInv.length_le {n : Arena} {L : List Nat} (h : ArenaInv n L) : L.length ≤ n.nodes.length := by
  obtain ⟨F, _, _, h3, h4, _⟩ := h
  have := h3.length_eq
  simp at this; omega

theorem ArenaInv.count {n : Arena} {L : List Nat} (h : ArenaInv n L) : L.length + freeSlots n = n.nodes.length := by
  obtain ⟨F, h1, _, h3, h4, _⟩ := h
  have := h3.length_eq
  simp at this
  unfold freeSlots; omega

theorem node_of_get {n : Arena} {h : Nat} {v : Node} (hv : n.nodes[h]? = some v) (hl : v.live = true) :
    n.node h = some v := by
  unfold Arena.node; rw [hv]; cases v <;> simp_all [Node.live]

theorem set_get_ne {ns : List Node} {h x : Nat} {v : Node} (hne : x ≠ h) : (ns.set h v)[x]? = ns[x]? :=
  List.getElem?_set_ne (Ne.symm hne)

theorem set_get_self {ns : List Node} {h : Nat} {v : Node} (hlt : h < ns.length) : (ns.set h v)[h]? = some v := by
  simp [hlt]

theorem insert_spec {n : Arena} {L : List Nat} (hI : ArenaInv n L) (v : Node) :
    (freeSlots n = 0 ∧ n.insert v = .error .someError) ∨
    ∃ h n', n.insert v = .ok (h, n') ∧ ArenaInv n' (h :: L) ∧ h ∉ L ∧ n'.nodes[h]? = some v ∧
      (∀ x, x ≠ h → n'.nodes[x]? = n.nodes[x]?) ∧ n'.nodes.length = n.nodes.length ∧ n'.isBids = n.isBids ∧
      freeSlots n' + 1 = freeSlots n := by
  obtain ⟨F, h1, h2, h3, h4, h5⟩ := hI
  unfold Arena.insert
  cases F with
  | nil =>
    simp only [List.length_nil] at h1
    rw [if_pos h1]
    by_cases hb : n.bumpIndex < n.nodes.length ∧ n.bumpIndex < U32MAX
    · right
      rw [if_pos hb]
      refine ⟨n.bumpIndex, _, rfl, ⟨[], h1, trivial, ?_, ?_, ?_⟩, ?_, ?_, ?_, ?_, rfl, ?_⟩
      · simp only [List.nil_append]
        rw [List.range_succ]
        simp only [List.nil_append] at h3
        exact (List.perm_append_comm (l₁ := [n.bumpIndex]) (l₂ := L)).trans (h3.append_right _)
      · simp only [List.length_set]; omega
      · simp only [List.length_set]; exact h5
      · intro hm
        have := h3.subset (by simpa using hm); simp at this
      · simp [hb.1]
      · intro x hx; exact set_get_ne hx
      · simp
      · simp only [freeSlots, List.length_set]; omega
    · left
      refine ⟨?_, by rw [if_neg hb]⟩
      unfold freeSlots; omega
  | cons f F =>
    right
    obtain ⟨e1, next, e2, e3⟩ := h2
    have hne : ¬ n.freeListLen = 0 := by rw [h1]; simp
    rw [if_neg hne, e1, e2]
    simp only
    have hc : (decide (F = []) = false ∧ n.freeListLen > 1) ∨ (decide (F = []) = true ∧ n.freeListLen = 1) := by
      rw [h1]
      cases F with
      | nil => right; simp
      | cons g G => left; simp
    rw [if_pos hc]
    have hnd := h3.nodup_iff.mpr List.nodup_range
    have hfb : f ∈ List.range n.bumpIndex := h3.subset (by simp)
    rw [List.mem_range] at hfb
    simp only [List.cons_append, List.nodup_cons, List.mem_append, not_or] at hnd
    refine ⟨f, _, rfl, ⟨F, ?_, ?_, ?_, ?_, ?_⟩, hnd.1.2, ?_, ?_, ?_, rfl, ?_⟩
    · simp only [h1, List.length_cons]; omega
    · apply chain_frame e3
      intro x hx
      apply set_get_ne
      intro e; subst e; exact hnd.1.1 hx
    · exact (List.perm_middle (l₁ := F) (a := f) (l₂ := L)).trans h3
    · simp only [List.length_set]; exact h4
    · simp only [List.length_set]; exact h5
    · exact set_get_self (by omega)
    · intro x hx; exact set_get_ne hx
    · simp
    · simp only [freeSlots, List.length_set, h1, List.length_cons]; omega

theorem remove_spec {n : Arena} {L : List Nat} {h : Nat} {v : Node} (hI : ArenaInv n (h :: L))
    (hv : n.nodes[h]? = some v) (hl : v.live = true) :
    ∃ n', n.remove h = .ok (v, n') ∧ ArenaInv n' L ∧ (∀ x, x ≠ h → n'.nodes[x]? = n.nodes[x]?) ∧
      n'.nodes.length = n.nodes.length ∧ n'.isBids = n.isBids ∧ freeSlots n' = freeSlots n + 1 := by
  have hlt := hI.lt (x := h) (by simp)
  obtain ⟨F, h1, h2, h3, h4, h5⟩ := hI
  have hnd := h3.nodup_iff.mpr List.nodup_range
  unfold Arena.remove
  rw [node_of_get hv hl]
  simp only
  have hnF : h ∉ F := by
    intro hm
    rw [List.nodup_append] at hnd
    exact hnd.2.2 h hm h (by simp) rfl
  refine ⟨_, rfl, ⟨h :: F, ?_, ?_, ?_, ?_, ?_⟩, ?_, ?_, rfl, ?_⟩
  · simp [h1]
  · refine ⟨rfl, n.freeListHead, ?_, ?_⟩
    · rw [set_get_self hlt]
      congr 2
      rw [h1]
      cases F <;> simp
    · apply chain_frame h2
      intro x hx
      apply set_get_ne
      intro e; subst e; exact hnF hx
  · exact (List.perm_middle (l₁ := F) (a := h) (l₂ := L)).symm.trans h3
  · simp only [List.length_set]; exact h4
  · simp only [List.length_set]; exact h5
  · intro x hx; exact set_get_ne hx
  · simp
  · simp only [freeSlots, List.length_set]; omega

theorem setNode_inv {n : Arena} {L : List Nat} {h : Nat} {v : Node} (hI : ArenaInv n L) (hm : h ∈ L) :
    ArenaInv (n.setNode h v) L := by
  obtain ⟨F, h1, h2, h3, h4, h5⟩ := hI
  refine ⟨F, h1, ?_, h3, ?_, ?_⟩
  · apply chain_frame h2
    intro x hx
    apply set_get_ne
    intro e; subst e
    have hnd := h3.nodup_iff.mpr List.nodup_range
    rw [List.nodup_append] at hnd
    exact hnd.2.2 x hx x hm rfl
  · simp only [setNode, List.length_set]; exact h4
  · simp only [setNode, List.length_set]; exact h5

theorem setNode_free {n : Arena} {h : Nat} {v : Node} : freeSlots (n.setNode h v) = freeSlots n := by
  simp [freeSlots, setNode]

theorem inner_setExp (f : Frame) (ch e e' : Nat) : (f.inner ch e).setExp f.b e' = f.inner ch e' := by
  unfold Frame.inner Inner.setExp; cases f.b <;> simp
theorem inner_exp (f : Frame) (ch e : Nat) : (f.inner ch e).exp f.b = e := by
  unfold Frame.inner Inner.exp; cases f.b <;> simp
theorem inner_earliest (f : Frame) (ch e : Nat) : (f.inner ch e).earliest = min e f.sib.minExp := by
  unfold Frame.inner Inner.earliest; cases f.b <;> simp [Nat.min_comm]
theorem inner_child (f : Frame) (ch e : Nat) : (f.inner ch e).child f.b = ch := by
  unfold Frame.inner Inner.child; cases f.b <;> simp
theorem inner_child_other (f : Frame) (ch e : Nat) : (f.inner ch e).child (!f.b) = f.sib.handle := by
  unfold Frame.inner Inner.child; cases f.b <;> simp

theorem pathHandles_h (fs : List Frame) : ∀ f ∈ fs, f.h ∈ pathHandles fs := by
  induction fs with
  | nil => simp
  | cons g gs ih =>
    intro f hf
    simp only [pathHandles, List.mem_cons, List.mem_append] at *
    rcases hf with rfl | hf
    · exact Or.inl rfl
    · exact Or.inr (Or.inr (ih f hf))

/-- the expiry fix-up loop makes the whole path exact -/
theorem update_spec {fs : List Frame} : ∀ {n : Arena} {L : List Nat} {ch cur outdated newE : Nat}, ArenaInv n L →
    (∀ x ∈ pathHandles fs, x ∈ L) → (pathHandles fs).Nodup → RepPath n.nodes fs ch cur →
    (cur = outdated ∨ cur = newE) →
    ∃ n', n.updateParentEarliestExpiry (stackOf fs) outdated newE = .ok n' ∧ ArenaInv n' L ∧
      RepPath n'.nodes fs ch newE ∧ (∀ x, x ∉ fs.map Frame.h → n'.nodes[x]? = n.nodes[x]?) ∧
      n'.nodes.length = n.nodes.length ∧ n'.isBids = n.isBids ∧ freeSlots n' = freeSlots n := by
  induction fs with
  | nil => intro n L ch cur outdated newE hI _ _ _ _; exact ⟨n, rfl, hI, trivial, fun _ _ => rfl, rfl, rfl, rfl⟩
  | cons f fs ih =>
    intro n L ch cur outdated newE hI hL hnd hr hc
    obtain ⟨h1, h2, h3⟩ := hr
    have hfL : f.h ∈ L := hL _ (by simp [pathHandles])
    simp only [stackOf, List.map_cons, updateParentEarliestExpiry]
    rw [node_of_get h1 rfl]
    simp only [inner_exp]
    by_cases hco : cur = outdated
    · rw [if_neg (by simpa using hco)]
      subst hco
      simp only [inner_setExp, inner_earliest]
      simp only [pathHandles, List.nodup_cons, List.mem_append, not_or] at hnd
      have hlt := hI.lt hfL
      have hI' := setNode_inv (v := .inner (f.inner ch newE)) hI hfL
      have hag : ∀ x, x ≠ f.h → (n.setNode f.h (.inner (f.inner ch newE))).nodes[x]? = n.nodes[x]? :=
        fun x hx => set_get_ne hx
      have hr' : RepPath (n.setNode f.h (.inner (f.inner ch newE))).nodes fs f.h (min cur f.sib.minExp) := by
        apply repPath_frame h3
        intro x hx; apply hag; intro e; subst e; exact hnd.1.2 hx
      obtain ⟨n', e1, e2, e3, e4, e5, e6, e7⟩ := ih (newE := min newE f.sib.minExp) hI'
        (fun x hx => hL x (by simp [pathHandles, hx])) ((List.nodup_append.mp hnd.2).2.1) hr' (Or.inl rfl)
      refine ⟨n', e1, e2, ⟨?_, ?_, e3⟩, ?_, ?_, e6, ?_⟩
      · rw [e4 f.h ?_]
        · exact set_get_self hlt
        · intro hm
          obtain ⟨g, hg, hgh⟩ := List.mem_map.mp hm
          exact hnd.1.2 (hgh ▸ pathHandles_h fs g hg)
      · apply Tree.rep_frame h2
        intro x hx
        rw [e4, hag]
        · intro e; subst e; exact hnd.1.1 hx
        · intro hm
          obtain ⟨g, hg, hgh⟩ := List.mem_map.mp hm
          exact (List.nodup_append.mp hnd.2).2.2 x hx x (hgh ▸ pathHandles_h fs g hg) rfl
      · intro x hx
        simp only [List.mem_cons, not_or] at hx
        rw [e4 x hx.2, hag x hx.1]
      · rw [e5]; simp [setNode]
      · rw [e7, setNode_free]
    · rcases hc with hc | hc
      · exact absurd hc hco
      · subst hc
        refine ⟨n, by simp [hco], hI, ⟨h1, h2, h3⟩, fun _ _ => rfl, rfl, rfl, rfl⟩

end Book
end Mango
