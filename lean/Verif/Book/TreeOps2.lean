import Verif.Book.TreeOps
/-!
# Removal, extremes, expiry search and iteration refine operations on sorted lists
-/
namespace Mango
namespace Book
open Arena

theorem frame_mem_crit {h p k : Nat} {a b : Tree} (w : (Tree.node h p k a b).WF) {x : Leaf}
    (hx : x ∈ (Tree.node h p k a b).leaves) : x ∈ (if x.key.testBit (127 - p) = true then b else a).leaves := by
  obtain ⟨w1, w2, w3, w4, w5, w6⟩ := w
  simp only [Tree.leaves, List.mem_append] at hx
  rcases hx with hx | hx
  · have := crit_of_div (b := false) (q := k / 2 ^ (128 - p)) (by rw [w3 x hx]; simp [bit])
    simp [this, hx]
  · have := crit_of_div (b := true) (q := k / 2 ^ (128 - p)) (by rw [w4 x hx]; simp [bit])
    simp [this, hx]

/-- removal walk -/
theorem removeWalk_spec {n : Arena} {key : Nat} :
    ∀ (fuel : Nat) (f : Frame) (fs : List Frame) (sub : Tree), sub.handles.length ≤ fuel → sub.Rep n.nodes →
      sub.WF →
      (removeWalk n key fuel f.h sub.handle f.b (stackOf (f :: fs)) = .ok none ∧ ∀ x ∈ sub.leaves, x.key ≠ key) ∨
      ∃ f' fs' h' l', plug (f' :: fs') (.leaf h' l') = plug (f :: fs) sub ∧ l'.key = key ∧
        removeWalk n key fuel f.h sub.handle f.b (stackOf (f :: fs)) = .ok (some (f'.h, h', f'.b, stackOf (f' :: fs'))) := by
  intro fuel
  induction fuel with
  | zero => intro f fs sub h; simp [Tree.handles] at h
  | succ fuel ih =>
    intro f fs sub hf hr hw
    have hn := node_tree hr
    cases sub with
    | leaf h l =>
      simp only [Tree.handle_leaf, Tree.contents] at hn
      simp only [removeWalk, Tree.handle_leaf, hn]
      by_cases he : l.key = key
      · right
        exact ⟨f, fs, h, l, rfl, he, by rw [if_neg (by simpa using he)]⟩
      · left
        rw [if_pos he]
        refine ⟨rfl, ?_⟩
        intro x hx; simp [Tree.leaves] at hx; subst hx; exact he
    | node h p k a b =>
      simp only [Tree.handle_node, Tree.contents] at hn
      simp only [removeWalk, Tree.handle_node, hn]
      have hw' := hw
      obtain ⟨w1, w2, w3, w4, w5, w6⟩ := hw'
      simp only [Inner.walkDown]
      rw [if_pos (by omega : p ≤ 127)]
      simp only [bind, Except.bind]
      cases hbit : key.testBit (127 - p)
      · have hpl : plug (⟨h, p, k, false, b⟩ :: f :: fs) a = plug (f :: fs) (.node h p k a b) := by
          simp [plug, Frame.build]
        rcases ih ⟨h, p, k, false, b⟩ (f :: fs) a (by simp [Tree.handles, Tree.tail] at *; omega) hr.2.1 w5 with
          ⟨e1, e2⟩ | ⟨f', fs', h', l', e1, e2, e3⟩
        · left
          refine ⟨?_, ?_⟩
          · simpa [Inner.child, stackOf] using e1
          · intro x hx e
            have := frame_mem_crit hw hx
            rw [e, hbit] at this
            exact e2 x (by simpa using this) e
        · right
          refine ⟨f', fs', h', l', by rw [e1, hpl], e2, ?_⟩
          simpa [Inner.child, stackOf] using e3
      · have hpl : plug (⟨h, p, k, true, a⟩ :: f :: fs) b = plug (f :: fs) (.node h p k a b) := by
          simp [plug, Frame.build]
        rcases ih ⟨h, p, k, true, a⟩ (f :: fs) b (by simp [Tree.handles, Tree.tail] at *; omega) hr.2.2 w6 with
          ⟨e1, e2⟩ | ⟨f', fs', h', l', e1, e2, e3⟩
        · left
          refine ⟨?_, ?_⟩
          · simpa [Inner.child, stackOf] using e1
          · intro x hx e
            have := frame_mem_crit hw hx
            rw [e, hbit] at this
            exact e2 x (by simpa using this) e
        · right
          refine ⟨f', fs', h', l', by rw [e1, hpl], e2, ?_⟩
          simpa [Inner.child, stackOf] using e3

theorem sFind_none_of {k : Nat} {xs : List Leaf} (h : ∀ x ∈ xs, x.key ≠ k) : sFind k xs = none := by
  unfold sFind; rw [List.find?_eq_none]; intro x hx; simpa using h x hx
theorem sRemove_self_of {k : Nat} {xs : List Leaf} (h : ∀ x ∈ xs, x.key ≠ k) : sRemove k xs = xs :=
  filter_all (by simpa using h)

theorem removeByKey_spec {n : Arena} {root : Root} {t : Option Tree} {R : List Nat} {key : Nat}
    (hI : ArenaInv n (optHandles t ++ R)) (hH : Holds n root t) :
    ∃ n' root' t', n.removeByKey root key = .ok (sFind key (optLeaves t), n', root') ∧
      ArenaInv n' (optHandles t' ++ R) ∧ Holds n' root' t' ∧ optLeaves t' = sRemove key (optLeaves t) ∧
      (∀ x ∈ R, n'.nodes[x]? = n.nodes[x]?) ∧ n'.nodes.length = n.nodes.length ∧ n'.isBids = n.isBids := by
  unfold Arena.removeByKey
  cases t with
  | none =>
    have hrn : root.node = none := by have hH' : root.leafCount = 0 := hH; unfold Root.node; rw [if_pos hH']
    rw [hrn]
    exact ⟨n, root, none, rfl, hI, hH, rfl, fun _ _ => rfl, rfl, rfl⟩
  | some t =>
    rw [root_node_some hH]
    have hH0 := hH
    obtain ⟨hH1, hH2, hH3, hH4⟩ := hH
    simp only [optHandles, optLeaves] at *
    have hfuel : t.handles.length ≤ n.fuel := by
      have := hI.length_le
      simp only [List.length_append] at this
      unfold Arena.fuel; omega
    have hnt := node_tree hH3
    rw [hnt]
    cases t with
    | leaf h l =>
      simp only [Tree.contents, Tree.handle_leaf]
      by_cases he : l.key = key
      · rw [if_pos he]
        simp only [Tree.leaves, List.length_singleton] at hH2
        have hI2 : ArenaInv n (h :: R) := by simpa [Tree.handles, Tree.tail] using hI
        obtain ⟨n', e1, e2, e3, e4, e5, e6⟩ := remove_spec hI2 (show n.nodes[h]? = some (.leaf l) from hH3) rfl
        refine ⟨n', ⟨0, 0⟩, none, ?_, by simpa using e2, rfl, ?_, ?_, e4, e5⟩
        · simp [require, hH2, e1, bind, Except.bind, Tree.leaves, sFind, he]
        · simp [Tree.leaves, sRemove, he]
        · intro x hx
          apply e3
          intro e; subst e
          have := hI2.nodup
          simp at this; exact this.1 hx
      · rw [if_neg he]
        refine ⟨n, root, some (.leaf h l), ?_, hI, hH0, ?_, fun _ _ => rfl, rfl, rfl⟩
        · simp [Tree.leaves, sFind, he]
        · simp [Tree.leaves, sRemove, he]
    | node h p k a b =>
      simp only [Tree.contents, Tree.handle_node]
      have hw' := hH4
      obtain ⟨w1, w2, w3, w4, w5, w6⟩ := hw'
      simp only [Inner.walkDown]
      rw [if_pos (by omega : p ≤ 127)]
      simp only [bind, Except.bind]
      -- enter the first child
      have hstep : ∃ f sub, plug [f] sub = Tree.node h p k a b ∧ f.h = h ∧ f.b = key.testBit (127 - p) ∧
          sub.Rep n.nodes ∧ sub.WF ∧ sub.handles.length ≤ n.fuel ∧
          (Inner.child ⟨p, k, a.handle, b.handle, a.minExp, b.minExp⟩ (key.testBit (127 - p))) = sub.handle ∧
          ((∀ x ∈ sub.leaves, x.key ≠ key) → ∀ x ∈ (Tree.node h p k a b).leaves, x.key ≠ key) := by
        cases hbit : key.testBit (127 - p)
        · refine ⟨⟨h, p, k, false, b⟩, a, by simp [plug, Frame.build], rfl, rfl, hH3.2.1, w5, ?_, by simp [Inner.child], ?_⟩
          · simp [Tree.handles, Tree.tail] at *; omega
          · intro hs x hx e
            have := frame_mem_crit hH4 hx
            rw [e, hbit] at this
            exact hs x (by simpa using this) e
        · refine ⟨⟨h, p, k, true, a⟩, b, by simp [plug, Frame.build], rfl, rfl, hH3.2.2, w6, ?_, by simp [Inner.child], ?_⟩
          · simp [Tree.handles, Tree.tail] at *; omega
          · intro hs x hx e
            have := frame_mem_crit hH4 hx
            rw [e, hbit] at this
            exact hs x (by simpa using this) e
      obtain ⟨f0, sub0, hpl0, hf0h, hf0b, hsr0, hsw0, hsl0, hch0, hnot0⟩ := hstep
      rw [hch0]
      subst hf0h
      rw [← hf0b]
      have hst : [(f0.h, f0.b)] = stackOf [f0] := rfl
      rw [hst]
      rcases removeWalk_spec (n := n) (key := key) n.fuel f0 [] sub0 hsl0 hsr0 hsw0 with
        ⟨e1, e2⟩ | ⟨f, fs, ch, rl, hpl, hrk, hw⟩
      · rw [e1]
        have := hnot0 e2
        refine ⟨n, root, some (.node f0.h p k a b), ?_, hI, hH0, ?_, fun _ _ => rfl, rfl, rfl⟩
        · simp [sFind_none_of this]
        · simp [sRemove_self_of this, optLeaves]
      · rw [hw]
        simp only
        rw [hpl0] at hpl
        rw [← hpl] at hI hH1 hH2 hH3 hH4 ⊢
        clear hfuel hnt w1 w2 w3 w4 w5 w6 hf0b hsr0 hsw0 hsl0 hch0 hnot0 hst hw hH0
        -- unpack representation
        obtain ⟨hr1, hr2, hr3, hr4⟩ := (plug_rep (f :: fs) (.leaf ch rl) n.nodes).mp hH3
        simp only [Tree.handle_leaf] at hr2 hr3 hr4
        obtain ⟨hw1, hw2⟩ := (plug_wf (f :: fs) (.leaf ch rl)).mp hH4
        rw [node_of_get hr2 rfl]
        simp only [inner_child_other]
        have hperm : ((plug (f :: fs) (.leaf ch rl)).handles ++ R).Perm
            (f.sib.handle :: (ch :: (f.h :: (f.sib.tail ++ (pathHandles fs ++ R))))) := by
          refine ((plug_handles (f :: fs) (.leaf ch rl)).append_right R).trans ?_
          simp only [Tree.handles, Tree.handle_leaf, Tree.tail, pathHandles, List.cons_append, List.append_assoc,
            List.nil_append]
          refine (List.Perm.cons _ (List.Perm.swap _ _ _)).trans (List.Perm.swap _ _ _)
        have hI2 := hI.perm hperm
        have hnd := hI2.nodup
        simp only [List.nodup_cons, List.mem_cons, List.mem_append, not_or] at hnd
        obtain ⟨⟨d1, d2, d3, d4, d5⟩, ⟨d6, d7, d8, d9⟩, ⟨d10, d11, d12⟩, d13⟩ := hnd
        obtain ⟨n1, r1, r2, r3, r4, r5, r6⟩ := remove_spec hI2 (Tree.rep_contents hr3) (contents_live _)
        rw [r1]
        simp only
        have hfm : f.h ∈ ch :: f.h :: (f.sib.tail ++ (pathHandles fs ++ R)) := by simp
        have hI3 := setNode_inv (v := f.sib.contents) r2 hfm
        have hltf := r2.lt hfm
        have hag2 : ∀ x, x ≠ f.h → x ≠ f.sib.handle → (n1.setNode f.h f.sib.contents).nodes[x]? = n.nodes[x]? := by
          intro x h1 h2
          rw [show (n1.setNode f.h _).nodes[x]? = n1.nodes[x]? from set_get_ne h1, r3 x h2]
        have hchn : (n1.setNode f.h f.sib.contents).nodes[ch]? = some (.leaf rl) := by
          rw [hag2 ch d6 (Ne.symm d1)]; exact hr1
        obtain ⟨n3, s1, s2, s3, s4, s5, s6⟩ := remove_spec hI3 hchn rfl
        rw [s1]
        simp only
        have hag3 : ∀ x, x ≠ f.h → x ≠ f.sib.handle → x ≠ ch → n3.nodes[x]? = n.nodes[x]? := by
          intro x h1 h2 h3; rw [s3 x h3, hag2 x h1 h2]
        have hfn3 : n3.nodes[f.h]? = some f.sib.contents := by
          rw [s3 f.h (Ne.symm d6)]; exact set_get_self hltf
        have hsib : (f.sib.setHandle f.h).Rep n3.nodes := by
          apply Tree.rep_setHandle hr3 hfn3
          intro x hx
          refine hag3 x ?_ ?_ ?_ <;> intro e <;> subst e
          · exact d10 hx
          · exact d3 hx
          · exact d7 hx
        have hpath : RepPath n3.nodes fs f.h (min rl.expiry f.sib.minExp) := by
          apply repPath_frame hr4
          intro x hx
          refine hag3 x ?_ ?_ ?_ <;> intro e <;> subst e
          · exact d11 hx
          · exact d4 hx
          · exact d8 hx
        have hndp : (pathHandles fs).Nodup := by
          have := s2.nodup
          simp only [List.nodup_cons, List.nodup_append] at this
          exact this.2.2.1.1
        obtain ⟨n4, u1, u2, u3, u4, u5, u6, u7⟩ := update_spec (outdated := rl.expiry) (newE := f.sib.minExp) s2
          (fun x hx => by simp [hx]) hndp hpath (by
            rcases Nat.le_total rl.expiry f.sib.minExp with h | h
            · left; exact Nat.min_eq_left h
            · right; exact Nat.min_eq_right h)
        have hstk : (stackOf (f :: fs)).tail = stackOf fs := rfl
        rw [hstk, Tree.contents_earliest, u1]
        simp only
        have hnotin : ∀ x, x ∉ pathHandles fs → x ∉ fs.map Frame.h := by
          intro x hx hm
          obtain ⟨g, hg, rfl⟩ := List.mem_map.mp hm
          exact hx (pathHandles_h fs g hg)
        have hside := pre_lt hw2 (key := rl.key) ⟨rl, by simp [Tree.leaves], rfl⟩
        have hpl2 : (plug (f :: fs) (.leaf ch rl)).leaves = preL (f :: fs) ++ [rl] ++ postL (f :: fs) := by
          rw [plug_leaves]; rfl
        have hbuild : (plug fs (f.sib.setHandle f.h)).leaves = preL (f :: fs) ++ postL (f :: fs) := by
          rw [plug_leaves]
          simp only [preL, postL, Tree.leaves_setHandle]
          cases f.b <;> simp
        have hleaves : (plug fs (f.sib.setHandle f.h)).leaves = sRemove key (plug (f :: fs) (.leaf ch rl)).leaves := by
          rw [hbuild, hpl2, ← hrk, sRemove_mid hside.1 hside.2]
          simp [sRemove]
        have hps : (plug fs (f.sib.setHandle f.h)).Rep n4.nodes := by
          refine (plug_rep _ _ _).mpr ⟨?_, ?_⟩
          · apply Tree.rep_frame hsib
            intro x hx
            apply u4
            apply hnotin
            simp only [Tree.handles, Tree.handle_setHandle, Tree.tail_setHandle, List.mem_cons] at hx
            rcases hx with rfl | hx
            · exact d11
            · intro hm
              have := s2.nodup
              simp only [List.nodup_cons, List.nodup_append] at this
              exact this.2.2.2 x hx x (by simp [hm]) rfl
          · rw [Tree.handle_setHandle, Tree.minExp_setHandle]; exact u3
        refine ⟨n4, { root with leafCount := root.leafCount - 1 }, some (plug fs (f.sib.setHandle f.h)), ?_, ?_, ⟨?_, ?_, hps, ?_⟩, hleaves, ?_, ?_, ?_⟩
        · rw [hpl2, ← hrk, sFind_mid hside.1 hside.2]
          simp [sFind]
        · refine u2.perm ?_
          refine List.Perm.trans ?_ ((plug_handles fs _).append_right R).symm
          simp [Tree.handles]
        · show root.maybeNode = _
          rw [hH1]
          show (plug fs (f.build _)).handle = _
          exact plug_handle (by rw [build_handle]; simp)
        · show root.leafCount - 1 = _
          rw [hH2, hbuild, hpl2]; simp
        · refine (plug_wf _ _).mpr ⟨Tree.WF_setHandle hw2.2.2.2.2.1, PathOK_mono ?_ hw2.2.2.2.2.2⟩
          rintro x ⟨y, hy, rfl⟩
          right
          exact ⟨y, by simpa using hy, rfl⟩
        · intro x hx
          rw [u4 x]
          · refine hag3 x ?_ ?_ ?_ <;> intro e <;> subst e
            · exact d12 hx
            · exact d5 hx
            · exact d9 hx
          · apply hnotin
            intro hm
            have := s2.nodup
            simp only [List.nodup_cons, List.nodup_append] at this
            exact this.2.2.1.2.2 x hm x hx rfl
        · rw [u5, s4]; simp only [setNode, List.length_set]; exact r4
        · rw [u6, s5]; simp only [setNode]; exact r5

end Book
end Mango
