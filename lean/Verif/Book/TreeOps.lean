import Verif.Book.ArenaLemmas
/-!
# The arena operations refine operations on sorted lists
-/
namespace Mango
namespace Book
open Arena

/-- sorted-list insertion, replacing an equal key -/
def sInsert (l : Leaf) (xs : List Leaf) : List Leaf :=
  xs.filter (fun x => decide (x.key < l.key)) ++ l :: xs.filter (fun x => decide (l.key < x.key))
/-- sorted-list removal -/
def sRemove (k : Nat) (xs : List Leaf) : List Leaf := xs.filter (fun x => decide (x.key ≠ k))
/-- lookup -/
def sFind (k : Nat) (xs : List Leaf) : Option Leaf := xs.find? (fun x => decide (x.key = k))

def optHandles : Option Tree → List Nat
  | none => []
  | some t => t.handles
def optLeaves : Option Tree → List Leaf
  | none => []
  | some t => t.leaves
def optHLeaves : Option Tree → List (Nat × Leaf)
  | none => []
  | some t => t.hleaves

/-- the root stores the (possibly empty) tree -/
def Holds (n : Arena) (root : Root) : Option Tree → Prop
  | none => root.leafCount = 0
  | some t => root.maybeNode = t.handle ∧ root.leafCount = t.leaves.length ∧ t.Rep n.nodes ∧ t.WF

theorem holds_frame {n n' : Arena} {root : Root} {t : Option Tree} (h : Holds n root t)
    (hag : ∀ x ∈ optHandles t, n'.nodes[x]? = n.nodes[x]?) : Holds n' root t := by
  cases t with
  | none => exact h
  | some t => exact ⟨h.1, h.2.1, Tree.rep_frame h.2.2.1 hag, h.2.2.2⟩

theorem root_node_some {n : Arena} {root : Root} {t : Tree} (h : Holds n root (some t)) :
    root.node = some t.handle := by
  have h2 := h.2.1
  have : t.leaves.length ≠ 0 := by
    intro e; exact t.leaves_ne_nil (List.length_eq_zero_iff.mp e)
  unfold Root.node
  rw [if_neg (by omega), h.1]

theorem contents_live (t : Tree) : t.contents.live = true := by cases t <;> rfl

theorem node_tree {n : Arena} {t : Tree} (h : t.Rep n.nodes) : n.node t.handle = some t.contents :=
  node_of_get (Tree.rep_contents h) (contents_live t)

theorem setExp_comm_build (s k newH movedH e1 e2 : Nat) (b : Bool) (sub : Tree) (he : e2 = sub.minExp) :
    ((((Inner.new s k).setChild b newH).setChild (!b) movedH).setExp b e1).setExp (!b) e2 =
      (Frame.inner ⟨0, s, k, b, sub.setHandle movedH⟩ newH e1) := by
  subst he
  cases b <;> simp [Frame.inner, Inner.new, Inner.setChild, Inner.setExp]

theorem handles_length (t : Tree) : t.handles.length + 1 = 2 * t.leaves.length := by
  induction t with
  | leaf h l => simp [Tree.handles, Tree.tail, Tree.leaves]
  | node h p k a b iha ihb => simp [Tree.handles, Tree.tail, Tree.leaves] at *; omega

/-- insert walk -/
theorem insertWalk_spec {n : Arena} {key : Nat} (hk : key < 2 ^ 128) :
    ∀ (fuel : Nat) (fs : List Frame) (sub : Tree), sub.handles.length ≤ fuel → (plug fs sub).Rep n.nodes →
      sub.WF → PathOK fs (fun x => (∃ l ∈ sub.leaves, l.key = x) ∨ x = key) →
      ∃ fs' sub', plug fs' sub' = plug fs sub ∧ sub'.WF ∧
        PathOK fs' (fun x => (∃ l ∈ sub'.leaves, l.key = x) ∨ x = key) ∧
        ((∃ h old, sub' = .leaf h old ∧ old.key = key ∧
            insertWalk n key fuel sub.handle (stackOf fs) = .ok (.clobber h old (stackOf fs'))) ∨
         (∃ s, s < 128 ∧ (∀ x ∈ sub'.leaves, x.key / 2 ^ (128 - s) = key / 2 ^ (128 - s) ∧
              x.key / 2 ^ (127 - s) ≠ key / 2 ^ (127 - s)) ∧
            insertWalk n key fuel sub.handle (stackOf fs) = .ok (.split sub'.handle sub'.contents s (stackOf fs')))) := by
  intro fuel
  induction fuel with
  | zero => intro fs sub h; simp [Tree.handles] at h
  | succ fuel ih =>
    intro fs sub hf hr hw hp
    have hsr := ((plug_rep fs sub n.nodes).mp hr).1
    cases sub with
    | leaf h l =>
      have hn := node_tree hsr
      simp only [Tree.handle_leaf, Tree.contents] at hn
      simp only [insertWalk, Tree.handle_leaf, hn]
      refine ⟨fs, .leaf h l, rfl, hw, hp, ?_⟩
      by_cases he : l.key = key
      · left
        exact ⟨h, l, rfl, he, by rw [if_pos he]⟩
      · right
        refine ⟨clz128 (l.key ^^^ key), clz_lt_of_ne hw hk he, ?_, by rw [if_neg he]; rfl⟩
        intro x hx
        simp only [Tree.leaves, List.mem_singleton] at hx
        subst hx
        have hlt := clz_lt_of_ne hw hk he
        constructor
        · exact (le_clz_iff hw hk (by omega)).mp (Nat.le_refl _)
        · intro e
          have := (le_clz_iff (p := clz128 (x.key ^^^ key) + 1) hw hk (by omega)).mpr
            (by rw [show 128 - (clz128 (x.key ^^^ key) + 1) = 127 - clz128 (x.key ^^^ key) by omega]; exact e)
          omega
    | node h p k a b =>
      have hn := node_tree hsr
      simp only [Tree.handle_node, Tree.contents] at hn
      simp only [insertWalk, Tree.handle_node, hn]
      have hw' := hw
      obtain ⟨w1, w2, w3, w4, w5, w6⟩ := hw'
      by_cases hc : p ≤ clz128 (k ^^^ key)
      · rw [if_pos hc]
        have hpre : key / 2 ^ (128 - p) = k / 2 ^ (128 - p) := ((le_clz_iff w2 hk (by omega)).mp hc).symm
        simp only [Inner.walkDown]
        rw [if_pos (by omega : p ≤ 127)]
        simp only [bind, Except.bind]
        have hd := div_of_crit w1 hpre
        cases hbit : key.testBit (127 - p)
        · rw [hbit] at hd
          have hpl : plug (⟨h, p, k, false, b⟩ :: fs) a = plug fs (.node h p k a b) := by
            simp [plug, Frame.build]
          have := ih (⟨h, p, k, false, b⟩ :: fs) a (by simp [Tree.handles, Tree.tail] at *; omega)
            (by rw [hpl]; exact hr) w5 ⟨w1, w2, ?_, ?_, w6, ?_⟩
          · rw [hpl] at this
            simpa [Inner.child, stackOf] using this
          · rintro x (⟨l, hl, rfl⟩ | rfl)
            · rw [w3 l hl]; simp [bit]
            · exact hd
          · intro x hx; rw [w4 x hx]; simp [bit]
          · refine PathOK_mono ?_ hp
            rintro x ((⟨l, hl, rfl⟩ | rfl) | ⟨l, hl, rfl⟩)
            · exact Or.inl ⟨l, by simp [Tree.leaves, hl], rfl⟩
            · exact Or.inr rfl
            · exact Or.inl ⟨l, by simp [Tree.leaves, hl], rfl⟩
        · rw [hbit] at hd
          have hpl : plug (⟨h, p, k, true, a⟩ :: fs) b = plug fs (.node h p k a b) := by
            simp [plug, Frame.build]
          have := ih (⟨h, p, k, true, a⟩ :: fs) b (by simp [Tree.handles, Tree.tail] at *; omega)
            (by rw [hpl]; exact hr) w6 ⟨w1, w2, ?_, ?_, w5, ?_⟩
          · rw [hpl] at this
            simpa [Inner.child, stackOf] using this
          · rintro x (⟨l, hl, rfl⟩ | rfl)
            · rw [w4 l hl]; simp [bit]
            · exact hd
          · intro x hx; rw [w3 x hx]; simp [bit]
          · refine PathOK_mono ?_ hp
            rintro x ((⟨l, hl, rfl⟩ | rfl) | ⟨l, hl, rfl⟩)
            · exact Or.inl ⟨l, by simp [Tree.leaves, hl], rfl⟩
            · exact Or.inr rfl
            · exact Or.inl ⟨l, by simp [Tree.leaves, hl], rfl⟩
      · rw [if_neg hc]
        refine ⟨fs, .node h p k a b, rfl, hw, hp, Or.inr ⟨clz128 (k ^^^ key), by omega, ?_, rfl⟩⟩
        intro x hx
        have hx' := Tree.key_prefix hw hx
        have hs : clz128 (k ^^^ key) < p := by omega
        have h1 : x.key / 2 ^ (127 - clz128 (k ^^^ key)) = k / 2 ^ (127 - clz128 (k ^^^ key)) :=
          div_mono_eq (by omega) hx'
        constructor
        · rw [div_mono_eq (m := 127 - clz128 (k ^^^ key)) (by omega) h1]
          exact (le_clz_iff w2 hk (by omega)).mp (Nat.le_refl _)
        · rw [h1]
          intro e
          have := (le_clz_iff (p := clz128 (k ^^^ key) + 1) w2 hk (by omega)).mpr
            (by rw [show 128 - (clz128 (k ^^^ key) + 1) = 127 - clz128 (k ^^^ key) by omega]; exact e)
          omega

theorem filter_all {xs : List Leaf} {p : Leaf → Bool} (h : ∀ x ∈ xs, p x = true) : xs.filter p = xs :=
  List.filter_eq_self.mpr h
theorem filter_none {xs : List Leaf} {p : Leaf → Bool} (h : ∀ x ∈ xs, p x = false) : xs.filter p = [] := by
  rw [List.filter_eq_nil_iff]; intro a ha; simp [h a ha]

/-- inserting into the middle part of a list whose outer parts are on the right sides of the key -/
theorem sInsert_mid {l : Leaf} {pre mid post : List Leaf} (h1 : ∀ x ∈ pre, x.key < l.key) (h2 : ∀ x ∈ post, l.key < x.key) :
    sInsert l (pre ++ mid ++ post) = pre ++ sInsert l mid ++ post := by
  unfold sInsert
  simp only [List.filter_append]
  rw [filter_all (xs := pre) (by simpa using h1), filter_all (xs := post) (p := fun x => decide (l.key < x.key)) (by simpa using h2),
    filter_none (xs := post) (p := fun x => decide (x.key < l.key)) (by intro x hx; have := h2 x hx; simp; omega),
    filter_none (xs := pre) (p := fun x => decide (l.key < x.key)) (by intro x hx; have := h1 x hx; simp; omega)]
  simp

theorem sFind_mid {k : Nat} {pre mid post : List Leaf} (h1 : ∀ x ∈ pre, x.key < k) (h2 : ∀ x ∈ post, k < x.key) :
    sFind k (pre ++ mid ++ post) = sFind k mid := by
  unfold sFind
  rw [List.find?_append, List.find?_append]
  rw [(List.find?_eq_none (l := pre)).mpr (by intro x hx; have := h1 x hx; simp; omega)]
  rw [(List.find?_eq_none (l := post)).mpr (by intro x hx; have := h2 x hx; simp; omega)]
  simp

theorem sRemove_mid {k : Nat} {pre mid post : List Leaf} (h1 : ∀ x ∈ pre, x.key < k) (h2 : ∀ x ∈ post, k < x.key) :
    sRemove k (pre ++ mid ++ post) = pre ++ sRemove k mid ++ post := by
  unfold sRemove
  simp only [List.filter_append]
  rw [filter_all (xs := pre) (by intro x hx; have := h1 x hx; simp; omega),
    filter_all (xs := post) (by intro x hx; have := h2 x hx; simp; omega)]

theorem hleaves_plug_mem {fs : List Frame} {t : Tree} {x : Nat × Leaf} (h : x ∈ t.hleaves) : x ∈ (plug fs t).hleaves := by
  induction fs generalizing t with
  | nil => exact h
  | cons f fs ih =>
    apply ih
    unfold Frame.build; split <;> simp [Tree.hleaves, h]

theorem insertLeaf_spec {n : Arena} {root : Root} {t : Option Tree} {R : List Nat} {l : Leaf}
    (hI : ArenaInv n (optHandles t ++ R)) (hH : Holds n root t) (hk : l.key < 2 ^ 128) :
    (n.insertLeaf root l = .error .someError ∧ sFind l.key (optLeaves t) = none ∧
        freeSlots n < 2 ∧ (optLeaves t = [] → freeSlots n = 0)) ∨
    ∃ h n' root' t', n.insertLeaf root l = .ok (h, sFind l.key (optLeaves t), n', root') ∧
      ArenaInv n' (optHandles (some t') ++ R) ∧ Holds n' root' (some t') ∧ t'.leaves = sInsert l (optLeaves t) ∧
      (∀ x ∈ R, n'.nodes[x]? = n.nodes[x]?) ∧ n'.nodes.length = n.nodes.length ∧ n'.isBids = n.isBids ∧
      (h, l) ∈ t'.hleaves := by
  unfold Arena.insertLeaf
  cases t with
  | none =>
    have hrn : root.node = none := by have hH' : root.leafCount = 0 := hH; unfold Root.node; rw [if_pos hH']
    rw [hrn]
    simp only
    rcases insert_spec hI (.leaf l) with ⟨h0, he⟩ | ⟨h, n', he, hI', hnm, hg, hag, hlen, hb, _⟩
    · left; rw [he]; simp [bind, Except.bind, optLeaves, sFind, h0]
    · right
      rw [he]
      refine ⟨h, n', ⟨h, 1⟩, .leaf h l, ?_, ?_, ?_, ?_, ?_, hlen, hb, ?_⟩
      · simp [bind, Except.bind, optLeaves, sFind]
      · simpa [optHandles, Tree.handles, Tree.tail, Tree.handle] using hI'
      · exact ⟨rfl, rfl, hg, hk⟩
      · simp [Tree.leaves, sInsert, optLeaves]
      · intro x hx
        apply hag
        intro e; subst e
        exact hnm (by simpa [optHandles] using hx)
      · simp [Tree.hleaves]
  | some t =>
    rw [root_node_some hH]
    obtain ⟨hH1, hH2, hH3, hH4⟩ := hH
    simp only [optHandles, optLeaves] at *
    have hfuel : t.handles.length ≤ n.fuel := by
      have := hI.length_le
      simp only [List.length_append] at this
      unfold Arena.fuel; omega
    obtain ⟨fs, sub, hpl, hsw, hpo, hres⟩ := insertWalk_spec (n := n) hk n.fuel [] t hfuel hH3 hH4 trivial
    simp only [plug] at hpl
    have hrp := (plug_rep fs sub n.nodes).mp (by rw [hpl]; exact hH3)
    have hlv : t.leaves = preL fs ++ sub.leaves ++ postL fs := by rw [← hpl, plug_leaves]
    have hside := pre_lt hpo (key := l.key) (Or.inr rfl)
    have hperm : (t.handles ++ R).Perm (sub.handles ++ pathHandles fs ++ R) := by
      rw [← hpl]; exact (plug_handles fs sub).append_right _
    have hI2 := hI.perm hperm
    have hnd := hI2.nodup
    rcases hres with ⟨h, old, hsub, hok, hw⟩ | ⟨s, hs, hdiff, hw⟩
    · right
      subst hsub
      have hw : insertWalk n l.key n.fuel t.handle [] = .ok (.clobber h old (stackOf fs)) := hw
      rw [hw]
      simp only [bind, Except.bind]
      have hhm : h ∈ Tree.handles (.leaf h old) ++ pathHandles fs ++ R := by simp [Tree.handles, Tree.handle]
      have hlt := hI2.lt hhm
      have hI3 := setNode_inv (v := .leaf l) hI2 hhm
      have hnd' : h ∉ pathHandles fs ++ R ∧ (pathHandles fs ++ R).Nodup := by
        simpa [Tree.handles, Tree.tail, Tree.handle] using hnd
      have hrp2 : RepPath (n.setNode h (.leaf l)).nodes fs h old.expiry := by
        apply repPath_frame hrp.2
        intro x hx; apply set_get_ne; intro e; subst e; exact hnd'.1 (by simp [hx])
      obtain ⟨n', e1, e2, e3, e4, e5, e6, e7⟩ := update_spec (newE := l.expiry) hI3 (fun x hx => by simp [hx])
        (List.nodup_append.mp hnd'.2).1 hrp2 (Or.inl rfl)
      have hnotin : ∀ x, x ∉ pathHandles fs → x ∉ fs.map Frame.h := by
        intro x hx hm
        obtain ⟨g, hg, rfl⟩ := List.mem_map.mp hm
        exact hx (pathHandles_h fs g hg)
      have hleafrep : Tree.Rep n'.nodes (.leaf h l) := by
        show n'.nodes[h]? = some (.leaf l)
        rw [e4 h (hnotin h (fun hm => hnd'.1 (by simp [hm])))]
        exact set_get_self hlt
      have hleaves : (plug fs (.leaf h l)).leaves = sInsert l t.leaves := by
        rw [hlv, sInsert_mid hside.1 hside.2, plug_leaves]
        simp [Tree.leaves, sInsert, hok]
      refine ⟨h, n', root, plug fs (.leaf h l), ?_, ?_, ⟨?_, ?_, ?_, ?_⟩, hleaves, ?_, ?_, ?_, ?_⟩
      · rw [e1]
        simp only
        congr 2
        rw [hlv, sFind_mid hside.1 hside.2]
        simp [Tree.leaves, sFind, hok]
      · exact e2.perm ((plug_handles fs (.leaf h l)).append_right R).symm
      · rw [hH1, ← hpl]; exact plug_handle rfl
      · rw [hH2, hleaves, hlv, sInsert_mid hside.1 hside.2]
        simp [Tree.leaves, sInsert, hok]
      · exact (plug_rep _ _ _).mpr ⟨hleafrep, e3⟩
      · refine (plug_wf _ _).mpr ⟨hk, PathOK_mono ?_ hpo⟩
        rintro x ⟨y, hy, rfl⟩
        simp [Tree.leaves] at hy; subst hy; exact Or.inr rfl
      · intro x hx
        have hxn : x ∉ pathHandles fs := by
          intro hm; exact (List.nodup_append.mp hnd'.2).2.2 x hm x hx rfl
        rw [e4 x (hnotin x hxn)]
        apply set_get_ne
        intro e; subst e; exact hnd'.1 (by simp [hx])
      · rw [e5]; simp [setNode]
      · rw [e6]; rfl
      · exact hleaves_plug_mem (by simp [Tree.hleaves])
    · have hw : insertWalk n l.key n.fuel t.handle [] = .ok (.split sub.handle sub.contents s (stackOf fs)) := hw
      rw [hw]
      simp only [bind, Except.bind]
      rw [if_pos (by omega : s ≤ 127)]
      -- facts about the key not being present
      have hside2 : ∀ x ∈ sub.leaves, x.key / 2 ^ (127 - s) = 2 * (l.key / 2 ^ (128 - s)) + bit (!(l.key.testBit (127 - s))) := by
        intro x hx
        obtain ⟨d1, d2⟩ := hdiff x hx
        have a1 := div_of_crit hs d1
        have a2 := div_of_crit hs (rfl : l.key / 2 ^ (128 - s) = _)
        rw [a1, a2] at d2
        rw [a1]
        congr 1
        cases hx1 : x.key.testBit (127 - s) <;> cases hx2 : l.key.testBit (127 - s) <;>
          simp_all [bit]
      have hlk := div_of_crit hs (rfl : l.key / 2 ^ (128 - s) = _)
      have hmid : sInsert l sub.leaves =
          if l.key.testBit (127 - s) = true then sub.leaves ++ [l] else l :: sub.leaves := by
        cases hbit : l.key.testBit (127 - s)
        · have hgt : ∀ x ∈ sub.leaves, l.key < x.key := by
            intro x hx; apply lt_of_div_lt (n := 127 - s); rw [hside2 x hx, hlk, hbit]; simp [bit]
          unfold sInsert
          rw [filter_none (by intro x hx; have := hgt x hx; simp; omega),
            filter_all (by intro x hx; have := hgt x hx; simpa using this)]
          simp
        · have hgt : ∀ x ∈ sub.leaves, x.key < l.key := by
            intro x hx; apply lt_of_div_lt (n := 127 - s); rw [hside2 x hx, hlk, hbit]; simp [bit]
          unfold sInsert
          rw [filter_all (by intro x hx; have := hgt x hx; simpa using this),
            filter_none (by intro x hx; have := hgt x hx; simp; omega)]
          simp
      have hfind : sFind l.key t.leaves = none := by
        rw [hlv, sFind_mid hside.1 hside.2]
        unfold sFind
        rw [List.find?_eq_none]
        intro x hx
        have := (hdiff x hx).2
        simp only [decide_eq_true_eq]
        intro e; rw [e] at this; exact this rfl
      rcases insert_spec hI2 (.leaf l) with ⟨h0, he⟩ | ⟨newH, n1, he, hI3, hnm1, hg1, hag1, hlen1, hb1, hfr1⟩
      · left
        rw [he]
        refine ⟨rfl, hfind, ?_⟩
        exact ⟨by omega, fun e => absurd e t.leaves_ne_nil⟩
      rw [he]
      simp only
      rcases insert_spec hI3 sub.contents with ⟨h0, he2⟩ | ⟨movH, n2, he2, hI4, hnm2, hg2, hag2, hlen2, hb2, hfr2⟩
      · left
        rw [he2]
        refine ⟨rfl, hfind, ?_⟩
        exact ⟨by omega, fun e => absurd e t.leaves_ne_nil⟩
      right
      rw [he2]
      simp only
      simp only [List.mem_cons, not_or] at hnm2
      -- the arena after writing the new inner node
      have hph : sub.handle ∈ movH :: newH :: (sub.handles ++ pathHandles fs ++ R) := by simp [Tree.handles]
      have hinner := setExp_comm_build s l.key newH movH l.expiry sub.contents.earliest (l.key.testBit (127 - s)) sub
        (Tree.contents_earliest sub)
      rw [hinner]
      generalize hbb : l.key.testBit (127 - s) = nb at *
      have hI5 := setNode_inv (v := .inner (Frame.inner ⟨0, s, l.key, nb, sub.setHandle movH⟩ newH l.expiry)) hI4 hph
      have hlt := hI4.lt hph
      -- handles facts
      have hnd1 : sub.handle ∉ sub.tail ∧ sub.handle ∉ pathHandles fs ∧ sub.handle ∉ R := by
        simp only [Tree.handles, List.cons_append, List.nodup_cons, List.mem_append, not_or] at hnd
        tauto
      have hag3 : ∀ x, x ≠ movH → x ≠ newH → x ≠ sub.handle →
          (n2.setNode sub.handle (.inner (Frame.inner ⟨0, s, l.key, nb, sub.setHandle movH⟩ newH l.expiry))).nodes[x]?
            = n.nodes[x]? := by
        intro x h1 h2 h3
        rw [show (n2.setNode sub.handle _).nodes[x]? = n2.nodes[x]? from set_get_ne h3, hag2 x h1, hag1 x h2]
      have hnmx : ∀ x ∈ sub.handles ++ pathHandles fs ++ R, x ≠ movH ∧ x ≠ newH := by
        intro x hx
        exact ⟨fun e => hnm2.2 (e ▸ hx), fun e => hnm1 (e ▸ hx)⟩
      have hsubh_ne : sub.handle ≠ movH ∧ sub.handle ≠ newH := hnmx _ (by simp [Tree.handles])
      have hfr : (Frame.inner ⟨0, s, l.key, nb, sub.setHandle movH⟩ newH l.expiry)
          = (Frame.inner ⟨sub.handle, s, l.key, nb, sub.setHandle movH⟩ newH l.expiry) := by
        simp [Frame.inner]
      rw [hfr] at hI5 hag3 ⊢
      generalize hf : (⟨sub.handle, s, l.key, nb, sub.setHandle movH⟩ : Frame) = f at *
      have hfh : f.h = sub.handle := by rw [← hf]
      have hfsib : f.sib = sub.setHandle movH := by rw [← hf]
      generalize hn3 : n2.setNode sub.handle (.inner (f.inner newH l.expiry)) = n3 at *
      have hn3h : n3.nodes[sub.handle]? = some (.inner (f.inner newH l.expiry)) := by
        rw [← hn3]; exact set_get_self hlt
      have hn3new : n3.nodes[newH]? = some (.leaf l) := by
        rw [← hn3, show (n2.setNode sub.handle _).nodes[newH]? = n2.nodes[newH]? from set_get_ne (Ne.symm hsubh_ne.2),
          hag2 newH (Ne.symm hnm2.1), hg1]
      have hn3mov : n3.nodes[movH]? = some sub.contents := by
        rw [← hn3, show (n2.setNode sub.handle _).nodes[movH]? = n2.nodes[movH]? from set_get_ne (Ne.symm hsubh_ne.1), hg2]
      have hsubrep : (sub.setHandle movH).Rep n3.nodes := by
        apply Tree.rep_setHandle hrp.1 hn3mov
        intro x hx
        have := hnmx x (by simp [Tree.handles, hx])
        exact hag3 x this.1 this.2 (fun e => hnd1.1 (e ▸ hx))
      have hbrep : (f.build (.leaf newH l)).Rep n3.nodes := by
        rw [build_rep]
        refine ⟨?_, ?_, hn3new⟩
        · rw [hfh]; exact hn3h
        · rw [hfsib]; exact hsubrep
      have hprep : RepPath n3.nodes fs sub.handle sub.minExp := by
        apply repPath_frame hrp.2
        intro x hx
        have := hnmx x (by simp [hx])
        exact hag3 x this.1 this.2 (fun e => hnd1.2.1 (e ▸ hx))
      -- permutation of live handles
      have hperm3 : (movH :: newH :: (sub.handles ++ pathHandles fs ++ R)).Perm
          ((f.build (.leaf newH l)).handles ++ pathHandles fs ++ R) := by
        have p1 := build_handles f (.leaf newH l)
        rw [hfh, hfsib] at p1
        simp only [Tree.handles, Tree.tail_setHandle, Tree.handle_setHandle, Tree.handle_leaf, Tree.tail] at p1 ⊢
        refine List.Perm.trans ?_ ((p1.symm.append_right _).append_right _)
        simp only [List.cons_append, List.append_assoc, List.nil_append]
        -- movH :: newH :: sh :: (tail ++ P ++ R)  ~  sh :: movH :: (tail ++ newH :: (P ++ R))
        refine (List.Perm.cons _ (List.Perm.swap _ _ _)).trans ?_
        refine (List.Perm.swap _ _ _).trans ?_
        refine List.Perm.cons _ (List.Perm.cons _ ?_)
        exact List.perm_middle.symm
      have hI6 := hI5.perm hperm3
      have hbwf : (f.build (.leaf newH l)).WF := by
        have := (plug_wf [f] (.leaf newH l)).mpr ⟨hk, ?_⟩
        · exact this
        · rw [← hf]
          refine ⟨hs, hk, ?_, ?_, Tree.WF_setHandle hsw, trivial⟩
          · rintro x ⟨y, hy, rfl⟩
            simp [Tree.leaves] at hy; subst hy
            exact hlk
          · intro x hx
            simp only [Tree.leaves_setHandle] at hx
            exact hside2 x hx
      have hbl : (f.build (.leaf newH l)).leaves = sInsert l sub.leaves := by
        rw [hmid, ← hf]
        cases nb <;> simp [Frame.build, Tree.leaves]
      have hmin : (f.build (.leaf newH l)).minExp = min l.expiry sub.minExp := by
        rw [build_minExp, hfsib]; simp [Tree.minExp]
      -- expiry fix-up
      have hupd : ∃ n4, (if l.expiry < sub.contents.earliest
                    then n3.updateParentEarliestExpiry (stackOf fs) sub.contents.earliest l.expiry
                    else Except.ok n3) = .ok n4 ∧
          ArenaInv n4 ((f.build (.leaf newH l)).handles ++ pathHandles fs ++ R) ∧
          RepPath n4.nodes fs sub.handle (min l.expiry sub.minExp) ∧
          (∀ x, x ∉ pathHandles fs → n4.nodes[x]? = n3.nodes[x]?) ∧ n4.nodes.length = n3.nodes.length ∧
          n4.isBids = n3.isBids := by
        rw [Tree.contents_earliest]
        have hndp : (pathHandles fs).Nodup := (List.nodup_append.mp (List.nodup_append.mp hI6.nodup).1).2.1
        by_cases hlt2 : l.expiry < sub.minExp
        · rw [if_pos hlt2]
          obtain ⟨n', e1, e2, e3, e4, e5, e6, e7⟩ := update_spec (newE := l.expiry) (outdated := sub.minExp) hI6
            (fun x hx => by simp [hx]) hndp hprep (Or.inl rfl)
          refine ⟨n', e1, e2, ?_, ?_, e5, e6⟩
          · rw [Nat.min_eq_left (by omega)]; exact e3
          · intro x hx
            apply e4
            intro hm
            obtain ⟨g, hg, rfl⟩ := List.mem_map.mp hm
            exact hx (pathHandles_h fs g hg)
        · rw [if_neg hlt2]
          refine ⟨n3, rfl, hI6, ?_, fun _ _ => rfl, rfl, rfl⟩
          rw [Nat.min_eq_right (by omega)]; exact hprep
      obtain ⟨n4, g1, g2, g3, g4, g5, g6⟩ := hupd
      rw [g1]
      simp only
      have hndall := hI6.nodup
      have hdisj : ∀ x ∈ (f.build (.leaf newH l)).handles, x ∉ pathHandles fs := by
        intro x hx hm
        exact (List.nodup_append.mp (List.nodup_append.mp hndall).1).2.2 x hx x hm rfl
      have hleaves : (plug fs (f.build (.leaf newH l))).leaves = sInsert l t.leaves := by
        rw [plug_leaves, hbl, hlv, sInsert_mid hside.1 hside.2]
      refine ⟨newH, n4, _, plug fs (f.build (.leaf newH l)), by rw [hfind], ?_, ⟨?_, ?_, ?_, ?_⟩, hleaves, ?_, ?_, ?_, ?_⟩
      · exact g2.perm ((plug_handles fs _).append_right R).symm
      · show root.maybeNode = _
        rw [hH1, ← hpl]; exact plug_handle (by rw [build_handle, hfh])
      · show root.leafCount + 1 = _
        rw [hH2, hleaves, hlv, sInsert_mid hside.1 hside.2, hmid]
        cases nb <;> simp <;> omega
      · refine (plug_rep _ _ _).mpr ⟨Tree.rep_frame hbrep (fun x hx => g4 x (hdisj x hx)), ?_⟩
        rw [build_handle, hfh, hmin]; exact g3
      · refine (plug_wf _ _).mpr ⟨hbwf, PathOK_mono ?_ hpo⟩
        rintro x ⟨y, hy, rfl⟩
        rw [build_leaves_mem, hfsib] at hy
        simp [Tree.leaves] at hy
        rcases hy with rfl | hy
        · exact Or.inr rfl
        · exact Or.inl ⟨y, hy, rfl⟩
      · intro x hx
        have hxp : x ∉ pathHandles fs := fun hm =>
          (List.nodup_append.mp hnd).2.2 x (by simp [hm]) x hx rfl
        rw [g4 x hxp]
        have := hnmx x (by simp [hx])
        exact hag3 x this.1 this.2 (fun e => hnd1.2.2 (e ▸ hx))
      · rw [g5, ← hn3]; simp only [setNode, List.length_set]; rw [hlen2, hlen1]
      · rw [g6, ← hn3]; simp only [setNode]; rw [hb2, hb1]
      · apply hleaves_plug_mem
        rw [← hf]
        cases nb <;> simp [Frame.build, Tree.hleaves]

end Book
end Mango
