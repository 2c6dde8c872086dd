import Verif.Book.Tree
import Mathlib.Tactic.Ring
import Mathlib.Tactic.Linarith
import Mathlib.Data.List.Perm.Basic
import Mathlib.Data.Nat.Bitwise
/-!
# Ghost trees for the arena proofs

`Tree` is the mathematical tree an arena root represents; `Frame`/`plug` is its zipper.  Proof-internal: property
statements do not use these.
-/
namespace Mango
namespace Book

inductive Tree where
  | leaf (h : Nat) (l : Leaf)
  | node (h p k : Nat) (a b : Tree)

namespace Tree

def handle : Tree → Nat
  | leaf h _ => h
  | node h _ _ _ _ => h

def minExp : Tree → Nat
  | leaf _ l => l.expiry
  | node _ _ _ a b => min a.minExp b.minExp

def leaves : Tree → List Leaf
  | leaf _ l => [l]
  | node _ _ _ a b => a.leaves ++ b.leaves

/-- leaves with their handles, in key order -/
def hleaves : Tree → List (Nat × Leaf)
  | leaf h l => [(h, l)]
  | node _ _ _ a b => a.hleaves ++ b.hleaves

@[simp] theorem handle_leaf (h : Nat) (l : Leaf) : (leaf h l).handle = h := rfl
@[simp] theorem handle_node (h p k : Nat) (a b : Tree) : (node h p k a b).handle = h := rfl

/-- handles below the root -/
def tail : Tree → List Nat
  | leaf _ _ => []
  | node _ _ _ a b => (a.handle :: a.tail) ++ (b.handle :: b.tail)

def handles (t : Tree) : List Nat := t.handle :: t.tail

def setHandle : Tree → Nat → Tree
  | leaf _ l, h => leaf h l
  | node _ p k a b, h => node h p k a b

/-- contents of the root node in the arena -/
def contents : Tree → Node
  | leaf _ l => .leaf l
  | node _ p k a b => .inner ⟨p, k, a.handle, b.handle, a.minExp, b.minExp⟩

/-- the arena stores this tree -/
def Rep (ns : List Node) : Tree → Prop
  | leaf h l => ns[h]? = some (.leaf l)
  | node h p k a b => ns[h]? = some (.inner ⟨p, k, a.handle, b.handle, a.minExp, b.minExp⟩) ∧ Rep ns a ∧ Rep ns b

/-- the crit-bit property -/
def WF : Tree → Prop
  | leaf _ l => l.key < 2 ^ 128
  | node _ p k a b => p < 128 ∧ k < 2 ^ 128 ∧
      (∀ x ∈ a.leaves, x.key / 2 ^ (127 - p) = 2 * (k / 2 ^ (128 - p))) ∧
      (∀ x ∈ b.leaves, x.key / 2 ^ (127 - p) = 2 * (k / 2 ^ (128 - p)) + 1) ∧ WF a ∧ WF b

@[simp] theorem leaves_setHandle (t : Tree) (h : Nat) : (t.setHandle h).leaves = t.leaves := by cases t <;> rfl
@[simp] theorem minExp_setHandle (t : Tree) (h : Nat) : (t.setHandle h).minExp = t.minExp := by cases t <;> rfl
@[simp] theorem tail_setHandle (t : Tree) (h : Nat) : (t.setHandle h).tail = t.tail := by cases t <;> rfl
@[simp] theorem handle_setHandle (t : Tree) (h : Nat) : (t.setHandle h).handle = h := by cases t <;> rfl
@[simp] theorem contents_setHandle (t : Tree) (h : Nat) : (t.setHandle h).contents = t.contents := by cases t <;> rfl
theorem WF_setHandle {t : Tree} {h : Nat} (w : t.WF) : (t.setHandle h).WF := by cases t <;> exact w

theorem leaves_ne_nil (t : Tree) : t.leaves ≠ [] := by
  induction t with
  | leaf h l => simp [leaves]
  | node h p k a b iha ihb => simp [leaves, iha]

theorem hleaves_map (t : Tree) : t.hleaves.map Prod.snd = t.leaves := by
  induction t with
  | leaf h l => rfl
  | node h p k a b iha ihb => simp [leaves, hleaves, iha, ihb]

theorem hleaves_mem_handles {t : Tree} {h : Nat} {l : Leaf} (hm : (h, l) ∈ t.hleaves) : h ∈ t.handles := by
  induction t with
  | leaf h' l' => simp [hleaves] at hm; simp [handles, handle, hm]
  | node h' p k a b iha ihb =>
    simp only [hleaves, List.mem_append] at hm
    simp only [handles, tail, List.mem_cons, List.mem_append]
    rcases hm with hm | hm
    · have := iha hm; simp only [handles, List.mem_cons] at this; tauto
    · have := ihb hm; simp only [handles, List.mem_cons] at this; tauto

theorem rep_hleaves {ns : List Node} {t : Tree} (hr : t.Rep ns) {h : Nat} {l : Leaf} (hm : (h, l) ∈ t.hleaves) :
    ns[h]? = some (.leaf l) := by
  induction t with
  | leaf h' l' => simp [hleaves] at hm; rw [hm.1, hm.2]; exact hr
  | node h' p k a b iha ihb =>
    simp only [hleaves, List.mem_append] at hm
    rcases hm with hm | hm
    · exact iha hr.2.1 hm
    · exact ihb hr.2.2 hm

theorem leaves_length_le (t : Tree) : t.leaves.length ≤ t.handles.length := by
  induction t with
  | leaf h l => simp [leaves, handles]
  | node h p k a b iha ihb => simp [leaves, handles, tail] at *; omega

theorem minExp_le {t : Tree} {x : Leaf} (hx : x ∈ t.leaves) : t.minExp ≤ x.expiry := by
  induction t with
  | leaf h l => simp [leaves] at hx; subst hx; exact Nat.le_refl _
  | node h p k a b iha ihb =>
    simp only [leaves, List.mem_append] at hx
    simp only [minExp]
    rcases hx with hx | hx
    · exact Nat.le_trans (Nat.min_le_left _ _) (iha hx)
    · exact Nat.le_trans (Nat.min_le_right _ _) (ihb hx)

theorem rep_contents {ns : List Node} {t : Tree} (hr : t.Rep ns) : ns[t.handle]? = some t.contents := by
  cases t with
  | leaf h l => exact hr
  | node h p k a b => exact hr.1

theorem contents_earliest (t : Tree) : t.contents.earliest = t.minExp := by cases t <;> rfl

/-- arena change outside the tree's handles -/
theorem rep_frame {ns ns' : List Node} {t : Tree} (hr : t.Rep ns) (hag : ∀ h ∈ t.handles, ns'[h]? = ns[h]?) :
    t.Rep ns' := by
  induction t with
  | leaf h l => simp only [Rep] at *; rw [hag h (by simp [handles, handle]), hr]
  | node h p k a b iha ihb =>
    simp only [Rep, handles, tail] at *
    refine ⟨?_, iha hr.2.1 ?_, ihb hr.2.2 ?_⟩
    · rw [hag h (by simp [handle]), hr.1]
    · intro x hx; apply hag; simp only [List.mem_cons, List.mem_append] at *; tauto
    · intro x hx; apply hag; simp only [List.mem_cons, List.mem_append] at *; tauto

theorem rep_setHandle {ns ns' : List Node} {t : Tree} {h' : Nat} (hr : t.Rep ns)
    (hc : ns'[h']? = some t.contents) (hag : ∀ h ∈ t.tail, ns'[h]? = ns[h]?) : (t.setHandle h').Rep ns' := by
  cases t with
  | leaf h l => exact hc
  | node h p k a b =>
    refine ⟨hc, rep_frame hr.2.1 ?_, rep_frame hr.2.2 ?_⟩
    · intro x hx; apply hag; simp only [handles, tail, List.mem_cons, List.mem_append] at *; tauto
    · intro x hx; apply hag; simp only [handles, tail, List.mem_cons, List.mem_append] at *; tauto

end Tree

/-! ## bits -/

theorem div_eq_iff_xor_lt (a b n : Nat) : a / 2 ^ n = b / 2 ^ n ↔ (a ^^^ b) < 2 ^ n := by
  rw [← Nat.shiftRight_eq_div_pow, ← Nat.shiftRight_eq_div_pow]
  constructor
  · intro h
    have h2 : (a ^^^ b) >>> n = 0 := by rw [Nat.shiftRight_xor_distrib, h, Nat.xor_self]
    rw [Nat.shiftRight_eq_div_pow] at h2
    exact (Nat.div_eq_zero_iff_lt (by positivity)).mp h2
  · intro h
    have h2 : (a ^^^ b) >>> n = 0 := by
      rw [Nat.shiftRight_eq_div_pow]; exact Nat.div_eq_of_lt h
    rw [Nat.shiftRight_xor_distrib] at h2
    exact Nat.xor_eq_zero_iff.mp h2

theorem le_clz128 {x p : Nat} (hx : x < 2 ^ 128) (hp : p ≤ 128) : p ≤ Arena.clz128 x ↔ x < 2 ^ (128 - p) := by
  unfold Arena.clz128
  split
  · rename_i h; subst h; simp [hp]
  · rename_i h
    have hl : x.log2 < 128 := (Nat.log2_lt h).mpr hx
    have : x < 2 ^ (128 - p) ↔ x.log2 < 128 - p := (Nat.log2_lt h).symm
    rw [this]; omega

theorem xor_lt_128 {a b : Nat} (ha : a < 2 ^ 128) (hb : b < 2 ^ 128) : (a ^^^ b) < 2 ^ 128 := Nat.xor_lt_two_pow ha hb

theorem le_clz_iff {a b p : Nat} (ha : a < 2 ^ 128) (hb : b < 2 ^ 128) (hp : p ≤ 128) :
    p ≤ Arena.clz128 (a ^^^ b) ↔ a / 2 ^ (128 - p) = b / 2 ^ (128 - p) := by
  rw [le_clz128 (xor_lt_128 ha hb) hp, div_eq_iff_xor_lt]

theorem clz_le (x : Nat) : Arena.clz128 x ≤ 128 := by unfold Arena.clz128; split <;> omega

theorem clz_lt_of_ne {a b : Nat} (ha : a < 2 ^ 128) (hb : b < 2 ^ 128) (hne : a ≠ b) : Arena.clz128 (a ^^^ b) < 128 := by
  rcases Nat.lt_or_ge (Arena.clz128 (a ^^^ b)) 128 with h | h
  · exact h
  · have h := (le_clz_iff ha hb (Nat.le_refl _)).mp h; simp at h; exact absurd h hne

theorem testBit_eq_div (k n : Nat) : k.testBit n = decide (k / 2 ^ n % 2 = 1) := by
  rw [Nat.testBit_eq_decide_div_mod_eq]

theorem div_split (k p : Nat) (hp : p < 128) : k / 2 ^ (128 - p) = k / 2 ^ (127 - p) / 2 := by
  rw [Nat.div_div_eq_div_mul, ← Nat.pow_succ]; congr 2; omega

def bit (b : Bool) : Nat := if b = true then 1 else 0

theorem crit_of_div {k q p : Nat} {b : Bool} (h : k / 2 ^ (127 - p) = 2 * q + bit b) : k.testBit (127 - p) = b := by
  rw [testBit_eq_div, h]; cases b <;> simp [bit]

theorem div_of_crit {k q p : Nat} (hp : p < 128) (h : k / 2 ^ (128 - p) = q) :
    k / 2 ^ (127 - p) = 2 * q + bit (k.testBit (127 - p)) := by
  rw [testBit_eq_div, ← h, div_split k p hp]
  unfold bit
  by_cases hx : k / 2 ^ (127 - p) % 2 = 1
  · simp [hx]; omega
  · simp [hx]; omega

/-- equal after a shorter division from equal after a longer one -/
theorem div_mono_eq {a b m n : Nat} (hmn : m ≤ n) (h : a / 2 ^ m = b / 2 ^ m) : a / 2 ^ n = b / 2 ^ n := by
  obtain ⟨d, rfl⟩ := Nat.exists_eq_add_of_le hmn
  rw [Nat.pow_add, ← Nat.div_div_eq_div_mul, ← Nat.div_div_eq_div_mul, h]

theorem lt_of_div_lt {a b n : Nat} (h : a / 2 ^ n < b / 2 ^ n) : a < b := by
  rcases Nat.lt_or_ge a b with h' | h'
  · exact h'
  · exact absurd (Nat.div_le_div_right (c := 2 ^ n) h') (by omega)

namespace Tree

/-- all keys below a well-formed tree's root share the root's prefix -/
theorem key_prefix {h p k : Nat} {a b : Tree} (w : (node h p k a b).WF) {x : Leaf} (hx : x ∈ (node h p k a b).leaves) :
    x.key / 2 ^ (128 - p) = k / 2 ^ (128 - p) := by
  obtain ⟨hp, _, wa, wb, _, _⟩ := w
  simp only [leaves, List.mem_append] at hx
  rw [div_split _ _ hp]
  rcases hx with hx | hx
  · rw [wa x hx]; omega
  · rw [wb x hx]; omega

theorem key_lt {t : Tree} (w : t.WF) {x : Leaf} (hx : x ∈ t.leaves) : x.key < 2 ^ 128 := by
  induction t with
  | leaf h l => simp [leaves] at hx; subst hx; exact w
  | node h p k a b iha ihb =>
    simp only [leaves, List.mem_append] at hx
    rcases hx with hx | hx
    · exact iha w.2.2.2.2.1 hx
    · exact ihb w.2.2.2.2.2 hx

/-- in-order leaves are strictly sorted by key -/
theorem sorted {t : Tree} (w : t.WF) : t.leaves.Pairwise (fun x y => x.key < y.key) := by
  induction t with
  | leaf h l => simp [leaves]
  | node h p k a b iha ihb =>
    obtain ⟨hp, _, ha, hb, wa, wb⟩ := w
    simp only [leaves, List.pairwise_append]
    refine ⟨iha wa, ihb wb, ?_⟩
    intro x hx y hy
    apply lt_of_div_lt (n := 127 - p)
    rw [ha x hx, hb y hy]; omega

end Tree

/-! ## zipper -/

/-- one step of a path: the inner node's handle, prefix, key, which child the path takes, and the sibling -/
structure Frame where
  h : Nat
  p : Nat
  k : Nat
  b : Bool
  sib : Tree

def Frame.build (f : Frame) (t : Tree) : Tree :=
  if f.b = true then .node f.h f.p f.k f.sib t else .node f.h f.p f.k t f.sib

/-- innermost frame first -/
def plug : List Frame → Tree → Tree
  | [], t => t
  | f :: fs, t => plug fs (f.build t)

def pathHandles : List Frame → List Nat
  | [] => []
  | f :: fs => f.h :: (f.sib.handles ++ pathHandles fs)

/-- the model's stack for a path -/
def stackOf (fs : List Frame) : List (Nat × Bool) := fs.map (fun f => (f.h, f.b))

def Frame.inner (f : Frame) (ch e : Nat) : Inner :=
  if f.b = true then ⟨f.p, f.k, f.sib.handle, ch, f.sib.minExp, e⟩
  else ⟨f.p, f.k, ch, f.sib.handle, e, f.sib.minExp⟩

def RepPath (ns : List Node) : List Frame → Nat → Nat → Prop
  | [], _, _ => True
  | f :: fs, ch, e => ns[f.h]? = some (.inner (f.inner ch e)) ∧ f.sib.Rep ns ∧
      RepPath ns fs f.h (min e f.sib.minExp)

/-- the path is consistent with all keys satisfying `P` below the hole -/
def PathOK : List Frame → (Nat → Prop) → Prop
  | [], _ => True
  | f :: fs, P => f.p < 128 ∧ f.k < 2 ^ 128 ∧
      (∀ x, P x → x / 2 ^ (127 - f.p) = 2 * (f.k / 2 ^ (128 - f.p)) + bit f.b) ∧
      (∀ x ∈ f.sib.leaves, x.key / 2 ^ (127 - f.p) = 2 * (f.k / 2 ^ (128 - f.p)) + bit (!f.b)) ∧
      f.sib.WF ∧ PathOK fs (fun x => P x ∨ ∃ l ∈ f.sib.leaves, l.key = x)

theorem PathOK_mono {fs : List Frame} {P Q : Nat → Prop} (h : ∀ x, Q x → P x) (hp : PathOK fs P) : PathOK fs Q := by
  induction fs generalizing P Q with
  | nil => trivial
  | cons f fs ih =>
    obtain ⟨h1, h2, h3, h4, h5, h6⟩ := hp
    exact ⟨h1, h2, fun x hx => h3 x (h x hx), h4, h5, ih (fun x hx => hx.imp (h x) id) h6⟩

theorem build_handle (f : Frame) (t : Tree) : (f.build t).handle = f.h := by
  unfold Frame.build; split <;> rfl

theorem build_minExp (f : Frame) (t : Tree) : (f.build t).minExp = min t.minExp f.sib.minExp := by
  unfold Frame.build; split
  · simp only [Tree.minExp]; exact Nat.min_comm _ _
  · rfl

theorem build_handles (f : Frame) (t : Tree) : (f.build t).handles.Perm (f.h :: (f.sib.handles ++ t.handles)) := by
  unfold Frame.build; split
  · exact List.Perm.refl _
  · simp only [Tree.handles, Tree.tail, Tree.handle]
    exact List.Perm.cons _ (List.perm_append_comm (l₁ := t.handle :: t.tail))

theorem build_rep (f : Frame) (t : Tree) (ns : List Node) :
    (f.build t).Rep ns ↔ ns[f.h]? = some (.inner (f.inner t.handle t.minExp)) ∧ f.sib.Rep ns ∧ t.Rep ns := by
  unfold Frame.build Frame.inner; split
  · simp only [Tree.Rep]
  · simp only [Tree.Rep]; tauto

theorem plug_handles (fs : List Frame) (t : Tree) : (plug fs t).handles.Perm (t.handles ++ pathHandles fs) := by
  induction fs generalizing t with
  | nil => simp [plug, pathHandles]
  | cons f fs ih =>
    simp only [plug, pathHandles]
    refine (ih _).trans ?_
    refine ((build_handles f t).append_right _).trans ?_
    simp only [List.cons_append, List.append_assoc]
    refine List.Perm.trans ?_ List.perm_middle.symm
    refine List.Perm.cons _ ?_
    rw [← List.append_assoc, ← List.append_assoc]
    exact List.perm_append_comm.append_right _

theorem plug_rep (fs : List Frame) (t : Tree) (ns : List Node) :
    (plug fs t).Rep ns ↔ t.Rep ns ∧ RepPath ns fs t.handle t.minExp := by
  induction fs generalizing t with
  | nil => simp [plug, RepPath]
  | cons f fs ih =>
    simp only [plug, RepPath]
    rw [ih, build_rep, build_handle, build_minExp]; tauto

theorem build_leaves_mem (f : Frame) (t : Tree) (x : Leaf) : x ∈ (f.build t).leaves ↔ x ∈ t.leaves ∨ x ∈ f.sib.leaves := by
  unfold Frame.build; split <;> simp [Tree.leaves] ; tauto

theorem plug_wf (fs : List Frame) (t : Tree) :
    (plug fs t).WF ↔ t.WF ∧ PathOK fs (fun x => ∃ l ∈ t.leaves, l.key = x) := by
  induction fs generalizing t with
  | nil => simp [plug, PathOK]
  | cons f fs ih =>
    simp only [plug]
    rw [ih]
    have e : (fun x => ∃ l ∈ (f.build t).leaves, l.key = x) =
        (fun x => (∃ l ∈ t.leaves, l.key = x) ∨ ∃ l ∈ f.sib.leaves, l.key = x) := by
      funext x
      apply propext
      constructor
      · rintro ⟨l, hl, rfl⟩
        rw [build_leaves_mem] at hl
        rcases hl with hl | hl
        · exact Or.inl ⟨l, hl, rfl⟩
        · exact Or.inr ⟨l, hl, rfl⟩
      · rintro (⟨l, hl, rfl⟩ | ⟨l, hl, rfl⟩)
        · exact ⟨l, (build_leaves_mem _ _ _).mpr (Or.inl hl), rfl⟩
        · exact ⟨l, (build_leaves_mem _ _ _).mpr (Or.inr hl), rfl⟩
    rw [e]
    simp only [PathOK]
    have e2 : (f.build t).WF ↔ f.p < 128 ∧ f.k < 2 ^ 128 ∧
      (∀ x, (∃ l ∈ t.leaves, l.key = x) → x / 2 ^ (127 - f.p) = 2 * (f.k / 2 ^ (128 - f.p)) + bit f.b) ∧
      (∀ x ∈ f.sib.leaves, x.key / 2 ^ (127 - f.p) = 2 * (f.k / 2 ^ (128 - f.p)) + bit (!f.b)) ∧
      f.sib.WF ∧ t.WF := by
      have hq : ∀ q : Nat, (∀ x, (∃ l ∈ t.leaves, l.key = x) → x / 2 ^ (127 - f.p) = q) ↔
          ∀ l ∈ t.leaves, l.key / 2 ^ (127 - f.p) = q := by
        intro q
        constructor
        · intro h l hl; exact h _ ⟨l, hl, rfl⟩
        · rintro h x ⟨l, hl, rfl⟩; exact h l hl
      rw [hq]
      unfold Frame.build
      cases hb : f.b <;> simp [Tree.WF, bit] <;> tauto
    rw [e2]; tauto

theorem plug_handle_cons (f : Frame) (fs : List Frame) (t t' : Tree) :
    (plug (f :: fs) t).handle = (plug (f :: fs) t').handle := by
  induction fs generalizing f t t' with
  | nil => simp [plug, build_handle]
  | cons g gs ih => exact ih g (f.build t) (f.build t')

theorem plug_handle {fs : List Frame} {t t' : Tree} (h : t.handle = t'.handle) :
    (plug fs t).handle = (plug fs t').handle := by
  cases fs with
  | nil => exact h
  | cons f fs => exact plug_handle_cons f fs t t'

/-- leaves to the left / right of the hole -/
def preL : List Frame → List Leaf
  | [] => []
  | f :: fs => preL fs ++ (if f.b = true then f.sib.leaves else [])
def postL : List Frame → List Leaf
  | [] => []
  | f :: fs => (if f.b = true then [] else f.sib.leaves) ++ postL fs

theorem plug_leaves (fs : List Frame) (t : Tree) : (plug fs t).leaves = preL fs ++ t.leaves ++ postL fs := by
  induction fs generalizing t with
  | nil => simp [plug, preL, postL]
  | cons f fs ih =>
    simp only [plug, preL, postL]; rw [ih]
    unfold Frame.build
    cases f.b <;> simp [Tree.leaves]

theorem pre_lt {fs : List Frame} {P : Nat → Prop} (h : PathOK fs P) {key : Nat} (hk : P key) :
    (∀ x ∈ preL fs, x.key < key) ∧ (∀ x ∈ postL fs, key < x.key) := by
  induction fs generalizing P with
  | nil => simp [preL, postL]
  | cons f fs ih =>
    obtain ⟨h1, h2, h3, h4, h5, h6⟩ := h
    have := ih h6 (Or.inl hk)
    have hkk := h3 key hk
    constructor
    · intro x hx
      simp only [preL, List.mem_append] at hx
      rcases hx with hx | hx
      · exact this.1 x hx
      · cases hb : f.b
        · simp [hb] at hx
        · simp [hb] at hx
          apply lt_of_div_lt (n := 127 - f.p)
          rw [h4 x hx, hkk, hb]; simp [bit]
    · intro x hx
      simp only [postL, List.mem_append] at hx
      rcases hx with hx | hx
      · cases hb : f.b
        · simp [hb] at hx
          apply lt_of_div_lt (n := 127 - f.p)
          rw [h4 x hx, hkk, hb]; simp [bit]
        · simp [hb] at hx
      · exact this.2 x hx

theorem repPath_frame {ns ns' : List Node} {fs : List Frame} {ch e : Nat} (hr : RepPath ns fs ch e)
    (hag : ∀ h ∈ pathHandles fs, ns'[h]? = ns[h]?) : RepPath ns' fs ch e := by
  induction fs generalizing ch e with
  | nil => trivial
  | cons f fs ih =>
    obtain ⟨h1, h2, h3⟩ := hr
    refine ⟨?_, Tree.rep_frame h2 ?_, ih h3 ?_⟩
    · rw [hag f.h (by simp [pathHandles]), h1]
    · intro x hx; apply hag; simp [pathHandles, hx]
    · intro x hx; apply hag; simp [pathHandles, hx]

end Book
end Mango
