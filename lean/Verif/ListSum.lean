import Mathlib.Algebra.BigOperators.Group.List.Basic
/-! Sums over lists (helpers) -/
namespace Mango

def sumOf {α : Type} (f : α → Int) (l : List α) : Int := (l.map f).sum

@[simp] theorem sumOf_nil {α} (f : α → Int) : sumOf f [] = 0 := rfl
@[simp] theorem sumOf_cons {α} (f : α → Int) (a : α) (l : List α) : sumOf f (a :: l) = f a + sumOf f l := by
  simp [sumOf]
@[simp] theorem sumOf_append {α} (f : α → Int) (l m : List α) : sumOf f (l ++ m) = sumOf f l + sumOf f m := by
  simp [sumOf]

theorem sumOf_set {α} (f : α → Int) {l : List α} {k : Nat} {x y : α} (h : l[k]? = some x) :
    sumOf f (l.set k y) = sumOf f l - f x + f y := by
  induction l generalizing k with
  | nil => simp at h
  | cons a l ih =>
    cases k with
    | zero => simp at h; subst h; simp; omega
    | succ k => simp at h; simp [ih h]; omega

theorem sumOf_map {α β} (f : β → Int) (g : α → β) (l : List α) : sumOf f (l.map g) = sumOf (fun x => f (g x)) l := by
  simp [sumOf, List.map_map, Function.comp_def]

theorem sumOf_congr {α} {f g : α → Int} {l : List α} (h : ∀ x ∈ l, f x = g x) : sumOf f l = sumOf g l := by
  unfold sumOf; rw [List.map_congr_left h]

theorem sumOf_nonneg {α} {f : α → Int} {l : List α} (h : ∀ x, 0 ≤ f x) : 0 ≤ sumOf f l := by
  induction l with
  | nil => simp
  | cons a l ih => simp; have := h a; omega

theorem forall_set {α} {P : α → Prop} {l : List α} {k : Nat} {y : α} (h : ∀ x ∈ l, P x) (hy : P y) :
    ∀ x ∈ l.set k y, P x := by
  intro x hx
  rcases List.mem_or_eq_of_mem_set hx with h1 | h1
  · exact h x h1
  · rw [h1]; exact hy

theorem set_ne_nil {α} {l : List α} {k : Nat} {y : α} (h : l ≠ []) : l.set k y ≠ [] := by
  intro hc; apply h
  have := congrArg List.length hc
  simp at this
  exact this

theorem sumOf_perm {α} (f : α → Int) {l m : List α} (h : l.Perm m) : sumOf f l = sumOf f m := by
  unfold sumOf; exact (h.map f).sum_eq

theorem sumOf_add {α} (f g : α → Int) (l : List α) : sumOf (fun x => f x + g x) l = sumOf f l + sumOf g l := by
  induction l with
  | nil => rfl
  | cons a l ih => simp [ih]; omega

theorem sumOf_zero {α} {f : α → Int} {l : List α} (h : ∀ x ∈ l, f x = 0) : sumOf f l = 0 := by
  induction l with
  | nil => rfl
  | cons a l ih => simp [h a (by simp), ih (fun x hx => h x (by simp [hx]))]

theorem sumOf_nonneg_mem {α} {f : α → Int} {l : List α} (h : ∀ x ∈ l, 0 ≤ f x) : 0 ≤ sumOf f l := by
  induction l with
  | nil => simp
  | cons a l ih => simp; have := h a (by simp); have := ih (fun x hx => h x (by simp [hx])); omega

theorem sumOf_pos_mem {α} {f : α → Int} {l : List α} (h : ∀ x ∈ l, 0 ≤ f x) {y : α} (hy : y ∈ l) : f y ≤ sumOf f l := by
  induction l with
  | nil => simp at hy
  | cons a l ih =>
    have h0 := sumOf_nonneg_mem (fun x hx => h x (List.mem_cons_of_mem a hx))
    rcases List.mem_cons.mp hy with rfl | hy
    · simp; omega
    · have := ih (fun x hx => h x (by simp [hx])) hy; have := h a (by simp); simp; omega

end Mango
