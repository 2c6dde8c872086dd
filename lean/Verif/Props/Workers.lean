import Verif.Bots.Workers
import Verif.ListSum
import Mathlib.Data.List.Basic
import Mathlib.Data.List.Perm.Basic
import Mathlib.Data.List.Dedup
/-!
# C84: the liquidator's workers
-/
namespace Mango
namespace Workers

/-- the accounts a worker is liquidating -/
def liqOf : Phase → List Nat
  | .executing (.liquidation a) => [a]
  | _ => []

/-- the conditional swaps a worker is executing -/
def tcsOf : Phase → List Tcs
  | .executing (.tcs l) => l
  | _ => []

theorem get_set {l : List Phase} {i j : Nat} {x y : Phase} (h : (l.set i x)[j]? = some y) : (j = i ∧ y = x) ∨ (j ≠ i ∧ l[j]? = some y) := by
  by_cases e : j = i
  · subst e
    rw [List.getElem?_set] at h
    simp only [if_true] at h
    split at h
    · cases h; exact .inl ⟨rfl, rfl⟩
    · cases h
  · rw [List.getElem?_set_ne (fun h => e h.symm)] at h
    exact .inr ⟨e, h⟩

theorem set_get {l : List Phase} {i j : Nat} {x y : Phase} (hi : l[i]? = some y) : (l.set i x)[j]? = if j = i then some x else l[j]? := by
  by_cases e : j = i
  · subst e
    rw [if_pos rfl, List.getElem?_set_self (List.getElem?_eq_some_iff.1 hi).1]
  · rw [if_neg e, List.getElem?_set_ne (fun h => e h.symm)]

/-- the entries of a set not being processed -/
def todo {α : Type} [DecidableEq α] (c p : List α) : List α := c.filter (fun x => decide (x ∉ p))

theorem mem_todo {α : Type} [DecidableEq α] {c p : List α} {x : α} : x ∈ todo c p ↔ x ∈ c ∧ x ∉ p := by simp [todo]

theorem todo_take {α : Type} [DecidableEq α] {c p l : List α} (hc : c.Nodup) (hl : l.Nodup) (h : ∀ x ∈ l, x ∈ todo c p) : (todo c (l ++ p)).length + l.length = (todo c p).length := by
  have e : todo c (l ++ p) = (todo c p).filter (fun x => decide (x ∉ l)) := by
    unfold todo
    rw [List.filter_filter]
    apply List.filter_congr
    intro x _
    simp
  have hd : (todo c p).Nodup := hc.filter _
  have hp : ((todo c p).filter (fun x => decide (x ∈ l))).Perm l := by
    rw [List.perm_ext_iff_of_nodup (hd.filter _) hl]
    intro x
    simp only [List.mem_filter, decide_eq_true_eq]
    exact ⟨fun h => h.2, fun hx => ⟨h x hx, hx⟩⟩
  have hlen := List.length_eq_length_filter_add (l := todo c p) (fun x => decide (x ∈ l))
  rw [hp.length_eq] at hlen
  rw [e]
  have : (todo c p).filter (fun x => decide (x ∉ l)) = (todo c p).filter (fun x => !decide (x ∈ l)) := by
    apply List.filter_congr; intro x _; simp
  rw [this]; omega

theorem todo_finish {α : Type} [DecidableEq α] {c p l : List α} (h : ∀ x ∈ l, x ∈ p) :
    todo (c.filter (fun x => decide (x ∉ l))) (p.filter (fun x => decide (x ∉ l))) = todo c p := by
  unfold todo
  rw [List.filter_filter]
  apply List.filter_congr
  intro x _
  simp only [List.mem_filter, decide_eq_true_eq, not_and, not_not, ← Bool.decide_and, decide_eq_decide]
  constructor
  · rintro ⟨h1, h2⟩ h3
    exact h2 (h1 h3)
  · intro h1
    exact ⟨fun h2 => absurd h2 h1, fun h2 => h1 (h x h2)⟩

theorem todo_add {α : Type} [DecidableEq α] {c p : List α} {x : α} (hx : x ∉ p) : todo (c ++ [x]) p = todo c p ++ [x] := by
  unfold todo
  rw [List.filter_append]
  simp [hx]

/-- one of the two sets of candidates with the entries being processed, and what the workers hold -/
structure Good {α : Type} (hold : Phase → List α) (c p : List α) (ws : List Phase) : Prop where
  cn : c.Nodup
  pn : p.Nodup
  sub : ∀ x ∈ p, x ∈ c
  held : ∀ (i : Nat) (q : Phase) (x : α), ws[i]? = some q → x ∈ hold q → x ∈ p
  owner : ∀ x ∈ p, ∃ (i : Nat) (q : Phase), ws[i]? = some q ∧ x ∈ hold q
  excl : ∀ (i j : Nat) (q r : Phase) (x : α), ws[i]? = some q → ws[j]? = some r → x ∈ hold q → x ∈ hold r → i = j

section
variable {α : Type} [DecidableEq α] {hold : Phase → List α} {c p : List α} {ws : List Phase}

theorem Good.add (g : Good hold c p ws) {x : α} (hx : x ∉ c) : Good hold (c ++ [x]) p ws where
  cn := by rw [List.nodup_append]; exact ⟨g.cn, by simp, by intro a ha b hb; simp at hb; subst hb; intro e; subst e; exact hx ha⟩
  pn := g.pn
  sub := fun y hy => by simp [g.sub y hy]
  held := g.held
  owner := g.owner
  excl := g.excl

/-- a worker that holds nothing goes on without holding something -/
theorem Good.move (g : Good hold c p ws) {i : Nat} {q r : Phase} (hi : ws[i]? = some q) (hq : hold q = []) (hr : hold r = []) : Good hold c p (ws.set i r) where
  cn := g.cn
  pn := g.pn
  sub := g.sub
  held := by
    intro j q' x hj hx
    rcases get_set hj with ⟨_, rfl⟩ | ⟨_, hj⟩
    · rw [hr] at hx; cases hx
    · exact g.held j q' x hj hx
  owner := by
    intro x hx
    obtain ⟨j, q', hj, hx'⟩ := g.owner x hx
    refine ⟨j, q', ?_, hx'⟩
    rw [set_get hi, if_neg]
    · exact hj
    · rintro rfl; rw [hi] at hj; cases hj; rw [hq] at hx'; cases hx'
  excl := by
    intro j k q' r' x hj hk h1 h2
    rcases get_set hj with ⟨_, rfl⟩ | ⟨_, hj⟩
    · rw [hr] at h1; cases h1
    · rcases get_set hk with ⟨_, rfl⟩ | ⟨_, hk⟩
      · rw [hr] at h2; cases h2
      · exact g.excl j k q' r' x hj hk h1 h2

/-- a worker takes entries nobody is processing -/
theorem Good.take (g : Good hold c p ws) {i : Nat} {q r : Phase} {l : List α} (hi : ws[i]? = some q) (hq : hold q = []) (hr : hold r = l) (hl : l.Nodup) (hf : ∀ x ∈ l, x ∈ todo c p) :
    Good hold c (l ++ p) (ws.set i r) where
  cn := g.cn
  pn := by rw [List.nodup_append]; exact ⟨hl, g.pn, by intro a ha b hb e; subst e; exact (mem_todo.1 (hf a ha)).2 hb⟩
  sub := by
    intro x hx
    rcases List.mem_append.1 hx with hx | hx
    · exact (mem_todo.1 (hf x hx)).1
    · exact g.sub x hx
  held := by
    intro j q' x hj hx
    rcases get_set hj with ⟨_, rfl⟩ | ⟨_, hj⟩
    · rw [hr] at hx; exact List.mem_append_left _ hx
    · exact List.mem_append_right _ (g.held j q' x hj hx)
  owner := by
    intro x hx
    rcases List.mem_append.1 hx with hx | hx
    · exact ⟨i, r, by rw [set_get hi, if_pos rfl], by rw [hr]; exact hx⟩
    · obtain ⟨j, q', hj, hx'⟩ := g.owner x hx
      refine ⟨j, q', ?_, hx'⟩
      rw [set_get hi, if_neg]
      · exact hj
      · rintro rfl; rw [hi] at hj; cases hj; rw [hq] at hx'; cases hx'
  excl := by
    intro j k q' r' x hj hk h1 h2
    rcases get_set hj with ⟨ej, eq⟩ | ⟨_, hj'⟩
    · rcases get_set hk with ⟨ek, er⟩ | ⟨_, hk'⟩
      · rw [ej, ek]
      · rw [eq, hr] at h1; exact absurd (g.held k r' x hk' h2) (mem_todo.1 (hf x h1)).2
    · rcases get_set hk with ⟨_, er⟩ | ⟨_, hk'⟩
      · rw [er, hr] at h2; exact absurd (g.held j q' x hj' h1) (mem_todo.1 (hf x h2)).2
      · exact g.excl j k q' r' x hj' hk' h1 h2

/-- a worker is done with what it holds -/
theorem Good.drop (g : Good hold c p ws) {i : Nat} {q r : Phase} {l : List α} (hi : ws[i]? = some q) (hq : hold q = l) (hr : hold r = []) :
    Good hold (c.filter (fun x => decide (x ∉ l))) (p.filter (fun x => decide (x ∉ l))) (ws.set i r) where
  cn := g.cn.filter _
  pn := g.pn.filter _
  sub := by
    intro x hx
    simp only [List.mem_filter, decide_eq_true_eq] at hx ⊢
    exact ⟨g.sub x hx.1, hx.2⟩
  held := by
    intro j q' x hj hx
    rcases get_set hj with ⟨_, rfl⟩ | ⟨hne, hj⟩
    · rw [hr] at hx; cases hx
    · simp only [List.mem_filter, decide_eq_true_eq]
      refine ⟨g.held j q' x hj hx, fun hl => hne ?_⟩
      exact g.excl j i q' q x hj hi hx (by rw [hq]; exact hl)
  owner := by
    intro x hx
    simp only [List.mem_filter, decide_eq_true_eq] at hx
    obtain ⟨j, q', hj, hx'⟩ := g.owner x hx.1
    refine ⟨j, q', ?_, hx'⟩
    rw [set_get hi, if_neg]
    · exact hj
    · rintro rfl; rw [hi] at hj; cases hj; rw [hq] at hx'; exact hx.2 hx'
  excl := by
    intro j k q' r' x hj hk h1 h2
    rcases get_set hj with ⟨_, rfl⟩ | ⟨_, hj⟩
    · rw [hr] at h1; cases h1
    · rcases get_set hk with ⟨_, rfl⟩ | ⟨_, hk⟩
      · rw [hr] at h2; cases h2
      · exact g.excl j k q' r' x hj hk h1 h2

omit [DecidableEq α] in
theorem Good.count (g : Good hold c p ws) : p.length ≤ c.length := (List.subperm_of_subset g.pn (fun x hx => g.sub x hx)).length_le
end

def wokenLiq : Phase → Int
  | .woken true => 1
  | _ => 0

/-- workers that will look for work, or signal that another should -/
def looking : Phase → Int
  | .woken _ => 1
  | .executing .giveUpTcs => 1
  | _ => 0

/-- what a phase says about a worker's task -/
def Proper (only : Bool) : Phase → Prop
  | .woken false => only = false
  | .executing (.tcs l) => only = false ∧ 0 < l.length ∧ l.length ≤ 20 ∧ l.Nodup
  | .executing .giveUpTcs => only = true
  | .executing .noWork => only = false
  | _ => True

structure Inv (s : State) : Prop where
  pos : 1 ≤ s.workers.length
  liq : Good liqOf s.candidates s.processing s.workers
  tcs : Good tcsOf s.interesting s.processingTcs s.workers
  proper : ∀ (i : Nat) (q : Phase), s.workers[i]? = some q → Proper (s.onlyLiq i) q
  sigL : ((todo s.candidates s.processing).length : Int) ≤ s.liqSignals + s.liqUnsent + sumOf wokenLiq s.workers
  sigA : ((todo s.candidates s.processing).length : Int) + (todo s.interesting s.processingTcs).length ≤
    s.liqSignals + s.tcsSignals + s.liqUnsent + s.tcsUnsent + sumOf looking s.workers

theorem rep_get {n i : Nat} {q : Phase} (h : (List.replicate n Phase.waiting)[i]? = some q) : q = .waiting := by
  rw [List.getElem?_replicate] at h
  split at h
  · cases h; rfl
  · cases h

theorem inv_new {n : Nat} {e : Bool} (h : 1 ≤ n) : Inv (State.new n e) where
  pos := by simp [State.new, h]
  liq := ⟨by simp [State.new], by simp [State.new], by simp [State.new], (by intro i q x hi hx; rw [rep_get hi] at hx; cases hx), (by intro x hx; cases hx),
    (by intro i j q r x hi _ hx; rw [rep_get hi] at hx; cases hx)⟩
  tcs := ⟨by simp [State.new], by simp [State.new], by simp [State.new], (by intro i q x hi hx; rw [rep_get hi] at hx; cases hx), (by intro x hx; cases hx),
    (by intro i j q r x hi _ hx; rw [rep_get hi] at hx; cases hx)⟩
  proper := by intro i q hi; rw [rep_get hi]; trivial
  sigL := by
    have : 0 ≤ sumOf wokenLiq (State.new n e).workers := sumOf_nonneg (by intro x; unfold wokenLiq; split <;> omega)
    simp [State.new, todo] at this ⊢; omega
  sigA := by
    have : 0 ≤ sumOf looking (State.new n e).workers := sumOf_nonneg (by intro x; unfold looking; split <;> omega)
    simp [State.new, todo] at this ⊢; omega

theorem onlyLiq_set {s : State} {i j : Nat} {q : Phase} : ({ s with workers := s.workers.set i q } : State).onlyLiq j = s.onlyLiq j := by simp [State.onlyLiq]

theorem proper_set {s : State} {i : Nat} {q : Phase} (h : ∀ (i : Nat) (q : Phase), s.workers[i]? = some q → Proper (s.onlyLiq i) q) (hq : Proper (s.onlyLiq i) q) :
    ∀ (j : Nat) (r : Phase), (s.workers.set i q)[j]? = some r → Proper (({ s with workers := s.workers.set i q } : State).onlyLiq j) r := by
  intro j r hj
  rw [onlyLiq_set]
  rcases get_set hj with ⟨rfl, rfl⟩ | ⟨_, hj⟩
  · exact hq
  · exact h j r hj

theorem find_todo {c p : List Nat} {a : Nat} (h : c.find? (fun x => decide (x ∉ p)) = some a) : a ∈ todo c p := by
  rw [mem_todo]
  exact ⟨List.mem_of_find?_eq_some h, by simpa using List.find?_some h⟩

theorem find_none {c p : List Nat} (h : c.find? (fun x => decide (x ∉ p)) = none) : todo c p = [] := by
  rw [List.eq_nil_iff_forall_not_mem]
  intro x hx
  rw [mem_todo] at hx
  have := List.find?_eq_none.1 h x hx.1
  simp at this; exact hx.2 this

theorem inv_pull {s s' : State} {i : Nat} {t : Task} {b : Bool} (I : Inv s) (hi : s.workers[i]? = some (.woken b)) (h : pullTask s (s.onlyLiq i) = .ok (s', t)) :
    Inv { s' with workers := s'.workers.set i (.executing t) } := by
  have hp := I.proper i _ hi
  unfold pullTask at h
  have hb1 : wokenLiq (.woken b) ≤ 1 := by unfold wokenLiq; split <;> omega
  have nonneg : ∀ ws : List Phase, 0 ≤ sumOf wokenLiq ws := fun ws => sumOf_nonneg (by intro x; unfold wokenLiq; split <;> omega)
  split at h
  · rename_i a ha
    simp only [ok_inj, Prod.mk.injEq] at h
    obtain ⟨rfl, rfl⟩ := h
    have ht := find_todo ha
    have hlen := todo_take (l := [a]) I.liq.cn (by simp) (by simpa using ht)
    simp only [List.length_singleton, List.singleton_append] at hlen
    refine ⟨by simpa using I.pos, ?_, ?_, ?_, ?_, ?_⟩
    · exact I.liq.take (l := [a]) (r := .executing (.liquidation a)) hi rfl rfl (by simp) (by simpa using ht)
    · exact I.tcs.move hi rfl rfl
    · exact proper_set I.proper trivial
    · have := I.sigL
      dsimp only
      rw [sumOf_set wokenLiq hi]
      have : wokenLiq (.executing (.liquidation a)) = 0 := rfl
      omega
    · have := I.sigA
      dsimp only
      rw [sumOf_set looking hi]
      have : looking (.executing (.liquidation a)) = 0 := rfl
      have : looking (.woken b) = 1 := rfl
      omega
  · rename_i hn
    have h0 := find_none hn
    split at h
    · split at h
      · rename_i ho
        simp only [ok_inj, Prod.mk.injEq] at h
        obtain ⟨rfl, rfl⟩ := h
        refine ⟨by simpa using I.pos, I.liq.move hi rfl rfl, I.tcs.move hi rfl rfl, proper_set I.proper ho, ?_, ?_⟩
        · dsimp only
          rw [h0]
          have := nonneg (s.workers.set i (.executing .giveUpTcs))
          simp only [List.length_nil]; omega
        · have := I.sigA
          dsimp only
          rw [sumOf_set looking hi]
          have : looking (.executing .giveUpTcs) = 1 := rfl
          have : looking (.woken b) = 1 := rfl
          omega
      · rename_i ho
        have ho : s.onlyLiq i = false := by simpa using ho
        dsimp only at h
        have hf : ∀ x ∈ (s.interesting.filter (fun x => decide (x ∉ s.processingTcs))).take 20, x ∈ todo s.interesting s.processingTcs := by
          intro x hx
          have := List.mem_of_mem_take hx
          rw [mem_todo]; simpa using this
        have hnd : ((s.interesting.filter (fun x => decide (x ∉ s.processingTcs))).take 20).Nodup := (I.tcs.cn.filter _).sublist (List.take_sublist _ _)
        have hle : ((s.interesting.filter (fun x => decide (x ∉ s.processingTcs))).take 20).length ≤ 20 := by rw [List.length_take]; omega
        have hzero : ((s.interesting.filter (fun x => decide (x ∉ s.processingTcs))).take 20).length = 0 → (todo s.interesting s.processingTcs).length = 0 := by
          rw [List.length_take]; unfold todo; omega
        generalize (s.interesting.filter (fun x => decide (x ∉ s.processingTcs))).take 20 = l at h hf hnd hle hzero
        have hlen := todo_take I.tcs.cn hnd hf
        split at h
        · rename_i hl
          simp only [ok_inj, Prod.mk.injEq] at h
          obtain ⟨rfl, rfl⟩ := h
          refine ⟨by simpa using I.pos, I.liq.move hi rfl rfl, I.tcs.take hi rfl rfl hnd hf, proper_set I.proper ⟨ho, hl, hle, hnd⟩, ?_, ?_⟩
          · dsimp only
            rw [h0]
            have := nonneg (s.workers.set i (.executing (.tcs l)))
            simp only [List.length_nil]; omega
          · have := I.sigA
            dsimp only
            rw [sumOf_set looking hi]
            have : looking (.executing (.tcs l)) = 0 := rfl
            have : looking (.woken b) = 1 := rfl
            omega
        · rename_i hl
          simp only [ok_inj, Prod.mk.injEq] at h
          obtain ⟨rfl, rfl⟩ := h
          have hl0 : l = [] := by cases l with | nil => rfl | cons => simp at hl
          subst hl0
          refine ⟨by simpa using I.pos, I.liq.move hi rfl rfl, I.tcs.move hi rfl rfl, proper_set I.proper ho, ?_, ?_⟩
          · dsimp only
            rw [h0]
            have := nonneg (s.workers.set i (.executing .noWork))
            simp only [List.length_nil]; omega
          · have hz := hzero rfl
            have : 0 ≤ sumOf looking (s.workers.set i (.executing .noWork)) := sumOf_nonneg (by intro x; unfold looking; split <;> omega)
            dsimp only [List.nil_append]
            rw [h0, hz]
            simp only [List.length_nil]; omega
    · cases h

theorem filter_one (l : List Nat) (a : Nat) : l.filter (fun x => decide (x ≠ a)) = l.filter (fun x => decide (x ∉ [a])) := by
  apply List.filter_congr; intro x _; simp

theorem inv_finish {s : State} {i : Nat} {t : Task} (I : Inv s) (hi : s.workers[i]? = some (.executing t)) :
    Inv { (finalize s t) with workers := (finalize s t).workers.set i .waiting } := by
  have hw : ∀ q, wokenLiq (.executing q) = 0 := fun q => rfl
  cases t with
  | liquidation a =>
    have hin : ∀ x ∈ [a], x ∈ s.processing := by intro x hx; exact I.liq.held i _ x hi hx
    have e := todo_finish (c := s.candidates) hin
    simp only [finalize, filter_one]
    refine ⟨by simpa using I.pos, I.liq.drop hi rfl rfl, I.tcs.move hi rfl rfl, proper_set (s := s) I.proper trivial, ?_, ?_⟩
    · have := I.sigL
      dsimp only
      rw [e, sumOf_set wokenLiq hi]
      have := hw (.liquidation a)
      have : wokenLiq .waiting = 0 := rfl
      omega
    · have := I.sigA
      dsimp only
      rw [e, sumOf_set looking hi]
      have : looking (.executing (.liquidation a)) = 0 := rfl
      have : looking .waiting = 0 := rfl
      omega
  | tcs l =>
    have hin : ∀ x ∈ l, x ∈ s.processingTcs := by intro x hx; exact I.tcs.held i _ x hi hx
    have e := todo_finish (c := s.interesting) hin
    simp only [finalize]
    refine ⟨by simpa using I.pos, I.liq.move hi rfl rfl, I.tcs.drop (l := l) (r := .waiting) hi rfl rfl, proper_set (s := s) I.proper trivial, ?_, ?_⟩
    · have := I.sigL
      dsimp only
      rw [sumOf_set wokenLiq hi]
      have := hw (.tcs l)
      have : wokenLiq .waiting = 0 := rfl
      omega
    · have := I.sigA
      dsimp only
      rw [e, sumOf_set looking hi]
      have : looking (.executing (.tcs l)) = 0 := rfl
      have : looking .waiting = 0 := rfl
      omega
  | giveUpTcs =>
    simp only [finalize]
    refine ⟨by simpa using I.pos, I.liq.move hi rfl rfl, I.tcs.move hi rfl rfl, proper_set (s := s) I.proper trivial, ?_, ?_⟩
    · have := I.sigL
      dsimp only
      rw [sumOf_set wokenLiq hi]
      have := hw .giveUpTcs
      have : wokenLiq .waiting = 0 := rfl
      omega
    · have := I.sigA
      dsimp only
      rw [sumOf_set looking hi]
      have : looking (.executing .giveUpTcs) = 1 := rfl
      have : looking .waiting = 0 := rfl
      push_cast
      omega
  | noWork =>
    simp only [finalize]
    refine ⟨by simpa using I.pos, I.liq.move hi rfl rfl, I.tcs.move hi rfl rfl, proper_set (s := s) I.proper trivial, ?_, ?_⟩
    · have := I.sigL
      dsimp only
      rw [sumOf_set wokenLiq hi]
      have := hw .noWork
      have : wokenLiq .waiting = 0 := rfl
      omega
    · have := I.sigA
      dsimp only
      rw [sumOf_set looking hi]
      have : looking (.executing .noWork) = 0 := rfl
      have : looking .waiting = 0 := rfl
      omega

theorem inv_step {s s' : State} {op : Op} (I : Inv s) (h : step s op = .ok s') : Inv s' := by
  cases op with
  | findLiq a =>
    simp only [step, bind_ok, require_ok] at h
    obtain ⟨_, _, h⟩ := h
    split at h
    · cases h; exact I
    · rename_i ha
      cases h
      have hp : a ∉ s.processing := fun h => ha (I.liq.sub a h)
      refine ⟨I.pos, I.liq.add ha, I.tcs, I.proper, ?_, ?_⟩
      · have := I.sigL
        dsimp only
        rw [todo_add hp, List.length_append, List.length_singleton]; push_cast; omega
      · have := I.sigA
        dsimp only
        rw [todo_add hp, List.length_append, List.length_singleton]; push_cast; omega
  | findTcs x =>
    simp only [step] at h
    split at h
    · cases h; exact I
    · rename_i ha
      cases h
      have hp : x ∉ s.processingTcs := fun h => ha (I.tcs.sub x h)
      refine ⟨I.pos, I.liq, I.tcs.add ha, I.proper, I.sigL, ?_⟩
      have := I.sigA
      dsimp only
      rw [todo_add hp, List.length_append, List.length_singleton]; push_cast; omega
  | sendLiq =>
    simp only [step, bind_ok, require_ok, ok_inj] at h
    obtain ⟨_, h0, rfl⟩ := h
    have := I.sigL
    have := I.sigA
    exact ⟨I.pos, I.liq, I.tcs, I.proper, by dsimp only; omega, by dsimp only; omega⟩
  | sendTcs =>
    simp only [step, bind_ok, require_ok, ok_inj] at h
    obtain ⟨_, h0, rfl⟩ := h
    have := I.sigA
    exact ⟨I.pos, I.liq, I.tcs, I.proper, I.sigL, by dsimp only; omega⟩
  | wake i liq =>
    simp only [step, bind_ok, require_ok] at h
    obtain ⟨_, hi, h⟩ := h
    have h1 := I.sigL
    have h2 := I.sigA
    have e1 : wokenLiq .waiting = 0 := rfl
    have e2 : looking .waiting = 0 := rfl
    split at h
    · simp only [bind_ok, require_ok, ok_inj] at h
      obtain ⟨_, h0, rfl⟩ := h
      refine ⟨by simpa using I.pos, I.liq.move hi rfl rfl, I.tcs.move hi rfl rfl, proper_set (s := s) I.proper trivial, ?_, ?_⟩
      · dsimp only
        rw [sumOf_set wokenLiq hi]
        have : wokenLiq (.woken true) = 1 := rfl
        omega
      · dsimp only
        rw [sumOf_set looking hi]
        have : looking (.woken true) = 1 := rfl
        omega
    · simp only [bind_ok, require_ok, ok_inj] at h
      obtain ⟨_, ho, _, h0, rfl⟩ := h
      refine ⟨by simpa using I.pos, I.liq.move hi rfl rfl, I.tcs.move hi rfl rfl, proper_set (s := s) I.proper ho, ?_, ?_⟩
      · dsimp only
        rw [sumOf_set wokenLiq hi]
        have : wokenLiq (.woken false) = 0 := rfl
        omega
      · dsimp only
        rw [sumOf_set looking hi]
        have : looking (.woken false) = 1 := rfl
        omega
  | pull i =>
    simp only [step] at h
    split at h
    · rename_i b hi
      simp only [bind_ok, ok_inj] at h
      obtain ⟨⟨s1, t⟩, h1, rfl⟩ := h
      exact inv_pull I hi h1
    · cases h
  | finish i =>
    simp only [step] at h
    split at h
    · rename_i t hi
      simp only [ok_inj] at h
      subst h
      exact inv_finish I hi
    · cases h

theorem Reachable.inv {s : State} (h : Reachable s) : Inv s := by
  induction h with
  | new h => exact inv_new h
  | step _ h ih => exact inv_step ih h

/-! ### specification -/

/-- steps of the workers and of signals on their way; all but the finding of candidates -/
def Op.internal : Op → Bool
  | .findLiq _ => false
  | .findTcs _ => false
  | _ => true

/-- the step newly puts account `a` on the list of candidates -/
def listsLiq (a : Nat) (s : State) : Op → Nat
  | .findLiq b => if b = a ∧ a ∉ s.candidates then 1 else 0
  | _ => 0

/-- with the step, leading to `s'`, a worker begins liquidating account `a` -/
def beginsLiq (a : Nat) (s' : State) : Op → Nat
  | .pull i => if s'.workers[i]? = some (.executing (.liquidation a)) then 1 else 0
  | _ => 0

def listsTcs (x : Tcs) (s : State) : Op → Nat
  | .findTcs y => if y = x ∧ x ∉ s.interesting then 1 else 0
  | _ => 0

def beginsTcs (x : Tcs) (s' : State) : Op → Nat
  | .pull i => if (s'.workers[i]?.map (fun q => decide (x ∈ tcsOf q))) = some true then 1 else 0
  | _ => 0

/-- sums over a history of something in the state before each step, and after it -/
def sumBefore (f : State → Op → Nat) : State → List Op → Nat
  | _, [] => 0
  | s, op :: ops => f s op + (match step s op with
      | .ok s' => sumBefore f s' ops
      | .error _ => 0)

def sumAfter (f : State → Op → Nat) : State → List Op → Nat
  | _, [] => 0
  | s, op :: ops => match step s op with
      | .ok s' => f s' op + sumAfter f s' ops
      | .error _ => 0

/-! ### claims -/

/-- **C84, nobody else** At any time no account is being liquidated by two workers, and no candidate swap is being executed by two workers or twice by one; batches have 1 to 20 swaps; the worker kept
for liquidations never executes swaps. -/
theorem C84_exclusive {s : State} (hs : Reachable s) :
    (∀ (i j a : Nat), s.workers[i]? = some (.executing (.liquidation a)) → s.workers[j]? = some (.executing (.liquidation a)) → i = j) ∧
    (∀ (i j : Nat) (l m : List Tcs) (x : Tcs), s.workers[i]? = some (.executing (.tcs l)) → s.workers[j]? = some (.executing (.tcs m)) → x ∈ l → x ∈ m → i = j) ∧
    (∀ (i : Nat) (l : List Tcs), s.workers[i]? = some (.executing (.tcs l)) → l.Nodup ∧ 1 ≤ l.length ∧ l.length ≤ 20 ∧ (2 ≤ s.workers.length → s.enabled = true → i ≠ 0)) := by
  have I := hs.inv
  refine ⟨fun i j a hi hj => I.liq.excl i j _ _ a hi hj (by simp [liqOf]) (by simp [liqOf]), fun i j l m x hi hj h1 h2 => I.tcs.excl i j _ _ x hi hj h1 h2, ?_⟩
  intro i l hi
  obtain ⟨h1, h2, h3, h4⟩ := I.proper i _ hi
  refine ⟨h4, h2, h3, ?_⟩
  rintro h5 h6 rfl
  simp [State.onlyLiq, h6] at h1
  omega

/-- **C84, only candidates** A worker liquidates only candidates and executes only swaps that were found and are still listed. -/
theorem C84_listed {s : State} (hs : Reachable s) :
    (∀ (i a : Nat), s.workers[i]? = some (.executing (.liquidation a)) → a ∈ s.candidates) ∧
    (∀ (i : Nat) (l : List Tcs) (x : Tcs), s.workers[i]? = some (.executing (.tcs l)) → x ∈ l → x ∈ s.interesting) := by
  have I := hs.inv
  exact ⟨fun i a hi => I.liq.sub _ (I.liq.held i _ a hi (by simp [liqOf])), fun i l x hi hx => I.tcs.sub _ (I.tcs.held i _ x hi hx)⟩

/-- **C84, no panic** A woken worker always gets a task: the subtraction of the two counts cannot underflow. -/
theorem C84_pull {s : State} (hs : Reachable s) {i : Nat} {b : Bool} (hi : s.workers[i]? = some (.woken b)) :
    ∃ s' t, step s (.pull i) = .ok s' ∧ s'.workers[i]? = some (.executing t) := by
  have hc := hs.inv.tcs.count
  have key : ∃ s1 t, pullTask s (s.onlyLiq i) = .ok (s1, t) ∧ s1.workers = s.workers := by
    unfold pullTask
    split
    · exact ⟨_, _, rfl, rfl⟩
    · rw [if_pos hc]
      split
      · exact ⟨_, _, rfl, rfl⟩
      · dsimp only
        split
        · exact ⟨_, _, rfl, rfl⟩
        · exact ⟨_, _, rfl, rfl⟩
  obtain ⟨s1, t, h1, h2⟩ := key
  refine ⟨{ s1 with workers := s1.workers.set i (.executing t) }, t, ?_, ?_⟩
  · simp only [step, hi, h1]; rfl
  · dsimp only; rw [h2, set_get hi, if_pos rfl]

/-- **C84, liquidations first** A woken worker takes a liquidation if one is waiting. -/
theorem C84_priority {s s' : State} {i : Nat} (h : step s (.pull i) = .ok s') (hw : ∃ a ∈ s.candidates, a ∉ s.processing) :
    ∃ a, s'.workers[i]? = some (.executing (.liquidation a)) ∧ a ∈ s.candidates ∧ a ∉ s.processing := by
  simp only [step] at h
  split at h
  · rename_i b hi
    simp only [bind_ok, ok_inj] at h
    obtain ⟨⟨s1, t⟩, h1, rfl⟩ := h
    unfold pullTask at h1
    split at h1
    · rename_i a ha
      simp only [ok_inj, Prod.mk.injEq] at h1
      obtain ⟨rfl, rfl⟩ := h1
      obtain ⟨k1, k2⟩ := mem_todo.1 (find_todo ha)
      exact ⟨a, by dsimp only; rw [set_get hi, if_pos rfl], k1, k2⟩
    · rename_i hn
      obtain ⟨a, ha, hp⟩ := hw
      have : a ∈ todo s.candidates s.processing := mem_todo.2 ⟨ha, hp⟩
      rw [find_none hn] at this; cases this
  · cases h

theorem len_pos {α : Type} [DecidableEq α] {c p : List α} {x : α} (h1 : x ∈ c) (h2 : x ∉ p) : 0 < (todo c p).length := List.length_pos_of_mem (mem_todo.2 ⟨h1, h2⟩)

theorem sum_exists {f : Phase → Int} {ws : List Phase} (h : 0 < sumOf f ws) : ∃ (i : Nat) (q : Phase), ws[i]? = some q ∧ f q ≠ 0 := by
  by_contra hn
  push Not at hn
  have : sumOf f ws = 0 := sumOf_zero (by
    intro x hx
    obtain ⟨i, hi, rfl⟩ := List.mem_iff_getElem.1 hx
    exact hn i _ (List.getElem?_eq_getElem hi))
  omega

/-- **C84, no lost signal** While a liquidation waits, its signal (or one that will serve it) is on its way: about to be sent, in the channel, or received by a worker that is about to look. While a swap
waits, a signal is on its way or a worker is about to look or to pass the signal on. -/
theorem C84_signal {s : State} (hs : Reachable s) :
    ((∃ a ∈ s.candidates, a ∉ s.processing) → 0 < s.liqUnsent ∨ 0 < s.liqSignals ∨ ∃ i : Nat, s.workers[i]? = some (.woken true)) ∧
    ((∃ x ∈ s.interesting, x ∉ s.processingTcs) → 0 < s.liqUnsent ∨ 0 < s.liqSignals ∨ 0 < s.tcsUnsent ∨ 0 < s.tcsSignals ∨
      ∃ i : Nat, s.workers[i]? = some (.woken true) ∨ s.workers[i]? = some (.woken false) ∨ s.workers[i]? = some (.executing .giveUpTcs)) := by
  have I := hs.inv
  constructor
  · rintro ⟨a, h1, h2⟩
    have hp := len_pos h1 h2
    have := I.sigL
    by_cases k1 : 0 < s.liqUnsent
    · exact .inl k1
    by_cases k2 : 0 < s.liqSignals
    · exact .inr (.inl k2)
    obtain ⟨i, q, hi, hq⟩ := sum_exists (f := wokenLiq) (ws := s.workers) (by omega)
    refine .inr (.inr ⟨i, ?_⟩)
    unfold wokenLiq at hq
    split at hq
    · exact hi
    · exact absurd rfl hq
  · rintro ⟨x, h1, h2⟩
    have hp := len_pos h1 h2
    have := I.sigA
    by_cases k1 : 0 < s.liqUnsent
    · exact .inl k1
    by_cases k2 : 0 < s.liqSignals
    · exact .inr (.inl k2)
    by_cases k3 : 0 < s.tcsUnsent
    · exact .inr (.inr (.inl k3))
    by_cases k4 : 0 < s.tcsSignals
    · exact .inr (.inr (.inr (.inl k4)))
    obtain ⟨i, q, hi, hq⟩ := sum_exists (f := looking) (ws := s.workers) (by omega)
    refine .inr (.inr (.inr (.inr ⟨i, ?_⟩)))
    unfold looking at hq
    split at hq
    · rename_i b
      cases b
      · exact .inr (.inl hi)
      · exact .inl hi
    · exact .inr (.inr hi)
    · exact absurd rfl hq

/-- **C84, nothing stays** If no worker can do anything and no signal is on its way, every candidate has been handled. -/
theorem C84_quiet {s : State} (hs : Reachable s) (hq : ∀ op, op.internal = true → ∃ e, step s op = .error e) : s.candidates = [] ∧ s.interesting = [] := by
  have I := hs.inv
  have no : ∀ {op : Op} {s' : State}, op.internal = true → step s op = .ok s' → False := by
    intro op s' h1 h2
    obtain ⟨e, he⟩ := hq op h1
    rw [he] at h2; cases h2
  have wait : ∀ (i : Nat) (q : Phase), s.workers[i]? = some q → q = .waiting := by
    intro i q hi
    cases q with
    | waiting => rfl
    | woken b =>
      obtain ⟨s', _, h, _⟩ := C84_pull hs hi
      exact (no rfl h).elim
    | executing t =>
      exact (no (op := .finish i) rfl (by simp only [step, hi]; rfl)).elim
  have hget : ∀ i : Nat, i < s.workers.length → s.workers[i]? = some .waiting := by
    intro i hi
    have h := List.getElem?_eq_getElem hi
    rw [h, wait i _ h]
  have u1 : s.liqUnsent = 0 := by
    by_contra h
    exact no (op := .sendLiq) rfl (by simp only [step, bind_ok, require_ok, ok_inj]; exact ⟨(), by omega, rfl⟩)
  have u2 : s.tcsUnsent = 0 := by
    by_contra h
    exact no (op := .sendTcs) rfl (by simp only [step, bind_ok, require_ok, ok_inj]; exact ⟨(), by omega, rfl⟩)
  have u3 : s.liqSignals = 0 := by
    by_contra h
    exact no (op := .wake 0 true) rfl (by
      simp only [step, bind_ok, require_ok, if_true, ok_inj]; exact ⟨(), hget 0 I.pos, (), by omega, rfl⟩)
  have u4 : s.tcsSignals = 0 := by
    by_contra h
    by_cases h1 : 1 < s.workers.length
    · exact no (op := .wake 1 false) rfl (by
        simp only [step, bind_ok, require_ok, Bool.false_eq_true, if_false, ok_inj]; exact ⟨(), hget 1 h1, (), by simp [State.onlyLiq], (), by omega, rfl⟩)
    · exact no (op := .wake 0 false) rfl (by
        simp only [step, bind_ok, require_ok, Bool.false_eq_true, if_false, ok_inj]; exact ⟨(), hget 0 I.pos, (), by simp [State.onlyLiq, h1], (), by omega, rfl⟩)
  have h1 := (C84_signal hs).1
  have h2 := (C84_signal hs).2
  have p1 : s.processing = [] := by
    rw [List.eq_nil_iff_forall_not_mem]
    intro x hx
    obtain ⟨i, q, hi, hxq⟩ := I.liq.owner x hx
    rw [wait i q hi] at hxq; cases hxq
  have p2 : s.processingTcs = [] := by
    rw [List.eq_nil_iff_forall_not_mem]
    intro x hx
    obtain ⟨i, q, hi, hxq⟩ := I.tcs.owner x hx
    rw [wait i q hi] at hxq; cases hxq
  have no2 : ∀ (i : Nat) (q : Phase), q ≠ .waiting → s.workers[i]? ≠ some q := fun i q hq h => hq (wait i q h)
  constructor
  · rw [List.eq_nil_iff_forall_not_mem]
    intro x hx
    rcases h1 ⟨x, hx, by rw [p1]; simp⟩ with h | h | ⟨i, h⟩
    · omega
    · omega
    · exact no2 i _ (by simp) h
  · rw [List.eq_nil_iff_forall_not_mem]
    intro x hx
    rcases h2 ⟨x, hx, by rw [p2]; simp⟩ with h | h | h | h | ⟨i, h | h | h⟩
    · omega
    · omega
    · omega
    · omega
    · exact no2 i _ (by simp) h
    · exact no2 i _ (by simp) h
    · exact no2 i _ (by simp) h

/-- what is left to do in a phase, and in a state -/
def phaseWork : Phase → Nat
  | .waiting => 0
  | .woken false => 2
  | .woken true => 5
  | .executing .giveUpTcs => 4
  | .executing _ => 1

def work (s : State) : Nat := 7 * s.liqUnsent + 6 * s.liqSignals + 4 * s.tcsUnsent + 3 * s.tcsSignals + (s.workers.map phaseWork).sum

theorem sum_set {ws : List Phase} {i : Nat} {q r : Phase} (h : ws[i]? = some q) : ((ws.set i r).map phaseWork).sum + phaseWork q = (ws.map phaseWork).sum + phaseWork r := by
  induction ws generalizing i with
  | nil => simp at h
  | cons a ws ih =>
    cases i with
    | zero => simp at h; subst h; simp; omega
    | succ i =>
      have := ih (i := i) (by simpa using h)
      simp only [List.set_cons_succ, List.map_cons, List.sum_cons]; omega

theorem pull_same {s s' : State} {o : Bool} {t : Task} (h : pullTask s o = .ok (s', t)) :
    s'.workers = s.workers ∧ s'.liqUnsent = s.liqUnsent ∧ s'.liqSignals = s.liqSignals ∧ s'.tcsUnsent = s.tcsUnsent ∧ s'.tcsSignals = s.tcsSignals ∧ (t = .giveUpTcs → o = true) := by
  unfold pullTask at h
  split at h
  · simp only [ok_inj, Prod.mk.injEq] at h; obtain ⟨rfl, rfl⟩ := h; simp
  · split at h
    · split at h
      · rename_i ho
        simp only [ok_inj, Prod.mk.injEq] at h; obtain ⟨rfl, rfl⟩ := h; simp [ho]
      · dsimp only at h
        split at h
        · simp only [ok_inj, Prod.mk.injEq] at h; obtain ⟨rfl, rfl⟩ := h; simp
        · simp only [ok_inj, Prod.mk.injEq] at h; obtain ⟨rfl, rfl⟩ := h; simp
    · cases h

/-- **C84, it ends** Every step other than finding a candidate leaves less work: between two finds only a bounded number of steps is possible, in any order, until everything is handled (`C84_quiet`). -/
theorem C84_work {s s' : State} (hs : Reachable s) {op : Op} (ho : op.internal = true) (h : step s op = .ok s') : work s' < work s := by
  have I := hs.inv
  unfold work
  cases op with
  | findLiq a => cases ho
  | findTcs x => cases ho
  | sendLiq =>
    simp only [step, bind_ok, require_ok, ok_inj] at h
    obtain ⟨_, h0, rfl⟩ := h
    dsimp only; omega
  | sendTcs =>
    simp only [step, bind_ok, require_ok, ok_inj] at h
    obtain ⟨_, h0, rfl⟩ := h
    dsimp only; omega
  | wake i liq =>
    simp only [step, bind_ok, require_ok] at h
    obtain ⟨_, hi, h⟩ := h
    split at h
    · simp only [bind_ok, require_ok, ok_inj] at h
      obtain ⟨_, h0, rfl⟩ := h
      have := sum_set (r := .woken true) hi
      simp only [phaseWork] at this
      dsimp only; omega
    · simp only [bind_ok, require_ok, ok_inj] at h
      obtain ⟨_, _, _, h0, rfl⟩ := h
      have := sum_set (r := .woken false) hi
      simp only [phaseWork] at this
      dsimp only; omega
  | pull i =>
    simp only [step] at h
    split at h
    · rename_i b hi
      simp only [bind_ok, ok_inj] at h
      obtain ⟨⟨s1, t⟩, h1, rfl⟩ := h
      obtain ⟨e1, e2, e3, e4, e5, e6⟩ := pull_same h1
      have hp := I.proper i _ hi
      have := sum_set (r := .executing t) hi
      dsimp only
      rw [e1, e2, e3, e4, e5]
      have : phaseWork (.executing t) < phaseWork (.woken b) := by
        cases b with
        | false =>
          have hp : s.onlyLiq i = false := hp
          cases t with
          | giveUpTcs => rw [e6 rfl] at hp; cases hp
          | _ => simp [phaseWork]
        | true => cases t <;> simp [phaseWork]
      omega
    · cases h
  | finish i =>
    simp only [step] at h
    split at h
    · rename_i t hi
      simp only [ok_inj] at h
      subst h
      have := sum_set (r := .waiting) hi
      cases t <;> simp only [finalize, phaseWork] at this ⊢ <;> omega
    · cases h

theorem pull_liq {s s' : State} {i a : Nat} (I : Inv s) (h : step s (.pull i) = .ok s') :
    (s'.workers[i]? = some (.executing (.liquidation a)) ∧ a ∈ todo s.candidates s.processing ∧ a ∉ todo s'.candidates s'.processing) ∨
    (s'.workers[i]? ≠ some (.executing (.liquidation a)) ∧ (a ∈ todo s'.candidates s'.processing ↔ a ∈ todo s.candidates s.processing)) := by
  simp only [step] at h
  split at h
  · rename_i b hi
    simp only [bind_ok, ok_inj] at h
    obtain ⟨⟨s1, t⟩, h1, rfl⟩ := h
    have hws := (pull_same h1).1
    dsimp only
    rw [hws, set_get hi, if_pos rfl]
    unfold pullTask at h1
    split at h1
    · rename_i c hc
      simp only [ok_inj, Prod.mk.injEq] at h1
      obtain ⟨rfl, rfl⟩ := h1
      have ht := find_todo hc
      by_cases e : a = c
      · subst e
        exact .inl ⟨rfl, ht, by rw [mem_todo]; simp⟩
      · refine .inr ⟨by simpa using fun e' => e e'.symm, ?_⟩
        rw [mem_todo, mem_todo]; simp [e]
    · split at h1
      · split at h1
        · simp only [ok_inj, Prod.mk.injEq] at h1; obtain ⟨rfl, rfl⟩ := h1
          exact .inr ⟨by simp, Iff.rfl⟩
        · dsimp only at h1
          split at h1
          · simp only [ok_inj, Prod.mk.injEq] at h1; obtain ⟨rfl, rfl⟩ := h1
            exact .inr ⟨by simp, Iff.rfl⟩
          · simp only [ok_inj, Prod.mk.injEq] at h1; obtain ⟨rfl, rfl⟩ := h1
            exact .inr ⟨by simp, Iff.rfl⟩
      · cases h1
  · cases h

theorem pull_tcs {s s' : State} {i : Nat} {x : Tcs} (I : Inv s) (h : step s (.pull i) = .ok s') :
    ((s'.workers[i]?.map (fun q => decide (x ∈ tcsOf q))) = some true ∧ x ∈ todo s.interesting s.processingTcs ∧ x ∉ todo s'.interesting s'.processingTcs) ∨
    ((s'.workers[i]?.map (fun q => decide (x ∈ tcsOf q))) ≠ some true ∧ (x ∈ todo s'.interesting s'.processingTcs ↔ x ∈ todo s.interesting s.processingTcs)) := by
  simp only [step] at h
  split at h
  · rename_i b hi
    simp only [bind_ok, ok_inj] at h
    obtain ⟨⟨s1, t⟩, h1, rfl⟩ := h
    have hws := (pull_same h1).1
    dsimp only
    rw [hws, set_get hi, if_pos rfl]
    have no : ∀ t', tcsOf (.executing t') = [] → (some (Phase.executing t')).map (fun q => decide (x ∈ tcsOf q)) ≠ some true := by
      intro t' e
      simp [e]
    unfold pullTask at h1
    split at h1
    · simp only [ok_inj, Prod.mk.injEq] at h1
      obtain ⟨rfl, rfl⟩ := h1
      exact .inr ⟨no _ rfl, Iff.rfl⟩
    · split at h1
      · split at h1
        · simp only [ok_inj, Prod.mk.injEq] at h1; obtain ⟨rfl, rfl⟩ := h1
          exact .inr ⟨no _ rfl, Iff.rfl⟩
        · dsimp only at h1
          have hf : ∀ x ∈ (s.interesting.filter (fun x => decide (x ∉ s.processingTcs))).take 20, x ∈ todo s.interesting s.processingTcs := by
            intro x hx
            have := List.mem_of_mem_take hx
            rw [mem_todo]; simpa using this
          generalize (s.interesting.filter (fun x => decide (x ∉ s.processingTcs))).take 20 = l at h1 hf
          split at h1
          · simp only [ok_inj, Prod.mk.injEq] at h1; obtain ⟨rfl, rfl⟩ := h1
            by_cases e : x ∈ l
            · exact .inl ⟨by simp [tcsOf, e], hf x e, by rw [mem_todo]; simp [e]⟩
            · exact .inr ⟨by simp [tcsOf, e], by rw [mem_todo, mem_todo]; simp [e]⟩
          · rename_i hl
            simp only [ok_inj, Prod.mk.injEq] at h1; obtain ⟨rfl, rfl⟩ := h1
            have hl0 : l = [] := by cases l with | nil => rfl | cons => simp at hl
            subst hl0
            exact .inr ⟨no _ rfl, Iff.rfl⟩
      · cases h1
  · cases h

theorem finish_todo {s s' : State} {i : Nat} (I : Inv s) (h : step s (.finish i) = .ok s') :
    todo s'.candidates s'.processing = todo s.candidates s.processing ∧ todo s'.interesting s'.processingTcs = todo s.interesting s.processingTcs := by
  simp only [step] at h
  split at h
  · rename_i t hi
    simp only [ok_inj] at h
    subst h
    cases t with
    | liquidation a =>
      simp only [finalize, filter_one]
      exact ⟨todo_finish (fun x hx => I.liq.held i _ x hi hx), by simp⟩
    | tcs l => exact ⟨rfl, todo_finish (fun x hx => I.tcs.held i _ x hi hx)⟩
    | giveUpTcs => exact ⟨rfl, rfl⟩
    | noWork => exact ⟨rfl, rfl⟩
  · cases h

theorem step_todo {s s' : State} {op : Op} (I : Inv s) (h : step s op = .ok s') :
    (∃ b, op = .findLiq b ∧ b ∉ s.candidates ∧ todo s'.candidates s'.processing = todo s.candidates s.processing ++ [b] ∧ todo s'.interesting s'.processingTcs = todo s.interesting s.processingTcs) ∨
    (∃ b, op = .findTcs b ∧ b ∉ s.interesting ∧ todo s'.interesting s'.processingTcs = todo s.interesting s.processingTcs ++ [b] ∧ todo s'.candidates s'.processing = todo s.candidates s.processing) ∨
    (∃ i, op = .pull i) ∨
    ((∀ i, op ≠ .pull i) ∧ (∀ b, op = .findLiq b → b ∈ s.candidates) ∧ (∀ b, op = .findTcs b → b ∈ s.interesting) ∧
      todo s'.candidates s'.processing = todo s.candidates s.processing ∧ todo s'.interesting s'.processingTcs = todo s.interesting s.processingTcs) := by
  cases op with
  | findLiq b =>
    simp only [step, bind_ok, require_ok] at h
    obtain ⟨_, _, h⟩ := h
    by_cases hb : b ∈ s.candidates
    · rw [if_pos hb, ok_inj] at h
      subst h
      refine .inr (.inr (.inr ⟨(by intro i h; cases h), (by intro c h; cases h; exact hb), (by intro c h; cases h), rfl, rfl⟩))
    · rw [if_neg hb, ok_inj] at h
      subst h
      exact .inl ⟨b, rfl, hb, todo_add (fun h => hb (I.liq.sub b h)), rfl⟩
  | findTcs b =>
    simp only [step] at h
    by_cases hb : b ∈ s.interesting
    · rw [if_pos hb, ok_inj] at h
      subst h
      refine .inr (.inr (.inr ⟨(by intro i h; cases h), (by intro c h; cases h), (by intro c h; cases h; exact hb), rfl, rfl⟩))
    · rw [if_neg hb, ok_inj] at h
      subst h
      exact .inr (.inl ⟨b, rfl, hb, todo_add (fun h => hb (I.tcs.sub b h)), rfl⟩)
  | sendLiq =>
    simp only [step, bind_ok, require_ok, ok_inj] at h
    obtain ⟨_, _, rfl⟩ := h
    exact .inr (.inr (.inr ⟨(by intro i h; cases h), (by intro c h; cases h), (by intro c h; cases h), rfl, rfl⟩))
  | sendTcs =>
    simp only [step, bind_ok, require_ok, ok_inj] at h
    obtain ⟨_, _, rfl⟩ := h
    exact .inr (.inr (.inr ⟨(by intro i h; cases h), (by intro c h; cases h), (by intro c h; cases h), rfl, rfl⟩))
  | wake i l =>
    simp only [step, bind_ok, require_ok] at h
    obtain ⟨_, _, h⟩ := h
    split at h
    · simp only [bind_ok, require_ok, ok_inj] at h
      obtain ⟨_, _, rfl⟩ := h
      exact .inr (.inr (.inr ⟨(by intro i h; cases h), (by intro c h; cases h), (by intro c h; cases h), rfl, rfl⟩))
    · simp only [bind_ok, require_ok, ok_inj] at h
      obtain ⟨_, _, _, _, rfl⟩ := h
      exact .inr (.inr (.inr ⟨(by intro i h; cases h), (by intro c h; cases h), (by intro c h; cases h), rfl, rfl⟩))
  | pull i => exact .inr (.inr (.inl ⟨i, rfl⟩))
  | finish i =>
    obtain ⟨h1, h2⟩ := finish_todo I h
    exact .inr (.inr (.inr ⟨(by intro i h; cases h), (by intro c h; cases h), (by intro c h; cases h), h1, h2⟩))

theorem step_liq {s s' : State} {op : Op} (I : Inv s) (h : step s op = .ok s') (a : Nat) :
    beginsLiq a s' op + (if a ∈ todo s'.candidates s'.processing then 1 else 0) = listsLiq a s op + (if a ∈ todo s.candidates s.processing then 1 else 0) := by
  rcases step_todo I h with ⟨b, rfl, hb, e, _⟩ | ⟨b, rfl, hb, _, e⟩ | ⟨i, rfl⟩ | ⟨h1, h2, _, e, _⟩
  · simp only [beginsLiq, listsLiq, e]
    have hn : b ∉ todo s.candidates s.processing := fun h => hb (mem_todo.1 h).1
    by_cases k : b = a
    · subst k; simp [hb, hn]
    · have : a ≠ b := fun e => k e.symm
      simp [k, this]
  · simp only [beginsLiq, listsLiq, e]
  · simp only [beginsLiq, listsLiq]
    rcases pull_liq (a := a) I h with ⟨k1, k2, k3⟩ | ⟨k1, k2⟩
    · rw [if_pos k1, if_pos k2, if_neg k3]
    · rw [if_neg k1]; simp only [k2]
  · rw [e]
    cases op with
    | pull i => exact absurd rfl (h1 i)
    | findLiq b =>
      have := h2 b rfl
      simp only [beginsLiq, listsLiq]
      rw [if_neg (c := b = a ∧ a ∉ s.candidates)]
      rintro ⟨rfl, k⟩; exact k this
    | _ => simp only [beginsLiq, listsLiq]

theorem step_tcs {s s' : State} {op : Op} (I : Inv s) (h : step s op = .ok s') (x : Tcs) :
    beginsTcs x s' op + (if x ∈ todo s'.interesting s'.processingTcs then 1 else 0) = listsTcs x s op + (if x ∈ todo s.interesting s.processingTcs then 1 else 0) := by
  rcases step_todo I h with ⟨b, rfl, hb, _, e⟩ | ⟨b, rfl, hb, e, _⟩ | ⟨i, rfl⟩ | ⟨h1, _, h2, _, e⟩
  · simp only [beginsTcs, listsTcs, e]
  · simp only [beginsTcs, listsTcs, e]
    have hn : b ∉ todo s.interesting s.processingTcs := fun h => hb (mem_todo.1 h).1
    by_cases k : b = x
    · subst k; simp [hb, hn]
    · have : x ≠ b := fun e => k e.symm
      simp [k, this]
  · simp only [beginsTcs, listsTcs]
    rcases pull_tcs (x := x) I h with ⟨k1, k2, k3⟩ | ⟨k1, k2⟩
    · rw [if_pos k1, if_pos k2, if_neg k3]
    · rw [if_neg k1]; simp only [k2]
  · rw [e]
    cases op with
    | pull i => exact absurd rfl (h1 i)
    | findTcs b =>
      have := h2 b rfl
      simp only [beginsTcs, listsTcs]
      rw [if_neg (c := b = x ∧ x ∉ s.interesting)]
      rintro ⟨rfl, k⟩; exact k this
    | _ => simp only [beginsTcs, listsTcs]

/-- **C84, exactly once** Over any history, account `a` is liquidated exactly as often as it was newly put on the list, except that it may still be waiting on it; the same for conditional swaps. -/
theorem C84_once {s s' : State} (hs : Reachable s) {ops : List Op} (h : run s ops = .ok s') :
    (∀ a, sumAfter (beginsLiq a) s ops + (if a ∈ s'.candidates ∧ a ∉ s'.processing then 1 else 0) = sumBefore (listsLiq a) s ops + (if a ∈ s.candidates ∧ a ∉ s.processing then 1 else 0)) ∧
    (∀ x, sumAfter (beginsTcs x) s ops + (if x ∈ s'.interesting ∧ x ∉ s'.processingTcs then 1 else 0) = sumBefore (listsTcs x) s ops + (if x ∈ s.interesting ∧ x ∉ s.processingTcs then 1 else 0)) := by
  simp only [← mem_todo]
  induction ops generalizing s with
  | nil => simp only [run, ok_inj] at h; subst h; exact ⟨fun _ => rfl, fun _ => rfl⟩
  | cons op ops ih =>
    simp only [run, bind_ok] at h
    obtain ⟨s1, h1, h⟩ := h
    obtain ⟨i1, i2⟩ := ih (.step hs h1) h
    simp only [sumAfter, sumBefore, h1]
    refine ⟨fun a => ?_, fun x => ?_⟩
    · have := step_liq hs.inv h1 a
      have := i1 a
      omega
    · have := step_tcs hs.inv h1 x
      have := i2 x
      omega

/-- **C84, finding** A conditional swap is listed with its volume: found again while it is being executed, with another volume, it is executed by a second worker at the same time. -/
theorem C84_same_swap_twice : ∃ s : State, Reachable s ∧ s.workers[1]? = some (.executing (.tcs [⟨7, 1, 100⟩])) ∧ s.workers[2]? = some (.executing (.tcs [⟨7, 1, 99⟩])) := by
  have key : run (State.new 3 true) [.findTcs ⟨7, 1, 100⟩, .sendTcs, .wake 1 false, .pull 1, .findTcs ⟨7, 1, 99⟩, .sendTcs, .wake 2 false, .pull 2] =
      .ok { enabled := true, candidates := [], processing := [], interesting := [⟨7, 1, 100⟩, ⟨7, 1, 99⟩], processingTcs := [⟨7, 1, 99⟩, ⟨7, 1, 100⟩], liqSignals := 0, tcsSignals := 0,
            liqUnsent := 0, tcsUnsent := 0, workers := [.waiting, .executing (.tcs [⟨7, 1, 100⟩]), .executing (.tcs [⟨7, 1, 99⟩])] } := by decide +kernel
  have reach : ∀ (ops : List Op) (s s' : State), Reachable s → run s ops = .ok s' → Reachable s' := by
    intro ops
    induction ops with
    | nil => intro s s' hs h; simp only [run, ok_inj] at h; subst h; exact hs
    | cons op ops ih =>
      intro s s' hs h
      simp only [run, bind_ok] at h
      obtain ⟨s1, h1, h⟩ := h
      exact ih s1 s' (.step hs h1) h
  exact ⟨_, reach _ _ _ (.new (by decide)) key, rfl, rfl⟩

/-! ### when accounts are checked -/

/-- histories in which no account changes while a scan runs -/
def calm : Bool → List SOp → Bool
  | _, [] => true
  | r, .update _ :: ops => !r && calm r ops
  | _, .start :: ops => calm true ops
  | r, .check _ :: ops => calm r ops
  | _, .done :: ops => calm false ops

/-- account `a` changed and was not checked since -/
def stale (a : Nat) (b : Bool) : List SOp → Bool
  | [] => b
  | .update c :: ops => stale a (b || decide (c = a)) ops
  | .check c :: ops => stale a (b && decide (c ≠ a)) ops
  | _ :: ops => stale a b ops

theorem scan_inv {ops : List SOp} {s s' : Scan} {a : Nat} {b : Bool} (hc : calm s.todo.isSome ops = true)
    (h1 : s.todo = none → b = true → s.event = true ∧ a ∈ s.accounts) (h2 : ∀ l, s.todo = some l → b = true → a ∈ l) (h : srun s ops = .ok s') :
    (s'.todo = none → stale a b ops = true → s'.event = true ∧ a ∈ s'.accounts) ∧ (∀ l, s'.todo = some l → stale a b ops = true → a ∈ l) := by
  induction ops generalizing s b with
  | nil => simp only [srun, ok_inj] at h; subst h; exact ⟨h1, h2⟩
  | cons op ops ih =>
    simp only [srun, bind_ok] at h
    obtain ⟨s1, hs, h⟩ := h
    cases op with
    | update c =>
      simp only [calm, Bool.and_eq_true, Bool.not_eq_true', Option.isSome_eq_false_iff, Option.isNone_iff_eq_none] at hc
      obtain ⟨hn, hc⟩ := hc
      simp only [sstep, ok_inj] at hs
      subst hs
      simp only [stale]
      refine ih (by rw [hn] at hc ⊢; exact hc) ?_ ?_ h
      · intro _ hb
        refine ⟨rfl, ?_⟩
        simp only [Bool.or_eq_true, decide_eq_true_eq] at hb
        dsimp only
        rcases hb with hb | rfl
        · have := (h1 hn hb).2
          split
          · exact this
          · exact List.mem_cons_of_mem _ this
        · split
          · assumption
          · exact List.mem_cons_self
      · intro l hl
        dsimp only at hl; rw [hn] at hl; cases hl
    | start =>
      simp only [sstep, bind_ok, require_ok, ok_inj] at hs
      obtain ⟨_, hn, _, _, rfl⟩ := hs
      simp only [stale]
      refine ih (by simpa [calm] using hc) (by intro h; cases h) ?_ h
      intro l hl hb
      cases hl
      exact (h1 hn hb).2
    | check c =>
      simp only [sstep] at hs
      split at hs
      · rename_i l hl
        simp only [bind_ok, require_ok, ok_inj] at hs
        obtain ⟨_, _, rfl⟩ := hs
        simp only [stale]
        refine ih (by rw [hl] at hc; simpa [calm] using hc) (by intro h; cases h) ?_ h
        intro m hm hb
        cases hm
        simp only [Bool.and_eq_true, decide_eq_true_eq] at hb
        simp only [List.mem_filter, decide_eq_true_eq]
        exact ⟨h2 l hl hb.1, fun e => hb.2 e.symm⟩
      · cases hs
    | done =>
      simp only [sstep, bind_ok, require_ok, ok_inj] at hs
      obtain ⟨_, ht, rfl⟩ := hs
      simp only [stale]
      refine ih (by simpa [calm] using hc) ?_ (by intro l h; cases h) h
      intro _ hb
      have := h2 _ ht hb
      cases this

/-- **C84, scans** If accounts change only between scans, then whenever the liquidation job waits with nothing new, every account was checked after its last change. -/
theorem C84_scan {ops : List SOp} {s : Scan} (hc : calm false ops = true) (h : srun Scan.new ops = .ok s) (hn : s.todo = none) (he : s.event = false) (a : Nat) : stale a false ops = false := by
  have := (scan_inv (s := Scan.new) (a := a) (b := false) (by simpa [Scan.new] using hc) (by intro _ h; cases h) (by intro l h; cases h) h).1 hn
  by_contra hs
  have := (this (by simpa using hs)).1
  rw [he] at this; cases this

/-- **C84, finding** A change that arrives while a scan runs, after the account was checked, is forgotten when the scan ends: the account is not checked until some account changes again. -/
theorem C84_update_during_scan : ∃ (ops : List SOp) (s : Scan), srun Scan.new ops = .ok s ∧ s.todo = none ∧ s.event = false ∧ stale 1 false ops = true ∧
    sstep s .start = .error .someError :=
  ⟨[.update 1, .update 2, .start, .check 1, .update 1, .check 2, .done], ⟨false, [2, 1], none⟩, by decide +kernel, rfl, rfl, by decide +kernel, by decide +kernel⟩

/-! cases -/
def exOps : List Op := [.findLiq 5, .sendLiq, .findTcs ⟨7, 1, 100⟩, .findLiq 6, .sendTcs, .wake 1 false, .pull 1, .wake 0 true, .pull 0, .sendLiq, .findLiq 5]
example : (run (State.new 2 true) exOps).map (fun s => (s.workers, s.candidates, s.liqSignals, s.tcsSignals)) =
    .ok ([.executing (.liquidation 6), .executing (.liquidation 5)], [5, 6], 1, 0) := by decide +kernel
example : (run (State.new 2 true) (exOps ++ [.finish 0, .finish 1, .wake 0 true, .pull 0, .finish 0, .wake 1 false, .pull 1])).map (fun s => (s.workers, s.candidates, s.interesting)) =
    .ok ([.waiting, .executing (.tcs [⟨7, 1, 100⟩])], [], [⟨7, 1, 100⟩]) := by decide +kernel
example : sumBefore (listsLiq 5) (State.new 2 true) exOps = 1 ∧ sumAfter (beginsLiq 5) (State.new 2 true) exOps = 1 := by decide +kernel
example : calm false [.update 1, .start, .check 1, .done, .update 2] = true ∧ srun Scan.new [.update 1, .start, .check 1, .done] = .ok ⟨false, [1], none⟩ := by decide +kernel

end Workers
end Mango
