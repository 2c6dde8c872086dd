import Verif.Book.Queue
import Mathlib.Data.List.Basic
import Mathlib.Tactic.Ring
/-!
# C23: the event queue is a bounded FIFO over every history

The specification below is a plain list with a capacity and a push counter; it mentions nothing of the ring
buffer.  The theorems say that the ring buffer and the specification answer every operation of every history
alike and always hold the same elements in the same order.
-/
namespace Mango
namespace FifoSpec
variable {α : Type}

/-- Specification: a bounded FIFO. `seq` counts the pushes that were made and not reverted. -/
structure Fifo (α : Type) where
  cap : Nat
  items : List α
  seq : Int
  deriving DecidableEq, Repr

/-- One operation on the specification.  A failing operation reports its error (and changes nothing, see `run`). -/
def step (s : Fifo α) : EventQueue.Op α → Res (Option α × Fifo α)
  | .push v =>
      if s.items.length = s.cap then .error .queueFull
      else if s.seq + 1 ≤ U64MAX then .ok (none, { s with items := s.items ++ [v], seq := s.seq + 1 })
      else .error .panic
  | .pop => match s.items with
      | [] => .error .someError
      | v :: rest => .ok (some v, { s with items := rest })
  | .revert n =>
      if n ≤ s.items.length then
        .ok (none, { s with items := s.items.take n, seq := s.seq - (s.items.length - n : Nat) })
      else .error .someError

def run (s : Fifo α) : List (EventQueue.Op α) → List (Res (Option α)) × Fifo α
  | [] => ([], s)
  | op :: ops =>
    match step s op with
    | .ok (o, s') => let (os, s'') := run s' ops; (.ok o :: os, s'')
    | .error e => let (os, s'') := run s ops; (.error e :: os, s'')

def init (cap : Nat) : Fifo α := { cap, items := [], seq := 0 }
end FifoSpec

namespace EventQueue
variable {α : Type}

/-- Representation invariant of the ring buffer. -/
structure Inv (q : EventQueue α) : Prop where
  cap_pos : 0 < q.buf.length
  head_lt : q.head < q.buf.length
  count_le : q.count ≤ q.buf.length
  seq_ge : (q.count : Int) ≤ q.seqNum
  seq_le : q.seqNum ≤ U64MAX

theorem toList_eq_map (q : EventQueue α) (h : Inv q) :
    q.toList = (List.range q.count).map
      (fun i => q.buf[(q.head + i) % q.buf.length]'(Nat.mod_lt _ h.cap_pos)) := by
  unfold toList
  rw [← List.filterMap_eq_map]
  apply List.filterMap_congr
  intro i _
  simp [Nat.mod_lt _ h.cap_pos]

theorem toList_length (q : EventQueue α) (h : Inv q) : q.toList.length = q.count := by
  rw [toList_eq_map q h]; simp

theorem toList_get (q : EventQueue α) (h : Inv q) (i : Nat) (hi : i < q.count) :
    q.toList[i]? = q.buf[(q.head + i) % q.buf.length]? := by
  rw [toList_eq_map q h]
  have := Nat.mod_lt (q.head + i) h.cap_pos
  rw [List.getElem?_map, List.getElem?_range hi]
  simp [this]

/-- two positions of the ring within one turn are distinct -/
theorem ring_ne {h c i j : Nat} (hi : i < c) (hj : j < c) (hij : i ≠ j) (hh : h < c) :
    (h + i) % c ≠ (h + j) % c := by
  intro e
  have h1 : (h + i) % c = if h + i < c then h + i else h + i - c := by
    split
    · exact Nat.mod_eq_of_lt ‹_›
    · rw [Nat.mod_eq_sub_mod (by omega), Nat.mod_eq_of_lt (by omega)]
  have h2 : (h + j) % c = if h + j < c then h + j else h + j - c := by
    split
    · exact Nat.mod_eq_of_lt ‹_›
    · rw [Nat.mod_eq_sub_mod (by omega), Nat.mod_eq_of_lt (by omega)]
  rw [h1, h2] at e
  split at e <;> split at e <;> omega

/-- The abstraction relation. -/
def Rel (q : EventQueue α) (s : FifoSpec.Fifo α) : Prop :=
  Inv q ∧ s.cap = q.buf.length ∧ s.items = q.toList ∧ s.seq = q.seqNum

theorem step_refines {q : EventQueue α} {s : FifoSpec.Fifo α} (hR : Rel q s) (op : Op α) :
    (∃ o q' s', q.step op = .ok (o, q') ∧ FifoSpec.step s op = .ok (o, s') ∧ Rel q' s') ∨
    (∃ e, q.step op = .error e ∧ FifoSpec.step s op = .error e) := by
  obtain ⟨hI, hc, hi, hs⟩ := hR
  have hlen := toList_length q hI
  have hsl : s.items.length = q.count := by rw [hi, hlen]
  have ⟨h1, h2, h3, h4, h5⟩ := hI
  cases op with
  | push v =>
    simp only [step, pushBack, full, FifoSpec.step, hsl, hc]
    by_cases hf : q.count = q.buf.length
    · right
      refine ⟨.queueFull, ?_, ?_⟩
      · simp [hf, bind, Except.bind]
      · simp [hf]
    · by_cases hu : q.seqNum + 1 ≤ U64MAX
      · left
        have hck : cku64 (q.seqNum + 1) = .ok (q.seqNum + 1) := by
          rw [cku64_ok]; refine ⟨rfl, by omega, hu⟩
        have hI' : Inv { q with buf := q.buf.set ((q.head + q.count) % q.buf.length) v,
                                count := q.count + 1, seqNum := q.seqNum + 1 } := by
          constructor <;> simp only [List.length_set] <;> omega
        refine ⟨none, _, { s with items := s.items ++ [v], seq := s.seq + 1 }, ?_, ?_, hI', ?_, ?_, ?_⟩
        · simp [hf, hck, bind, Except.bind]
        · rw [if_neg hf, hs, if_pos hu, ← hc]
        · simp [hc]
        · apply List.ext_getElem?
          intro i
          simp only [hi]
          rcases Nat.lt_trichotomy i q.count with hlt | heq | hgt
          · rw [List.getElem?_append_left (by omega), toList_get q hI i hlt,
              toList_get _ hI' i (by simp only; omega)]
            simp only [List.length_set]
            rw [List.getElem?_set_ne]
            exact ring_ne (by omega) (by omega) (by omega) h2
          · subst heq
            rw [List.getElem?_append_right (by omega), hlen, toList_get _ hI' _ (by simp only; omega)]
            simp [Nat.mod_lt _ h1]
          · rw [List.getElem?_eq_none, List.getElem?_eq_none]
            · rw [toList_length _ hI']; simp only; omega
            · simp [hlen]; omega
        · simp [hs]
      · right
        refine ⟨.panic, ?_, ?_⟩
        · have hck : cku64 (q.seqNum + 1) = .error .panic := by
            unfold cku64 chk; rw [if_neg]; omega
          simp [hf, hck, bind, Except.bind]
        · simp [hf, hs, hu]
  | pop =>
    simp only [step, popFront, isEmpty, len, FifoSpec.step]
    by_cases he : q.count = 0
    · right
      refine ⟨.someError, ?_, ?_⟩
      · simp [he, bind, Except.bind]
      · have : s.items = [] := List.eq_nil_of_length_eq_zero (by omega)
        simp [this]
    · left
      have hI' : Inv { q with count := q.count - 1, head := (q.head + 1) % q.buf.length } := by
        have := Nat.mod_lt (q.head + 1) h1
        constructor <;> simp only <;> omega
      have hne : s.items ≠ [] := by intro e; rw [e] at hsl; simp at hsl; omega
      obtain ⟨v, rest, hvr⟩ := List.exists_cons_of_ne_nil hne
      have hv : q.buf[q.head]? = some v := by
        have := toList_get q hI 0 (by omega)
        rw [← hi, hvr] at this
        simp at this
        rw [Nat.mod_eq_of_lt h2] at this
        exact this.symm
      refine ⟨some v, _, { s with items := rest }, ?_, ?_, hI', ?_, ?_, ?_⟩
      · simp [he, hv, bind, Except.bind]
      · rw [hvr]
      · simp [hc]
      · apply List.ext_getElem?
        intro i
        have hr : rest[i]? = s.items[i+1]? := by rw [hvr]; simp
        simp only [hr, hi]
        by_cases hlt : i + 1 < q.count
        · rw [toList_get q hI _ hlt, toList_get _ hI' i (by simp only; omega)]
          simp only
          congr 1
          rw [Nat.mod_add_mod]
          congr 1; omega
        · rw [List.getElem?_eq_none, List.getElem?_eq_none]
          · rw [toList_length _ hI']; simp only; omega
          · omega
      · simp [hs]
  | revert n =>
    simp only [step, revertPushes, FifoSpec.step, hsl]
    by_cases hn : n ≤ q.count
    · left
      have hck : cku64 (q.seqNum - ((q.count - n : Nat) : Int)) = .ok (q.seqNum - ((q.count - n : Nat) : Int)) := by
        rw [cku64_ok]; refine ⟨rfl, by omega, by omega⟩
      have hI' : Inv { q with count := n, seqNum := q.seqNum - ((q.count - n : Nat) : Int) } := by
        constructor <;> simp only <;> omega
      refine ⟨none, _, { s with items := s.items.take n, seq := s.seq - ((q.count - n : Nat) : Int) },
        ?_, ?_, hI', ?_, ?_, ?_⟩
      · rw [if_pos hn, hck]; simp only [bind, Except.bind]
      · rw [if_pos hn]
      · simp [hc]
      · apply List.ext_getElem?
        intro i
        simp only [hi]
        by_cases hlt : i < n
        · rw [List.getElem?_take_of_lt hlt, toList_get q hI i (by omega), toList_get _ hI' i (by simpa using hlt)]
        · rw [List.getElem?_eq_none, List.getElem?_eq_none]
          · rw [toList_length _ hI']; simp only; omega
          · simp; omega
      · simp [hs]
    · right
      refine ⟨.someError, ?_, ?_⟩
      · rw [if_neg hn]; simp only [bind, Except.bind]
      · rw [if_neg hn]

theorem run_refines (ops : List (Op α)) : ∀ {q : EventQueue α} {s : FifoSpec.Fifo α}, Rel q s →
    (q.run ops).1 = (FifoSpec.run s ops).1 ∧ Rel (q.run ops).2 (FifoSpec.run s ops).2 := by
  induction ops with
  | nil => intro q s h; exact ⟨rfl, h⟩
  | cons op ops ih =>
    intro q s h
    rcases step_refines h op with ⟨o, q', s', e1, e2, h'⟩ | ⟨e, e1, e2⟩
    · have := ih h'
      simp only [run, FifoSpec.run, e1, e2]
      exact ⟨by rw [this.1], this.2⟩
    · have := ih h
      simp only [run, FifoSpec.run, e1, e2]
      exact ⟨by rw [this.1], this.2⟩

theorem init_rel (fill : α) (cap : Nat) (h : 0 < cap) : Rel (init fill cap) (FifoSpec.init cap) := by
  refine ⟨?_, ?_, ?_, ?_⟩
  · constructor <;> simp [init, h, U64MAX]
  · simp [FifoSpec.init, init]
  · simp [FifoSpec.init, init, toList]
  · simp [FifoSpec.init, init]

/-- **C23**: for every capacity and every history of pushes, pops and push reversions (failing ones included)
starting from the freshly created queue, the ring buffer gives the same answers as the bounded FIFO
specification, and afterwards iterating it yields exactly the specification's items, its length is their number,
its front is their first, it reports full/empty exactly when they are, and its sequence number is the
specification's push counter. -/
theorem C23_event_queue_is_fifo (fill : α) (cap : Nat) (hcap : 0 < cap) (ops : List (Op α)) :
    let r := (init fill cap).run ops
    let s := FifoSpec.run (FifoSpec.init cap) ops
    r.1 = s.1 ∧ r.2.toList = s.2.items ∧ r.2.len = s.2.items.length ∧ r.2.peekFront = s.2.items.head? ∧
    (r.2.full = true ↔ s.2.items.length = cap) ∧ (r.2.isEmpty = true ↔ s.2.items = []) ∧
    r.2.seqNum = s.2.seq ∧ r.2.buf.length = cap := by
  intro r s
  obtain ⟨h1, hI, h2, h3, h4⟩ := run_refines ops (init_rel fill cap hcap)
  have hcapr : ∀ (ops : List (Op α)) (f : FifoSpec.Fifo α), (FifoSpec.run f ops).2.cap = f.cap := by
    intro ops
    induction ops with
    | nil => intro f; rfl
    | cons op ops ih =>
      intro f
      simp only [FifoSpec.run]
      split
      · rename_i o s' hs
        simp only [ih]
        cases op <;> simp only [FifoSpec.step] at hs
        · split at hs
          · cases hs
          · split at hs <;> cases hs; rfl
        · split at hs <;> cases hs; rfl
        · split at hs <;> cases hs; rfl
      · simp only [ih]
  have hcb : r.2.buf.length = cap := by rw [← h2, hcapr]; rfl
  have hl : s.2.items.length = r.2.count := by
    show (FifoSpec.run _ ops).2.items.length = _
    rw [h3]; exact toList_length _ hI
  refine ⟨h1, h3.symm, hl.symm, ?_, ?_, ?_, h4.symm, hcb⟩
  · unfold peekFront isEmpty len
    by_cases h0 : r.2.count = 0
    · have : s.2.items = [] := List.eq_nil_of_length_eq_zero (by omega)
      simp [h0, this]
    · have := toList_get _ hI 0 (by have : r.2.count = ((init fill cap).run ops).2.count := rfl
                                    omega)
      rw [← h3] at this
      rw [Nat.add_zero, Nat.mod_eq_of_lt hI.head_lt] at this
      simp [h0]
      rw [List.head?_eq_getElem?]; exact this.symm
  · unfold full; rw [beq_iff_eq, hcb, hl]
  · unfold isEmpty len; rw [beq_iff_eq, ← hl, List.length_eq_zero_iff]

/-- **C23**: failing operations change nothing, and they fail only for the stated reasons, in every reachable
state. -/
theorem C23_failures (fill : α) (cap : Nat) (hcap : 0 < cap) (ops : List (Op α)) (v : α) :
    let q := ((init fill cap).run ops).2
    (q.pushBack v = .error .queueFull ↔ q.toList.length = cap) ∧
    (q.popFront = .error .someError ↔ q.toList = []) ∧
    (∀ n, q.revertPushes n = .error .someError ↔ q.toList.length < n) := by
  intro q
  obtain ⟨_, a2, a3, _, a5, a6, _, a8⟩ := C23_event_queue_is_fifo fill cap hcap ops
  obtain ⟨_, hI, _⟩ := run_refines ops (init_rel fill cap hcap)
  have hl := toList_length q hI
  have hcb : q.buf.length = cap := a8
  refine ⟨?_, ?_, ?_⟩
  · unfold pushBack full
    by_cases hf : q.count = q.buf.length
    · simp [hf]; omega
    · simp only [beq_iff_eq, hf, if_false]
      constructor
      · intro h
        unfold cku64 chk at h
        split at h <;> simp [bind, Except.bind] at h
      · intro h; omega
  · unfold popFront isEmpty len
    by_cases hf : q.count = 0
    · have : q.toList = [] := List.eq_nil_of_length_eq_zero (by omega)
      simp [hf, this]
    · have : q.toList ≠ [] := by intro e; rw [e] at hl; simp at hl; omega
      have hx : q.head < q.buf.length := hI.head_lt
      simp [hf, this, List.getElem?_eq_getElem hx]
  · intro n
    unfold revertPushes
    by_cases hn : n ≤ q.count
    · have hck : cku64 (q.seqNum - ((q.count - n : Nat) : Int)) = .ok (q.seqNum - ((q.count - n : Nat) : Int)) := by
        have hI2 : Inv q := hI
        have := hI2.seq_ge
        have := hI2.seq_le
        rw [cku64_ok]; refine ⟨rfl, by omega, by omega⟩
      rw [if_pos hn, hck]
      simp [bind, Except.bind]; omega
    · simp [hn]; omega

/-- non-vacuity: a history that wraps around a capacity-2 ring, overflows it and reverts. -/
example : ((init 0 2).run [.push 1, .push 2, .push 3, .pop, .push 4, .revert 1, .push 5, .pop, .pop, .pop]) =
    ([.ok none, .ok none, .error .queueFull, .ok (some 1), .ok none, .ok none, .ok none, .ok (some 2),
      .ok (some 5), .error .someError], { head := 1, count := 0, seqNum := 3, buf := [5, 2] }) := by
  decide +kernel

end EventQueue
end Mango
