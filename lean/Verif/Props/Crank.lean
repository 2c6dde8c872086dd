import Verif.Bots.Crank
import Verif.Props.Keeper
import Mathlib.Data.List.Dedup
import Mathlib.Data.Nat.ModEq
/-!
# C97: the crank service
-/
namespace Mango
namespace Crank
open Perp

/-! ## Perp markets -/

/-- C97: a perp market's events are consumed unless there is no fill and at most two other events; the accounts are those named by the first ten events, each once -/
theorem C97_perp {s : PSys} (_h : Reachable s) :
    (perpSink s.queue = none ↔ (∀ e ∈ pending s, ∀ f, e ≠ .fill f) ∧ (pending s).length ≤ 2) ∧
    ∀ avail, perpSink s.queue = some avail → avail.Nodup ∧ ∀ u, u ∈ avail ↔ ∃ e ∈ (pending s).take 10, Keeper.names u e := by
  have hany : s.queue.toList.any isFill = false ↔ ∀ e ∈ pending s, ∀ f, e ≠ .fill f := by
    rw [List.any_eq_false]
    constructor
    · intro h e he f hf; subst hf; exact h _ he rfl
    · intro h e he; cases e with
      | fill f => exact absurd rfl (h _ he f)
      | out _ => simp [isFill]
  unfold perpSink
  by_cases hc : s.queue.toList.any isFill = false ∧ ¬ s.queue.toList.length > 2
  · dsimp only
    rw [if_pos hc]
    exact ⟨⟨fun _ => ⟨hany.1 hc.1, by have := hc.2; unfold pending; omega⟩, fun _ => rfl⟩, fun _ h => by cases h⟩
  · dsimp only
    rw [if_neg hc]
    refine ⟨⟨(fun h => by cases h), fun h => absurd ⟨hany.2 h.1, by have := h.2; unfold pending at this; omega⟩ hc⟩, ?_⟩
    intro avail he
    cases he
    refine ⟨List.nodup_dedup _, fun u => ?_⟩
    rw [List.mem_dedup, List.mem_flatMap]
    simp only [Keeper.mem_accountsOf]
    exact Iff.rfl

/-- C97: if its instruction succeeds, with any other instructions executed since it saw the queue (`j` events were consumed), then the first eight events it had seen are consumed; it stops earlier only at the end of the queue or at
an event that names an account it did not see -/
theorem C97_consumes {s : PSys} (h : Reachable s) {avail : List Nat} (hf : perpSink s.queue = some avail) {ops : List POp} (ht : ∀ op ∈ ops, op.Typed)
    (hn : s.market.seqNum + ordersPlaced ops < 9223372036854775808) {j : Nat} {new : List Event} (hj : pending (prun s ops) = (pending s ++ new).drop j) {s' : PSys}
    (hs : pstep (prun s ops) (Keeper.crankOp avail) = .ok s') :
    ∃ k, k ≤ 8 ∧ k ≤ (pending (prun s ops)).length ∧ pending s' = (pending (prun s ops)).drop k ∧ min 8 (min 10 (pending s).length - j) ≤ k ∧
      (k < 8 → pending s' = [] ∨ ∃ e rest, pending s' = e :: rest ∧ ∃ u, Keeper.names u e ∧ u ∉ avail) :=
  Keeper.consumes_seen h ((C97_perp h).2 avail hf).2 ht hn hj hs

/-! ## Which market -/

theorem lookup_none {pks : List (Nat × Nat)} {k : Nat} (h : ∀ p ∈ pks, p.1 ≠ k) : lookup pks k = none := by
  unfold lookup
  rw [Option.map_eq_none_iff, List.find?_eq_none]
  intro p hp
  simpa using h p (List.mem_reverse.1 hp)

/-- C97, a defect: the map is made of pairs of market and queue and asked for the queue. As no queue is a market, every update that is not throttled ends in a panic, and nothing is ever sent -/
theorem C97_panics {pks : List (Nat × Nat)} {key : Nat} (h : ∀ p ∈ pks, p.1 ≠ key) (avail : List Nat) : process pks key (some avail) = .error .panic ∧ process pks key none = .ok none := by
  unfold process
  exact ⟨by dsimp only; rw [lookup_none h], rfl⟩

/-- C97: with the pairs the other way round, the instruction would name the queue's market -/
theorem C97_flipped {pks : List (Nat × Nat)} (hq : (pks.map (·.2)).Nodup) {market key : Nat} (h : (market, key) ∈ pks) (avail : List Nat) :
    process (pks.map Prod.swap) key (some avail) = .ok (some (market, avail)) := by
  have hl : lookup (pks.map Prod.swap) key = some market := by
    unfold lookup
    cases hf : (pks.map Prod.swap).reverse.find? (fun p => p.1 == key) with
    | none =>
      rw [List.find?_eq_none] at hf
      have := hf (key, market) (by simp only [List.mem_reverse, List.mem_map]; exact ⟨_, h, rfl⟩)
      simp at this
    | some p =>
      have h1 := List.find?_some hf
      have h2 := List.mem_of_find?_eq_some hf
      simp only [List.mem_reverse, List.mem_map] at h2
      obtain ⟨⟨m, k⟩, h3, rfl⟩ := h2
      have h1 : k = key := by simpa using h1
      subst h1
      have := List.inj_on_of_nodup_map hq h3 h rfl
      simp only [Prod.mk.injEq] at this
      simp [this.1]
  unfold process
  dsimp only
  rw [hl]

/-- C97: the queues of spot markets are found for each market, if all markets exist -/
theorem C97_pairs (markets queues : List Nat) (h : markets.length = queues.length) : spotPairs markets (queues.map some) = markets.zip queues := by
  unfold spotPairs
  simp

/-- C97, a defect: if one market does not exist (any more), those after it get the queue of the next -/
theorem C97_pairs_shifted : spotPairs [1, 2, 3] [none, some 12, some 13] = [(1, 12), (2, 13)] := by decide +kernel

/-! ## Spot markets -/

/-- the events pending in a spot market's queue with room for `cap` events, by its history -/
def spotPending (cap : Nat) : List RingOp → List SpotEvent → List SpotEvent
  | [], l => l
  | .push e :: ops, l => spotPending cap ops (if l.length = cap then l else l ++ [e])
  | .pop :: ops, l => spotPending cap ops l.tail

structure RInv (r : Ring) (l : List SpotEvent) : Prop where
  count : r.count = l.length
  room : l.length ≤ r.buf.length
  seq : r.count ≤ r.seq
  head : r.head = (r.seq - r.count) % r.buf.length
  at_ : ∀ i, i < l.length → r.buf[(r.head + i) % r.buf.length]? = l[i]?

theorem mod_ne {a i c L : Nat} (h1 : i < c) (h2 : c < L) : (a + i) % L ≠ (a + c) % L := by
  intro h
  have : i ≡ c [MOD L] := Nat.ModEq.add_left_cancel' a h
  unfold Nat.ModEq at this
  rw [Nat.mod_eq_of_lt (by omega), Nat.mod_eq_of_lt h2] at this
  omega

theorem ring_step {r : Ring} {l : List SpotEvent} (h : RInv r l) (op : RingOp) :
    (r.step op).buf.length = r.buf.length ∧ RInv (r.step op) (spotPending r.buf.length [op] l) := by
  obtain ⟨h1, h2, h3, h4, h5⟩ := h
  cases op with
  | push e =>
    simp only [Ring.step, spotPending, h1]
    by_cases hc : l.length = r.buf.length
    · rw [if_pos hc, if_pos hc]; exact ⟨rfl, h1, h2, h3, h4, h5⟩
    · rw [if_neg hc, if_neg hc]
      have hL : 0 < r.buf.length := by omega
      refine ⟨by simp, ⟨by simp, by simp; omega, by dsimp only; omega, ?_, ?_⟩⟩
      · dsimp only
        rw [List.length_set, h4, h1]
        congr 1
        omega
      · intro i hi
        dsimp only
        rw [List.length_set]
        rw [List.length_append, List.length_singleton] at hi
        by_cases hil : i = l.length
        · subst hil
          rw [List.getElem?_set_self (Nat.mod_lt _ hL)]
          simp
        · rw [List.getElem?_set_ne (mod_ne (by omega) (by omega)).symm, h5 i (by omega), List.getElem?_append_left (by omega)]
  | pop =>
    simp only [Ring.step, spotPending]
    by_cases hc : r.count = 0
    · rw [if_pos hc]
      have : l = [] := List.length_eq_zero_iff.1 (by omega)
      subst this
      exact ⟨rfl, h1, h2, h3, h4, h5⟩
    · rw [if_neg hc]
      have hL : 0 < r.buf.length := by omega
      refine ⟨rfl, ⟨by dsimp only; rw [List.length_tail]; omega, by rw [List.length_tail]; dsimp only; omega, by dsimp only; omega, ?_, ?_⟩⟩
      · dsimp only
        rw [h4, Nat.mod_add_mod]
        congr 1
        omega
      · intro i hi
        rw [List.length_tail] at hi
        dsimp only
        rw [Nat.mod_add_mod, Nat.add_assoc, Nat.add_comm 1 i, h5 (i + 1) (by omega), List.getElem?_tail]

theorem pending_append (cap : Nat) (a b : List RingOp) : ∀ l, spotPending cap (a ++ b) l = spotPending cap b (spotPending cap a l) := by
  induction a with
  | nil => intro l; rfl
  | cons o a ih => intro l; cases o <;> exact ih _

theorem ring_run (ops : List RingOp) : ∀ {r : Ring} {l : List SpotEvent}, RInv r l → RInv (ops.foldl Ring.step r) (spotPending r.buf.length ops l) := by
  induction ops with
  | nil => intro r l h; exact h
  | cons o ops ih =>
    intro r l h
    obtain ⟨h1, h2⟩ := ring_step h o
    have := ih h2
    rw [h1] at this
    rw [show o :: ops = [o] ++ ops from rfl, pending_append]
    exact this

theorem mapM_ok {α β : Type} {f : α → Res β} {g : α → β} : ∀ {l : List α}, (∀ a ∈ l, f a = .ok (g a)) → l.mapM f = .ok (l.map g) := by
  intro l
  induction l with
  | nil => intro _; rfl
  | cons a l ih =>
    intro h
    rw [List.mapM_cons, h a (by simp), ih (fun b hb => h b (by simp [hb]))]
    rfl

/-- C97: the crank reads exactly the pending events of a spot market, in order, whatever the queue's history -/
theorem C97_ring (buf : List SpotEvent) (ops : List RingOp) : readRing (ops.foldl Ring.step { buf := buf }) = .ok (spotPending buf.length ops []) := by
  have h : RInv (ops.foldl Ring.step { buf := buf }) (spotPending buf.length ops []) :=
    ring_run ops (r := { buf := buf }) ⟨rfl, by simp, le_refl _, by simp, fun i hi => by simp at hi⟩
  generalize ops.foldl Ring.step { buf := buf } = r at h
  generalize spotPending buf.length ops [] = l at h
  obtain ⟨h1, h2, h3, h4, h5⟩ := h
  unfold readRing
  rw [mapM_ok (g := fun i => (l[i]?).getD ⟨false, 0⟩)]
  · congr 1
    rw [h1]
    apply List.ext_getElem
    · simp
    · intro i h6 h7
      simp [List.getElem?_eq_getElem h7]
  · intro i hi
    have hi : i < l.length := by rw [← h1]; exact List.mem_range.1 hi
    have := h5 i hi
    rw [h4, Nat.mod_add_mod] at this
    rw [this, List.getElem?_eq_getElem hi]
    unfold require
    rw [if_pos h3]
    rfl

/-- C97: a spot market's events are consumed unless there is no fill and at most two other events; the accounts are exactly their owners, each once and sorted, and the limit is the number of events (below 65536) -/
theorem C97_spot (es : List SpotEvent) :
    (spotSink es = none ↔ (∀ e ∈ es, e.fill = false) ∧ es.length ≤ 2) ∧
    ∀ avail limit, spotSink es = some (avail, limit) → avail.Pairwise (· < ·) ∧ (∀ u, u ∈ avail ↔ ∃ e ∈ es, e.owner = u) ∧ (es.length < 65536 → limit = es.length) := by
  unfold spotSink
  by_cases hc : es.any (·.fill) = false ∧ ¬ es.length > 2
  · rw [if_pos hc]
    refine ⟨⟨fun _ => ⟨by simpa [List.any_eq_false] using hc.1, by omega⟩, fun _ => rfl⟩, fun _ _ h => by cases h⟩
  · rw [if_neg hc]
    refine ⟨⟨(fun h => by cases h), fun h => absurd ⟨by simpa [List.any_eq_false] using h.1, by omega⟩ hc⟩, ?_⟩
    intro avail limit he
    simp only [Option.some.injEq, Prod.mk.injEq] at he
    obtain ⟨rfl, rfl⟩ := he
    refine ⟨?_, fun u => ?_, fun h => Nat.mod_eq_of_lt h⟩
    · have h1 : ((es.map (·.owner)).dedup.mergeSort (· ≤ ·)).Pairwise (· ≤ ·) := by
        have := List.pairwise_mergeSort (le := fun a b : Nat => decide (a ≤ b)) (by intro a b c; simp; omega) (by intro a b; simp; omega) (es.map (·.owner)).dedup
        exact this.imp (by simp)
      have h2 : ((es.map (·.owner)).dedup.mergeSort (· ≤ ·)).Nodup := (List.mergeSort_perm _ _).nodup_iff.2 (List.nodup_dedup _)
      exact h1.imp₂ (fun a b hle hne => lt_of_le_of_ne hle hne) h2
    · rw [List.mem_mergeSort]
      simp

/-- a market with one pending fill: it is cranked, and the fill consumed; one with none is not -/
example : Reachable (txRun txOps) ∧ perpSink (txRun txOps).queue = some [0, 1] ∧ perpSink (txRun []).queue = none ∧
    (match pstep (prun (txRun txOps) [txPlace 0 (txIoc .ask 2 90)]) (Keeper.crankOp [0, 1]) with | .ok s => decide (s.queue.toList = []) | .error _ => false) = true :=
  ⟨txReach1, by decide +kernel, by decide +kernel, by decide +kernel⟩

/-- markets 1, 2 with queues 11, 12: asked for a queue, the map as it is made has nothing, the other way round it has the market -/
example : process [(1, 11), (2, 12)] 12 (some [7]) = .error .panic ∧ process [(11, 1), (12, 2)] 12 (some [7]) = .ok (some (2, [7])) ∧ process [(1, 11), (2, 12)] 12 none = .ok none ∧
    spotPairs [1, 2] ([11, 12].map some) = [(1, 11), (2, 12)] := by decide +kernel

/-- a queue with room for three events, around its end: four pushed (the last fails), two consumed, two pushed -/
example : readRing (([.push ⟨false, 1⟩, .push ⟨true, 2⟩, .push ⟨false, 3⟩, .push ⟨false, 4⟩, .pop, .pop, .push ⟨true, 5⟩, .push ⟨false, 3⟩] : List RingOp).foldl Ring.step
      { buf := [⟨false, 0⟩, ⟨false, 0⟩, ⟨false, 0⟩] }) = .ok [⟨false, 3⟩, ⟨true, 5⟩, ⟨false, 3⟩] ∧
    spotPending 3 [.push ⟨false, 1⟩, .push ⟨true, 2⟩, .pop, .pop, .pop] [] = [] := by decide +kernel

example : spotSink [⟨false, 9⟩, ⟨false, 4⟩] = none ∧ (spotSink [⟨true, 9⟩]).isSome ∧ (spotSink [⟨false, 9⟩, ⟨false, 4⟩, ⟨false, 9⟩]).isSome := by
  refine ⟨by decide +kernel, by decide +kernel, by decide +kernel⟩

end Crank
end Mango
