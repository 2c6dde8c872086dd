import Verif.Book.Iter
import Verif.Props.Tree
/-!
# C16: keys realise price-time priority.  C17: iteration merges the two trees by priority.
-/
namespace Mango
namespace Book

/-! ## C16 -/

/-- on this side, the order with key `k1` is matched before the one with key `k2` (bids iterate keys downwards) -/
def keyFirst (side : Side) (k1 k2 : Nat) : Prop := if side = .bid then k2 < k1 else k1 < k2

instance (side : Side) (a b : Nat) : Decidable (keyFirst side a b) := by unfold keyFirst; infer_instance

theorem newNodeKey_eq (side : Side) (pd seq : Nat) (hs : seq ≤ U64MAXN) :
    newNodeKey side pd seq = pd * 18446744073709551616 + (if side = .bid then U64MAXN - seq else seq) := by
  unfold newNodeKey
  generalize hx : (if side = .bid then U64MAXN - seq else seq) = low
  have h : low < 2 ^ 64 := by
    have : low ≤ U64MAXN := by rw [← hx]; split <;> omega
    unfold U64MAXN at this; omega
  rw [← Nat.shiftLeft_add_eq_or_of_lt h, Nat.shiftLeft_eq]

theorem key_order (side : Side) (p1 p2 s1 s2 : Nat) (h1 : s1 ≤ U64MAXN) (h2 : s2 ≤ U64MAXN) :
    keyFirst side (newNodeKey side p1 s1) (newNodeKey side p2 s2) ↔
      (side.isPriceBetter p1 p2 = true ∨ (p1 = p2 ∧ s1 < s2)) := by
  rw [newNodeKey_eq _ _ _ h1, newNodeKey_eq _ _ _ h2]
  unfold keyFirst
  unfold U64MAXN at *
  cases side
  · simp only [if_true, Side.isPriceBetter, decide_eq_true_eq]; omega
  · simp only [reduceCtorEq, if_false, Side.isPriceBetter, decide_eq_true_eq]; omega

/-- **C16 (fixed-price orders).** For any two accepted prices and any sequence numbers, the key of the first order is
matched before the key of the second exactly if its price is better, or equal with a smaller sequence number. -/
theorem C16_fixed_price_time_priority (side : Side) (p1 p2 : Int) (d1 d2 s1 s2 : Nat)
    (e1 : fixedPriceData p1 = .ok d1) (e2 : fixedPriceData p2 = .ok d2) (h1 : s1 ≤ U64MAXN) (h2 : s2 ≤ U64MAXN) :
    keyFirst side (newNodeKey side d1 s1) (newNodeKey side d2 s2) ↔
      (side.isPriceBetter p1 p2 = true ∨ (p1 = p2 ∧ s1 < s2)) := by
  rw [key_order _ _ _ _ _ h1 h2]
  unfold fixedPriceData at e1 e2
  split at e1 <;> simp at e1
  split at e2 <;> simp at e2
  have q1 : (d1 : Int) = p1 := by omega
  have q2 : (d2 : Int) = p2 := by omega
  rw [q1, q2]
  have : d1 = d2 ↔ p1 = p2 := by omega
  rw [this]

theorem pegData_eq (off : Int) (h1 : I64MIN ≤ off) (h2 : off ≤ I64MAX) : (oraclePeggedPriceData off : Int) = off + 9223372036854775808 := by
  unfold oraclePeggedPriceData i64AsU64 U64MAXN
  unfold I64MIN at h1; unfold I64MAX at h2
  omega

/-- **C16 (oracle-pegged orders).** The same for peg offsets: all pegged orders of a side are ranked by offset, then age. -/
theorem C16_pegged_price_time_priority (side : Side) (o1 o2 : Int) (s1 s2 : Nat)
    (a1 : I64MIN ≤ o1 ∧ o1 ≤ I64MAX) (a2 : I64MIN ≤ o2 ∧ o2 ≤ I64MAX) (h1 : s1 ≤ U64MAXN) (h2 : s2 ≤ U64MAXN) :
    keyFirst side (newNodeKey side (oraclePeggedPriceData o1) s1) (newNodeKey side (oraclePeggedPriceData o2) s2) ↔
      (side.isPriceBetter o1 o2 = true ∨ (o1 = o2 ∧ s1 < s2)) := by
  rw [key_order _ _ _ _ _ h1 h2, pegData_eq o1 a1.1 a1.2, pegData_eq o2 a2.1 a2.2]
  have b1 := pegData_eq o1 a1.1 a1.2
  have b2 := pegData_eq o2 a2.1 a2.2
  have : oraclePeggedPriceData o1 = oraclePeggedPriceData o2 ↔ o1 = o2 := by omega
  rw [this]
  cases side <;> simp [Side.isPriceBetter]

/-- **C16 (recovery, uniqueness, range).** From a key built with any accepted price (any offset) the price (offset) is
read back exactly, the key fits 128 bits, and orders with different sequence numbers never share a key. -/
theorem C16_recover (side : Side) (p off : Int) (d seq : Nat) (hp : p ≤ I64MAX) (e : fixedPriceData p = .ok d)
    (a : I64MIN ≤ off ∧ off ≤ I64MAX) (h : seq ≤ U64MAXN) :
    fixedPriceLots ((newNodeKey side d seq) / 2 ^ 64) = .ok p ∧
    oraclePeggedPriceOffset ((newNodeKey side (oraclePeggedPriceData off) seq) / 2 ^ 64) = off ∧
    newNodeKey side d seq < 2 ^ 128 ∧ newNodeKey side (oraclePeggedPriceData off) seq < 2 ^ 128 := by
  have hlow : (if side = .bid then U64MAXN - seq else seq) < 18446744073709551616 := by
    unfold U64MAXN at *; split <;> omega
  have hdiv : ∀ pd, (newNodeKey side pd seq) / 2 ^ 64 = pd := by
    intro pd
    rw [newNodeKey_eq _ _ _ h]
    generalize (if side = .bid then U64MAXN - seq else seq) = low at hlow
    norm_num
    omega
  have hb := pegData_eq off a.1 a.2
  unfold fixedPriceData at e
  split at e <;> simp at e
  refine ⟨?_, ?_, ?_, ?_⟩
  · rw [hdiv]; unfold fixedPriceLots
    have hd : (d : Int) = p := by omega
    rw [hd, if_pos hp]
  · rw [hdiv, peg_offset _ (by unfold I64MIN I64MAX at a; omega)]; omega
  · rw [newNodeKey_eq _ _ _ h]; generalize (if side = .bid then U64MAXN - seq else seq) = low at hlow
    unfold I64MAX at hp; norm_num; omega
  · rw [newNodeKey_eq _ _ _ h]; generalize (if side = .bid then U64MAXN - seq else seq) = low at hlow
    unfold I64MIN I64MAX at a; norm_num; omega

theorem C16_distinct (side : Side) (d1 d2 s1 s2 : Nat) (h1 : s1 ≤ U64MAXN) (h2 : s2 ≤ U64MAXN) (hne : s1 ≠ s2) :
    newNodeKey side d1 s1 ≠ newNodeKey side d2 s2 := by
  rw [newNodeKey_eq _ _ _ h1, newNodeKey_eq _ _ _ h2]
  unfold U64MAXN at *
  split <;> omega

example : keyFirst .bid (newNodeKey .bid 100 7) (newNodeKey .bid 100 8) ∧ keyFirst .ask (newNodeKey .ask 99 9) (newNodeKey .ask 100 8) ∧
    keyFirst .bid (newNodeKey .bid (oraclePeggedPriceData (-3)) 9) (newNodeKey .bid (oraclePeggedPriceData (-5)) 2) := by decide +kernel

/-! ## C17 -/

/-- Histories of a market's book side: fixed-price orders carry a price that fits an i64 (`fixed_price_data` and the
i64 argument guarantee this for every inserted order). -/
def TOp.okBook : TOp → Prop
  | .insert .fixed l => l.key < 2 ^ 128 ∧ (l.priceData : Int) ≤ I64MAX
  | .insert .pegged l => l.key < 2 ^ 128
  | _ => True

theorem TOp.okBook_ok {op : TOp} (h : op.okBook) : op.ok := by
  cases op with
  | insert c l => cases c <;> simp only [TOp.okBook] at h <;> simp only [TOp.ok] <;> tauto
  | _ => trivial

def SpecSide.good (s : SpecSide) : Prop := (∀ x ∈ s.fixedL, goodFixed x) ∧ (∀ x ∈ s.peggedL, x.key < 2 ^ 128)

theorem mem_sSetQty {k : Nat} {q : Int} {xs : List Leaf} {x : Leaf} (h : x ∈ sSetQty k q xs) : ∃ y ∈ xs, y.key = x.key := by
  unfold sSetQty at h
  rw [List.mem_map] at h
  obtain ⟨y, hy, rfl⟩ := h
  refine ⟨y, hy, ?_⟩
  split <;> rfl

theorem specStep_good {cap : Nat} {s : SpecSide} (h : s.good) (op : TOp) (hop : op.okBook) : (specStep cap s op).2.good := by
  have key : ∀ (c : Comp) (xs : List Leaf), (∀ x ∈ xs, (∃ y ∈ s.get c, y.key = x.key) ∨ (match c with | .fixed => goodFixed x | .pegged => x.key < 2 ^ 128)) →
      (s.set c xs).good := by
    intro c xs hx
    cases c
    · refine ⟨fun x m => ?_, h.2⟩
      rcases hx x m with ⟨y, hy, e⟩ | hh
      · have := h.1 y hy; unfold goodFixed Leaf.priceData at *; rw [← e]; exact this
      · exact hh
    · refine ⟨h.1, fun x m => ?_⟩
      rcases hx x m with ⟨y, hy, e⟩ | hh
      · rw [← e]; exact h.2 y hy
      · exact hh
  cases op with
  | insert c l =>
    simp only [specStep]
    split
    · apply key
      intro x hx
      rw [C13_spec_insert] at hx
      rcases hx with rfl | hx
      · right
        cases c
        · exact hop.2
        · exact hop
      · exact Or.inl ⟨x, hx.1, rfl⟩
    · exact h
  | remove c k =>
    apply key
    intro x hx
    rw [C13_spec_remove] at hx
    exact Or.inl ⟨x, hx.1, rfl⟩
  | expire c now =>
    simp only [specStep]
    unfold SpecSide.removeExpired
    split
    · apply key; intro x hx; rw [C13_spec_remove] at hx; exact Or.inl ⟨x, hx.1, rfl⟩
    · split
      · apply key; intro x hx; rw [C13_spec_remove] at hx; exact Or.inl ⟨x, hx.1, rfl⟩
      · exact h
  | setQty c k q =>
    apply key
    intro x hx
    exact Or.inl (mem_sSetQty hx)

theorem specRun_good {cap : Nat} {s : SpecSide} (h : s.good) (ops : List TOp) (hops : ∀ op ∈ ops, op.okBook) : (specRun cap s ops).2.good := by
  induction ops generalizing s with
  | nil => exact h
  | cons op ops ih => exact ih (specStep_good h op (hops op (by simp))) (fun o ho => hops o (by simp [ho]))

/-- price lots at which an oracle-pegged order trades at this oracle price -/
def pegPrice (oracle : Int) (l : Leaf) : Int := oracle + oraclePeggedPriceOffset l.priceData
/-- the pegged price is a usable price -/
def pegVisible (oracle : Int) (l : Leaf) : Bool := decide (1 ≤ pegPrice oracle l) && decide (pegPrice oracle l < I64MAX)
/-- sequence number encoded in the key -/
def seqOf (side : Side) (l : Leaf) : Nat := if side = .bid then U64MAXN - l.key % 2 ^ 64 else l.key % 2 ^ 64

/-- `a` has priority over (or ties with) `b`: better price, or same price and not younger -/
def priorTo (side : Side) (a b : Item) : Prop :=
  side.isPriceBetter a.price b.price = true ∨ (a.price = b.price ∧ seqOf side a.leaf ≤ seqOf side b.leaf)

theorem leR_prior {side : Side} {a b : Item} (h : leR side a b = true) : priorTo side a b := by
  unfold leR rank at h
  unfold priorTo seqOf U64MAXN
  have h1 := Nat.mod_lt a.leaf.key (show 18446744073709551616 > 0 by decide)
  have h2 := Nat.mod_lt b.leaf.key (show 18446744073709551616 > 0 by decide)
  norm_num at h ⊢
  cases side
  · simp only [if_true, decide_eq_true_eq, Side.isPriceBetter] at h ⊢
    omega
  · simp only [reduceCtorEq, if_false, decide_eq_true_eq, Side.isPriceBetter] at h ⊢
    omega

theorem shown_iff (side : Side) (oracle : Int) (x : Nat × Leaf) : shown side oracle x = pegVisible oracle x.2 := by
  unfold pegVisible pegPrice
  by_cases hs : shown side oracle x = true
  · obtain ⟨_, h1, h2⟩ := shown_price hs
    simp [hs, h1, h2]
  · have : ¬ (1 ≤ oracle + oraclePeggedPriceOffset x.2.priceData ∧ oracle + oraclePeggedPriceOffset x.2.priceData < I64MAX) := by
      intro hc
      apply hs
      have hp : satAdd64 oracle (oraclePeggedPriceOffset x.2.priceData) = oracle + oraclePeggedPriceOffset x.2.priceData := by
        unfold satAdd64; rw [if_neg (by unfold I64MIN; omega), if_neg (by omega)]
      unfold shown oraclePeggedPrice
      simp only [hp]
      rw [if_pos hc]
      split <;> simp
    have hf : shown side oracle x = false := by simpa using hs
    rw [hf]
    symm
    rw [Bool.and_eq_false_iff, decide_eq_false_iff_not, decide_eq_false_iff_not]
    by_contra hcon
    apply this
    constructor <;> (by_contra hh; apply hcon; tauto)

/-- an order with a time in force (in seconds) has timed out once that many seconds have passed -/
def timedOut (l : Leaf) (now : Nat) : Prop := 0 < l.timeInForce ∧ l.timestamp + l.timeInForce ≤ now
instance (l : Leaf) (now : Nat) : Decidable (timedOut l now) := by unfold timedOut; infer_instance

theorem timedOut_iff (l : Leaf) (now : Nat) : timedOut l now ↔ l.isExpired now = true := by
  unfold timedOut Leaf.isExpired; simp

/-- what each reported item must say about its order -/
def itemOK (side : Side) (now : Nat) (oracle : Int) (i : Item) : Prop :=
  match i.comp with
  | .fixed => i.price = (i.leaf.priceData : Int) ∧ i.state = (if timedOut i.leaf now then .invalid else .valid)
  | .pegged => i.price = pegPrice oracle i.leaf ∧
      i.state = (if timedOut i.leaf now ∨ (i.leaf.pegLimit ≠ -1 ∧ side.isPriceBetter i.price i.leaf.pegLimit = true)
                 then .invalid else .valid)

theorem pegItem_ok {side : Side} {now : Nat} {oracle : Int} {x : Nat × Leaf} (hs : shown side oracle x = true) :
    itemOK side now oracle (pegItem side now oracle x) := by
  obtain ⟨e1, h1, h2⟩ := shown_price hs
  have hp : satAdd64 oracle (oraclePeggedPriceOffset x.2.priceData) = oracle + oraclePeggedPriceOffset x.2.priceData := by
    unfold satAdd64; rw [if_neg (by unfold I64MIN; omega), if_neg (by omega)]
  refine ⟨e1, ?_⟩
  change (if x.2.isExpired now = true then OState.invalid else (oraclePeggedPrice oracle x.2 side).1) =
    (if timedOut x.2 now ∨ (x.2.pegLimit ≠ -1 ∧ side.isPriceBetter (oraclePeggedPrice oracle x.2 side).2 x.2.pegLimit = true)
      then .invalid else .valid)
  simp only [timedOut_iff]
  have e2 : (oraclePeggedPrice oracle x.2 side).1 = if x.2.pegLimit ≠ -1 ∧
      side.isPriceBetter (oracle + oraclePeggedPriceOffset x.2.priceData) x.2.pegLimit = true then .invalid else .valid := by
    unfold oraclePeggedPrice
    simp only [hp]
    rw [if_pos ⟨h1, h2⟩]
    split <;> rfl
  rw [e2]
  by_cases hx : x.2.isExpired now = true
  · rw [if_pos hx, if_pos (Or.inl hx)]
  · rw [if_neg hx]
    by_cases hc : x.2.pegLimit ≠ -1 ∧ side.isPriceBetter (oracle + oraclePeggedPriceOffset x.2.priceData) x.2.pegLimit = true
    · rw [if_pos hc, if_pos (Or.inr ⟨hc.1, by rw [e1]; exact hc.2⟩)]
    · rw [if_neg hc, if_neg]
      rintro (h | h)
      · exact hx h
      · exact hc ⟨h.1, by rw [← e1]; exact h.2⟩

theorem ord_perm {α : Type} (isBids : Bool) (xs : List α) : (ord isBids xs).Perm xs := by
  unfold ord; split
  · exact List.reverse_perm _
  · exact List.Perm.refl _

/-- state-level form, used again for matching -/
theorem items_spec {b : BookSide} {s : SpecSide} (h : Sim b s) (hg : s.good) (now : Nat) (oracle : Int) :
    ∃ xs, b.items now oracle = .ok xs ∧
      (xs.map (fun i => (i.comp, i.leaf))).Perm
        (s.fixedL.map (fun l => (Comp.fixed, l)) ++ (s.peggedL.filter (pegVisible oracle)).map (fun l => (Comp.pegged, l))) ∧
      xs.Pairwise (priorTo b.side) ∧ (∀ i ∈ xs, itemOK b.side now oracle i) := by
  have hsf := sorted_sim h .fixed
  have hsp := sorted_sim h .pegged
  obtain ⟨tf, tp, hR, h1, h2⟩ := h
  have hgf : ∀ x ∈ optLeaves tf, goodFixed x := by rw [← h1]; exact hg.1
  refine ⟨_, items_reps hR hgf now oracle, ?_, ?_, ?_⟩
  · unfold mergeItems
    refine (List.Perm.map _ (List.merge_perm_append _)).trans ?_
    rw [List.map_append, List.map_map, List.map_map]
    refine List.perm_append_comm.trans (List.Perm.append ?_ ?_)
    · refine (List.Perm.map _ (ord_perm _ _)).trans ?_
      rw [h1, ← optHLeaves_map, List.map_map]
      rfl
    · refine (List.Perm.map _ ((ord_perm _ _).filter _)).trans ?_
      rw [h2, ← optHLeaves_map, List.filter_map, List.map_map]
      have : (optHLeaves tp).filter (shown b.side oracle) = (optHLeaves tp).filter (pegVisible oracle ∘ Prod.snd) :=
        List.filter_congr (fun x _ => shown_iff b.side oracle x)
      rw [this]
      rfl
  · refine List.Pairwise.imp (fun h => leR_prior h) (mergeItems_sorted ?_ ?_ ?_)
    · have := hsf; change s.fixedL.Pairwise _ at this
      rw [h1, ← optHLeaves_map, List.pairwise_map] at this; exact this
    · have := hsp; change s.peggedL.Pairwise _ at this
      rw [h2, ← optHLeaves_map, List.pairwise_map] at this; exact this
    · intro x hx
      have := hg.2; rw [h2, ← optHLeaves_map] at this
      exact this x.2 (List.mem_map.mpr ⟨x, hx, rfl⟩)
  · intro i hi
    unfold mergeItems at hi
    rw [List.mem_merge, List.mem_map, List.mem_map] at hi
    rcases hi with ⟨x, hx, rfl⟩ | ⟨x, hx, rfl⟩
    · rw [List.mem_filter] at hx; exact pegItem_ok hx.2
    · exact ⟨rfl, by simp only [timedOut_iff]; rfl⟩

/-- **C17.** After every history, for every timestamp and oracle price, iterating the book side succeeds and reports every
fixed-price order and every pegged order whose price is usable, each exactly once and nothing else; in priority order
(better price first, ties older first); every reported item carries the price it trades at, and is valid exactly if it
has not expired and respects its peg limit. -/
theorem C17_iteration_by_priority (isBids : Bool) (cap : Nat) (hcap : cap ≤ U32MAX) (ops : List TOp)
    (hops : ∀ op ∈ ops, op.okBook) (now : Nat) (oracle : Int) :
    let b := (trun (BookSide.init isBids cap) ops).2
    let s := (specRun cap ⟨[], []⟩ ops).2
    let side := if isBids then Side.bid else Side.ask
    ∃ xs, b.items now oracle = .ok xs ∧
      (xs.map (fun i => (i.comp, i.leaf))).Perm
        (s.fixedL.map (fun l => (Comp.fixed, l)) ++ (s.peggedL.filter (pegVisible oracle)).map (fun l => (Comp.pegged, l))) ∧
      xs.Pairwise (priorTo side) ∧ (∀ i ∈ xs, itemOK side now oracle i) := by
  intro b s side
  obtain ⟨_, h2, _, hib⟩ := trun_sim (sim_init isBids cap hcap) ops (fun o ho => TOp.okBook_ok (hops o ho))
  rw [show (BookSide.init isBids cap).nodes.nodes.length = cap by simp [BookSide.init, Arena.init]] at h2
  have hside : b.side = side := by
    change b.nodes.isBids = isBids at hib
    unfold BookSide.side; rw [hib]
  have := items_spec h2 (specRun_good (cap := cap) (s := ⟨[], []⟩) ⟨by simp, by simp⟩ ops hops) now oracle
  change ∃ xs, b.items now oracle = .ok xs ∧ _ ∧ xs.Pairwise (priorTo b.side) ∧ ∀ i ∈ xs, itemOK b.side now oracle i at this
  rw [hside] at this
  exact this

def exK : List TOp :=
  [.insert .fixed (leafOf (newNodeKey .bid 100 1) 5 10 0), .insert .pegged (leafOf (newNodeKey .bid (oraclePeggedPriceData (-1)) 2) 6 10 0),
   .insert .pegged (leafOf (newNodeKey .bid (oraclePeggedPriceData (-500)) 3) 6 10 0), .insert .fixed (leafOf (newNodeKey .bid 99 4) 5 10 3)]

/-- oracle 100: the fixed 100, then the pegged 99 (older) before the fixed 99 (expired); the one at -400 is hidden -/
example : (∀ op ∈ exK, op.okBook) ∧
    ((trun (BookSide.init true 9) exK).2.items 20 100).toOption.map (fun xs => xs.map (fun i => (i.comp, i.price, i.state))) =
      some [(.fixed, 100, .valid), (.pegged, 99, .valid), (.fixed, 99, .invalid)] := by
  refine ⟨?_, by decide +kernel⟩
  intro op hop
  simp only [exK, List.mem_cons, List.not_mem_nil, or_false] at hop
  rcases hop with rfl | rfl | rfl | rfl <;> (simp only [TOp.okBook, leafOf]; decide +kernel)

end Book
end Mango
