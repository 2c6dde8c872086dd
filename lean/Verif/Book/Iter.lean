import Verif.Book.SideLemmas
/-!
# Iterating a book side is a merge of two sorted lists
-/
namespace Mango
namespace Book
open Arena

/-- the key as "price, then low 64 bits" -/
def rank (i : Item) : Int := i.price * 18446744073709551616 + ((i.leaf.key % 18446744073709551616 : Nat) : Int)

/-- `a` may come before `b` on this side -/
def leR (side : Side) (a b : Item) : Bool := if side = .bid then decide (rank b ≤ rank a) else decide (rank a ≤ rank b)

def fixedItem (now : Nat) (x : Nat × Leaf) : Item :=
  { comp := .fixed, handle := x.1, leaf := x.2, price := (x.2.priceData : Int), state := if x.2.isExpired now = true then .invalid else .valid }

def pegItem (side : Side) (now : Nat) (oracle : Int) (x : Nat × Leaf) : Item :=
  peggedToResult x (oraclePeggedPrice oracle x.2 side).2 (oraclePeggedPrice oracle x.2 side).1 now

def shown (side : Side) (oracle : Int) (x : Nat × Leaf) : Bool := decide ((oraclePeggedPrice oracle x.2 side).1 ≠ .skipped)

/-- fixed orders carry a price that fits i64 and is positive -/
def goodFixed (l : Leaf) : Prop := (l.priceData : Int) ≤ I64MAX

theorem shl_or (p k : Nat) : (p <<< 64) ||| (k % 18446744073709551616) = p * 18446744073709551616 + k % 18446744073709551616 := by
  have h : k % 18446744073709551616 < 2 ^ 64 := by
    have := Nat.mod_lt k (show 18446744073709551616 > 0 by decide); omega
  rw [← Nat.shiftLeft_add_eq_or_of_lt h, Nat.shiftLeft_eq]

theorem pegged_price_ge_one (oracle : Int) (l : Leaf) (side : Side) : 1 ≤ (oraclePeggedPrice oracle l side).2 := by
  unfold oraclePeggedPrice
  simp only
  split
  · split <;> simp <;> omega
  · simp

theorem keyFor_ok {key : Nat} {p : Int} (hp : 1 ≤ p) :
    ∃ k : Nat, keyForFixedPrice key p = .ok k ∧ (k : Int) = p * 18446744073709551616 + ((key % 18446744073709551616 : Nat) : Int) := by
  unfold keyForFixedPrice
  rw [if_pos (by omega)]
  refine ⟨_, rfl, ?_⟩
  rw [shl_or]
  push_cast
  rw [Int.toNat_of_nonneg (by omega)]

theorem fixed_rank (now : Nat) (x : Nat × Leaf) : rank (fixedItem now x) = (x.2.key : Int) := by
  unfold rank fixedItem Leaf.priceData
  simp only
  have := Nat.div_add_mod x.2.key 18446744073709551616
  norm_num
  omega

theorem fixedTo_ok {x : Nat × Leaf} {now : Nat} (hg : goodFixed x.2) : fixedToResult x now = .ok (fixedItem now x) := by
  unfold fixedToResult fixedPriceLots goodFixed at *
  rw [if_pos hg]; rfl

theorem rank_ok {side : Side} {f o : Nat × Leaf} {now : Nat} {oracle : Int} (hg : goodFixed f.2) (w : Bool) :
    rankOrders side (some f) (some o) w now oracle = .ok (some
      (if (leR side (pegItem side now oracle o) (fixedItem now f) ^^ w) = true then pegItem side now oracle o else fixedItem now f)) := by
  obtain ⟨k, e1, e2⟩ := keyFor_ok (key := o.2.key) (pegged_price_ge_one oracle o.2 side)
  have hr : rank (pegItem side now oracle o) = (k : Int) := by rw [e2]; rfl
  simp only [rankOrders, e1, bind, Except.bind, fixedTo_ok hg]
  unfold leR
  rw [hr, fixed_rank]
  cases side
  · simp only [if_true]
    by_cases h : f.2.key > k
    · have h1 : ¬ ((f.2.key : Int) ≤ k) := by omega
      cases w <;> simp [h, h1] <;> rfl
    · have h1 : ((f.2.key : Int) ≤ k) := by omega
      cases w <;> simp [h, h1] <;> rfl
  · simp only [reduceCtorEq, if_false]
    by_cases h : f.2.key < k
    · have h1 : ¬ ((k : Int) ≤ f.2.key) := by omega
      cases w <;> simp [h, h1] <;> rfl
    · have h1 : ((k : Int) ≤ f.2.key) := by omega
      cases w <;> simp [h, h1] <;> rfl

theorem iterRel_next {n : Arena} {it : Iter} {rest : List (Nat × Leaf)} (h : IterRel n it rest) : it.next = rest.head? := by
  unfold IterRel at h
  cases hn : it.next with
  | none => rw [hn] at h; simp only at h; subst h; rfl
  | some x => rw [hn] at h; simp only at h; obtain ⟨ts, _, rfl⟩ := h; rfl

theorem skipPegged_spec {b : BookSide} {oracle : Int} : ∀ (fuel : Nat) (it : Iter) (rest : List (Nat × Leaf)), IterRel b.nodes it rest →
    rest.length < fuel → ∃ it', BookSide.skipPegged b oracle fuel it = .ok it' ∧
      IterRel b.nodes it' (rest.dropWhile (fun x => !(shown b.side oracle x))) := by
  intro fuel
  induction fuel with
  | zero => intro it rest _ h; omega
  | succ fuel ih =>
    intro it rest hr hl
    unfold BookSide.skipPegged
    rw [iterRel_next hr]
    cases rest with
    | nil => exact ⟨it, rfl, hr⟩
    | cons x xs =>
      simp only [List.head?_cons]
      by_cases hs : (oraclePeggedPrice oracle x.2 b.side).1 ≠ .skipped
      · rw [if_pos hs]
        refine ⟨it, rfl, ?_⟩
        have : shown b.side oracle x = true := by unfold shown; simpa using hs
        simp only [List.dropWhile_cons, this, Bool.not_true, Bool.false_eq_true, if_false]
        exact hr
      · rw [if_neg hs]
        obtain ⟨it', e1, e2⟩ := iterNext_spec hr
        rw [e1]
        simp only [bind, Except.bind]
        obtain ⟨it2, g1, g2⟩ := ih it' xs e2 (by simp at hl; omega)
        refine ⟨it2, g1, ?_⟩
        have : shown b.side oracle x = false := by unfold shown; simpa using hs
        simp only [List.dropWhile_cons, this, Bool.not_false, if_true]
        exact g2

/-- the pure merge -/
def mergeItems (side : Side) (now : Nat) (oracle : Int) (lf lp : List (Nat × Leaf)) : List Item :=
  List.merge ((lp.filter (shown side oracle)).map (pegItem side now oracle)) (lf.map (fixedItem now)) (leR side)

theorem filter_dropWhile {α : Type} (p : α → Bool) (xs : List α) : (xs.dropWhile (fun x => !(p x))).filter p = xs.filter p := by
  induction xs with
  | nil => rfl
  | cons x xs ih =>
    simp only [List.dropWhile_cons]
    cases hp : p x
    · simp [hp, ih]
    · simp [hp]

theorem dropWhile_head {α : Type} (p : α → Bool) {xs ys : List α} {y : α} (h : xs.dropWhile (fun x => !(p x)) = y :: ys) : p y = true := by
  induction xs with
  | nil => simp at h
  | cons x xs ih =>
    simp only [List.dropWhile_cons] at h
    cases hp : p x
    · simp [hp] at h; exact ih h
    · simp [hp] at h; rw [← h.1]; exact hp

theorem iterNext_merge {b : BookSide} {now : Nat} {oracle : Int} {it : BookSide.BIter} {lf lp : List (Nat × Leaf)}
    (hf : IterRel b.nodes it.fixedIt lf) (hp : IterRel b.nodes it.peggedIt lp) (hg : ∀ x ∈ lf, goodFixed x.2)
    (hl : lp.length < b.nodes.fuel) :
    ∃ it' lf' lp', BookSide.iterNext b now oracle it = .ok ((mergeItems b.side now oracle lf lp).head?, it') ∧
      IterRel b.nodes it'.fixedIt lf' ∧ IterRel b.nodes it'.peggedIt lp' ∧ (∀ x ∈ lf', x ∈ lf) ∧ lp'.length ≤ lp.length ∧
      mergeItems b.side now oracle lf' lp' = (mergeItems b.side now oracle lf lp).tail := by
  obtain ⟨p', e1, e2⟩ := skipPegged_spec (oracle := oracle) _ _ _ hp hl
  have hfd := filter_dropWhile (shown b.side oracle) lp
  have hdh : ∀ y ys, lp.dropWhile (fun x => !(shown b.side oracle x)) = y :: ys → shown b.side oracle y = true :=
    fun y ys h => dropWhile_head _ h
  have hdl : (lp.dropWhile (fun x => !(shown b.side oracle x))).length ≤ lp.length :=
    (List.dropWhile_sublist _).length_le
  generalize lp.dropWhile (fun x => !(shown b.side oracle x)) = lq at *
  unfold mergeItems
  rw [← hfd]
  unfold BookSide.iterNext
  rw [e1]
  simp only [bind, Except.bind]
  rw [iterRel_next hf, iterRel_next e2]
  cases lq with
  | nil =>
    cases lf with
    | nil =>
      simp only [List.head?_nil, rankOrders]
      exact ⟨⟨it.fixedIt, p'⟩, [], [], by simp, hf, e2, by simp, by simp, by simp⟩
    | cons f fs =>
      simp only [List.head?_nil, List.head?_cons, rankOrders, fixedTo_ok (hg f (by simp)), bind, Except.bind]
      obtain ⟨f', g1, g2⟩ := iterNext_spec hf
      simp only [fixedItem, g1]
      refine ⟨⟨f', p'⟩, fs, [], by simp [List.merge, fixedItem], g2, e2, fun x hx => by simp [hx], by simp, ?_⟩
      simp [List.merge]
  | cons o os =>
    have ho : shown b.side oracle o = true := hdh o os rfl
    cases lf with
    | nil =>
      simp only [List.head?_nil, List.head?_cons, rankOrders]
      obtain ⟨o', g1, g2⟩ := iterNext_spec e2
      simp only [peggedToResult, g1]
      refine ⟨⟨it.fixedIt, o'⟩, [], os, ?_, hf, g2, by simp, by simp at hdl; omega, ?_⟩
      · simp [ho, pegItem, peggedToResult]
      · simp [ho]
    | cons f fs =>
      simp only [List.head?_cons]
      rw [rank_ok (hg f (by simp))]
      simp only [Bool.xor_false]
      by_cases hle : leR b.side (pegItem b.side now oracle o) (fixedItem now f) = true
      · rw [if_pos hle]
        obtain ⟨o', g1, g2⟩ := iterNext_spec e2
        have hc : (pegItem b.side now oracle o).comp = .pegged := rfl
        simp only [hc, g1]
        refine ⟨⟨it.fixedIt, o'⟩, f :: fs, os, ?_, hf, g2, by simp, by simp at hdl; omega, ?_⟩
        · simp [ho, List.cons_merge_cons, hle]
        · simp [ho, List.cons_merge_cons, hle]
      · rw [if_neg hle]
        obtain ⟨f', g1, g2⟩ := iterNext_spec hf
        have hc : (fixedItem now f).comp = .fixed := rfl
        simp only [hc, g1]
        refine ⟨⟨f', p'⟩, fs, o :: os, ?_, g2, e2, fun x hx => by simp [hx], hdl, ?_⟩
        · simp [ho, List.cons_merge_cons, hle]
        · simp [ho, List.cons_merge_cons, hle]

theorem iterCollect_merge {b : BookSide} {now : Nat} {oracle : Int} : ∀ (fuel : Nat) (it : BookSide.BIter) (lf lp : List (Nat × Leaf)),
    IterRel b.nodes it.fixedIt lf → IterRel b.nodes it.peggedIt lp → (∀ x ∈ lf, goodFixed x.2) → lp.length < b.nodes.fuel →
    (mergeItems b.side now oracle lf lp).length < fuel →
    BookSide.iterCollect b now oracle fuel it = .ok (mergeItems b.side now oracle lf lp) := by
  intro fuel
  induction fuel with
  | zero => intro it lf lp _ _ _ _ h; omega
  | succ fuel ih =>
    intro it lf lp hf hp hg hl hlen
    obtain ⟨it', lf', lp', e1, e2, e3, e4, e5, e6⟩ := iterNext_merge (now := now) (oracle := oracle) hf hp hg hl
    unfold BookSide.iterCollect
    rw [e1]
    simp only [bind, Except.bind]
    cases hm : mergeItems b.side now oracle lf lp with
    | nil => rfl
    | cons x xs =>
      simp only [List.head?_cons]
      rw [hm] at e6 hlen
      simp only [List.tail_cons] at e6
      rw [ih it' lf' lp' e2 e3 (fun x hx => hg x (e4 x hx)) (by omega) (by rw [e6]; simp at hlen; omega), e6]

theorem mergeItems_length (side : Side) (now : Nat) (oracle : Int) (lf lp : List (Nat × Leaf)) :
    (mergeItems side now oracle lf lp).length ≤ lf.length + lp.length := by
  unfold mergeItems
  rw [List.length_merge]
  have := (List.filter_sublist (p := shown side oracle) (l := lp)).length_le
  simp; omega

theorem optH_len (t : Option Tree) : (optHLeaves t).length ≤ (optHandles t).length := by
  cases t with
  | none => simp [optHLeaves, optHandles]
  | some t =>
    have := t.leaves_length_le
    rw [← t.hleaves_map] at this
    simpa [optHLeaves, optHandles] using this

/-- collecting the iterator is exactly the merge of the two trees' contents -/
theorem items_reps {b : BookSide} {tf tp : Option Tree} (hR : Reps b tf tp) (hg : ∀ x ∈ optLeaves tf, goodFixed x) (now : Nat) (oracle : Int) :
    b.items now oracle = .ok (mergeItems b.side now oracle (ord b.nodes.isBids (optHLeaves tf)) (ord b.nodes.isBids (optHLeaves tp))) := by
  obtain ⟨i1, h1⟩ := hR.sel .fixed
  obtain ⟨i2, h2⟩ := hR.sel .pegged
  obtain ⟨f, f1, f2⟩ := iterNew_spec i1 h1
  obtain ⟨p, p1, p2⟩ := iterNew_spec i2 h2
  unfold BookSide.items BookSide.iterNew
  have f1' : b.nodes.iterNew b.rootF = .ok f := f1
  have p1' : b.nodes.iterNew b.rootP = .ok p := p1
  rw [f1', p1']
  simp only [bind, Except.bind]
  have hlen := hR.inv.length_le
  simp only [List.length_append] at hlen
  have a1 := optH_len tf
  have a2 := optH_len tp
  have hordl : ∀ xs : List (Nat × Leaf), (ord b.nodes.isBids xs).length = xs.length := by
    intro xs; unfold ord; split <;> simp
  apply iterCollect_merge
  · exact f2
  · exact p2
  · intro x hx
    apply hg
    have : x ∈ optHLeaves tf := by
      unfold ord at hx; split at hx
      · simpa using hx
      · exact hx
    rw [← optHLeaves_map]
    exact List.mem_map.mpr ⟨x, this, rfl⟩
  · rw [hordl]; unfold Arena.fuel; omega
  · have := mergeItems_length b.side now oracle (ord b.nodes.isBids (optHLeaves tf)) (ord b.nodes.isBids (optHLeaves tp))
    rw [hordl, hordl] at this
    unfold Arena.fuel; omega

/-! ## sortedness -/

theorem leR_trans (side : Side) (a b c : Item) : leR side a b = true → leR side b c = true → leR side a c = true := by
  unfold leR; cases side <;> simp <;> intro h1 h2 <;> omega
theorem leR_total (side : Side) (a b : Item) : (leR side a b || leR side b a) = true := by
  unfold leR; cases side <;> simp <;> omega

theorem peg_offset (pd : Nat) (h : pd < 18446744073709551616) : oraclePeggedPriceOffset pd = (pd : Int) - 9223372036854775808 := by
  unfold oraclePeggedPriceOffset u64AsI64 U64MAXN
  split <;> omega

theorem shown_price {side : Side} {oracle : Int} {x : Nat × Leaf} (hs : shown side oracle x = true) :
    (oraclePeggedPrice oracle x.2 side).2 = oracle + oraclePeggedPriceOffset x.2.priceData ∧
    1 ≤ oracle + oraclePeggedPriceOffset x.2.priceData ∧ oracle + oraclePeggedPriceOffset x.2.priceData < I64MAX := by
  unfold shown at hs
  simp only [ne_eq, decide_not, Bool.not_eq_true', decide_eq_false_iff_not] at hs
  unfold oraclePeggedPrice at hs ⊢
  simp only at hs ⊢
  have hp : ∀ v : Int, satAdd64 oracle (oraclePeggedPriceOffset x.2.priceData) = v → 1 ≤ v → v < I64MAX →
      v = oracle + oraclePeggedPriceOffset x.2.priceData := by
    intro v hv h1 h2
    unfold satAdd64 at hv
    split at hv
    · unfold I64MIN at hv; omega
    · split at hv
      · omega
      · omega
  by_cases hc : 1 ≤ satAdd64 oracle (oraclePeggedPriceOffset x.2.priceData) ∧ satAdd64 oracle (oraclePeggedPriceOffset x.2.priceData) < I64MAX
  · have := hp _ rfl hc.1 hc.2
    rw [if_pos hc]
    refine ⟨?_, by omega, by omega⟩
    split <;> exact this
  · rw [if_neg hc] at hs; simp at hs

theorem peg_rank {side : Side} {now : Nat} {oracle : Int} {x : Nat × Leaf} (hs : shown side oracle x = true) (hk : x.2.key < 2 ^ 128) :
    rank (pegItem side now oracle x) = (x.2.key : Int) + (oracle - 9223372036854775808) * 18446744073709551616 := by
  obtain ⟨e1, _, _⟩ := shown_price hs
  have hpd : x.2.priceData < 18446744073709551616 := by
    unfold Leaf.priceData
    rw [Nat.div_lt_iff_lt_mul (by norm_num)]
    norm_num at hk ⊢; exact hk
  unfold rank
  simp only [pegItem, peggedToResult]
  rw [e1, peg_offset _ hpd]
  have hdm := Nat.div_add_mod x.2.key 18446744073709551616
  have hpe : x.2.priceData = x.2.key / 18446744073709551616 := by unfold Leaf.priceData; norm_num
  rw [hpe]
  generalize x.2.key / 18446744073709551616 = q at *
  generalize x.2.key % 18446744073709551616 = r at *
  have : (x.2.key : Int) = 18446744073709551616 * (q : Int) + (r : Int) := by omega
  rw [this]; ring

theorem ord_pairwise {α : Type} {isBids : Bool} {xs : List α} {R : α → α → Prop} (h : xs.Pairwise R) :
    (ord isBids xs).Pairwise (fun a b => if isBids = true then R b a else R a b) := by
  unfold ord
  cases isBids
  · simpa using h
  · simpa [List.pairwise_reverse] using h

theorem mergeItems_sorted {b : BookSide} {now : Nat} {oracle : Int} {lf lp : List (Nat × Leaf)}
    (hf : lf.Pairwise (fun x y => x.2.key < y.2.key)) (hp : lp.Pairwise (fun x y => x.2.key < y.2.key))
    (hk : ∀ x ∈ lp, x.2.key < 2 ^ 128) :
    (mergeItems b.side now oracle (ord b.nodes.isBids lf) (ord b.nodes.isBids lp)).Pairwise (fun a c => leR b.side a c = true) := by
  unfold mergeItems
  apply List.pairwise_merge (leR_trans b.side) (leR_total b.side)
  · rw [List.pairwise_map]
    have hp' := (ord_pairwise (isBids := b.nodes.isBids) hp).filter (shown b.side oracle)
    refine List.Pairwise.imp_of_mem ?_ hp'
    intro x y hx hy hxy
    rw [List.mem_filter] at hx hy
    have hmem : ∀ z, z ∈ ord b.nodes.isBids lp → z ∈ lp := by
      intro z hz; unfold ord at hz; split at hz
      · simpa using hz
      · exact hz
    unfold leR
    rw [peg_rank hx.2 (hk x (hmem x hx.1)), peg_rank hy.2 (hk y (hmem y hy.1))]
    unfold BookSide.side
    cases hb : b.nodes.isBids
    · simp only [hb, Bool.false_eq_true, if_false, reduceCtorEq] at hxy ⊢
      simp only [decide_eq_true_eq]; omega
    · simp only [hb, if_true] at hxy ⊢
      simp only [decide_eq_true_eq]; omega
  · rw [List.pairwise_map]
    refine List.Pairwise.imp ?_ (ord_pairwise (isBids := b.nodes.isBids) hf)
    intro x y hxy
    unfold leR
    rw [fixed_rank, fixed_rank]
    unfold BookSide.side
    cases hb : b.nodes.isBids
    · simp only [hb, Bool.false_eq_true, if_false, reduceCtorEq] at hxy ⊢
      simp only [decide_eq_true_eq]; omega
    · simp only [hb, if_true] at hxy ⊢
      simp only [decide_eq_true_eq]; omega

end Book
end Mango
