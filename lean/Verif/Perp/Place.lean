import Verif.Perp.Apply
/-! Helper: everything a successful `newOrder` did, in one record. -/
namespace Mango
namespace Perp
open Book

/-- the i64 / u64 / u16 ranges of the instruction arguments -/
structure Order.Typed (o : Order) : Prop where
  base : I64MIN ≤ o.maxBase ∧ o.maxBase ≤ I64MAX
  quote : I64MIN ≤ o.maxQuote ∧ o.maxQuote ≤ I64MAX
  price : match o.params with
    | .market => True
    | .ioc p => I64MIN ≤ p ∧ p ≤ I64MAX
    | .fixed p _ => I64MIN ≤ p ∧ p ≤ I64MAX
    | .pegged off _ l => (I64MIN ≤ off ∧ off ≤ I64MAX) ∧ (I64MIN ≤ l ∧ l ≤ I64MAX)

/-- the book stores the given orders -/
structure BookIs (bk : OBook) (sp : Side → SpecSide) : Prop where
  sim : ∀ sd, Sim (bk.get sd) (sp sd)
  bids : ∀ sd, (bk.get sd).nodes.isBids = decide (sd = Side.bid)
  good : ∀ sd, (sp sd).good

theorem BookIs.side {bk : OBook} {sp : Side → SpecSide} (h : BookIs bk sp) (sd : Side) : (bk.get sd).side = sd := by
  unfold BookSide.side; rw [h.bids sd]; cases sd <;> rfl

theorem BookIs.keys {bk : OBook} {sp : Side → SpecSide} (h : BookIs bk sp) (sd : Side) : SpecSide.keysOk (sp sd) :=
  keysOk_of_sim (h.sim sd)

theorem good_of_keys {s s' : SpecSide} (h : s.good) (hk : ∀ c, ∀ y ∈ s'.get c, ∃ l ∈ s.get c, l.key = y.key) : s'.good := by
  constructor
  · intro x hx
    obtain ⟨l, hl, e⟩ := hk .fixed x hx
    have := h.1 l hl
    unfold goodFixed Leaf.priceData at *; rw [← e]; exact this
  · intro x hx
    obtain ⟨l, hl, e⟩ := hk .pegged x hx
    rw [← e]; exact h.2 l hl

theorem specApply_keys {s : SpecSide} {cs : List (Item × Int)} {ds : List Item} (hnd : (cs.map (fun x => ck x.1)).Nodup) (c : Comp) :
    ∀ y ∈ (specApply s cs ds).get c, ∃ l ∈ s.get c, l.key = y.key := by
  intro y hy
  rw [mem_specApply hnd] at hy
  obtain ⟨l, hl, _, h⟩ := hy
  exact ⟨l, hl, by rcases h with ⟨rfl, _⟩ | ⟨x, _, _, rfl⟩ <;> rfl⟩

/-- removing orders one after another, each present when removed -/
inductive Outs : SpecSide → List Item → SpecSide → Prop
  | nil (s) : Outs s [] s
  | cons {s i is s'} : i.leaf ∈ s.get i.comp → Outs (del s i) is s' → Outs s (i :: is) s'

theorem Outs.append {s s1 s2 : SpecSide} {a b : List Item} (h1 : Outs s a s1) (h2 : Outs s1 b s2) : Outs s (a ++ b) s2 := by
  induction h1 with
  | nil => exact h2
  | cons hm _ ih => exact .cons hm (ih h2)

theorem Outs.sum {w : Comp → Leaf → Int} {s s' : SpecSide} {is : List Item} (h : Outs s is s') (hk : SpecSide.keysOk s) :
    sideSum w s' = sideSum w s - sumOf (fun i => w i.comp i.leaf) is := by
  induction h with
  | nil => simp
  | @cons s i is s' hm _ ih =>
    rw [ih (keysOk_del hk i)]
    unfold del
    rw [sideSum_set, sumOf_remove (hk i.comp) hm, sumOf_cons]; omega

theorem Outs.mem {s s' : SpecSide} {is : List Item} (h : Outs s is s') {c : Comp} {y : Leaf} :
    y ∈ s'.get c ↔ y ∈ s.get c ∧ ∀ d ∈ is, ck d ≠ (c, y.key) := by
  have : s' = is.foldl del s := by
    induction h with
    | nil => rfl
    | cons _ _ ih => exact ih
  rw [this]; exact mem_deletes is

theorem Outs.present {s s' : SpecSide} {is : List Item} (h : Outs s is s') : ∀ i ∈ is, i.leaf ∈ s.get i.comp := by
  induction h with
  | nil => simp
  | @cons s i is s' hm h ih =>
    intro j hj
    rcases List.mem_cons.mp hj with rfl | hj
    · exact hm
    · have := ih j hj
      rw [get_del] at this
      split at this
      · rw [C13_spec_remove] at this; exact this.1
      · exact this

def mkItem (c : Comp) (l : Leaf) (p : Int) : Item := { comp := c, handle := 0, leaf := l, price := p, state := .valid }

def outEventsOf (side : Side) (now : Nat) : Int → List Item → List Event
  | _, [] => []
  | seq, i :: is => outEvent side now seq i.leaf :: outEventsOf side now (seq + 1) is

theorem outEventsOf_append (side : Side) (now : Nat) (seq : Int) (a b : List Item) :
    outEventsOf side now seq (a ++ b) = outEventsOf side now seq a ++ outEventsOf side now (seq + a.length) b := by
  induction a generalizing seq with
  | nil => simp [outEventsOf]
  | cons x a ih =>
    simp only [List.cons_append, outEventsOf, ih, List.length_cons]
    congr 2
    push_cast; ring_nf

theorem sExpired_mem {now : Nat} {xs : List Leaf} {x : Leaf} (h : sExpired now xs = some x) : x ∈ xs ∧ x.expiry < now := by
  unfold sExpired at h
  have h1 := List.find?_some h
  have h2 := List.mem_of_find?_eq_some h
  simp only [Bool.and_eq_true, decide_eq_true_eq] at h1
  exact ⟨h2, h1.1⟩

theorem dropExpired_ok {side : Side} {c : Comp} {now : Nat} {b b' : BookSide} {q q' : Queue} {s : SpecSide} (hS : Sim b s)
    (hq : EventQueue.Inv q) (h : dropExpired side c now b q = .ok (b', q')) :
    ∃ is s', Outs s is s' ∧ Sim b' s' ∧ b'.nodes.nodes.length = b.nodes.nodes.length ∧ b'.nodes.isBids = b.nodes.isBids ∧
      EventQueue.Inv q' ∧ q'.toList = q.toList ++ outEventsOf side now q.seqNum is ∧ q'.seqNum = q.seqNum + is.length ∧
      q'.buf.length = q.buf.length ∧ (∀ i ∈ is, i.leaf.expiry < now) ∧ is.length ≤ 1 := by
  obtain ⟨b1, e1, e2, e3, e4⟩ := expired_sim hS c now
  unfold dropExpired at h
  rw [e1] at h
  simp only [bind, Except.bind] at h
  unfold SpecSide.removeExpired at h e2
  have one : ∀ (c0 : Comp) (x : Leaf), sExpired now (s.get c0) = some x → Sim b1 (s.set c0 (sRemove x.key (s.get c0))) →
      ∀ q1, q.pushBack (outEvent side now q.seqNum x) = .ok q1 → b' = b1 → q' = q1 →
      ∃ is s', Outs s is s' ∧ Sim b' s' ∧ b'.nodes.nodes.length = b.nodes.nodes.length ∧ b'.nodes.isBids = b.nodes.isBids ∧
      EventQueue.Inv q' ∧ q'.toList = q.toList ++ outEventsOf side now q.seqNum is ∧ q'.seqNum = q.seqNum + is.length ∧
      q'.buf.length = q.buf.length ∧ (∀ i ∈ is, i.leaf.expiry < now) ∧ is.length ≤ 1 := by
    intro c0 x hx hs q1 hp e5 e6
    subst e5 e6
    obtain ⟨i1, i2, i3, i4⟩ := pushBack_ok hq hp
    obtain ⟨hm, hexp⟩ := sExpired_mem hx
    refine ⟨[mkItem c0 x 0], _, .cons (i := mkItem c0 x 0) hm (.nil _), hs, e3, e4, i1, ?_, ?_, i4, ?_⟩
    · rw [i2]; rfl
    · rw [i3]; rfl
    · exact ⟨by intro i hi; simp at hi; subst hi; exact hexp, by simp⟩
  cases hx : sExpired now (s.get c) with
  | some x =>
    simp only [hx] at h e2
    cases hp : q.pushBack (outEvent side now q.seqNum x) with
    | error e => simp [hp] at h
    | ok q1 =>
      simp only [hp, Except.ok.injEq, Prod.mk.injEq] at h
      exact one c x hx e2 q1 hp h.1.symm h.2.symm
  | none =>
    simp only [hx] at h e2
    cases hy : sExpired now (s.get c.other) with
    | some x =>
      simp only [hy] at h e2
      cases hp : q.pushBack (outEvent side now q.seqNum x) with
      | error e => simp [hp] at h
      | ok q1 =>
        simp only [hp, Except.ok.injEq, Prod.mk.injEq] at h
        exact one c.other x hy e2 q1 hp h.1.symm h.2.symm
    | none =>
      simp only [hy, Except.ok.injEq, Prod.mk.injEq] at h e2
      obtain ⟨rfl, rfl⟩ := h
      exact ⟨[], s, .nil _, e2, e3, e4, hq, by simp [outEventsOf], by simp, rfl, by simp⟩

/-- the price an order is ranked at when looking for the worst one -/
def rankPrice (side : Side) (oracle : Int) (c : Comp) (l : Leaf) : Int :=
  match c with
  | .fixed => (l.priceData : Int)
  | .pegged => (oraclePeggedPrice oracle l side).2

theorem pegged_price2 (oracle : Int) (l : Leaf) (side : Side) :
    (oraclePeggedPrice oracle l side).2 = max (satAdd64 oracle (oraclePeggedPriceOffset l.priceData)) 1 := by
  unfold oraclePeggedPrice
  simp only
  split
  · split <;> simp <;> omega
  · rfl

theorem satAdd_mono {o a b : Int} (h : a ≤ b) : satAdd64 o a ≤ satAdd64 o b := by
  unfold satAdd64 I64MIN I64MAX
  split <;> split <;> (try split) <;> (try split) <;> omega

theorem rankPrice_mono {side : Side} {oracle : Int} {c : Comp} {x y : Leaf} (hx : c = .pegged → x.key < 2 ^ 128) (hy : c = .pegged → y.key < 2 ^ 128)
    (h : x.key ≤ y.key) : rankPrice side oracle c x ≤ rankPrice side oracle c y := by
  have hd : x.priceData ≤ y.priceData := by unfold Leaf.priceData; exact Nat.div_le_div_right h
  cases c with
  | fixed => simp only [rankPrice]; omega
  | pegged =>
    simp only [rankPrice, pegged_price2]
    have p1 : x.priceData < 18446744073709551616 := by
      unfold Leaf.priceData; rw [Nat.div_lt_iff_lt_mul (by norm_num)]; have := hx rfl; norm_num at this ⊢; exact this
    have p2 : y.priceData < 18446744073709551616 := by
      unfold Leaf.priceData; rw [Nat.div_lt_iff_lt_mul (by norm_num)]; have := hy rfl; norm_num at this ⊢; exact this
    have := satAdd_mono (o := oracle) (a := oraclePeggedPriceOffset x.priceData) (b := oraclePeggedPriceOffset y.priceData)
      (by rw [peg_offset _ p1, peg_offset _ p2]; omega)
    omega

/-- nobody on the list is ranked worse than `p` -/
def worstOf (side : Side) (oracle : Int) (s : SpecSide) (p : Int) : Prop :=
  ∀ c, ∀ x ∈ s.get c, side.isPriceBetter p (rankPrice side oracle c x) = false

theorem leR_price {side : Side} {a b : Item} (h : leR side a b = true) : side.isPriceBetter b.price a.price = false := by
  unfold leR rank at h
  have h1 := Nat.mod_lt a.leaf.key (show 18446744073709551616 > 0 by decide)
  have h2 := Nat.mod_lt b.leaf.key (show 18446744073709551616 > 0 by decide)
  cases side
  · simp only [if_true, decide_eq_true_eq, Side.isPriceBetter, decide_eq_false_iff_not] at h ⊢
    omega
  · simp only [reduceCtorEq, if_false, decide_eq_true_eq, Side.isPriceBetter, decide_eq_false_iff_not] at h ⊢
    omega

theorem findWorst_ok {b : BookSide} {s : SpecSide} (hS : Sim b s) (hg : s.good) (oracle : Int) (c : Comp) :
    ∃ x, b.nodes.findWorst (b.root c) = .ok x ∧ ((x = none ∧ s.get c = []) ∨ ∃ y, x = some y ∧ y.2 ∈ s.get c ∧
      ∀ z ∈ s.get c, b.side.isPriceBetter (rankPrice b.side oracle c y.2) (rankPrice b.side oracle c z) = false) := by
  obtain ⟨⟨x, a1, a2⟩, ⟨y, b1, b2⟩⟩ := minmax_sim hS c
  have hsorted := sorted_sim hS c
  have hk : ∀ z ∈ s.get c, c = .pegged → z.key < 2 ^ 128 := by
    intro z hz e; subst e; exact hg.2 z hz
  unfold Arena.findWorst
  by_cases hb : b.nodes.isBids = true
  · rw [if_pos hb]
    refine ⟨x, a1, ?_⟩
    have hsd : b.side = .bid := by unfold BookSide.side; rw [if_pos hb]
    cases x with
    | none => left; simp at a2; exact ⟨rfl, by simpa using a2.symm⟩
    | some y =>
      right
      simp only [Option.map_some] at a2
      cases hl : s.get c with
      | nil => rw [hl] at a2; simp at a2
      | cons h t =>
        rw [hl] at a2 hsorted hk
        simp only [List.head?_cons, Option.some.injEq] at a2
        refine ⟨y, rfl, by simp [a2], ?_⟩
        intro z hz
        rw [hsd]
        simp only [Side.isPriceBetter, decide_eq_false_iff_not]
        have hle : y.2.key ≤ z.key := by
          rw [List.pairwise_cons] at hsorted
          rcases List.mem_cons.mp hz with rfl | hz'
          · rw [a2]
          · have := hsorted.1 z hz'; rw [a2]; omega
        have := rankPrice_mono (side := .bid) (oracle := oracle) (hk y.2 (by simp [a2])) (hk z hz) hle
        omega
  · rw [if_neg hb]
    refine ⟨y, b1, ?_⟩
    have hsd : b.side = .ask := by unfold BookSide.side; rw [if_neg hb]
    cases y with
    | none => left; simp at b2; exact ⟨rfl, by simpa using b2.symm⟩
    | some y =>
      right
      simp only [Option.map_some] at b2
      have hmem : y.2 ∈ s.get c := List.mem_of_getLast? b2.symm
      refine ⟨y, rfl, hmem, ?_⟩
      intro z hz
      rw [hsd]
      simp only [Side.isPriceBetter, decide_eq_false_iff_not]
      have hle : z.key ≤ y.2.key := by
        obtain ⟨ys, hys⟩ : ∃ ys, s.get c = ys ++ [y.2] := by
          rw [eq_comm, List.getLast?_eq_some_iff] at b2
          exact b2
        rw [hys] at hz hsorted
        rw [List.pairwise_append] at hsorted
        rcases List.mem_append.mp hz with hz' | hz'
        · have := hsorted.2.2 z hz' y.2 (by simp); omega
        · simp at hz'; rw [hz']
      have := rankPrice_mono (side := .ask) (oracle := oracle) (hk z hz) (hk y.2 hmem) hle
      omega

/-- the order `remove_worst` picks: a resting order with the worst ranking price -/
theorem removeWorst_ok {b b' : BookSide} {s : SpecSide} {now : Nat} {oracle : Int} {r : Option (Leaf × Int)} (hS : Sim b s) (hg : s.good)
    (h : b.removeWorst now oracle = .ok (r, b')) :
    (r = none ∧ b' = b) ∨
    ∃ c l p, r = some (l, p) ∧ l ∈ s.get c ∧ Sim b' (s.set c (sRemove l.key (s.get c))) ∧
      b'.nodes.nodes.length = b.nodes.nodes.length ∧ b'.nodes.isBids = b.nodes.isBids ∧
      p = rankPrice b.side oracle c l ∧ worstOf b.side oracle s p := by
  obtain ⟨wf, f1, f2⟩ := findWorst_ok hS hg oracle .fixed
  obtain ⟨wp, p1, p2⟩ := findWorst_ok hS hg oracle .pegged
  change b.nodes.findWorst b.rootF = .ok wf at f1
  change b.nodes.findWorst b.rootP = .ok wp at p1
  unfold BookSide.removeWorst at h
  rw [f1, p1] at h
  simp only [bind, Except.bind] at h
  -- removing a chosen order
  have fin : ∀ (it : Item), it.leaf ∈ s.get it.comp → it.price = rankPrice b.side oracle it.comp it.leaf → worstOf b.side oracle s it.price →
      rankOrders b.side wf wp true now oracle = .ok (some it) →
      ∃ c l p, r = some (l, p) ∧ l ∈ s.get c ∧ Sim b' (s.set c (sRemove l.key (s.get c))) ∧
      b'.nodes.nodes.length = b.nodes.nodes.length ∧ b'.nodes.isBids = b.nodes.isBids ∧
      p = rankPrice b.side oracle c l ∧ worstOf b.side oracle s p := by
    intro it hm hpr hw hr
    rw [hr] at h
    obtain ⟨b1, e1, e2, e3, e4⟩ := remove_sim hS it.comp it.leaf.key
    simp only [e1, sFind_of_mem (keysOk_of_sim hS it.comp) hm, Except.ok.injEq, Prod.mk.injEq] at h
    obtain ⟨rfl, rfl⟩ := h
    exact ⟨it.comp, it.leaf, it.price, rfl, hm, e2, e3, e4, hpr, hw⟩
  rcases f2 with ⟨rfl, ef⟩ | ⟨yf, rfl, mf, wfm⟩ <;> rcases p2 with ⟨rfl, ep⟩ | ⟨yp, rfl, mp, wpm⟩
  · left
    simp only [rankOrders, Except.ok.injEq, Prod.mk.injEq] at h
    exact ⟨h.1.symm, h.2.symm⟩
  · right
    refine fin (pegItem b.side now oracle yp) mp rfl ?_ rfl
    intro c x hx
    cases c with
    | fixed => rw [ef] at hx; simp at hx
    | pegged => exact wpm x hx
  · right
    have hgf := hg.1 yf.2 mf
    refine fin (fixedItem now yf) mf rfl ?_ (by simp only [rankOrders, fixedTo_ok hgf, bind, Except.bind])
    intro c x hx
    cases c with
    | fixed => exact wfm x hx
    | pegged => rw [ep] at hx; simp at hx
  · right
    have hgf := hg.1 yf.2 mf
    have hr := rank_ok (side := b.side) (f := yf) (o := yp) (now := now) (oracle := oracle) hgf true
    have htrans : ∀ p q z : Int, b.side.isPriceBetter p q = false → b.side.isPriceBetter q z = false → b.side.isPriceBetter p z = false := by
      intro p q z; cases b.side <;> simp only [Side.isPriceBetter, decide_eq_false_iff_not] <;> omega
    by_cases hle : leR b.side (pegItem b.side now oracle yp) (fixedItem now yf) = true
    · rw [hle] at hr
      simp only [Bool.xor_true, Bool.not_true, Bool.false_eq_true, if_false] at hr
      refine fin (fixedItem now yf) mf rfl ?_ hr
      have hp := leR_price hle
      intro c x hx
      cases c with
      | fixed => exact wfm x hx
      | pegged => exact htrans _ _ _ hp (wpm x hx)
    · have hle' : leR b.side (pegItem b.side now oracle yp) (fixedItem now yf) = false := by simpa using hle
      rw [hle'] at hr
      simp only [Bool.xor_true, Bool.not_false, if_true] at hr
      refine fin (pegItem b.side now oracle yp) mp rfl ?_ hr
      have htot := leR_total b.side (pegItem b.side now oracle yp) (fixedItem now yf)
      rw [hle', Bool.false_or] at htot
      have hp := leR_price htot
      intro c x hx
      cases c with
      | fixed => exact htrans _ _ _ hp (wfm x hx)
      | pegged => exact wpm x hx

theorem evictWorst_ok {side : Side} {price : Int} {now : Nat} {oracle : Int} {b b' : BookSide} {q q' : Queue} {s : SpecSide} (hS : Sim b s)
    (hg : s.good) (hq : EventQueue.Inv q) (h : evictWorst side price now oracle b q = .ok (b', q')) :
    ∃ is s', Outs s is s' ∧ Sim b' s' ∧ b'.nodes.nodes.length = b.nodes.nodes.length ∧ b'.nodes.isBids = b.nodes.isBids ∧
      EventQueue.Inv q' ∧ q'.toList = q.toList ++ outEventsOf side now q.seqNum is ∧ q'.seqNum = q.seqNum + is.length ∧
      q'.buf.length = q.buf.length ∧
      (∀ i ∈ is, b.isFull = true ∧ i.price = rankPrice b.side oracle i.comp i.leaf ∧ side.isPriceBetter price i.price = true ∧
        worstOf b.side oracle s i.price) ∧ is.length ≤ 1 := by
  unfold evictWorst at h
  split at h
  · next hf =>
    simp only [bind_ok] at h
    obtain ⟨⟨r, b1⟩, hr, h⟩ := h
    dsimp only at h
    rcases removeWorst_ok hS hg hr with ⟨rfl, rfl⟩ | ⟨c, l, p, rfl, hm, e2, e3, e4, e5, e6⟩
    · simp at h
    · simp only [bind_ok, require_ok, ok_inj, Prod.mk.injEq] at h
      obtain ⟨_, hbet, q1, hp, rfl, rfl⟩ := h
      obtain ⟨i1, i2, i3, i4⟩ := pushBack_ok hq hp
      refine ⟨[mkItem c l p], _, .cons (i := mkItem c l p) hm (.nil _), e2, e3, e4, i1, ?_, ?_, i4, ?_⟩
      · rw [i2]; rfl
      · rw [i3]; rfl
      · refine ⟨?_, by simp⟩
        intro i hi
        simp at hi; subst hi
        exact ⟨hf, e5, hbet, e6⟩
  · rw [ok_inj, Prod.mk.injEq] at h
    obtain ⟨rfl, rfl⟩ := h
    exact ⟨[], s, .nil _, hS, rfl, rfl, hq, by simp [outEventsOf], by simp, rfl, by simp⟩

theorem price_facts {o : Order} {now : Nat} {oracle : Int} {b : OBook} {p : Int} {d : Nat} (ht : o.Typed)
    (h : o.price now oracle b = .ok (p, d)) : 1 ≤ p ∧ p ≤ I64MAX ∧
      (match o.params with
       | .pegged _ _ _ => d = oraclePeggedPriceData (p - oracle) ∧ I64MIN ≤ p - oracle ∧ p - oracle ≤ I64MAX
       | _ => d = p.toNat) := by
  have hslide : ∀ q p0 : Int, ∀ ty, I64MIN ≤ q ∧ q ≤ I64MAX → o.priceForType now oracle q ty b = .ok p0 → p0 ≤ I64MAX := by
    intro q p0 ty hq h
    unfold Order.priceForType at h
    split at h
    · simp only [bind_ok] at h
      obtain ⟨best, _, h⟩ := h
      cases best with
      | none => simp only [ok_inj] at h; omega
      | some bp =>
        simp only at h
        unfold slideLimit at h
        cases hs : o.side <;> simp only [hs, bind_ok, ck64_ok, ok_inj] at h <;> obtain ⟨x, ⟨rfl, _⟩, rfl⟩ := h <;> omega
    · rw [ok_inj] at h; omega
  have hpr := ht.price
  unfold Order.price at h
  simp only [bind_ok] at h
  obtain ⟨p0, hp0, d0, hd, _, hge, h⟩ := h
  rw [require_ok] at hge
  rw [ok_inj, Prod.mk.injEq] at h
  obtain ⟨rfl, rfl⟩ := h
  cases hpa : o.params with
  | market =>
    simp only [hpa, ok_inj] at hp0 hd ⊢
    refine ⟨by omega, ?_, ?_⟩
    · subst hp0; unfold marketLimit I64MAX; cases o.side <;> simp
    · unfold fixedPriceData at hd; rw [if_pos hge, ok_inj] at hd; exact hd.symm
  | ioc q =>
    simp only [hpa, ok_inj] at hp0 hd hpr ⊢
    refine ⟨by omega, by omega, ?_⟩
    unfold fixedPriceData at hd; rw [if_pos hge, ok_inj] at hd; exact hd.symm
  | fixed q ty =>
    simp only [hpa] at hp0 hd hpr ⊢
    refine ⟨by omega, hslide q _ ty hpr hp0, ?_⟩
    unfold fixedPriceData at hd; rw [if_pos hge, ok_inj] at hd; exact hd.symm
  | pegged off ty lim =>
    simp only [hpa, bind_ok, ck64_ok, ok_inj] at hp0 hd hpr ⊢
    obtain ⟨q, ⟨rfl, hq⟩, hp0⟩ := hp0
    obtain ⟨x, ⟨rfl, hx⟩, rfl⟩ := hd
    exact ⟨by omega, hslide _ _ ty hq hp0, rfl, hx⟩

theorem genOrderId_ok {m m' : Market} {side : Side} {d id : Nat} (h : m.genOrderId side d = .ok (id, m')) :
    m.seqNum + 1 ≤ U64MAXN ∧ id = newNodeKey side d (m.seqNum + 1) ∧ m' = { m with seqNum := m.seqNum + 1 } := by
  unfold Market.genOrderId at h
  split at h
  · rw [ok_inj, Prod.mk.injEq] at h; exact ⟨by assumption, h.1.symm, h.2.symm⟩
  · simp at h

theorem newNodeKey_div (side : Side) (d seq : Nat) (h : seq ≤ U64MAXN) : newNodeKey side d seq / 2 ^ 64 = d := by
  have hlow : (if side = .bid then U64MAXN - seq else seq) < 18446744073709551616 := by
    unfold U64MAXN at *; split <;> omega
  rw [newNodeKey_eq _ _ _ h]
  generalize (if side = .bid then U64MAXN - seq else seq) = low at hlow
  norm_num; omega

theorem newNodeKey_lt (side : Side) (d seq : Nat) (h : seq ≤ U64MAXN) (hd : d < 18446744073709551616) : newNodeKey side d seq < 2 ^ 128 := by
  have hlow : (if side = .bid then U64MAXN - seq else seq) < 18446744073709551616 := by
    unfold U64MAXN at *; split <;> omega
  rw [newNodeKey_eq _ _ _ h]
  generalize (if side = .bid then U64MAXN - seq else seq) = low at hlow
  norm_num; omega

/-- what posting the remainder did -/
structure Posted (c : MCtx) (target : Comp) (oracle : Int) (id : Nat) (qty : Int) (s s' : NOState) (own own' : SpecSide) : Type where
  is : List Item
  mid : SpecSide
  slot : Nat
  leaf : Leaf
  leaf_eq : leaf = { ownerSlot := slot, orderType := 0, timeInForce := c.order.tif, key := id, owner := c.taker, quantity := qty,
                     timestamp := c.now, pegLimit := c.order.pegLimit, clientOrderId := c.order.clientId }
  outs : Outs own is mid
  own_eq : own' = mid.set target (sInsert leaf (mid.get target))
  slot_ok : s.acct.nextOrderSlot = .ok slot
  acct : s.acct.addPerpOrder s.market.idx c.order.side target leaf = .ok s'.acct
  market : s'.market = s.market
  other : s'.book.get c.order.side.invert = s.book.get c.order.side.invert
  sim : Sim (s'.book.get c.order.side) own'
  bids : (s'.book.get c.order.side).nodes.isBids = (s.book.get c.order.side).nodes.isBids
  len : (s'.book.get c.order.side).nodes.nodes.length = (s.book.get c.order.side).nodes.nodes.length
  inv : EventQueue.Inv s'.queue
  evs : s'.queue.toList = s.queue.toList ++ outEventsOf c.order.side c.now s.queue.seqNum is
  cap : s'.queue.buf.length = s.queue.buf.length
  seq : s'.queue.seqNum = s.queue.seqNum + is.length
  why : ∀ i ∈ is, i.leaf.expiry < c.now ∨ c.order.side.isPriceBetter c.price (rankPrice c.order.side oracle i.comp i.leaf) = true
  why' : ∃ is1 is2 mid1, is = is1 ++ is2 ∧ is1.length ≤ 1 ∧ is2.length ≤ 1 ∧ Outs own is1 mid1 ∧ (∀ i ∈ is1, i.leaf.expiry < c.now) ∧
    ∀ i ∈ is2, (s.book.get c.order.side).nodes.nodes.length ≤ treeNodes mid1.fixedL + treeNodes mid1.peggedL + 2 ∧ i.leaf ∈ mid1.get i.comp ∧
      c.order.side.isPriceBetter c.price (rankPrice c.order.side oracle i.comp i.leaf) = true ∧
      worstOf c.order.side oracle mid1 (rankPrice c.order.side oracle i.comp i.leaf)
  fits : treeNodes (own'.get target) + treeNodes (own'.get target.other) ≤ (s.book.get c.order.side).nodes.nodes.length

theorem del_good {s : SpecSide} (h : s.good) {is : List Item} {s' : SpecSide} (ho : Outs s is s') : s'.good := by
  apply good_of_keys h
  intro c y hy
  exact ⟨y, (ho.mem.mp hy).1, rfl⟩

/-- a side that reports itself full has at most two unused nodes -/
theorem full_cap {b : BookSide} {s : SpecSide} (h : Sim b s) (hf : b.isFull = true) :
    b.nodes.nodes.length ≤ treeNodes s.fixedL + treeNodes s.peggedL + 2 := by
  obtain ⟨tf, tp, hR, hsf, hsp⟩ := h
  have hcount := hR.inv.count
  simp only [List.length_append, optHandles_length] at hcount
  rw [← hsf, ← hsp] at hcount
  change treeNodes s.fixedL + treeNodes s.peggedL + freeSlots b.nodes = b.nodes.nodes.length at hcount
  obtain ⟨F, i1, i2, i3, i4, i5⟩ := hR.inv
  have hfs : freeSlots b.nodes = b.nodes.freeListLen + (b.nodes.nodes.length - b.nodes.bumpIndex) := rfl
  unfold BookSide.isFull Arena.isFull at hf
  simp only [Bool.and_eq_true, decide_eq_true_eq] at hf
  omega

theorem side_get_set (b : OBook) (sd : Side) (x : BookSide) : (b.set sd x).get sd = x ∧ (b.set sd x).get sd.invert = b.get sd.invert := by
  cases sd <;> exact ⟨rfl, rfl⟩
theorem side_get_set' (b : OBook) (sd : Side) (x : BookSide) : (b.set sd.invert x).get sd = b.get sd ∧ (b.set sd.invert x).get sd.invert = x := by
  cases sd <;> exact ⟨rfl, rfl⟩

theorem get_set_same (s : SpecSide) (c : Comp) (xs : List Leaf) : (s.set c xs).get c = xs := by cases c <;> rfl
theorem get_set_other (s : SpecSide) (c : Comp) (xs : List Leaf) : (s.set c xs).get c.other = s.get c.other := by cases c <;> rfl

theorem postOrder_ok {c : MCtx} {target : Comp} {oracle : Int} {id : Nat} {qty : Int} {s s' : NOState} {own : SpecSide}
    (hS : Sim (s.book.get c.order.side) own) (hg : own.good) (hsd : (s.book.get c.order.side).side = c.order.side)
    (hq : EventQueue.Inv s.queue) (hid : id < 2 ^ 128) (h : postOrder c target oracle id qty s = .ok s') :
    ∃ own', Nonempty (Posted c target oracle id qty s s' own own') := by
  unfold postOrder at h
  simp only [bind_ok, ok_inj] at h
  obtain ⟨⟨b1, q1⟩, h1, h⟩ := h
  dsimp only at h
  obtain ⟨⟨b2, q2⟩, h2, h⟩ := h
  dsimp only at h
  obtain ⟨slot, h3, ⟨hd, old, b3⟩, h4, h⟩ := h
  dsimp only at h
  obtain ⟨a, h5, rfl⟩ := h
  obtain ⟨is1, s1, o1, m1, l1, bb1, i1, e1, n1, c1, w1, k1⟩ := dropExpired_ok hS hq h1
  have hg1 := del_good hg o1
  obtain ⟨is2, s2, o2, m2, l2, bb2, i2, e2, n2, c2, w2, k2⟩ := evictWorst_ok m1 hg1 i1 h2
  have hside : b1.side = c.order.side := by
    rw [← hsd]; unfold BookSide.side; rw [bb1]
  have hins := fun (lf : Leaf) (hlf : lf.key < 2 ^ 128) => insert_sim m2 target lf hlf
  rcases hins ({ ownerSlot := slot, orderType := 0, timeInForce := c.order.tif, key := id, owner := c.taker, quantity := qty,
                     timestamp := c.now, pegLimit := c.order.pegLimit, clientOrderId := c.order.clientId } : Leaf) hid with ⟨f1, _⟩ | ⟨hd', b3', f1, f2, f3, f4, f5⟩
  · rw [f1] at h4; simp at h4
  rw [f1, ok_inj] at h4
  simp only [Prod.mk.injEq] at h4
  obtain ⟨rfl, rfl, rfl⟩ := h4
  have hgs := side_get_set s.book c.order.side b3'
  refine ⟨_, ⟨{
    is := is1 ++ is2, mid := s2, slot := slot, leaf := _, leaf_eq := rfl, outs := o1.append o2, own_eq := rfl,
    slot_ok := h3, acct := h5, market := rfl, other := hgs.2, sim := ?_, bids := ?_, len := ?_, inv := i2, evs := ?_, cap := ?_,
    seq := ?_, why := ?_, why' := ⟨is1, is2, s1, rfl, k1, k2, o1, w1, ?_⟩, fits := ?_ }⟩⟩
  · dsimp only; rw [hgs.1]; exact f2
  · dsimp only; rw [hgs.1, f4, bb2, bb1]
  · dsimp only; rw [hgs.1, f3, l2, l1]
  · dsimp only; rw [e2, e1, outEventsOf_append, List.append_assoc, n1]
  · dsimp only; rw [c2, c1]
  · dsimp only; rw [n2, n1, List.length_append]; push_cast; omega
  · intro i hi
    rcases List.mem_append.mp hi with hi | hi
    · exact .inl (w1 i hi)
    · right
      obtain ⟨_, a2, a3, _⟩ := w2 i hi
      rw [hside] at a2
      rw [← a2]; exact a3
  · intro i hi
    obtain ⟨a1, a2, a3, a4⟩ := w2 i hi
    rw [hside] at a2 a4
    rw [← a2]
    exact ⟨by rw [← l1]; exact full_cap m1 a1, o2.present i hi, a3, a4⟩
  · rw [get_set_same, get_set_other]; rw [l2, l1] at f5; exact f5

/-- everything a successful new order did -/
structure Placed (o : Order) (oracleNative : I80F48) (taker now limit : Nat) (s : NOState) (sp : Side → SpecSide)
    (r : Option Nat) (s' : NOState) : Type where
  oracle : Int
  price : Int
  pd : Nat
  id : Nat
  m0 : Market
  m1 : Market
  a1 : PAcct
  items : List Item
  acts : List Act
  st : MState
  m2 : Market
  a2 : PAcct
  other' : SpecSide
  own' : SpecSide
  s1 : NOState
  e_oracle : s.market.nativePriceToLot oracleNative = .ok oracle
  e_price : o.price now oracle s.book = .ok (price, pd)
  e_gen : s.market.genOrderId o.side pd = .ok (id, m0)
  e_pen : penaltyStep o m0 s.acct = .ok (m1, a1)
  e_pos : ∃ p, a1.pos = some p
  e_items : (s.book.get o.side.invert).items now oracle = .ok items
  offers : Offers (sp o.side.invert) o.side.invert now oracle items
  trace : Trace { order := o, price, taker, now, makerFee := m1.makerFeeF32 } { remBase := o.maxBase, remQuote := o.maxQuote, post := o.postTarget, limit, queue := s.queue } items acts st
  sum : TraceSum { order := o, price, taker, now, makerFee := m1.makerFeeF32 } { remBase := o.maxBase, remQuote := o.maxQuote, post := o.postTarget, limit, queue := s.queue } items acts st
  e_taker : takerStep o m1 a1 (sumOf Act.base acts) (sumOf Act.quote acts) (sumOf (Act.decQuote taker) acts) = .ok (m2, a2)
  e_other : other' = specApply (sp o.side.invert) (changesOf acts) (deletesOf acts)
  s1_market : s1.market = m2
  s1_acct : s1.acct = a2
  s1_queue : s1.queue = st.queue
  s1_own : s1.book.get o.side = s.book.get o.side
  s1_sim : Sim (s1.book.get o.side.invert) other'
  s1_bids : (s1.book.get o.side.invert).nodes.isBids = (s.book.get o.side.invert).nodes.isBids
  s1_len : (s1.book.get o.side.invert).nodes.nodes.length = (s.book.get o.side.invert).nodes.nodes.length
  e_none : r = none → postDecision { order := o, price, taker, now, makerFee := m1.makerFeeF32 } m2 oracleNative (min st.remBase (st.remQuote.tdiv price)) st.post = .ok none
  fin : (r = none ∧ s' = s1 ∧ own' = sp o.side) ∨
    (r = some id ∧ ∃ t, o.postTarget = some t ∧ st.post = some t ∧ 0 < min st.remBase (st.remQuote.tdiv price) ∧
      postDecision { order := o, price, taker, now, makerFee := m1.makerFeeF32 } m2 oracleNative (min st.remBase (st.remQuote.tdiv price)) st.post = .ok (some t) ∧
      Nonempty (Posted { order := o, price, taker, now, makerFee := m1.makerFeeF32 } t oracle id (min st.remBase (st.remQuote.tdiv price)) s1 s' (sp o.side) own'))

theorem newOrder_ok {o : Order} {oracleNative : I80F48} {taker now limit : Nat} {s s' : NOState} {sp : Side → SpecSide} {r : Option Nat}
    (ht : o.Typed) (hB : BookIs s.book sp) (hq : EventQueue.Inv s.queue)
    (h : newOrder o oracleNative taker now limit s = .ok (r, s')) : Nonempty (Placed o oracleNative taker now limit s sp r s') := by
  unfold newOrder at h
  simp only [bind_ok] at h
  obtain ⟨oracle, h1, ⟨price, pd⟩, h2, h⟩ := h
  dsimp only at h
  obtain ⟨⟨id, m0⟩, h3, h⟩ := h
  dsimp only at h
  obtain ⟨⟨m1, a1⟩, h4, h⟩ := h
  dsimp only at h
  obtain ⟨_, h5, items, h6, st, h7, tq, h8, tb, h9, ⟨m2, a2⟩, h10, h⟩ := h
  dsimp only at h
  obtain ⟨b1, h11, b2, h12, post, h13, h⟩ := h
  have hposa : ∃ p, a1.pos = some p := by
    unfold PAcct.getPos at h5
    cases hp : a1.pos with
    | none => rw [hp] at h5; simp at h5
    | some p => exact ⟨p, rfl⟩
  obtain ⟨acts, tr⟩ := matchLoop_trace h7
  have ts := trace_sum tr hq
  obtain ⟨xs, x1, x2, x3⟩ := items_offers (hB.sim o.side.invert) (hB.good o.side.invert) now oracle
  rw [h6, ok_inj] at x1
  subst x1
  rw [hB.side] at x2
  obtain ⟨c1, c2, y1, y2, y3, y4, y5⟩ := x3 (changesOf acts) (deletesOf acts) ((acts_subperm acts).trans ts.pre.sublist.subperm)
  have e1 := ts.chg
  simp only [List.nil_append] at e1
  rw [e1, y1, ok_inj] at h11
  subst h11
  have e2 := ts.del
  simp only [List.nil_append] at e2
  rw [e2, show (deletesOf acts).map (fun i => (i.comp, i.leaf.key)) = (deletesOf acts).map ck from rfl, y2, ok_inj] at h12
  subst h12
  rw [ck64_ok] at h8 h9
  have e3 : tq = sumOf Act.quote acts := by rw [h8.1, ts.quote]; simp only; omega
  have e4 : tb = sumOf Act.base acts := by rw [h9.1, ts.base]; simp only; omega
  have e5 : st.decQuote = sumOf (Act.decQuote taker) acts := by rw [ts.dec]; simp
  rw [e3, e4, e5] at h10
  have hgs := side_get_set' s.book o.side c2
  obtain ⟨hp1, hp2, hp3⟩ := price_facts ht h2
  obtain ⟨g1, g2, g3⟩ := genOrderId_ok h3
  have hid : id < 2 ^ 128 := by
    rw [g2]
    apply newNodeKey_lt _ _ _ g1
    cases hpa : o.params with
    | pegged off ty lim =>
      simp only [hpa] at hp3
      have := pegData_eq (price - oracle) hp3.2.1 hp3.2.2
      rw [hp3.1]; unfold I64MIN I64MAX at hp3; omega
    | market => simp only [hpa] at hp3; unfold I64MAX at hp2; omega
    | ioc p => simp only [hpa] at hp3; unfold I64MAX at hp2; omega
    | fixed p ty => simp only [hpa] at hp3; unfold I64MAX at hp2; omega
  let s1 : NOState := { market := m2, acct := a2, book := s.book.set o.side.invert c2, queue := st.queue }
  have base : ∀ (own' : SpecSide), ((r = none ∧ s' = s1 ∧ own' = sp o.side) ∨
    (r = some id ∧ ∃ t, o.postTarget = some t ∧ st.post = some t ∧ 0 < min st.remBase (st.remQuote.tdiv price) ∧
      postDecision { order := o, price, taker, now, makerFee := m1.makerFeeF32 } m2 oracleNative (min st.remBase (st.remQuote.tdiv price)) st.post = .ok (some t) ∧
      Nonempty (Posted { order := o, price, taker, now, makerFee := m1.makerFeeF32 } t oracle id (min st.remBase (st.remQuote.tdiv price)) s1 s' (sp o.side) own'))) →
      (r = none → postDecision { order := o, price, taker, now, makerFee := m1.makerFeeF32 } m2 oracleNative (min st.remBase (st.remQuote.tdiv price)) st.post = .ok none) →
      Nonempty (Placed o oracleNative taker now limit s sp r s') := by
    intro own' hfin hnone
    exact ⟨{ oracle, price, pd, id, m0, m1, a1, items, acts, st, m2, a2, other' := _, own', s1 := s1, e_oracle := h1, e_price := h2, e_gen := h3,
             e_pen := h4, e_pos := hposa, e_items := h6, offers := x2, trace := tr, sum := ts, e_taker := h10, e_other := rfl, s1_market := rfl,
             s1_acct := rfl, s1_queue := rfl, s1_own := hgs.1, s1_sim := by change Sim ((s.book.set o.side.invert c2).get _) _; rw [hgs.2]; exact y3,
             s1_bids := by change ((s.book.set o.side.invert c2).get _).nodes.isBids = _; rw [hgs.2, y5],
             s1_len := by change ((s.book.set o.side.invert c2).get _).nodes.nodes.length = _; rw [hgs.2, y4], e_none := hnone, fin := hfin }⟩
  cases post with
  | none =>
    simp only [ok_inj, Prod.mk.injEq] at h
    exact base _ (.inl ⟨h.1.symm, h.2.symm, rfl⟩) (fun _ => h13)
  | some t =>
    simp only [bind_ok, ok_inj, Prod.mk.injEq] at h
    obtain ⟨s2, h14, rfl, rfl⟩ := h
    have hpd := h13
    unfold postDecision at h13
    split at h13
    · simp at h13
    next hpos =>
    have hpost : st.post = some t := by
      cases hp : st.post with
      | none => simp [hp] at h13
      | some t' =>
        simp only [hp, bind_ok, ok_inj] at h13
        obtain ⟨_, _, ins, _, h13⟩ := h13
        split at h13
        · exact h13
        · simp at h13
    have hpt : o.postTarget = some t := by
      rcases ts.post with e | e
      · simp only at e; rw [← e]; exact hpost
      · rw [e] at hpost; simp at hpost
    obtain ⟨own', hP⟩ := postOrder_ok (c := { order := o, price, taker, now, makerFee := m1.makerFeeF32 }) (s := s1) (own := sp o.side)
      (by change Sim ((s.book.set o.side.invert c2).get _) _; rw [hgs.1]; exact hB.sim o.side) (hB.good o.side)
      (by change ((s.book.set o.side.invert c2).get _).side = _; rw [hgs.1]; exact hB.side o.side) ts.inv hid h14
    exact base own' (.inr ⟨rfl, t, hpt, hpost, by omega, hpd, hP⟩) (fun h => by simp at h)

end Perp
end Mango
