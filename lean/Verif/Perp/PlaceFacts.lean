import Verif.Perp.Place
/-! Helper: consequences of `newOrder_ok` used by the matching properties and by the market system. -/
namespace Mango
namespace Perp
open Book

/-- a book all of whose resting orders have positive size and whose fixed-price orders have a positive price -/
structure LiveBook (bk : OBook) (sp : Side → SpecSide) : Prop where
  is : BookIs bk sp
  pos : ∀ sd c, ∀ l ∈ (sp sd).get c, 0 < l.quantity
  one : ∀ sd, ∀ l ∈ (sp sd).fixedL, 1 ≤ l.priceData

theorem sim_unique {b : BookSide} {s s' : SpecSide} (h : Sim b s) (h' : Sim b s') : s = s' := by
  have key : ∀ c, s.get c = s'.get c := by
    intro c
    obtain ⟨xs, a1, a2⟩ := toList_sim h c
    obtain ⟨ys, b1, b2⟩ := toList_sim h' c
    rw [a1, ok_inj] at b1
    subst b1
    rw [a2] at b2
    unfold ord at b2
    split at b2
    · exact List.reverse_injective b2
    · exact b2
  cases s; cases s'
  have h1 := key .fixed
  have h2 := key .pegged
  simp only [SpecSide.get] at h1 h2
  rw [h1, h2]

theorem BookIs.unique {bk : OBook} {sp sp' : Side → SpecSide} (h : BookIs bk sp) (h' : BookIs bk sp') : sp = sp' :=
  funext fun sd => sim_unique (h.sim sd) (h'.sim sd)

/-- an order resting on a side that could trade now, at the given price -/
def offerAt (s : SpecSide) (side : Side) (now : Nat) (oracle : Int) (c : Comp) (l : Leaf) (p : Int) : Prop :=
  l ∈ s.get c ∧ ¬ timedOut l now ∧
    match c with
    | .fixed => p = (l.priceData : Int)
    | .pegged => pegVisible oracle l = true ∧ p = pegPrice oracle l ∧ ¬ (l.pegLimit ≠ -1 ∧ side.isPriceBetter p l.pegLimit = true)

theorem offer_item {s : SpecSide} {side : Side} {now : Nat} {oracle : Int} {xs : List Item} (hO : Offers s side now oracle xs)
    {c : Comp} {l : Leaf} {p : Int} (h : offerAt s side now oracle c l p) :
    ∃ i ∈ xs, i.comp = c ∧ i.leaf = l ∧ i.price = p ∧ i.isValid = true := by
  obtain ⟨h1, h2, h3⟩ := h
  have hm : (c, l) ∈ xs.map (fun i => (i.comp, i.leaf)) := by
    apply hO.perm.symm.subset
    cases c with
    | fixed => exact List.mem_append_left _ (List.mem_map.mpr ⟨l, h1, rfl⟩)
    | pegged => exact List.mem_append_right _ (List.mem_map.mpr ⟨l, List.mem_filter.mpr ⟨h1, h3.1⟩, rfl⟩)
  obtain ⟨i, hi, e⟩ := List.mem_map.mp hm
  simp only [Prod.mk.injEq] at e
  obtain ⟨rfl, rfl⟩ := e
  have hk := hO.ok i hi
  unfold itemOK at hk
  unfold Item.isValid
  cases hc : i.comp with
  | fixed =>
    rw [hc] at hk h3
    simp only at hk h3
    refine ⟨i, hi, hc, rfl, by rw [hk.1, h3], ?_⟩
    rw [hk.2, if_neg h2]; rfl
  | pegged =>
    rw [hc] at hk h3
    simp only at hk h3
    refine ⟨i, hi, hc, rfl, by rw [hk.1, h3.2.1], ?_⟩
    rw [hk.2, if_neg]
    · rfl
    · rintro (h | h)
      · exact h2 h
      · apply h3.2.2; rw [h3.2.1, ← hk.1]; exact h

theorem item_offer {s : SpecSide} {side : Side} {now : Nat} {oracle : Int} {xs : List Item} (hO : Offers s side now oracle xs)
    {i : Item} (hi : i ∈ xs) (hv : i.isValid = true) : offerAt s side now oracle i.comp i.leaf i.price := by
  have hk := hO.ok i hi
  refine ⟨hO.mem hi, ?_⟩
  unfold itemOK at hk
  unfold Item.isValid at hv
  cases hc : i.comp with
  | fixed =>
    rw [hc] at hk
    simp only at hk
    rw [hk.2] at hv
    refine ⟨?_, hk.1⟩
    intro ht; rw [if_pos ht] at hv; simp at hv
  | pegged =>
    rw [hc] at hk
    simp only at hk
    have hn : ¬ (timedOut i.leaf now ∨ (i.leaf.pegLimit ≠ -1 ∧ side.isPriceBetter i.price i.leaf.pegLimit = true)) := by
      intro ht; rw [hk.2, if_pos ht] at hv; simp at hv
    refine ⟨fun h => hn (.inl h), ?_, hk.1, fun h => hn (.inr h)⟩
    have hm : (i.comp, i.leaf) ∈ xs.map (fun i => (i.comp, i.leaf)) := List.mem_map.mpr ⟨i, hi, rfl⟩
    have := hO.perm.subset hm
    rw [List.mem_append, List.mem_map, List.mem_map] at this
    rcases this with ⟨l, _, e⟩ | ⟨l, hl, e⟩
    · simp only [Prod.mk.injEq] at e; rw [hc] at e; simp at e
    · simp only [Prod.mk.injEq] at e; rw [← e.2]; exact (List.mem_filter.mp hl).2

theorem offers_pos {s : SpecSide} {side : Side} {now : Nat} {oracle : Int} {xs : List Item} (hO : Offers s side now oracle xs)
    (hp : ∀ c, ∀ l ∈ s.get c, 0 < l.quantity) (h1 : ∀ l ∈ s.fixedL, 1 ≤ l.priceData) : ∀ i ∈ xs, itemPos i := by
  intro i hi
  refine ⟨hp _ _ (hO.mem hi), ?_⟩
  have hk := hO.ok i hi
  have hm := hO.mem hi
  unfold itemOK at hk
  cases hc : i.comp with
  | fixed =>
    rw [hc] at hk hm
    rw [hk.1]
    have := h1 i.leaf hm
    omega
  | pegged =>
    rw [hc] at hk
    rw [hk.1]
    have hm : (i.comp, i.leaf) ∈ xs.map (fun i => (i.comp, i.leaf)) := List.mem_map.mpr ⟨i, hi, rfl⟩
    have := hO.perm.subset hm
    rw [List.mem_append, List.mem_map, List.mem_map] at this
    rcases this with ⟨l, _, e⟩ | ⟨l, hl, e⟩
    · simp only [Prod.mk.injEq] at e; rw [hc] at e; simp at e
    · simp only [Prod.mk.injEq] at e
      have := (List.mem_filter.mp hl).2
      rw [e.2] at this
      unfold pegVisible at this
      simp only [Bool.and_eq_true, decide_eq_true_eq] at this
      exact this.1

namespace Placed
variable {o : Order} {oracleNative : I80F48} {taker now limit : Nat} {s s' : NOState} {sp : Side → SpecSide} {r : Option Nat}

def ctx (P : Placed o oracleNative taker now limit s sp r s') : MCtx :=
  { order := o, price := P.price, taker, now, makerFee := P.m1.makerFeeF32 }

/-- the orders resting afterwards -/
def post (P : Placed o oracleNative taker now limit s sp r s') (sd : Side) : SpecSide := if sd = o.side then P.own' else P.other'

theorem post_own (P : Placed o oracleNative taker now limit s sp r s') : P.post o.side = P.own' := by unfold post; simp
theorem post_other (P : Placed o oracleNative taker now limit s sp r s') : P.post o.side.invert = P.other' := by
  unfold post; rw [if_neg (by cases o.side <;> simp [Side.invert])]

theorem nodup_chg (P : Placed o oracleNative taker now limit s sp r s') (hB : BookIs s.book sp) :
    (((changesOf P.acts).map Prod.fst ++ deletesOf P.acts).map ck).Nodup := by
  obtain ⟨zs, hz1, hz2⟩ := (acts_subperm P.acts).trans P.sum.pre.sublist.subperm
  exact ((hz1.map ck).nodup_iff).mp ((P.offers.nodup (hB.keys _)).sublist (hz2.map ck))

theorem nodup_c (P : Placed o oracleNative taker now limit s sp r s') (hB : BookIs s.book sp) :
    ((changesOf P.acts).map (fun x => ck x.1)).Nodup := by
  have := P.nodup_chg hB
  rw [List.map_append, List.map_map] at this
  exact (List.nodup_append.mp this).1

theorem item_mem (P : Placed o oracleNative taker now limit s sp r s') {a : Act} (ha : a ∈ P.acts) : a.item ∈ P.items :=
  P.sum.pre.sublist.subset (List.mem_map.mpr ⟨a, ha, rfl⟩)

theorem act_unique (P : Placed o oracleNative taker now limit s sp r s') (hB : BookIs s.book sp) {a b : Act} (ha : a ∈ P.acts) (hb : b ∈ P.acts)
    (h : ck a.item = ck b.item) : a = b := by
  have h1 := (P.offers.nodup (hB.keys _)).sublist (P.sum.pre.sublist.map ck)
  rw [List.map_map] at h1
  exact List.inj_on_of_nodup_map h1 ha hb h

/-- how each opposing order fared -/
theorem other_mem (P : Placed o oracleNative taker now limit s sp r s') (hB : BookIs s.book sp) {c : Comp} {y : Leaf} :
    y ∈ P.other'.get c ↔ ∃ l ∈ (sp o.side.invert).get c,
      (y = l ∧ ∀ a ∈ P.acts, ck a.item = (c, l.key) → ∃ i, a = .ignore i) ∨
      (∃ i b, Act.fill i b ∈ P.acts ∧ i.comp = c ∧ i.leaf = l ∧ b ≠ l.quantity ∧ y = { l with quantity := l.quantity - b }) := by
  rw [P.e_other, mem_specApply (P.nodup_c hB)]
  have hleaf : ∀ a ∈ P.acts, ∀ l ∈ (sp o.side.invert).get c, ck a.item = (c, l.key) → a.item.comp = c ∧ a.item.leaf = l := by
    intro a ha l hl e
    unfold ck at e
    simp only [Prod.mk.injEq] at e
    refine ⟨e.1, ?_⟩
    have := P.offers.mem (P.item_mem ha)
    rw [e.1] at this
    exact key_inj (hB.keys _ c) this hl e.2
  constructor
  · rintro ⟨l, hl, hd, h⟩
    refine ⟨l, hl, ?_⟩
    rcases h with ⟨rfl, hc⟩ | ⟨x, hx, e, rfl⟩
    · refine .inl ⟨rfl, ?_⟩
      intro a ha e
      cases a with
      | drop i => exact absurd e (hd i (List.mem_flatMap.mpr ⟨_, ha, by simp [Act.delete]⟩))
      | cancel i => exact absurd e (hd i (List.mem_flatMap.mpr ⟨_, ha, by simp [Act.delete]⟩))
      | ignore i => exact ⟨i, rfl⟩
      | fill i b =>
        exfalso
        by_cases hz : i.leaf.quantity - b = 0
        · exact absurd e (hd i (List.mem_flatMap.mpr ⟨_, ha, by simp [Act.delete, hz]⟩))
        · exact absurd e (hc (i, i.leaf.quantity - b) (List.mem_flatMap.mpr ⟨_, ha, by simp [Act.change, hz]⟩))
    · right
      obtain ⟨a, ha, hx⟩ := List.mem_flatMap.mp hx
      cases a with
      | drop i => simp [Act.change] at hx
      | cancel i => simp [Act.change] at hx
      | ignore i => simp [Act.change] at hx
      | fill i b =>
        simp only [Act.change] at hx
        by_cases hz : i.leaf.quantity - b = 0
        · rw [if_pos hz] at hx; simp at hx
        · rw [if_neg hz] at hx
          simp only [List.mem_singleton] at hx
          subst hx
          obtain ⟨h1, h2⟩ := hleaf _ ha l hl e
          simp only [Act.item] at h1 h2
          exact ⟨i, b, ha, h1, h2, by rw [← h2]; omega, by rw [h2]⟩
  · rintro ⟨l, hl, h⟩
    refine ⟨l, hl, ?_⟩
    rcases h with ⟨rfl, h⟩ | ⟨i, b, hf, e1, e2, hne, rfl⟩
    · refine ⟨?_, .inl ⟨rfl, ?_⟩⟩
      · intro d hd e
        obtain ⟨a, ha, hx⟩ := List.mem_flatMap.mp hd
        have : d = a.item := by
          cases a <;> simp only [Act.delete, Act.item] at * <;> (try split at hx) <;> simp_all
        subst this
        obtain ⟨i, rfl⟩ := h a ha e
        simp [Act.delete] at hx
      · intro x hx e
        obtain ⟨a, ha, hx⟩ := List.mem_flatMap.mp hx
        have : x.1 = a.item := by
          cases a <;> simp only [Act.change, Act.item] at * <;> (try split at hx) <;> simp_all
        rw [this] at e
        obtain ⟨i, rfl⟩ := h a ha e
        simp [Act.change] at hx
    · have hcq : i.leaf.quantity - b ≠ 0 := by rw [e2]; omega
      refine ⟨?_, .inr ⟨(i, i.leaf.quantity - b), List.mem_flatMap.mpr ⟨_, hf, by simp [Act.change, hcq]⟩, by simp [ck, e1, e2], by rw [e2]⟩⟩
      intro d hd e
      obtain ⟨a, ha, hx⟩ := List.mem_flatMap.mp hd
      have hda : d = a.item := by
        cases a <;> simp only [Act.delete, Act.item] at * <;> (try split at hx) <;> simp_all
      subst hda
      have : a = Act.fill i b := P.act_unique hB ha hf (by rw [e]; simp [ck, Act.item, e1, e2])
      subst this
      simp [Act.delete, hcq] at hx

theorem acts_ok (P : Placed o oracleNative taker now limit s sp r s') (hL : LiveBook s.book sp) (h1 : 0 ≤ o.maxBase) (h2 : 0 ≤ o.maxQuote) :
    (∀ a ∈ P.acts, actOK P.ctx a) ∧ 0 ≤ P.st.remBase ∧ 0 ≤ P.st.remQuote :=
  trace_acts P.trace h1 h2 (offers_pos P.offers (hL.pos _) (hL.one _))

/-- the book after the order -/
theorem live (P : Placed o oracleNative taker now limit s sp r s') (ht : o.Typed) (hL : LiveBook s.book sp) (h1 : 0 ≤ o.maxBase)
    (h2 : 0 ≤ o.maxQuote) : LiveBook s'.book P.post := by
  obtain ⟨p1, p2, p3⟩ := price_facts ht P.e_price
  obtain ⟨g1, g2, g3⟩ := genOrderId_ok P.e_gen
  obtain ⟨hacts, hb, hq⟩ := P.acts_ok hL h1 h2
  have hgo : P.other'.good := by
    rw [P.e_other]
    exact good_of_keys (hL.is.good _) (fun c => specApply_keys (P.nodup_c hL.is) c)
  have hpo : ∀ c, ∀ l ∈ P.other'.get c, 0 < l.quantity := by
    intro c l hl
    rw [P.other_mem hL.is] at hl
    obtain ⟨l0, hl0, ⟨rfl, _⟩ | ⟨i, b, hf, _, e2, hne, rfl⟩⟩ := hl
    · exact hL.pos _ c _ hl0
    · have := hacts _ hf
      simp only [actOK] at this
      obtain ⟨_, _, _, hle, _⟩ := this
      rw [e2] at hle
      simp only; omega
  have hoo : ∀ l ∈ P.other'.fixedL, 1 ≤ l.priceData := by
    intro l hl
    have hl : l ∈ P.other'.get .fixed := hl
    rw [P.other_mem hL.is] at hl
    obtain ⟨l0, hl0, ⟨rfl, _⟩ | ⟨i, b, hf, _, e2, hne, rfl⟩⟩ := hl
    · exact hL.one _ _ hl0
    · exact hL.one _ l0 hl0
  have base : ∀ (own : SpecSide), P.own' = own → Sim (s'.book.get o.side) own → (s'.book.get o.side).nodes.isBids = (s.book.get o.side).nodes.isBids →
      s'.book.get o.side.invert = P.s1.book.get o.side.invert → own.good → (∀ c, ∀ l ∈ own.get c, 0 < l.quantity) →
      (∀ l ∈ own.fixedL, 1 ≤ l.priceData) → LiveBook s'.book P.post := by
    intro own e a1 a2 a3 a4 a5 a6
    have hside : ∀ sd : Side, sd = o.side ∨ sd = o.side.invert := by intro sd; cases sd <;> cases o.side <;> simp [Side.invert]
    have hoth : Sim (s'.book.get o.side.invert) P.other' := by rw [a3]; exact P.s1_sim
    have hbi : (s'.book.get o.side.invert).nodes.isBids = (s.book.get o.side.invert).nodes.isBids := by rw [a3]; exact P.s1_bids
    constructor
    · constructor
      · intro sd
        rcases hside sd with rfl | rfl
        · rw [P.post_own, e]; exact a1
        · rw [P.post_other]; exact hoth
      · intro sd
        rcases hside sd with rfl | rfl
        · rw [a2]; exact hL.is.bids _
        · rw [hbi]; exact hL.is.bids _
      · intro sd
        rcases hside sd with rfl | rfl
        · rw [P.post_own, e]; exact a4
        · rw [P.post_other]; exact hgo
    · intro sd
      rcases hside sd with rfl | rfl
      · rw [P.post_own, e]; exact a5
      · rw [P.post_other]; exact hpo
    · intro sd
      rcases hside sd with rfl | rfl
      · rw [P.post_own, e]; exact a6
      · rw [P.post_other]; exact hoo
  rcases P.fin with ⟨_, hs, ho⟩ | ⟨_, t, hpt, _, hq0, _, ⟨W⟩⟩
  · apply base _ ho
    · have e : s'.book.get o.side = s.book.get o.side := by rw [← P.s1_own, ← hs]
      rw [e]; exact hL.is.sim _
    · have e : s'.book.get o.side = s.book.get o.side := by rw [← P.s1_own, ← hs]
      rw [e]
    · rw [← hs]
    · exact hL.is.good _
    · exact hL.pos _
    · exact hL.one _
  · have hmid : W.mid.good := del_good (hL.is.good _) W.outs
    have hkey : W.leaf.key = P.id := by rw [W.leaf_eq]
    have hqty : W.leaf.quantity = min P.st.remBase (P.st.remQuote.tdiv P.price) := by rw [W.leaf_eq]
    have hpd : W.leaf.priceData = P.pd := by
      unfold Leaf.priceData; rw [hkey, g2]; exact newNodeKey_div _ _ _ g1
    have hmem : ∀ c, ∀ l ∈ P.own'.get c, (c = t ∧ l = W.leaf) ∨ l ∈ (sp o.side).get c := by
      intro c l hl
      rw [W.own_eq] at hl
      have hk : ∀ c, ∀ l ∈ W.mid.get c, l ∈ (sp o.side).get c := fun c l hl => (W.outs.mem.mp hl).1
      by_cases hc : c = t
      · subst hc
        rw [get_set_same] at hl
        rcases (C13_spec_insert _ _ _).mp hl with h | h
        · exact .inl ⟨rfl, h⟩
        · exact .inr (hk _ _ h.1)
      · have : c = t.other := by cases c <;> cases t <;> simp_all [Comp.other]
        subst this
        rw [get_set_other] at hl
        exact .inr (hk _ _ hl)
    apply base _ rfl W.sim (by rw [W.bids, P.s1_own]) W.other
    · constructor
      · intro l hl
        rcases hmem .fixed l hl with ⟨e, rfl⟩ | h
        · unfold goodFixed
          rw [hpd]
          cases hpa : o.params with
          | pegged off ty lim => simp [Order.postTarget, hpa] at hpt; rw [← hpt] at e; simp at e
          | market => simp [Order.postTarget, hpa] at hpt
          | ioc p => simp [Order.postTarget, hpa] at hpt
          | fixed p ty => simp only [hpa] at p3; omega
        · exact (hL.is.good _).1 l h
      · intro l hl
        rcases hmem .pegged l hl with ⟨e, rfl⟩ | h
        · rw [hkey, g2]
          apply newNodeKey_lt _ _ _ g1
          cases hpa : o.params with
          | pegged off ty lim =>
            simp only [hpa] at p3
            have := pegData_eq (P.price - P.oracle) p3.2.1 p3.2.2
            rw [p3.1]; unfold I64MIN I64MAX at p3; omega
          | market => simp [Order.postTarget, hpa] at hpt
          | ioc p => simp [Order.postTarget, hpa] at hpt
          | fixed p ty => simp only [hpa] at p3; unfold I64MAX at p2; omega
        · exact (hL.is.good _).2 l h
    · intro c l hl
      rcases hmem c l hl with ⟨e, rfl⟩ | h
      · rw [hqty]; exact hq0
      · exact hL.pos _ c l h
    · intro l hl
      rcases hmem .fixed l hl with ⟨e, rfl⟩ | h
      · rw [hpd]
        cases hpa : o.params with
        | pegged off ty lim => simp [Order.postTarget, hpa] at hpt; rw [← hpt] at e; simp at e
        | market => simp [Order.postTarget, hpa] at hpt
        | ioc p => simp [Order.postTarget, hpa] at hpt
        | fixed p ty => simp only [hpa] at p3; omega
      · exact hL.one _ l h

end Placed
end Perp
end Mango
