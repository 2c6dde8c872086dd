import Verif.Props.Match2
/-! # C21, C22, C27: conservation, self-trades, fees -/
namespace Mango
namespace Perp
open Book Fx

variable {o : Order} {oracleNative : I80F48} {taker now limit : Nat} {s s' : NOState} {sp sp' : Side → SpecSide} {r : Option Nat}

/-- lots of the order `key` traded by the given fills -/
def filledLots (key : Nat) (fs : List FillEv) : Int := sumOf (fun f => if f.makerOrderId = key then f.quantity else 0) fs
/-- lots of the order `key` of side `sd` cancelled by the given events -/
def outLots (sd : Side) (key : Nat) (es : List OutEv) : Int :=
  sumOf (fun e => if e.side = sd ∧ e.orderId = key then e.quantity else 0) es

theorem sumOf_single {α : Type} {key : α → Nat} {g : α → Int} : ∀ {xs : List α}, (xs.map key).Nodup → ∀ {a : α}, a ∈ xs →
    sumOf (fun x => if key x = key a then g x else 0) xs = g a := by
  intro xs
  induction xs with
  | nil => intro _ a ha; simp at ha
  | cons x xs ih =>
    intro hnd a ha
    rw [List.map_cons, List.nodup_cons] at hnd
    rw [sumOf_cons]
    rcases List.mem_cons.mp ha with rfl | ha
    · have : sumOf (fun x => if key x = key a then g x else 0) xs = 0 := by
        apply sumOf_zero
        intro y hy
        rw [if_neg]
        intro e; exact hnd.1 (by rw [← e]; exact List.mem_map.mpr ⟨y, hy, rfl⟩)
      rw [this]; simp
    · rw [ih hnd.2 ha, if_neg]
      · omega
      · intro e; exact hnd.1 (by rw [e]; exact List.mem_map.mpr ⟨a, ha, rfl⟩)

theorem outs_own_zero (sd side : Side) (hne : sd ≠ side) (now : Nat) (key : Nat) : ∀ (is : List Item) (seq : Int),
    outLots sd key (outsOf (outEventsOf side now seq is)) = 0 := by
  intro is
  induction is with
  | nil => intro seq; rfl
  | cons i is ih =>
    intro seq
    have := ih (seq + 1)
    simp only [outEventsOf, outLots, outsOf, List.filterMap_cons, outEvent, sumOf_cons] at *
    rw [this, if_neg]
    · rfl
    · rintro ⟨e, _⟩; exact hne e.symm

theorem Placed.keys_nodup (P : Placed o oracleNative taker now limit s sp r s') (hS : Setup o s sp)
    (hu : ∀ a ∈ (sp o.side.invert).fixedL, ∀ b ∈ (sp o.side.invert).peggedL, a.key ≠ b.key) :
    (P.acts.map (fun a => a.item.leaf.key)).Nodup := by
  have h1 := (P.offers.nodup (hS.live.is.keys _)).sublist (P.sum.pre.sublist.map ck)
  rw [List.map_map] at h1
  rw [List.nodup_iff_pairwise_ne] at h1 ⊢
  rw [List.pairwise_map] at h1 ⊢
  refine h1.imp_of_mem ?_
  intro a b ha hb hab e
  apply hab
  have ma := P.offers.mem (P.item_mem ha)
  have mb := P.offers.mem (P.item_mem hb)
  simp only [Function.comp, ck, Prod.mk.injEq]
  refine ⟨?_, e⟩
  cases ca : a.item.comp <;> cases cb : b.item.comp <;> rw [ca] at ma <;> rw [cb] at mb <;> try rfl
  · exact absurd e (hu _ ma _ mb)
  · exact absurd e.symm (hu _ mb _ ma)

/-- C21 (makers): after a new order, every order of the opposing side either still rests, with exactly its filled lots
deducted and nothing cancelled, or is gone and its fills plus its cancellation add up to its size; nothing appears there;
and every fill is of an opposing order that could trade, at its price, with its owner and slot, `makerOut` marking exactly
the complete fills.  (Order ids are distinct across the fixed-price and the pegged orders of a side: `hu`, which holds in
every reachable market.) -/
theorem C21_makers (hS : Setup o s sp) (h : newOrder o oracleNative taker now limit s = .ok (r, s'))
    {oracle : Int} (hor : s.market.nativePriceToLot oracleNative = .ok oracle) (hB' : BookIs s'.book sp')
    (hu : ∀ a ∈ (sp o.side.invert).fixedL, ∀ b ∈ (sp o.side.invert).peggedL, a.key ≠ b.key) :
    ∃ evs, s'.queue.toList = s.queue.toList ++ evs ∧
      (∀ c, ∀ l ∈ (sp o.side.invert).get c,
        ({ l with quantity := l.quantity - filledLots l.key (fillsOf evs) } ∈ (sp' o.side.invert).get c ∧
          0 ≤ filledLots l.key (fillsOf evs) ∧ filledLots l.key (fillsOf evs) < l.quantity ∧ outLots o.side.invert l.key (outsOf evs) = 0) ∨
        ((∀ y ∈ (sp' o.side.invert).get c, y.key ≠ l.key) ∧
          filledLots l.key (fillsOf evs) + outLots o.side.invert l.key (outsOf evs) = l.quantity)) ∧
      (∀ c, ∀ y ∈ (sp' o.side.invert).get c, ∃ l ∈ (sp o.side.invert).get c, l.key = y.key) ∧
      (∀ f ∈ fillsOf evs, ∃ c l, offerAt (sp o.side.invert) o.side.invert now oracle c l f.price ∧ f.makerOrderId = l.key ∧
        f.maker = l.owner ∧ f.makerSlot = l.ownerSlot ∧ f.quantity ≤ l.quantity ∧ (f.makerOut = true ↔ f.quantity = l.quantity)) := by
  obtain ⟨P⟩ := place hS h
  have ho := P.e_oracle
  rw [hor, ok_inj] at ho
  subst ho
  have hsp : sp' = P.post := hB'.unique (P.live hS.typed hS.live hS.base hS.quote).is
  rw [hsp, P.post_other]
  obtain ⟨evs, e1, e2, is, e3, _⟩ := P.events
  have hnd := P.keys_nodup hS hu
  have hne : o.side.invert ≠ o.side := by cases o.side <;> simp [Side.invert]
  have hfl : ∀ k, filledLots k (fillsOf evs) = sumOf (fun a : Act => if a.item.leaf.key = k then a.base else 0) P.acts := by
    intro k
    rw [e2]
    exact (fills_acts P.ctx P.acts s.queue.seqNum).1 _ _
      (by intro i b n f hf; unfold fillEvent at hf; injection hf with hf; subst hf; rfl)
      (by intro a ha; cases a <;> simp_all [Act.isFill, Act.base])
  have hol : ∀ k, outLots o.side.invert k (outsOf evs) =
      sumOf (fun a : Act => if a.item.leaf.key = k then a.lots - a.base else 0) P.acts := by
    intro k
    have hz := outs_own_zero o.side.invert o.side hne now k is P.st.queue.seqNum
    rw [e3, outsOf_append]
    unfold outLots at hz ⊢
    rw [sumOf_append, hz, add_zero]
    refine (outs_acts P.ctx P.acts s.queue.seqNum).1 _ _ ?_ ?_
    · intro i n f hf
      unfold outEvent at hf
      injection hf with hf
      subst hf
      have : P.ctx.order.side = o.side := rfl
      simp [Act.item, Act.lots, Act.base, this]
    · intro i b; simp [Act.lots, Act.base]
  have hacts := (P.acts_ok hS.live hS.base hS.quote).1
  refine ⟨evs, e1, ?_, ?_, ?_⟩
  · intro c l hl
    rw [hfl, hol]
    by_cases hex : ∃ a ∈ P.acts, a.item.leaf.key = l.key
    · obtain ⟨a, ha, hk⟩ := hex
      rw [← hk, sumOf_single hnd ha, sumOf_single hnd ha]
      have hm := P.offers.mem (P.item_mem ha)
      have hc : a.item.comp = c ∧ a.item.leaf = l := by
        have hcc : a.item.comp = c := by
          cases ca : a.item.comp <;> cases c <;> rw [ca] at hm <;> try rfl
          · exact absurd hk (hu _ hm _ hl)
          · exact absurd hk.symm (hu _ hl _ hm)
        refine ⟨hcc, ?_⟩
        rw [hcc] at hm
        exact key_inj (hS.live.is.keys _ c) hm hl hk
      obtain ⟨rfl, rfl⟩ := hc
      have hok := hacts a ha
      have gone := fun hd => P.gone hS ha hd
      cases a with
      | drop i => right; exact ⟨gone (by simp [Act.delete, Act.item]), by simp [Act.base, Act.lots, Act.item]⟩
      | cancel i => right; exact ⟨gone (by simp [Act.delete, Act.item]), by simp [Act.base, Act.lots, Act.item]⟩
      | ignore i =>
        left
        refine ⟨?_, ?_, ?_, ?_⟩
        · rw [P.other_mem hS.live.is]
          refine ⟨_, hl, .inl ⟨?_, ?_⟩⟩
          · simp [Act.base]
          · intro b hb e
            have : b = .ignore i := P.act_unique hS.live.is hb ha e
            exact ⟨i, this⟩
        · simp [Act.base]
        · have := hS.live.pos _ _ _ hl; simpa [Act.base] using this
        · simp [Act.base, Act.lots]
      | fill i b =>
        simp only [actOK] at hok
        obtain ⟨_, _, h0, hle, _⟩ := hok
        by_cases hf : b = i.leaf.quantity
        · right; exact ⟨gone (by simp [Act.delete, Act.item, hf]), by simp [Act.base, Act.lots, Act.item, hf]⟩
        · left
          refine ⟨?_, ?_, ?_, ?_⟩
          · rw [P.other_mem hS.live.is]
            exact ⟨_, hl, .inr ⟨i, b, ha, rfl, rfl, hf, by simp [Act.base]⟩⟩
          · simp only [Act.base]; omega
          · simp only [Act.base, Act.item]; omega
          · simp [Act.base, Act.lots]
    · have z : ∀ g : Act → Int, sumOf (fun a : Act => if a.item.leaf.key = l.key then g a else 0) P.acts = 0 := by
        intro g
        apply sumOf_zero
        intro a ha
        rw [if_neg (fun e => hex ⟨a, ha, e⟩)]
      rw [z, z]
      left
      refine ⟨?_, le_refl _, hS.live.pos _ _ _ hl, rfl⟩
      rw [P.other_mem hS.live.is]
      refine ⟨l, hl, .inl ⟨by simp, ?_⟩⟩
      intro a ha e
      exfalso; apply hex; refine ⟨a, ha, ?_⟩
      simp only [ck, Prod.mk.injEq] at e; exact e.2
  · intro c y hy
    rw [P.other_mem hS.live.is] at hy
    obtain ⟨l, hl, ⟨rfl, _⟩ | ⟨_, _, _, _, _, _, rfl⟩⟩ := hy
    · exact ⟨_, hl, rfl⟩
    · exact ⟨l, hl, rfl⟩
  · intro f hf
    rw [e2] at hf
    obtain ⟨i, b, _, _, _, f3, f4, f5, f6, f7, f8, _, hi, hv, _, _, hle, _⟩ := P.fill_facts hS hf
    refine ⟨i.comp, i.leaf, ?_, f6, f5, f7, by omega, f8⟩
    rw [f4]; exact item_offer P.offers hi hv

/-- C21 (taker): the taker's pending base lots move by exactly the lots of the fills (up for a buy, down for a sell), the
pending quote lots by exactly the sum of price times quantity in the other direction; the settled base position is
untouched; and if a remainder is posted, its lots plus the lots traded do not exceed the order's max base lots, its value at
the posting price plus the quote traded does not exceed the max quote lots, and the open-order lots of that side grow by it. -/
theorem C21_taker (hS : Setup o s sp) (h : newOrder o oracleNative taker now limit s = .ok (r, s'))
    {oracle : Int} (hor : s.market.nativePriceToLot oracleNative = .ok oracle) (hB' : BookIs s'.book sp') :
    ∃ evs p p', s'.queue.toList = s.queue.toList ++ evs ∧ s.acct.pos = some p ∧ s'.acct.pos = some p' ∧
      p'.takerBase = p.takerBase + Side.sgn o.side * sumOf FillEv.quantity (fillsOf evs) ∧
      p'.takerQuote = p.takerQuote - Side.sgn o.side * sumOf (fun f : FillEv => f.quantity * f.price) (fillsOf evs) ∧
      p'.base = p.base ∧
      ((r = none ∧ sp' o.side = sp o.side ∧ p'.bids = p.bids ∧ p'.asks = p.asks) ∨
       ∃ id t l pr, r = some id ∧ l ∈ (sp' o.side).get t ∧ l.key = id ∧ l.owner = taker ∧ tradesAt oracle t l pr ∧ 0 < l.quantity ∧
         l.quantity + sumOf FillEv.quantity (fillsOf evs) ≤ o.maxBase ∧
         l.quantity * pr + sumOf (fun f : FillEv => f.quantity * f.price) (fillsOf evs) ≤ o.maxQuote ∧
         p'.bids = p.bids + (if o.side = .bid then l.quantity else 0) ∧ p'.asks = p.asks + (if o.side = .ask then l.quantity else 0) ∧
         (∀ c, ∀ y ∈ (sp' o.side).get c, (c = t ∧ y = l) ∨ y ∈ (sp o.side).get c)) := by
  obtain ⟨P⟩ := place hS h
  have ho := P.e_oracle
  rw [hor, ok_inj] at ho
  subst ho
  have hsp : sp' = P.post := hB'.unique (P.live hS.typed hS.live hS.base hS.quote).is
  obtain ⟨evs, e1, e2, _⟩ := P.events
  obtain ⟨s1, _⟩ := fills_acts P.ctx P.acts s.queue.seqNum
  have hq1 : sumOf FillEv.quantity (fillsOf evs) = sumOf Act.base P.acts := by
    rw [e2]
    exact s1 _ _ (by intro i b n f hf; unfold fillEvent at hf; injection hf with hf; subst hf; rfl)
      (by intro a ha; cases a <;> simp_all [Act.isFill, Act.base])
  have hq2 : sumOf (fun f : FillEv => f.quantity * f.price) (fillsOf evs) = sumOf Act.quote P.acts := by
    rw [e2]
    exact s1 _ _ (by intro i b n f hf; unfold fillEvent at hf; injection hf with hf; subst hf; rfl)
      (by intro a ha; cases a <;> simp_all [Act.isFill, Act.quote])
  obtain ⟨⟨_, ⟨p, hp1, hp2⟩, _⟩, _⟩ := P.charged hS.live hS.base hS.quote
  rw [← hq1, ← hq2] at hp2
  have hb := P.sum.base
  have hq := P.sum.quote
  simp only at hb hq
  rcases P.fin with ⟨hr, hs, hown⟩ | ⟨hr, t, hpt, _, hq0, _, ⟨W⟩⟩
  · have : s'.acct = P.a2 := by rw [← P.s1_acct, ← hs]
    refine ⟨evs, p, _, e1, hp1, (congrArg PAcct.pos this).trans hp2, ?_, ?_, ?_, .inl ⟨hr, ?_, ?_, ?_⟩⟩ <;> try rfl
    rw [hsp, P.post_own]; exact hown
  · have hw := W.acct
    unfold PAcct.addPerpOrder at hw
    simp only [bind_ok, getPos_ok, ok_inj] at hw
    obtain ⟨q, hq', q', hq'', _, _, hw⟩ := hw
    rw [P.s1_acct, hp2, Option.some.injEq] at hq'
    subst hq'
    have hq'' := adjustMakerLots_ok hq''
    have hkey : W.leaf.key = P.id := by rw [W.leaf_eq]
    have hqty : W.leaf.quantity = min P.st.remBase (P.st.remQuote.tdiv P.price) := by rw [W.leaf_eq]
    have hp1' := (price_facts hS.typed P.e_price).1
    obtain ⟨_, hrb, hrq⟩ := P.acts_ok hS.live hS.base hS.quote
    have hcost : W.leaf.quantity * P.price ≤ P.st.remQuote := by
      have hle : W.leaf.quantity ≤ P.st.remQuote.tdiv P.price := by rw [hqty]; exact min_le_right _ _
      have hdm := Int.tmod_add_tdiv_mul P.st.remQuote P.price
      have hmod := Int.tmod_nonneg P.price hrq
      have := Int.mul_le_mul_of_nonneg_right hle (show 0 ≤ P.price by omega)
      omega
    refine ⟨evs, p, q', e1, hp1, by rw [← hw]; rfl, ?_, ?_, ?_, .inr ⟨P.id, t, W.leaf, P.price, hr, ?_, hkey, by rw [W.leaf_eq], P.leaf_price hS hpt hkey, ?_, ?_, ?_, ?_, ?_, ?_⟩⟩
    · rw [hq'']
    · rw [hq'']
    · rw [hq'']
    · rw [hsp, P.post_own]; exact W.mem
    · rw [hqty]; exact hq0
    · have : W.leaf.quantity ≤ P.st.remBase := by rw [hqty]; exact min_le_left _ _
      omega
    · omega
    · rw [hq'']
    · rw [hq'']
    · intro c y hy
      rw [hsp, P.post_own] at hy
      have hset : ∀ l, P.own' = W.mid.set t (sInsert l (W.mid.get t)) → (c = t ∧ y = l) ∨ y ∈ (sp o.side).get c := by
        intro l e
        rw [e] at hy
        by_cases hc : c = t
        · subst hc
          rw [get_set_same, C13_spec_insert] at hy
          rcases hy with hy | hy
          · exact .inl ⟨rfl, hy⟩
          · exact .inr (W.outs.mem.mp hy.1).1
        · have : c = t.other := by cases c <;> cases t <;> simp_all [Comp.other]
          subst this
          rw [get_set_other] at hy
          exact .inr (W.outs.mem.mp hy).1
      exact hset _ W.own_eq

/-! ## C22: self-trades -/

/-- C22: with abort-transaction or cancel-provide an order never trades with its own owner; with abort-transaction the
owner's resting orders that could trade are all untouched when the order succeeds; with cancel-provide each of them
is either untouched or gone, with an event giving back its full size. -/
theorem C22_no_self_fill (hS : Setup o s sp) (h : newOrder o oracleNative taker now limit s = .ok (r, s'))
    (hst : o.selfTrade ≠ .decrementTake) {oracle : Int} (hor : s.market.nativePriceToLot oracleNative = .ok oracle) (hB' : BookIs s'.book sp') :
    ∃ evs, s'.queue.toList = s.queue.toList ++ evs ∧ (∀ f ∈ fillsOf evs, f.maker ≠ taker) ∧
      ∀ c l p, offerAt (sp o.side.invert) o.side.invert now oracle c l p → l.owner = taker →
        l ∈ (sp' o.side.invert).get c ∨
        (o.selfTrade = .cancelProvide ∧ (∀ y ∈ (sp' o.side.invert).get c, y.key ≠ l.key) ∧
          ∃ e ∈ outsOf evs, e.side = o.side.invert ∧ e.owner = taker ∧ e.orderId = l.key ∧ e.ownerSlot = l.ownerSlot ∧ e.quantity = l.quantity) := by
  obtain ⟨P⟩ := place hS h
  have ho := P.e_oracle
  rw [hor, ok_inj] at ho
  subst ho
  have hsp : sp' = P.post := hB'.unique (P.live hS.typed hS.live hS.base hS.quote).is
  obtain ⟨evs, e1, e2, is, e3, _⟩ := P.events
  refine ⟨evs, e1, ?_, ?_⟩
  · intro f hf
    rw [e2] at hf
    obtain ⟨i, b, _, _, _, _, _, f5, _, _, _, _, _, _, _, _, _, _, hse, _⟩ := P.fill_facts hS hf
    intro e
    exact hst (hse (by rw [← f5, e]))
  · intro c l p hl how
    obtain ⟨i, hi, rfl, rfl, rfl, hv⟩ := offer_item P.offers hl
    rw [hsp, P.post_other]
    by_cases hin : i.leaf ∈ P.other'.get i.comp
    · exact .inl hin
    right
    obtain ⟨a, ha, e⟩ := P.touched hS hi hv hin
    rcases P.visited hS ha (by rw [e]; exact hv) with ⟨j, rfl, hj, hcp⟩ | ⟨j, b, rfl, _, _, hse⟩
    · simp only [Act.item] at e
      subst e
      refine ⟨hcp, P.gone hS ha (by simp [Act.delete, Act.item]), ?_⟩
      obtain ⟨f, n, hf, hf2⟩ := (outs_acts P.ctx P.acts s.queue.seqNum).2.2 j (.inr ha)
      refine ⟨f, by rw [e3, outsOf_append]; exact List.mem_append_left _ hf, ?_⟩
      unfold outEvent at hf2
      injection hf2 with hf2
      subst hf2
      exact ⟨rfl, how, rfl, rfl, rfl⟩
    · simp only [Act.item] at e
      subst e
      exact absurd (hse how.symm) hst

/-- C22: with abort-transaction an order fails if the best order that could trade on the other side is the owner's own, is
acceptable, and the order could trade at least one lot with it. -/
theorem C22_abort {limit' : Nat} (hS : Setup o s sp) (hst : o.selfTrade = .abortTransaction) (hpo : o.isPostOnly = false)
    {oracle : Int} (hor : s.market.nativePriceToLot oracleNative = .ok oracle)
    {c : Comp} {l : Leaf} {p : Int} (hl : offerAt (sp o.side.invert) o.side.invert now oracle c l p) (how : l.owner = taker)
    (hfirst : ∀ c' x q, offerAt (sp o.side.invert) o.side.invert now oracle c' x q → (c' = c ∧ x = l) ∨ before o.side.invert p q l x)
    (hacc : acceptable o oracle p) (hmk : o.params = .market → o.side.isPriceWithinLimit p (marketLimit o.side) = true)
    (hb : 0 < o.maxBase) (hq : p ≤ o.maxQuote) (hlim : limit' ≠ 0) :
    ∀ r s', newOrder o oracleNative taker now limit' s ≠ .ok (r, s') := by
  intro r s' h
  obtain ⟨P⟩ := place hS h
  have ho := P.e_oracle
  rw [hor, ok_inj] at ho
  subst ho
  obtain ⟨i, hi, rfl, rfl, rfl, hv⟩ := offer_item P.offers hl
  have hpos := offers_pos P.offers (hS.live.pos _) (hS.live.one _)
  have hacts := (P.acts_ok hS.live hS.base hS.quote).1
  -- own orders are not visited
  have hown : ∀ a ∈ P.acts, a.item ≠ i := by
    intro a ha e
    rcases P.visited hS ha (by rw [e]; exact hv) with ⟨j, rfl, _, hcp⟩ | ⟨j, b, rfl, _, _, hse⟩
    · rw [hst] at hcp; simp at hcp
    · simp only [Act.item] at e; subst e
      have := hse how.symm
      rw [hst] at this; simp at this
  obtain ⟨⟨rest, hr1, hr2⟩, _⟩ := trace_stop P.trace hS.base hS.quote hpos
  have hir : i ∈ rest := by
    rw [hr1] at hi
    rcases List.mem_append.mp hi with hi | hi
    · obtain ⟨a, ha, e⟩ := List.mem_map.mp hi; exact absurd e (hown a ha)
    · exact hi
  -- every visited order is invalid
  have hinv : ∀ a ∈ P.acts, a.item.isValid = false := by
    intro a ha
    cases hva : a.item.isValid with
    | false => rfl
    | true =>
      exfalso
      rcases hfirst _ _ _ (item_offer P.offers (P.item_mem ha) hva) with ⟨e1, e2⟩ | hbf
      · exact hown a ha (List.inj_on_of_nodup_map (P.offers.nodup (hS.live.is.keys _)) (P.item_mem ha) hi (by simp [ck, e1, e2]))
      · have hs := P.offers.sorted
        rw [hr1, List.pairwise_append] at hs
        exact before_not_prior hbf (hs.2.2 _ (List.mem_map.mpr ⟨a, ha, rfl⟩) _ hir)
  have hnof : ∀ a ∈ P.acts, a.base = 0 ∧ a.quote = 0 ∧ a.isFill = false := by
    intro a ha
    have h1 := hinv a ha
    have h2 := hacts a ha
    cases a with
    | fill j b => simp only [actOK, Act.item] at h1 h2; rw [h1] at h2; simp at h2
    | _ => exact ⟨rfl, rfl, rfl⟩
  have hsb := P.sum.base
  have hsq := P.sum.quote
  have hsl := P.sum.lim
  rw [sumOf_zero (fun a ha => (hnof a ha).1)] at hsb
  rw [sumOf_zero (fun a ha => (hnof a ha).2.1)] at hsq
  rw [List.filter_eq_nil_iff.mpr (fun a ha => by simp [(hnof a ha).2.2])] at hsl
  simp only [List.length_nil] at hsb hsq hsl
  have hip := hpos i hi
  have hip2 := hip.2
  have hacc2 : o.side.isPriceWithinLimit i.price P.price = true := by
    rcases price_limit P.e_price hpo with hle | ⟨hle, hm⟩
    · unfold acceptable at hacc
      rw [hle] at hacc
      cases hsd : o.side <;> rw [hsd] at hacc <;> simpa [Side.isPriceWithinLimit] using hacc
    · rw [hm]
      apply hmk
      unfold limitOf at hle
      cases hpa : o.params <;> rw [hpa] at hle <;> simp_all
  rcases hr2 with h0 | h0 | ⟨j, r', hj, hjv, hj2⟩
  · rw [h0] at hir; simp at hir
  · apply h0; unfold MState.open; omega
  · have hji : j = i := by
      rw [hj] at hir
      rcases List.mem_cons.mp hir with e | hin
      · exact e.symm
      · exfalso
        have hjm : j ∈ P.items := by rw [hr1, hj]; simp
        rcases hfirst _ _ _ (item_offer P.offers hjm hjv) with ⟨e1, e2⟩ | hbf
        · have hnd := P.offers.nodup (hS.live.is.keys _)
          rw [hr1, hj, List.map_append, List.nodup_append] at hnd
          have := hnd.2.1
          rw [List.map_cons, List.nodup_cons] at this
          apply this.1
          exact List.mem_map.mpr ⟨i, hin, by simp [ck, e1, e2]⟩
        · have hs := P.offers.sorted
          rw [hr1, hj, List.pairwise_append, List.pairwise_cons] at hs
          exact before_not_prior hbf (hs.2.1.1 i hin)
    subst hji
    rcases hj2 with hx | ⟨_, hx | hx⟩ | hx
    · change o.side.isPriceWithinLimit j.price P.price = false at hx
      rw [hacc2] at hx; simp at hx
    · change o.isPostOnly = true at hx
      rw [hpo] at hx; simp at hx
    · omega
    · omega

/-- the penalty of an order: immediate-or-cancel orders pay the market's fee penalty, other orders nothing -/
def penaltyOf (m : Market) (ps : Params) : I80F48 := match ps with | .ioc _ => m.feePenalty | _ => 0

/-- C22/C27: the fees of an order.  Self-trades carry no maker fee and no taker fee: both fees are charged on the quote of the
fills with other makers.  The taker's quote position drops by taker fee plus (for immediate-or-cancel orders) penalty and
nothing else; the market's accrued fees grow by exactly taker fee plus penalty plus maker fee; each fill with another maker
carries the market's maker fee rate, to be charged when the event is consumed. -/
theorem C27_order_fees (hS : Setup o s sp) (h : newOrder o oracleNative taker now limit s = .ok (r, s')) :
    ∃ evs p p', s'.queue.toList = s.queue.toList ++ evs ∧ s.acct.pos = some p ∧ s'.acct.pos = some p' ∧
      let others := sumOf (fun f : FillEv => if f.maker = taker then 0 else f.quantity * f.price) (fillsOf evs)
      let penalty := penaltyOf s.market o.params
      p'.quote = p.quote - penalty - s.market.quoteLotSize * others * s.market.takerFee ∧
      s'.market.feesAccrued = s.market.feesAccrued + penalty + s.market.quoteLotSize * others * s.market.takerFee +
        s.market.quoteLotSize * others * s.market.makerFee ∧
      (∀ f ∈ fillsOf evs, f.makerFee = if f.maker = taker then 0 else s.market.makerFeeF32) := by
  obtain ⟨P⟩ := place hS h
  obtain ⟨evs, e1, e2, _⟩ := P.events
  have hq : sumOf (fun f : FillEv => if f.maker = taker then 0 else f.quantity * f.price) (fillsOf evs) =
      sumOf Act.quote P.acts - sumOf (Act.decQuote taker) P.acts := by
    have hx := (fills_acts P.ctx P.acts s.queue.seqNum).1 (fun f : FillEv => if f.maker = taker then 0 else f.quantity * f.price)
      (fun a => Act.quote a - Act.decQuote taker a)
      (by
        intro i b n f hf; unfold fillEvent at hf; injection hf with hf; subst hf
        simp only [Act.quote, Act.decQuote]
        by_cases e : i.leaf.owner = taker
        · rw [if_pos e, if_pos e.symm]; omega
        · rw [if_neg e, if_neg (fun h => e h.symm)]; omega)
      (by intro a ha; cases a <;> simp_all [Act.isFill, Act.quote, Act.decQuote])
    rw [e2, hx]
    have := sumOf_add (fun a => Act.quote a - Act.decQuote taker a) (Act.decQuote taker) P.acts
    have e4 : sumOf (fun a => Act.quote a - Act.decQuote taker a + Act.decQuote taker a) P.acts = sumOf Act.quote P.acts := by
      apply sumOf_congr; intro a _; omega
    omega
  have hpen : (if o.needsPenalty = true then s.market.feePenalty else 0) = penaltyOf s.market o.params := by
    unfold Order.needsPenalty penaltyOf
    cases o.params <;> simp
  obtain ⟨⟨⟨sn, hm⟩, ⟨p, hp1, hp2⟩, _⟩, _⟩ := P.charged hS.live hS.base hS.quote
  rw [← hq, hpen] at hm hp2
  have hmk : s'.market = P.m2 := by
    rcases P.fin with ⟨hr, hs, hown⟩ | ⟨hr, t, hpt, _, hq0, _, ⟨W⟩⟩
    · rw [← P.s1_market, ← hs]
    · rw [W.market, P.s1_market]
  have hff : P.m1.makerFeeF32 = s.market.makerFeeF32 := by
    obtain ⟨g1, g2, g3⟩ := genOrderId_ok P.e_gen
    rcases penaltyStep_ok P.e_pen with ⟨_, hf, _⟩ | ⟨_, hf, _⟩
    · rw [hf, g3]
    · rw [hf, g3]
  have hpos : ∃ p', s'.acct.pos = some p' ∧ p'.quote = p.quote - penaltyOf s.market o.params -
      s.market.quoteLotSize * sumOf (fun f : FillEv => if f.maker = taker then 0 else f.quantity * f.price) (fillsOf evs) * s.market.takerFee := by
    rcases P.fin with ⟨hr, hs, hown⟩ | ⟨hr, t, hpt, _, hq0, _, ⟨W⟩⟩
    · have : s'.acct = P.a2 := by rw [← P.s1_acct, ← hs]
      exact ⟨_, (congrArg PAcct.pos this).trans hp2, rfl⟩
    · have hw := W.acct
      unfold PAcct.addPerpOrder at hw
      simp only [bind_ok, getPos_ok, ok_inj] at hw
      obtain ⟨q, hq', q', hq'', _, _, hw⟩ := hw
      rw [P.s1_acct, hp2, Option.some.injEq] at hq'
      subst hq'
      refine ⟨q', by rw [← hw]; rfl, ?_⟩
      rw [adjustMakerLots_ok hq'']
  obtain ⟨p', hp3, hp4⟩ := hpos
  refine ⟨evs, p, p', e1, hp1, hp3, hp4, ?_, ?_⟩
  · rw [hmk, hm]; simp only; ring
  · intro f hf
    rw [e2] at hf
    obtain ⟨i, b, _, _, _, _, _, f5, _, _, _, f9, _⟩ := P.fill_facts hS hf
    rw [f9, f5, hff]
    by_cases e : taker = i.leaf.owner
    · rw [if_pos e, if_pos e.symm]
    · rw [if_neg e, if_neg (fun h => e h.symm)]

end Perp
end Mango
