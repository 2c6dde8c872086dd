import Verif.Props.Match
/-! # C20-C22, C27: post-only, conservation, self-trades, fees -/
namespace Mango
namespace Perp
open Book Fx

variable {o : Order} {oracleNative : I80F48} {taker now limit : Nat} {s s' : NOState} {sp sp' : Side → SpecSide} {r : Option Nat}

/-! ## C20 -/

theorem Placed.noFills (P : Placed o oracleNative taker now limit s sp r s') (hS : Setup o s sp) (hp : o.isPostOnly = true) :
    ∀ a ∈ P.acts, a.item.isValid = false := by
  intro a ha
  cases hv : a.item.isValid with
  | false => rfl
  | true =>
    exfalso
    have := (P.acts_ok hS.live hS.base hS.quote).1 a ha
    cases a with
    | drop i => simp only [actOK, Act.item] at this hv; rw [hv] at this; simp at this
    | ignore i => simp only [actOK, Act.item] at this hv; rw [hv] at this; simp at this
    | cancel i =>
      have h5 := this.2.2.2.2
      change o.isPostOnly = false at h5
      rw [hp] at h5; simp at h5
    | fill i b =>
      have h5 := this.2.2.2.2.2
      change o.isPostOnly = false at h5
      rw [hp] at h5; simp at h5

theorem Placed.noFills_sum (P : Placed o oracleNative taker now limit s sp r s') (hS : Setup o s sp) (hp : o.isPostOnly = true) :
    fillsOf (eventsOf P.ctx s.queue.seqNum P.acts) = [] ∧ sumOf Act.base P.acts = 0 ∧ sumOf Act.quote P.acts = 0 := by
  have h := P.noFills hS hp
  have hf : ∀ a ∈ P.acts, a.base = 0 ∧ a.quote = 0 := by
    intro a ha
    have hv := h a ha
    have := (P.acts_ok hS.live hS.base hS.quote).1 a ha
    cases a with
    | fill i b => simp only [actOK, Act.item] at this hv; rw [hv] at this; simp at this
    | _ => exact ⟨rfl, rfl⟩
  refine ⟨?_, sumOf_zero (fun a ha => (hf a ha).1), sumOf_zero (fun a ha => (hf a ha).2)⟩
  rw [List.eq_nil_iff_forall_not_mem]
  intro f hm
  obtain ⟨i, b, n, h1, h2⟩ := (fills_acts P.ctx P.acts s.queue.seqNum).2.2.1 f hm
  have hv := h _ h1
  have := (P.acts_ok hS.live hS.base hS.quote).1 _ h1
  simp only [actOK, Act.item] at this hv
  rw [hv] at this; simp at this

/-- C20: a post-only order trades nothing and leaves every order that could trade untouched. -/
theorem C20_post_only (hS : Setup o s sp) (h : newOrder o oracleNative taker now limit s = .ok (r, s')) (hp : o.isPostOnly = true)
    {oracle : Int} (hor : s.market.nativePriceToLot oracleNative = .ok oracle) (hB' : BookIs s'.book sp') :
    (∃ evs, s'.queue.toList = s.queue.toList ++ evs ∧ fillsOf evs = []) ∧
    (∀ c l p, offerAt (sp o.side.invert) o.side.invert now oracle c l p → l ∈ (sp' o.side.invert).get c) ∧
    (∃ p p', s.acct.pos = some p ∧ s'.acct.pos = some p' ∧ p'.takerBase = p.takerBase ∧ p'.takerQuote = p.takerQuote) := by
  obtain ⟨P⟩ := place hS h
  have ho := P.e_oracle
  rw [hor, ok_inj] at ho
  subst ho
  have hsp : sp' = P.post := hB'.unique (P.live hS.typed hS.live hS.base hS.quote).is
  obtain ⟨n1, n2, n3⟩ := P.noFills_sum hS hp
  refine ⟨?_, ?_, ?_⟩
  · obtain ⟨evs, e1, e2, _⟩ := P.events
    exact ⟨evs, e1, by rw [e2]; exact n1⟩
  · intro c l p hl
    obtain ⟨i, hi, rfl, rfl, rfl, hv⟩ := offer_item P.offers hl
    rw [hsp, P.post_other]
    by_contra hc
    obtain ⟨a, ha, e⟩ := P.touched hS hi hv hc
    have := P.noFills hS hp a ha
    rw [e, hv] at this; simp at this
  · obtain ⟨⟨_, ⟨p, hp1, hp2⟩, _⟩, _⟩ := P.charged hS.live hS.base hS.quote
    rw [n2, n3] at hp2
    simp only [mul_zero, add_zero, sub_zero] at hp2
    rcases P.fin with ⟨_, hs, _⟩ | ⟨_, t, _, _, _, _, ⟨W⟩⟩
    · have : s'.acct = P.a2 := by rw [← P.s1_acct, ← hs]
      exact ⟨p, _, hp1, (congrArg PAcct.pos this).trans hp2, rfl, rfl⟩
    · have hw := W.acct
      unfold PAcct.addPerpOrder at hw
      simp only [bind_ok, getPos_ok, ok_inj] at hw
      obtain ⟨q, hq, q', hq', _, _, hw⟩ := hw
      rw [P.s1_acct, hp2, Option.some.injEq] at hq
      subst hq
      refine ⟨p, q', hp1, by rw [← hw]; rfl, ?_⟩
      rw [adjustMakerLots_ok hq']; exact ⟨rfl, rfl⟩

/-- the price at which a resting order trades -/
def tradesAt (oracle : Int) (c : Comp) (l : Leaf) (p : Int) : Prop :=
  match c with
  | .fixed => p = (l.priceData : Int)
  | .pegged => p = pegPrice oracle l

theorem Placed.leaf_price (P : Placed o oracleNative taker now limit s sp r s') (hS : Setup o s sp) {t : Comp} (hpt : o.postTarget = some t)
    {l : Leaf} (hk : l.key = P.id) : tradesAt P.oracle t l P.price := by
  obtain ⟨p1, p2, p3⟩ := price_facts hS.typed P.e_price
  obtain ⟨g1, g2, g3⟩ := genOrderId_ok P.e_gen
  have hpd : l.priceData = P.pd := by unfold Leaf.priceData; rw [hk, g2]; exact newNodeKey_div _ _ _ g1
  unfold Order.postTarget at hpt
  unfold tradesAt
  cases hpa : o.params with
  | pegged off ty lim =>
    rw [hpa] at hpt
    simp only [Option.some.injEq] at hpt
    subst hpt
    simp only [hpa] at p3
    have := pegData_eq (P.price - P.oracle) p3.2.1 p3.2.2
    simp only [pegPrice]
    rw [hpd, peg_offset _ (by rw [p3.1]; unfold I64MIN I64MAX at p3; omega), p3.1]
    omega
  | market => rw [hpa] at hpt; simp at hpt
  | ioc p => rw [hpa] at hpt; simp at hpt
  | fixed p ty =>
    rw [hpa] at hpt
    simp only [Option.some.injEq] at hpt
    subst hpt
    simp only [hpa] at p3
    simp only [hpd, p3]; omega

/-- C20: when an order is left resting on the book — a post-only or post-only-slide order of either side, or any buy order —
no order on the other side that could trade crosses its price. -/
theorem C20_no_cross {id : Nat} (hS : Setup o s sp) (h : newOrder o oracleNative taker now limit s = .ok (some id, s'))
    (hp : o.isPostOnly = true ∨ o.side = .bid)
    {oracle : Int} (hor : s.market.nativePriceToLot oracleNative = .ok oracle) (hB' : BookIs s'.book sp') :
    ∃ t l p, l ∈ (sp' o.side).get t ∧ l.key = id ∧ l.owner = taker ∧ tradesAt oracle t l p ∧
      ∀ c x q, offerAt (sp' o.side.invert) o.side.invert now oracle c x q →
        match o.side with | .bid => p < q | .ask => q < p := by
  obtain ⟨P⟩ := place hS h
  have ho := P.e_oracle
  rw [hor, ok_inj] at ho
  subst ho
  have hsp : sp' = P.post := hB'.unique (P.live hS.typed hS.live hS.base hS.quote).is
  rcases P.fin with ⟨hr, _⟩ | ⟨hr, t, hpt, hpost, hq0, _, ⟨W⟩⟩
  · simp at hr
  simp only [Option.some.injEq] at hr
  have hkey : W.leaf.key = P.id := by rw [W.leaf_eq]
  refine ⟨t, W.leaf, P.price, ?_, hkey.trans hr.symm, by rw [W.leaf_eq], P.leaf_price hS hpt hkey, ?_⟩
  · rw [hsp, P.post_own]; exact W.mem
  intro c x q hx
  rw [hsp, P.post_other] at hx
  -- the order as it was before
  obtain ⟨hmem, hto, hpr⟩ := hx
  have hmem' := hmem
  rw [P.other_mem hS.live.is] at hmem
  obtain ⟨l0, hl0, hcase⟩ := hmem
  have hpos := offers_pos P.offers (hS.live.pos _) (hS.live.one _)
  obtain ⟨⟨rest, hr1, hr2⟩, hfull⟩ := trace_stop P.trace hS.base hS.quote hpos
  have hp1 := (price_facts hS.typed P.e_price).1
  have hrq : P.price ≤ P.st.remQuote := by
    by_contra hc
    have hz : P.st.remQuote.tdiv P.price = 0 ∨ P.st.remQuote < 0 := by
      by_cases hn : P.st.remQuote < 0
      · exact .inr hn
      · exact .inl (Int.tdiv_eq_zero_of_lt (by omega) (by omega))
    have := (P.acts_ok hS.live hS.base hS.quote).2.2
    rcases hz with hz | hz
    · rw [hz] at hq0; omega
    · omega
  have hopen : P.st.open := by unfold MState.open; omega
  -- a visited, partially filled order contradicts the open state
  have hnot : ∀ i b, Act.fill i b ∈ P.acts → b = i.leaf.quantity := by
    intro i b hf
    rcases hfull i b hf with h | h | h
    · exact h
    · omega
    · exfalso
      have hok := (P.acts_ok hS.live hS.base hS.quote).1 _ hf
      simp only [actOK] at hok
      obtain ⟨_, hw, _, _, _, hpo⟩ := hok
      rcases hp with hp | hp
      · rw [show P.ctx.order = o from rfl] at hpo; rw [hp] at hpo; simp at hpo
      · change o.side.isPriceWithinLimit i.price P.price = true at hw
        rw [hp] at hw; simp only [Side.isPriceWithinLimit, decide_eq_true_eq] at hw; omega
  rcases hcase with ⟨rfl, hign⟩ | ⟨i, b, hf, _, e2, hne, _⟩
  swap
  · exact absurd (by rw [hnot i b hf, e2]) hne
  obtain ⟨i, hi, rfl, rfl, rfl, hv⟩ := offer_item P.offers (show offerAt (sp o.side.invert) o.side.invert now P.oracle c x q from ⟨hl0, hto, hpr⟩)
  rw [hr1] at hi
  rcases List.mem_append.mp hi with hi | hi
  · obtain ⟨a, ha, e⟩ := List.mem_map.mp hi
    obtain ⟨j, rfl⟩ := hign a ha (by rw [e]; rfl)
    have := (P.acts_ok hS.live hS.base hS.quote).1 _ ha
    simp only [actOK] at this
    simp only [Act.item] at e
    rw [← e, this] at hv; simp at hv
  · rcases hr2 with h0 | h0 | ⟨j, r', hj, hjv, hj2⟩
    · rw [h0] at hi; simp at hi
    · exact absurd hopen h0
    · have hout : o.side.isPriceWithinLimit j.price P.price = false := by
        rcases hj2 with h | ⟨h, _⟩ | h
        · exact h
        · rw [hpost] at h; simp at h
        · cases hw : o.side.isPriceWithinLimit j.price P.price with
          | false => rfl
          | true =>
            exfalso
            rcases hp with hp | hp
            · -- post-only: the loop stops with no posting at a crossing valid order
              have hno := (P.noFills_sum hS hp)
              have hst := P.sum.quote
              have hsb := P.sum.base
              simp only at hst hsb
              -- visited orders are all invalid, so the first valid one blocks
              have hblock : ∀ {c : MCtx} {s s' : MState} {items : List Item} {acts : List Act}, Trace c s items acts s' →
                  c.order.isPostOnly = true → (∀ a ∈ acts, a.item.isValid = false) →
                  ∀ rest, items = acts.map Act.item ++ rest → s'.open → ∀ j r, rest = j :: r → j.isValid = true →
                  c.order.side.isPriceWithinLimit j.price c.price = true → s'.post = none := by
                intro c s s' items acts ht hpo hinv
                induction ht with
                | nil s => intro rest e _ j r e2; simp [e2] at e
                | full s i rest h0 => intro rest e h1; exact absurd h1 h0
                | outside s i rest _ _ hout =>
                  intro rest e _ j r e2 _ hin
                  simp only [List.map_nil, List.nil_append] at e
                  rw [e2] at e
                  injection e with e3 _
                  subst e3
                  rw [hout] at hin; simp at hin
                | block s i rest _ _ _ _ => intros; rfl
                | noQuote s i rest _ _ _ hpo2 _ _ _ => rw [hpo] at hpo2; simp at hpo2
                | ignore s i rest acts s' _ _ _ _ ih =>
                  intro rest' e h1 j r e2 hv hin
                  simp only [List.map_cons, List.cons_append, List.cons.injEq] at e
                  exact ih (fun a ha => hinv a (by simp [ha])) rest' e.2 h1 j r e2 hv hin
                | drop s i rest acts s' q _ _ _ _ _ ih =>
                  intro rest' e h1 j r e2 hv hin
                  simp only [List.map_cons, List.cons_append, List.cons.injEq] at e
                  exact ih (fun a ha => hinv a (by simp [ha])) rest' e.2 h1 j r e2 hv hin
                | cancel s i rest acts s' q _ hm _ _ _ _ ih =>
                  have := hm.2.2.1; rw [hpo] at this; simp at this
                | fill s i rest acts s' q base _ hm _ _ _ _ _ ih =>
                  have := hm.2.2.1; rw [hpo] at this; simp at this
              have := hblock P.trace hp (P.noFills hS hp) rest hr1 hopen j r' hj hjv hw
              rw [hpost] at this; simp at this
            · rw [hp] at hw; simp only [Side.isPriceWithinLimit, decide_eq_true_eq] at hw; omega
      -- everything behind the first order outside the limit is outside too
      have hsort := P.offers.sorted
      rw [hr1, hj] at hsort
      have hs2 := (List.pairwise_append.mp hsort).2.1
      rw [List.pairwise_cons] at hs2
      rw [hj] at hi
      rcases List.mem_cons.mp hi with rfl | hi
      · cases hsd : o.side <;> rw [hsd] at hout <;> simpa [Side.isPriceWithinLimit] using hout
      · have hpr2 := hs2.1 i hi
        unfold priorTo at hpr2
        cases hsd : o.side <;> rw [hsd] at hout hpr2 <;>
          simp only [Side.isPriceWithinLimit, decide_eq_false_iff_not, Side.invert, Side.isPriceBetter, decide_eq_true_eq] at hout hpr2 ⊢ <;> omega

/-- `b` is the best price among the orders of a side that could trade -/
def bestOffer (s : SpecSide) (side : Side) (now : Nat) (oracle b : Int) : Prop :=
  (∃ c x, offerAt s side now oracle c x b) ∧ ∀ c x q, offerAt s side now oracle c x q → side.isPriceBetter q b = false

theorem bestPrice_ok {bk : OBook} (hB : BookIs bk sp) {side : Side} {now : Nat} {oracle : Int} {r : Option Int}
    (h : (bk.get side).bestPrice now oracle = .ok r) :
    (r = none ∧ ∀ c x q, ¬ offerAt (sp side) side now oracle c x q) ∨ ∃ b, r = some b ∧ bestOffer (sp side) side now oracle b := by
  obtain ⟨xs, x1, hO, _⟩ := items_offers (hB.sim side) (hB.good side) now oracle
  rw [hB.side] at hO
  unfold BookSide.bestPrice BookSide.validItems at h
  rw [x1] at h
  simp only [bind, Except.bind, Except.ok.injEq] at h
  cases hf : xs.filter Item.isValid with
  | nil =>
    rw [hf] at h
    left
    refine ⟨h.symm, ?_⟩
    intro c x q hx
    obtain ⟨i, hi, _, _, _, hv⟩ := offer_item hO hx
    have : i ∈ xs.filter Item.isValid := List.mem_filter.mpr ⟨hi, hv⟩
    rw [hf] at this; simp at this
  | cons j js =>
    rw [hf] at h
    right
    refine ⟨j.price, h.symm, ?_, ?_⟩
    · have hj : j ∈ xs.filter Item.isValid := by rw [hf]; simp
      rw [List.mem_filter] at hj
      exact ⟨_, _, item_offer hO hj.1 hj.2⟩
    · intro c x q hx
      obtain ⟨i, hi, rfl, rfl, rfl, hv⟩ := offer_item hO hx
      have hm : i ∈ xs.filter Item.isValid := List.mem_filter.mpr ⟨hi, hv⟩
      have hs := hO.sorted.sublist (List.filter_sublist (p := Item.isValid))
      rw [hf] at hm hs
      rw [List.pairwise_cons] at hs
      rcases List.mem_cons.mp hm with rfl | hm
      · cases side <;> simp [Side.isPriceBetter]
      · have := hs.1 i hm
        unfold priorTo at this
        cases side <;> simp only [Side.isPriceBetter, decide_eq_true_eq, decide_eq_false_iff_not] at this ⊢ <;> omega

/-! Specification of an order's parameters -/

/-- in which list what is left of an order may stay: of a market or an immediate-or-cancel order nothing stays -/
def restsIn : Params → Option Comp
  | .market => none
  | .ioc _ => none
  | .fixed _ _ => some .fixed
  | .pegged _ _ _ => some .pegged

/-- post-only and post-only-slide orders -/
def neverTakes : Params → Prop
  | .market => False
  | .ioc _ => False
  | .fixed _ ty => ty ≠ .limit
  | .pegged _ ty _ => ty ≠ .limit

/-- the worst price a resting pegged order may move to; −1: any -/
def worstPeg : Params → Int
  | .pegged _ _ l => l
  | _ => -1

/-- `p` is the limit `q` of a post order of type `ty`; a sliding order's is moved to one lot from the best opposing offer (those of `s`) if the limit would cross it -/
def SlidTo (s : SpecSide) (side : Side) (now : Nat) (oracle : Int) (ty : PostType) (q p : Int) : Prop :=
  if ty = .postOnlySlide then
    ((∀ c x b, ¬ offerAt s side.invert now oracle c x b) ∧ p = q) ∨
      ∃ b, bestOffer s side.invert now oracle b ∧ p = (match side with | .bid => min q (b - 1) | .ask => max q (b + 1))
  else p = q

/-- `p` is the price in lots of the order: what was asked for, around the oracle price if pegged; for market orders the worst there is -/
def PriceIs (o : Order) (s : SpecSide) (now : Nat) (oracle p : Int) : Prop :=
  match o.params with
  | .market => p = (match o.side with | .bid => 2 ^ 63 - 1 | .ask => 1)
  | .ioc q => p = q
  | .fixed q ty => SlidTo s o.side now oracle ty q p
  | .pegged off ty _ => SlidTo s o.side now oracle ty (oracle + off) p

theorem restsIn_eq (o : Order) : restsIn o.params = o.postTarget := by
  unfold restsIn Order.postTarget; cases o.params <;> rfl

theorem neverTakes_iff (o : Order) : neverTakes o.params ↔ o.isPostOnly = true := by
  unfold neverTakes Order.isPostOnly
  cases o.params with
  | market => simp
  | ioc _ => simp
  | fixed _ ty => cases ty <;> simp
  | pegged _ ty _ => cases ty <;> simp

theorem worstPeg_eq (o : Order) : worstPeg o.params = o.pegLimit := by
  unfold worstPeg Order.pegLimit; cases o.params <;> rfl

theorem slid_of {bk : OBook} (hB : BookIs bk sp) {o : Order} {now : Nat} {oracle q p : Int} {ty : PostType} (h : o.priceForType now oracle q ty bk = .ok p) :
    SlidTo (sp o.side.invert) o.side now oracle ty q p := by
  unfold Order.priceForType at h
  unfold SlidTo
  by_cases hty : ty = .postOnlySlide
  · rw [if_pos hty] at h ⊢
    simp only [bind_ok] at h
    obtain ⟨best, hbest, hfor⟩ := h
    rcases bestPrice_ok hB hbest with ⟨rfl, hno⟩ | ⟨b, rfl, hbo⟩
    · simp only [ok_inj] at hfor
      exact .inl ⟨hno, hfor.symm⟩
    · right
      refine ⟨b, hbo, ?_⟩
      unfold slideLimit at hfor
      cases hsd : o.side <;> rw [hsd] at hfor <;> simp only [bind_ok, ck64_ok, ok_inj] at hfor <;> obtain ⟨_, ⟨rfl, _⟩, hfor⟩ := hfor <;> exact hfor.symm
  · rw [if_neg hty] at h ⊢
    rw [ok_inj] at h
    exact h.symm

theorem price_is {bk : OBook} (hB : BookIs bk sp) {o : Order} {now : Nat} {oracle p : Int} {d : Nat} (h : o.price now oracle bk = .ok (p, d)) :
    PriceIs o (sp o.side.invert) now oracle p := by
  unfold Order.price at h
  simp only [bind_ok, require_ok, ok_inj, Prod.mk.injEq] at h
  obtain ⟨p0, h1, d0, _, _, _, rfl, rfl⟩ := h
  unfold PriceIs
  cases hpa : o.params with
  | market =>
    rw [hpa] at h1
    simp only [ok_inj] at h1
    dsimp only
    rw [← h1]
    unfold marketLimit I64MAX
    cases o.side <;> norm_num
  | ioc q => rw [hpa] at h1; simp only [ok_inj] at h1; exact h1.symm
  | fixed q ty => rw [hpa] at h1; exact slid_of hB h1
  | pegged off ty lim =>
    rw [hpa] at h1
    simp only [bind_ok, ck64_ok] at h1
    obtain ⟨x, ⟨rfl, _⟩, h1⟩ := h1
    exact slid_of hB h1

/-- C20: a post-only-slide order is placed at its limit price, or one lot away from the best opposing price if its limit
would cross it: for a buy the smaller of the two, for a sell the larger. -/
theorem C20_slide {id : Nat} (hS : Setup o s sp) (h : newOrder o oracleNative taker now limit s = .ok (some id, s'))
    {oracle : Int} (hor : s.market.nativePriceToLot oracleNative = .ok oracle) {p0 : Int} (hl : limitOf o oracle = some p0)
    (hty : (∃ p, o.params = .fixed p .postOnlySlide) ∨ ∃ off l, o.params = .pegged off .postOnlySlide l) (hB' : BookIs s'.book sp') :
    ∃ t l p, l ∈ (sp' o.side).get t ∧ l.key = id ∧ tradesAt oracle t l p ∧
      (((∀ c x q, ¬ offerAt (sp o.side.invert) o.side.invert now oracle c x q) ∧ p = p0) ∨
       ∃ b, bestOffer (sp o.side.invert) o.side.invert now oracle b ∧
         p = (match o.side with | .bid => min p0 (b - 1) | .ask => max p0 (b + 1))) := by
  obtain ⟨P⟩ := place hS h
  have ho := P.e_oracle
  rw [hor, ok_inj] at ho
  subst ho
  have hsp : sp' = P.post := hB'.unique (P.live hS.typed hS.live hS.base hS.quote).is
  rcases P.fin with ⟨hr, _⟩ | ⟨hr, t, hpt, hpost, hq0, _, ⟨W⟩⟩
  · simp at hr
  simp only [Option.some.injEq] at hr
  have hkey : W.leaf.key = P.id := by rw [W.leaf_eq]
  refine ⟨t, W.leaf, P.price, ?_, hkey.trans hr.symm, P.leaf_price hS hpt hkey, ?_⟩
  · rw [hsp, P.post_own]; exact W.mem
  have hprice := P.e_price
  unfold Order.price at hprice
  simp only [bind_ok, require_ok, ok_inj, Prod.mk.injEq] at hprice
  obtain ⟨pp, h1, d0, _, _, _, hpp, _⟩ := hprice
  rw [hpp] at h1
  have hfor : o.priceForType now P.oracle p0 .postOnlySlide s.book = .ok P.price := by
    unfold limitOf at hl
    rcases hty with ⟨p, hpa⟩ | ⟨off, l, hpa⟩
    · rw [hpa] at h1 hl; simp only [Option.some.injEq] at hl; rw [← hl]; exact h1
    · rw [hpa] at h1 hl
      simp only [Option.some.injEq, bind_ok, ck64_ok] at hl h1
      obtain ⟨x, ⟨rfl, _⟩, h1⟩ := h1
      rw [← hl]; exact h1
  unfold Order.priceForType at hfor
  simp only [if_true, bind_ok] at hfor
  obtain ⟨best, hbest, hfor⟩ := hfor
  rcases bestPrice_ok hS.live.is hbest with ⟨rfl, hno⟩ | ⟨b, rfl, hbo⟩
  · simp only [ok_inj] at hfor
    exact .inl ⟨hno, hfor.symm⟩
  · right
    refine ⟨b, hbo, ?_⟩
    unfold slideLimit at hfor
    cases hsd : o.side <;> rw [hsd] at hfor <;> simp only [bind_ok, ck64_ok, ok_inj] at hfor <;> obtain ⟨_, ⟨rfl, _⟩, hfor⟩ := hfor <;> exact hfor.symm

end Perp
end Mango
