import Verif.Perp.Fees
/-!
# C18-C22, C27: matching

Every theorem is about `newOrder` (book.rs `new_order`) succeeding in a state whose book holds the orders `sp` and whose
event queue is well formed; both hold in every reachable state (C13, C23, and the market system).  The events the order
produced are the suffix it appended to the queue.
-/
namespace Mango
namespace Perp
open Book Fx

/-- what an order is placed against -/
structure Setup (o : Order) (s : NOState) (sp : Side → SpecSide) : Prop where
  typed : o.Typed
  base : 0 ≤ o.maxBase
  quote : 0 ≤ o.maxQuote
  live : LiveBook s.book sp
  queue : EventQueue.Inv s.queue

def fillsOf (evs : List Event) : List FillEv := evs.filterMap (fun e => match e with | .fill f => some f | .out _ => none)
def outsOf (evs : List Event) : List OutEv := evs.filterMap (fun e => match e with | .out f => some f | .fill _ => none)

/-- the worst price the order's owner accepts, in lots -/
def limitOf (o : Order) (oracle : Int) : Option Int :=
  match o.params with
  | .market => none
  | .ioc p => some p
  | .fixed p _ => some p
  | .pegged off _ _ => some (oracle + off)

/-- trading at `p` is acceptable -/
def acceptable (o : Order) (oracle p : Int) : Prop :=
  match limitOf o oracle with
  | none => True
  | some l => match o.side with | .bid => p ≤ l | .ask => l ≤ p

theorem fillsOf_append (a b : List Event) : fillsOf (a ++ b) = fillsOf a ++ fillsOf b := List.filterMap_append ..
theorem outsOf_append (a b : List Event) : outsOf (a ++ b) = outsOf a ++ outsOf b := List.filterMap_append ..

theorem fillsOf_outs (side : Side) (now : Nat) : ∀ (is : List Item) (seq : Int), fillsOf (outEventsOf side now seq is) = [] := by
  intro is
  induction is with
  | nil => intro; rfl
  | cons i is ih =>
    intro seq
    have := ih (seq + 1)
    simp only [outEventsOf, fillsOf, List.filterMap_cons, outEvent] at *
    exact this

theorem fills_acts (c : MCtx) : ∀ (acts : List Act) (seq : Int),
    (∀ w : FillEv → Int, ∀ w' : Act → Int, (∀ i b n f, fillEvent c i n b = .fill f → w f = w' (.fill i b)) → (∀ a : Act, a.isFill = false → w' a = 0) →
      sumOf w (fillsOf (eventsOf c seq acts)) = sumOf w' acts) ∧
    (fillsOf (eventsOf c seq acts)).length = (acts.filter Act.isFill).length ∧
    (∀ f ∈ fillsOf (eventsOf c seq acts), ∃ i b n, Act.fill i b ∈ acts ∧ fillEvent c i n b = .fill f) ∧
    (∀ i b, Act.fill i b ∈ acts → ∃ f n, f ∈ fillsOf (eventsOf c seq acts) ∧ fillEvent c i n b = .fill f) := by
  intro acts
  induction acts with
  | nil => intro seq; simp [eventsOf, fillsOf]
  | cons a acts ih =>
    intro seq
    obtain ⟨i1, i2, i3, i4⟩ := ih (seq + (a.event c seq).length)
    have e : fillsOf (eventsOf c seq (a :: acts)) = fillsOf (a.event c seq) ++ fillsOf (eventsOf c (seq + (a.event c seq).length) acts) := by
      rw [eventsOf, fillsOf_append]
    rw [e]
    have hno : a.isFill = false → fillsOf (a.event c seq) = [] := by
      intro h; cases a <;> simp_all [Act.isFill, Act.event, fillsOf, outEvent]
    cases hf : a.isFill
    · rw [hno hf, List.nil_append]
      refine ⟨?_, ?_, ?_, ?_⟩
      · intro w w' h1 h2; rw [sumOf_cons, h2 a hf, i1 w w' h1 h2]; omega
      · rw [i2, List.filter_cons_of_neg (by simp [hf])]
      · intro f hh; obtain ⟨i, b, n, h1, h2⟩ := i3 f hh; exact ⟨i, b, n, by simp [h1], h2⟩
      · intro i b hh
        rcases List.mem_cons.mp hh with rfl | hh
        · simp [Act.isFill] at hf
        · exact i4 i b hh
    · cases a with
      | drop i => simp [Act.isFill] at hf
      | ignore i => simp [Act.isFill] at hf
      | cancel i => simp [Act.isFill] at hf
      | fill i b =>
        obtain ⟨f, hfe⟩ : ∃ f, fillEvent c i seq b = .fill f := ⟨_, rfl⟩
        have e2 : fillsOf ((Act.fill i b).event c seq) = [f] := by
          simp [Act.event, hfe, fillsOf]
        rw [e2]
        refine ⟨?_, ?_, ?_, ?_⟩
        · intro w w' h1 h2
          rw [List.singleton_append, sumOf_cons, sumOf_cons, i1 w w' h1 h2, h1 i b seq f hfe]
        · rw [List.filter_cons_of_pos (by simp [Act.isFill]), List.length_append, i2]; simp; omega
        · intro f' hh
          rw [List.singleton_append, List.mem_cons] at hh
          rcases hh with rfl | hh
          · exact ⟨i, b, seq, by simp, hfe⟩
          · obtain ⟨i, b, n, h1, h2⟩ := i3 f' hh; exact ⟨i, b, n, by simp [h1], h2⟩
        · intro i' b' hh
          rcases List.mem_cons.mp hh with hh | hh
          · injection hh with e3 e4; subst e3 e4; exact ⟨f, seq, by simp, hfe⟩
          · obtain ⟨f', n, h1, h2⟩ := i4 i' b' hh
            exact ⟨f', n, by simp [h1], h2⟩

theorem outs_acts (c : MCtx) : ∀ (acts : List Act) (seq : Int),
    (∀ w : OutEv → Int, ∀ w' : Act → Int, (∀ i n f, outEvent c.order.side.invert c.now n i.leaf = .out f → w f = w' (.drop i) ∧ w f = w' (.cancel i)) →
      (∀ i b, w' (.fill i b) = 0 ∧ w' (.ignore i) = 0) →
      sumOf w (outsOf (eventsOf c seq acts)) = sumOf w' acts) ∧
    (∀ f ∈ outsOf (eventsOf c seq acts), ∃ i n, (Act.drop i ∈ acts ∨ Act.cancel i ∈ acts) ∧ outEvent c.order.side.invert c.now n i.leaf = .out f) ∧
    (∀ i, (Act.drop i ∈ acts ∨ Act.cancel i ∈ acts) → ∃ f n, f ∈ outsOf (eventsOf c seq acts) ∧ outEvent c.order.side.invert c.now n i.leaf = .out f) := by
  intro acts
  induction acts with
  | nil => intro seq; simp [eventsOf, outsOf]
  | cons a acts ih =>
    intro seq
    obtain ⟨i1, i2, i3⟩ := ih (seq + (a.event c seq).length)
    have e : outsOf (eventsOf c seq (a :: acts)) = outsOf (a.event c seq) ++ outsOf (eventsOf c (seq + (a.event c seq).length) acts) := by
      rw [eventsOf, outsOf_append]
    rw [e]
    have one : ∀ i, (a = .drop i ∨ a = .cancel i) → ∃ f, outEvent c.order.side.invert c.now seq i.leaf = .out f ∧ outsOf (a.event c seq) = [f] := by
      rintro i (rfl | rfl) <;> exact ⟨_, rfl, by simp [Act.event, outEvent, outsOf]⟩
    have none : (∃ i b, a = .fill i b ∨ a = .ignore i) → outsOf (a.event c seq) = [] := by
      rintro ⟨i, b, rfl | rfl⟩ <;> simp [Act.event, outsOf, fillEvent]
    have hcase : (∃ i, a = .drop i ∨ a = .cancel i) ∨ (∃ i b, a = .fill i b ∨ a = .ignore i) := by
      cases a with
      | drop i => exact .inl ⟨i, .inl rfl⟩
      | cancel i => exact .inl ⟨i, .inr rfl⟩
      | ignore i => exact .inr ⟨i, 0, .inr rfl⟩
      | fill i b => exact .inr ⟨i, b, .inl rfl⟩
    rcases hcase with ⟨i, hi⟩ | ⟨i, b, hi⟩
    · obtain ⟨f, hf, e2⟩ := one i hi
      rw [e2, List.singleton_append]
      refine ⟨?_, ?_, ?_⟩
      · intro w w' h1 h2
        have := h1 i seq f hf
        rw [sumOf_cons, sumOf_cons, i1 w w' h1 h2]
        rcases hi with rfl | rfl <;> omega
      · intro f' hh
        rcases List.mem_cons.mp hh with rfl | hh
        · refine ⟨i, seq, ?_, hf⟩
          rcases hi with rfl | rfl <;> simp
        · obtain ⟨j, n, h1, h2⟩ := i2 f' hh
          exact ⟨j, n, by rcases h1 with h1 | h1 <;> simp [h1], h2⟩
      · intro j hj
        by_cases hja : a.item = j ∧ (Act.drop j = a ∨ Act.cancel j = a)
        · obtain ⟨_, hja⟩ := hja
          have : j = i := by rcases hi with rfl | rfl <;> rcases hja with h | h <;> injection h
          subst this
          exact ⟨f, seq, by simp, hf⟩
        · have hj' : Act.drop j ∈ acts ∨ Act.cancel j ∈ acts := by
            rcases hj with hj | hj
            · rcases List.mem_cons.mp hj with h | h
              · exact absurd ⟨by rw [← h]; rfl, .inl h⟩ hja
              · exact .inl h
            · rcases List.mem_cons.mp hj with h | h
              · exact absurd ⟨by rw [← h]; rfl, .inr h⟩ hja
              · exact .inr h
          obtain ⟨f', n, h1, h2⟩ := i3 j hj'
          exact ⟨f', n, by simp [h1], h2⟩
    · rw [none ⟨i, b, hi⟩, List.nil_append]
      refine ⟨?_, ?_, ?_⟩
      · intro w w' h1 h2
        have := h2 i b
        rw [sumOf_cons, i1 w w' h1 h2]
        rcases hi with rfl | rfl <;> omega
      · intro f' hh
        obtain ⟨j, n, h1, h2⟩ := i2 f' hh
        exact ⟨j, n, by rcases h1 with h1 | h1 <;> simp [h1], h2⟩
      · intro j hj
        apply i3
        rcases hj with hj | hj
        · rcases List.mem_cons.mp hj with h | h
          · rw [← h] at hi; simp at hi
          · exact .inl h
        · rcases List.mem_cons.mp hj with h | h
          · rw [← h] at hi; simp at hi
          · exact .inr h

theorem price_limit {o : Order} {now : Nat} {oracle : Int} {b : OBook} {p : Int} {d : Nat} (h : o.price now oracle b = .ok (p, d))
    (hp : o.isPostOnly = false) : limitOf o oracle = some p ∨ (limitOf o oracle = none ∧ p = marketLimit o.side) := by
  unfold Order.price at h
  simp only [bind_ok, require_ok, ok_inj, Prod.mk.injEq] at h
  obtain ⟨p0, h1, d0, _, _, _, rfl, rfl⟩ := h
  unfold limitOf
  unfold Order.isPostOnly at hp
  cases hpa : o.params with
  | market => rw [hpa] at h1; simp only [ok_inj] at h1; exact .inr ⟨rfl, h1.symm⟩
  | ioc q => rw [hpa] at h1; simp only [ok_inj] at h1; left; rw [h1]
  | fixed q ty =>
    rw [hpa] at h1 hp
    simp only [Order.priceForType] at h1
    cases ty <;> simp_all
  | pegged off ty lim =>
    rw [hpa] at h1 hp
    simp only [Order.priceForType, bind_ok, ck64_ok] at h1
    obtain ⟨q, ⟨rfl, _⟩, h1⟩ := h1
    cases ty <;> simp_all

namespace Placed
variable {o : Order} {oracleNative : I80F48} {taker now limit : Nat} {s s' : NOState} {sp : Side → SpecSide} {r : Option Nat}

/-- the events of an order -/
theorem events (P : Placed o oracleNative taker now limit s sp r s') :
    ∃ evs, s'.queue.toList = s.queue.toList ++ evs ∧ fillsOf evs = fillsOf (eventsOf P.ctx s.queue.seqNum P.acts) ∧
      ∃ is, evs = eventsOf P.ctx s.queue.seqNum P.acts ++ outEventsOf o.side now P.st.queue.seqNum is ∧ (r = none → is = []) := by
  have h1 := P.sum.evs
  rcases P.fin with ⟨hr, hs, _⟩ | ⟨hr, t, _, _, _, _, ⟨W⟩⟩
  · refine ⟨_, ?_, rfl, [], by simp [outEventsOf], fun _ => rfl⟩
    have : s'.queue = P.st.queue := by rw [← P.s1_queue, ← hs]
    rw [this]; exact h1
  · refine ⟨_, ?_, ?_, W.is, rfl, fun h => by rw [hr] at h; simp at h⟩
    · rw [W.evs, P.s1_queue, h1, List.append_assoc]; rfl
    · rw [fillsOf_append, fillsOf_outs, List.append_nil]

theorem fill_facts (P : Placed o oracleNative taker now limit s sp r s') (hS : Setup o s sp) {f : FillEv}
    (hf : f ∈ fillsOf (eventsOf P.ctx s.queue.seqNum P.acts)) :
    ∃ i b, Act.fill i b ∈ P.acts ∧ f.taker = taker ∧ f.takerSide = o.side ∧ f.quantity = b ∧ f.price = i.price ∧
      f.maker = i.leaf.owner ∧ f.makerOrderId = i.leaf.key ∧ f.makerSlot = i.leaf.ownerSlot ∧
      (f.makerOut = true ↔ f.quantity = i.leaf.quantity) ∧ f.makerFee = (if taker = i.leaf.owner then 0 else P.m1.makerFeeF32) ∧
      i ∈ P.items ∧ i.isValid = true ∧ itemPos i ∧ 0 < b ∧ b ≤ i.leaf.quantity ∧ o.side.isPriceWithinLimit i.price P.price = true ∧
      (taker = i.leaf.owner → o.selfTrade = .decrementTake) ∧ o.isPostOnly = false := by
  obtain ⟨i, b, n, h1, h2⟩ := (fills_acts P.ctx P.acts s.queue.seqNum).2.2.1 f hf
  have ha := (P.acts_ok hS.live hS.base hS.quote).1 _ h1
  simp only [actOK] at ha
  obtain ⟨a1, a2, a3, a4, a5, a6⟩ := ha
  have hi := P.item_mem h1
  unfold fillEvent at h2
  injection h2 with h2
  subst h2
  refine ⟨i, b, h1, rfl, rfl, rfl, rfl, rfl, rfl, rfl, ?_, rfl, hi, a1, offers_pos P.offers (hS.live.pos _) (hS.live.one _) i hi, a3, a4, a2, a5, a6⟩
  simp only [decide_eq_true_eq]
  omega

end Placed

variable {o : Order} {oracleNative : I80F48} {taker now limit : Nat} {s s' : NOState} {sp : Side → SpecSide} {r : Option Nat}

theorem place (hS : Setup o s sp) (h : newOrder o oracleNative taker now limit s = .ok (r, s')) :
    Nonempty (Placed o oracleNative taker now limit s sp r s') := newOrder_ok hS.typed hS.live.is hS.queue h

/-- C18, the oracle price in lots is the oracle price converted by the market's lot sizes and rounded down; a price in lots is converted back to native units rounded down. -/
theorem C18_lot_prices {m : Market} (hb : 0 < m.baseLotSize) (hq : 0 < m.quoteLotSize) :
    (∀ {p : I80F48} {x : Int}, 0 ≤ p → m.nativePriceToLot p = .ok x → x = p * m.baseLotSize / (m.quoteLotSize * S)) ∧
    (∀ {x : Int} {p : I80F48}, 0 ≤ x → m.lotToNativePrice x = .ok p → p = x * m.quoteLotSize * S / m.baseLotSize) := by
  have hS := S_pos
  constructor
  · intro p x hp h
    simp only [Market.nativePriceToLot, bind_ok, mul_ok, div_ok, toI64, ck64_ok] at h
    obtain ⟨a, ⟨rfl, _⟩, b, ⟨_, rfl, _⟩, rfl, _⟩ := h
    unfold Fx.toInt Fx.ofInt
    rw [show p * (m.baseLotSize * S) = p * m.baseLotSize * S by rw [Int.mul_assoc], Int.mul_ediv_cancel _ (by omega), Int.mul_tdiv_mul_of_pos_left _ _ hS,
      Int.tdiv_eq_ediv_of_nonneg (Int.mul_nonneg hp hb.le), Int.ediv_ediv_of_nonneg hq.le]
  · intro x p hx h
    simp only [Market.lotToNativePrice, bind_ok, mul_ok, div_ok] at h
    obtain ⟨a, ⟨rfl, _⟩, _, rfl, _⟩ := h
    unfold Fx.ofInt
    rw [show x * S * (m.quoteLotSize * S) = x * m.quoteLotSize * S * S by rw [Int.mul_assoc, Int.mul_left_comm S, Int.mul_assoc, Int.mul_assoc], Int.mul_ediv_cancel _ (by omega),
      Int.mul_tdiv_mul_of_pos_left _ _ hS, Int.tdiv_eq_ediv_of_nonneg (Int.mul_nonneg (Int.mul_nonneg hx hq.le) hS.le)]

/-- C18: every trade of a new order is at an acceptable price (fixed and immediate-or-cancel orders: the given price;
pegged orders: oracle price plus offset; market orders accept any price); the total base traded is at most the order's
max base lots, the total quote (price times quantity) at most its max quote lots; the number of trades is at most the
allowed number of matches. -/
theorem C18_limits (hS : Setup o s sp) (h : newOrder o oracleNative taker now limit s = .ok (r, s')) :
    ∃ oracle evs, s.market.nativePriceToLot oracleNative = .ok oracle ∧ s'.queue.toList = s.queue.toList ++ evs ∧
      (∀ f ∈ fillsOf evs, f.taker = taker ∧ f.takerSide = o.side ∧ 0 < f.quantity ∧ 0 < f.price ∧ acceptable o oracle f.price) ∧
      sumOf FillEv.quantity (fillsOf evs) ≤ o.maxBase ∧
      sumOf (fun f : FillEv => f.quantity * f.price) (fillsOf evs) ≤ o.maxQuote ∧
      (fillsOf evs).length ≤ limit := by
  obtain ⟨P⟩ := place hS h
  obtain ⟨evs, e1, e2, _⟩ := P.events
  obtain ⟨_, hb, hq⟩ := P.acts_ok hS.live hS.base hS.quote
  obtain ⟨s1, s2, _, _⟩ := fills_acts P.ctx P.acts s.queue.seqNum
  refine ⟨P.oracle, evs, P.e_oracle, e1, ?_, ?_, ?_, ?_⟩
  · intro f hf
    rw [e2] at hf
    obtain ⟨i, b, _, f1, f2, f3, f4, _, _, _, _, _, _, _, hp, h0, _, hw, _, hpo⟩ := P.fill_facts hS hf
    refine ⟨f1, f2, by omega, by rw [f4]; have := hp.2; omega, ?_⟩
    unfold acceptable
    rcases price_limit P.e_price hpo with hl | ⟨hl, _⟩
    · rw [hl, f4]
      cases hsd : o.side <;> rw [hsd] at hw <;> simpa [Side.isPriceWithinLimit] using hw
    · rw [hl]; trivial
  · rw [e2, s1 FillEv.quantity Act.base]
    · have := P.sum.base; simp only at this; omega
    · intro i b n f hf; unfold fillEvent at hf; injection hf with hf; subst hf; rfl
    · intro a ha; cases a <;> simp_all [Act.isFill, Act.base]
  · rw [e2, s1 (fun f : FillEv => f.quantity * f.price) Act.quote]
    · have := P.sum.quote; simp only at this; omega
    · intro i b n f hf; unfold fillEvent at hf; injection hf with hf; subst hf; rfl
    · intro a ha; cases a <;> simp_all [Act.isFill, Act.quote]
  · rw [e2, s2]; have := P.sum.lim; simp only at this; omega


/-! ## C19: priority -/

/-- `x` (at price `p`) has strict priority over `y` (at price `q`) on a side: better price, or the same price and older -/
def before (side : Side) (p q : Int) (x y : Leaf) : Prop :=
  side.isPriceBetter p q = true ∨ (p = q ∧ seqOf side x < seqOf side y)

theorem before_not_prior {side : Side} {ix iy : Item} (h : before side ix.price iy.price ix.leaf iy.leaf) : ¬ priorTo side iy ix := by
  unfold before at h
  unfold priorTo
  cases side <;> simp only [Side.isPriceBetter, decide_eq_true_eq] at h ⊢ <;> omega

/-- a valid order that no longer rests unchanged was matched -/
theorem Placed.touched (P : Placed o oracleNative taker now limit s sp r s') (hS : Setup o s sp) {i : Item} (hi : i ∈ P.items)
    (hv : i.isValid = true) (ht : i.leaf ∉ P.other'.get i.comp) :
    ∃ a ∈ P.acts, a.item = i := by
  rw [P.other_mem hS.live.is] at ht
  by_contra hc
  apply ht
  refine ⟨i.leaf, P.offers.mem hi, .inl ⟨rfl, ?_⟩⟩
  intro a ha e
  exfalso
  apply hc
  refine ⟨a, ha, ?_⟩
  exact List.inj_on_of_nodup_map (P.offers.nodup (hS.live.is.keys _)) (P.item_mem ha) hi e

/-- what happened to a valid order that was visited -/
theorem Placed.visited (P : Placed o oracleNative taker now limit s sp r s') (hS : Setup o s sp) {a : Act} (ha : a ∈ P.acts)
    (hv : a.item.isValid = true) : (∃ i, a = .cancel i ∧ taker = i.leaf.owner ∧ o.selfTrade = .cancelProvide) ∨
      ∃ i b, a = .fill i b ∧ 0 < b ∧ b ≤ i.leaf.quantity ∧ (taker = i.leaf.owner → o.selfTrade = .decrementTake) := by
  have := (P.acts_ok hS.live hS.base hS.quote).1 a ha
  cases a with
  | drop i => simp only [actOK, Act.item] at this hv; rw [hv] at this; simp at this
  | ignore i => simp only [actOK, Act.item] at this hv; rw [hv] at this; simp at this
  | cancel i => exact .inl ⟨i, rfl, this.2.2.1, this.2.2.2.1⟩
  | fill i b => exact .inr ⟨i, b, rfl, this.2.2.1, this.2.2.2.1, this.2.2.2.2.1⟩

/-- an order whose act removed it is gone -/
theorem Placed.gone (P : Placed o oracleNative taker now limit s sp r s') (hS : Setup o s sp) {a : Act} (ha : a ∈ P.acts)
    (hd : a.item ∈ a.delete) : ∀ l ∈ P.other'.get a.item.comp, l.key ≠ a.item.leaf.key := by
  intro l hl e
  rw [P.other_mem hS.live.is] at hl
  obtain ⟨l0, hl0, ⟨rfl, h⟩ | ⟨i, b, hf, e1, e2, hne, rfl⟩⟩ := hl
  · obtain ⟨i, rfl⟩ := h a ha (by simp [ck, e])
    simp [Act.delete] at hd
  · simp only at e
    have : a = .fill i b := P.act_unique hS.live.is ha hf (by simp [ck, Act.item, e1, e2, e])
    subst this
    simp only [Act.delete, Act.item] at hd
    rw [if_neg (by rw [e2]; omega)] at hd
    simp at hd

/-- C19: if a new order changed or removed the valid resting order `y`, then every valid resting order `x` with strictly
higher priority is completely gone from the book (filled, or cancelled as a self-trade), unless `y` is priced below `x` and
what was left of the taker's quote limit after trading with `x` did not buy one more lot of `x`. -/
theorem C19_priority (hS : Setup o s sp) (h : newOrder o oracleNative taker now limit s = .ok (r, s'))
    {oracle : Int} (hor : s.market.nativePriceToLot oracleNative = .ok oracle) {sp' : Side → SpecSide} (hB' : BookIs s'.book sp')
    {cx cy : Comp} {x y : Leaf} {px py : Int}
    (hx : offerAt (sp o.side.invert) o.side.invert now oracle cx x px)
    (hy : offerAt (sp o.side.invert) o.side.invert now oracle cy y py)
    (hb : before o.side.invert px py x y) (ht : y ∉ (sp' o.side.invert).get cy) :
    (∀ l ∈ (sp' o.side.invert).get cx, l.key ≠ x.key) ∨
    (py < px ∧ ∃ evs1 evs2 f, s'.queue.toList = s.queue.toList ++ evs1 ++ Event.fill f :: evs2 ∧ f.makerOrderId = x.key ∧ f.price = px ∧
      o.maxQuote - sumOf (fun f : FillEv => f.quantity * f.price) (fillsOf (evs1 ++ [Event.fill f])) < px) := by
  obtain ⟨P⟩ := place hS h
  have ho := P.e_oracle
  rw [hor, ok_inj] at ho
  subst ho
  have hsp : sp' = P.post := hB'.unique (P.live hS.typed hS.live hS.base hS.quote).is
  rw [hsp, P.post_other] at ht ⊢
  obtain ⟨ix, hix, rfl, rfl, rfl, hvx⟩ := offer_item P.offers hx
  obtain ⟨iy, hiy, rfl, rfl, rfl, hvy⟩ := offer_item P.offers hy
  obtain ⟨ay, hay, hayi⟩ := P.touched hS hiy hvy ht
  obtain ⟨a1, a2, hacts⟩ := List.append_of_mem hay
  have hpos := offers_pos P.offers (hS.live.pos _) (hS.live.one _)
  obtain ⟨rest, hrest⟩ := P.sum.pre
  have hsort := P.offers.sorted
  rw [← hrest, hacts, List.map_append, List.map_cons, hayi, List.append_assoc] at hsort hix
  have hxin : ix ∈ a1.map Act.item := by
    rcases List.mem_append.mp hix with h | h
    · exact h
    · exfalso
      rw [List.cons_append, List.mem_cons] at h
      rcases h with rfl | h
      · exact before_not_prior hb (by unfold priorTo; right; exact ⟨rfl, le_refl _⟩)
      · have := (List.pairwise_append.mp hsort).2.1
        rw [List.cons_append, List.pairwise_cons] at this
        exact before_not_prior hb (this.1 ix h)
  obtain ⟨ax, hax, haxi⟩ := List.mem_map.mp hxin
  have hax' : ax ∈ P.acts := by rw [hacts]; simp [hax]
  obtain ⟨p1, m1, ha1⟩ := List.append_of_mem hax
  subst haxi
  rcases P.visited hS hax' hvx with ⟨i, rfl, _⟩ | ⟨i, b, rfl, h0, hle, _⟩
  · left; exact P.gone hS hax' (by simp [Act.delete, Act.item])
  · have e : P.acts = p1 ++ Act.fill i b :: (m1 ++ ay :: a2) := by rw [hacts, ha1]; simp
    rcases trace_order P.trace hS.base hS.quote hpos p1 i b m1 ay a2 (by rw [hayi]; exact hvy) e with hfull | ⟨hlt, hq⟩
    · left; exact P.gone hS hax' (by simp [Act.delete, Act.item, hfull])
    · right
      rw [hayi] at hlt
      refine ⟨hlt, ?_⟩
      obtain ⟨evs, e1, e2, is, e3, _⟩ := P.events
      have hcat : ∀ (a b : List Act) (n : Int), eventsOf P.ctx n (a ++ b) = eventsOf P.ctx n a ++ eventsOf P.ctx (n + (eventsOf P.ctx n a).length) b := by
        intro a
        induction a with
        | nil => intro b n; simp [eventsOf]
        | cons z a ih =>
          intro b n
          simp only [List.cons_append, eventsOf, List.append_assoc, ih, List.length_append]
          congr 3
          push_cast; ring
      obtain ⟨f, hf⟩ : ∃ f, fillEvent P.ctx i (s.queue.seqNum + (eventsOf P.ctx s.queue.seqNum p1).length) b = .fill f := ⟨_, rfl⟩
      have hk : f.makerOrderId = i.leaf.key ∧ f.price = i.price ∧ f.quantity = b := by
        unfold fillEvent at hf; injection hf with hf; subst hf; exact ⟨rfl, rfl, rfl⟩
      have hlist : ∃ t, s'.queue.toList = s.queue.toList ++ eventsOf P.ctx s.queue.seqNum p1 ++ Event.fill f :: t := by
        rw [e1, e3, e, hcat]
        simp only [eventsOf, Act.event, hf]
        simp only [List.append_assoc, List.cons_append, List.nil_append]
        exact ⟨_, rfl⟩
      obtain ⟨t, htl⟩ := hlist
      refine ⟨eventsOf P.ctx s.queue.seqNum p1, t, f, htl, hk.1, hk.2.1, ?_⟩
      · have hs := (fills_acts P.ctx (p1 ++ [Act.fill i b]) s.queue.seqNum).1 (fun f : FillEv => f.quantity * f.price) Act.quote
          (by intro i b n f hf; unfold fillEvent at hf; injection hf with hf; subst hf; rfl)
          (by intro a ha; cases a <;> simp_all [Act.isFill, Act.quote])
        rw [hcat] at hs
        simp only [eventsOf, Act.event, hf, List.append_nil] at hs
        rw [hs]
        simp only [Act.item]; exact hq

/-- C19 for buy orders: makers are filled strictly in priority order. -/
theorem C19_buy (hS : Setup o s sp) (h : newOrder o oracleNative taker now limit s = .ok (r, s')) (hsd : o.side = .bid)
    {oracle : Int} (hor : s.market.nativePriceToLot oracleNative = .ok oracle) {sp' : Side → SpecSide} (hB' : BookIs s'.book sp')
    {cx cy : Comp} {x y : Leaf} {px py : Int}
    (hx : offerAt (sp .ask) .ask now oracle cx x px) (hy : offerAt (sp .ask) .ask now oracle cy y py)
    (hb : before .ask px py x y) (ht : y ∉ (sp' .ask).get cy) :
    ∀ l ∈ (sp' .ask).get cx, l.key ≠ x.key := by
  have e : o.side.invert = .ask := by rw [hsd]; rfl
  have := C19_priority hS h hor hB' (cx := cx) (cy := cy) (x := x) (y := y) (px := px) (py := py) (by rw [e]; exact hx) (by rw [e]; exact hy)
    (by rw [e]; exact hb) (by rw [e]; exact ht)
  rw [e] at this
  rcases this with h | ⟨hlt, _⟩
  · exact h
  · unfold before at hb; simp only [Side.isPriceBetter, decide_eq_true_eq] at hb; omega

end Perp
end Mango
