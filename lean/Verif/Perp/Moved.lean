import Verif.Props.Match3
/-! Helper: where the lots of resting orders go when a new order is placed (C24–C26). -/
namespace Mango
namespace Perp
open Book Fx

/-- what identifies an order: its id, its owner, the owner's slot, its side -/
structure Ident where
  key : Nat
  owner : Nat
  slot : Nat
  side : Side
  deriving DecidableEq, Repr

/-- the identity of a resting order -/
def identL (sd : Side) (l : Leaf) : Ident := ⟨l.key, l.owner, l.ownerSlot, sd⟩
/-- the maker order an event is about -/
def Event.ident : Event → Ident
  | .fill f => ⟨f.makerOrderId, f.maker, f.makerSlot, f.takerSide.invert⟩
  | .out o => ⟨o.orderId, o.owner, o.ownerSlot, o.side⟩
/-- the maker lots an event takes off the book -/
def Event.qty : Event → Int
  | .fill f => f.quantity
  | .out o => o.quantity
/-- whether the maker order leaves the book with this event -/
def Event.last : Event → Bool
  | .fill f => f.makerOut
  | .out _ => true

def sideLots (P : Ident → Bool) (sd : Side) (s : SpecSide) : Int := sideSum (qtyW (fun _ l => P (identL sd l))) s
/-- lots resting in the orders selected by `P` -/
def restLots (P : Ident → Bool) (sp : Side → SpecSide) : Int := sideLots P .bid (sp .bid) + sideLots P .ask (sp .ask)
/-- lots in pending events of the orders selected by `P` -/
def pendLots (P : Ident → Bool) (E : List Event) : Int := sumOf (fun e => if P e.ident = true then e.qty else 0) E

theorem restLots_split (P : Ident → Bool) (sp : Side → SpecSide) (sd : Side) :
    restLots P sp = sideLots P sd (sp sd) + sideLots P sd.invert (sp sd.invert) := by
  cases sd <;> simp [restLots, Side.invert]
  omega

theorem pendLots_append (P : Ident → Bool) (a b : List Event) : pendLots P (a ++ b) = pendLots P a + pendLots P b := sumOf_append ..

def postLots (P : Ident → Bool) : Option (Side × Comp × Leaf) → Int
  | none => 0
  | some (sd, _, y) => if P (identL sd y) = true then y.quantity else 0

theorem side_or (sd t : Side) : sd = t ∨ sd = t.invert := by cases sd <;> cases t <;> simp [Side.invert]

/-- the lots of resting orders move into events, except for a newly posted order -/
structure Moved (sp sp' : Side → SpecSide) (evs : List Event) (post : Option (Side × Comp × Leaf)) : Prop where
  back : ∀ sd c, ∀ y ∈ (sp' sd).get c, post = some (sd, c, y) ∨ ∃ l ∈ (sp sd).get c, identL sd l = identL sd y
  fwd : ∀ sd c, ∀ l ∈ (sp sd).get c, (∃ y ∈ (sp' sd).get c, identL sd y = identL sd l) ∨ (∃ e ∈ evs, e.last = true ∧ e.ident = identL sd l)
  src : ∀ e ∈ evs, 0 < e.qty ∧ ∃ sd c l, l ∈ (sp sd).get c ∧ e.ident = identL sd l ∧
    (e.last = true → ∀ y ∈ (sp' sd).get c, y.key ≠ l.key)
  new : ∀ sd c y, post = some (sd, c, y) → y ∈ (sp' sd).get c
  sum : ∀ P, restLots P sp' + pendLots P evs =
    restLots P sp + postLots P post

theorem mem_eventsOf {c : MCtx} {e : Event} : ∀ {acts : List Act} {seq : Int}, e ∈ eventsOf c seq acts → ∃ a ∈ acts, ∃ n, e ∈ a.event c n := by
  intro acts
  induction acts with
  | nil => intro seq h; simp [eventsOf] at h
  | cons a acts ih =>
    intro seq h
    rw [eventsOf, List.mem_append] at h
    rcases h with h | h
    · exact ⟨a, by simp, _, h⟩
    · obtain ⟨b, hb, n, hn⟩ := ih h; exact ⟨b, by simp [hb], n, hn⟩

theorem eventsOf_mem {c : MCtx} {a : Act} : ∀ {acts : List Act} {seq : Int}, a ∈ acts → ∃ n, ∀ e ∈ a.event c n, e ∈ eventsOf c seq acts := by
  intro acts
  induction acts with
  | nil => intro seq h; simp at h
  | cons b acts ih =>
    intro seq h
    rcases List.mem_cons.mp h with rfl | h
    · exact ⟨seq, fun e he => by rw [eventsOf, List.mem_append]; exact .inl he⟩
    · obtain ⟨n, hn⟩ := ih (seq := seq + (b.event c seq).length) h
      exact ⟨n, fun e he => by rw [eventsOf, List.mem_append]; exact .inr (hn e he)⟩

/-- the event of an act -/
theorem event_facts {c : MCtx} {a : Act} {n : Int} {e : Event} (h : e ∈ a.event c n) :
    e.ident = identL c.order.side.invert a.item.leaf ∧ e.qty = a.lots ∧ (e.last = true ↔ a.delete = [a.item]) := by
  cases a with
  | drop i => simp only [Act.event, List.mem_singleton] at h; subst h; simp [outEvent, Event.ident, Event.qty, Event.last, identL, Act.lots, Act.item, Act.delete]
  | cancel i => simp only [Act.event, List.mem_singleton] at h; subst h; simp [outEvent, Event.ident, Event.qty, Event.last, identL, Act.lots, Act.item, Act.delete]
  | ignore i => simp [Act.event] at h
  | fill i b =>
    simp only [Act.event, List.mem_singleton] at h; subst h
    refine ⟨rfl, rfl, ?_⟩
    simp only [fillEvent, Event.last, Act.delete, Act.item, decide_eq_true_eq]
    constructor
    · intro h; rw [if_pos h]
    · intro h; by_contra hc; rw [if_neg hc] at h; simp at h

theorem pend_acts (P : Ident → Bool) (c : MCtx) : ∀ (acts : List Act) (seq : Int),
    pendLots P (eventsOf c seq acts) = sumOf (actW (fun _ l => P (identL c.order.side.invert l))) acts := by
  intro acts
  induction acts with
  | nil => intro _; rfl
  | cons a acts ih =>
    intro seq
    rw [eventsOf, pendLots_append, ih, sumOf_cons]
    congr 1
    have hf := fun e he => event_facts (c := c) (a := a) (n := seq) (e := e) he
    cases a with
    | ignore i => simp [Act.event, pendLots, actW, Act.lots]
    | drop i =>
      have := hf _ (List.mem_singleton.mpr rfl)
      simp only [Act.event, pendLots, sumOf_cons, sumOf_nil, this.1, this.2.1, add_zero]; rfl
    | cancel i =>
      have := hf _ (List.mem_singleton.mpr rfl)
      simp only [Act.event, pendLots, sumOf_cons, sumOf_nil, this.1, this.2.1, add_zero]; rfl
    | fill i b =>
      have := hf _ (List.mem_singleton.mpr rfl)
      simp only [Act.event, pendLots, sumOf_cons, sumOf_nil, this.1, this.2.1, add_zero]; rfl

theorem mem_outEventsOf {side : Side} {now : Nat} {e : Event} : ∀ {is : List Item} {seq : Int}, e ∈ outEventsOf side now seq is →
    ∃ i ∈ is, e.ident = identL side i.leaf ∧ e.qty = i.leaf.quantity ∧ e.last = true ∧ ∃ o, e = .out o := by
  intro is
  induction is with
  | nil => intro seq h; simp [outEventsOf] at h
  | cons i is ih =>
    intro seq h
    rw [outEventsOf, List.mem_cons] at h
    rcases h with rfl | h
    · exact ⟨i, by simp, rfl, rfl, rfl, _, rfl⟩
    · obtain ⟨j, hj, h⟩ := ih h; exact ⟨j, by simp [hj], h⟩

theorem outEventsOf_mem {side : Side} {now : Nat} {i : Item} : ∀ {is : List Item} {seq : Int}, i ∈ is →
    ∃ e ∈ outEventsOf side now seq is, e.last = true ∧ e.ident = identL side i.leaf := by
  intro is
  induction is with
  | nil => intro seq h; simp at h
  | cons j is ih =>
    intro seq h
    rw [outEventsOf]
    rcases List.mem_cons.mp h with rfl | h
    · exact ⟨_, List.mem_cons_self, rfl, rfl⟩
    · obtain ⟨e, he, h⟩ := ih (seq := seq + 1) h; exact ⟨e, List.mem_cons_of_mem _ he, h⟩

theorem pend_outs (P : Ident → Bool) (side : Side) (now : Nat) : ∀ (is : List Item) (seq : Int),
    pendLots P (outEventsOf side now seq is) = sumOf (fun i : Item => qtyW (fun _ l => P (identL side l)) i.comp i.leaf) is := by
  intro is
  induction is with
  | nil => intro _; rfl
  | cons i is ih =>
    intro seq
    have := ih (seq + 1)
    unfold pendLots at this ⊢
    rw [outEventsOf, sumOf_cons, sumOf_cons, this]; rfl

theorem qtyFree_ident (P : Ident → Bool) (sd : Side) : qtyFree (fun _ l => P (identL sd l)) := fun _ _ _ => rfl

/-- inserting a leaf with a fresh key -/
theorem sumOf_insert {w : Leaf → Int} {l : Leaf} : ∀ {xs : List Leaf}, (∀ x ∈ xs, x.key ≠ l.key) → sumOf w (sInsert l xs) = sumOf w xs + w l := by
  intro xs h
  have key : ∀ ys : List Leaf, (∀ x ∈ ys, x.key ≠ l.key) →
      sumOf w (ys.filter (fun x => decide (x.key < l.key))) + sumOf w (ys.filter (fun x => decide (l.key < x.key))) = sumOf w ys := by
    intro ys
    induction ys with
    | nil => intro _; rfl
    | cons y ys ih =>
      intro h
      have h0 := h y (by simp)
      have := ih (fun x hx => h x (by simp [hx]))
      by_cases h1 : l.key < y.key
      · rw [List.filter_cons_of_neg (by simp; omega), List.filter_cons_of_pos (by simpa using h1)]
        simp only [sumOf_cons]; omega
      · rw [List.filter_cons_of_pos (by simp; omega), List.filter_cons_of_neg (by simpa using h1)]
        simp only [sumOf_cons]; omega
  have := key xs h
  unfold sInsert
  rw [sumOf_append, sumOf_cons]; omega

variable {o : Order} {oracleNative : I80F48} {taker now limit : Nat} {s s' : NOState} {sp : Side → SpecSide} {r : Option Nat}

/-- how a posted remainder enters the account -/
structure PostedTo (o : Order) (taker id : Nat) (m : Market) (a a' : PAcct) (post : Option (Side × Comp × Leaf)) : Prop where
  post : (post = none ∧ a' = a) ∨ ∃ t l, post = some (o.side, t, l) ∧ l.key = id ∧ l.owner = taker ∧ 0 < l.quantity ∧
    a.nextOrderSlot = .ok l.ownerSlot ∧ a.addPerpOrder m.idx o.side t l = .ok a'

theorem Placed.moved (P : Placed o oracleNative taker now limit s sp r s') (hS : Setup o s sp)
    (hfresh : ∀ sd c, ∀ l ∈ (sp sd).get c, l.key ≠ P.id) :
    ∃ evs post, s'.queue.toList = s.queue.toList ++ evs ∧ EventQueue.Inv s'.queue ∧ Moved sp P.post evs post ∧ s'.market = P.m2 ∧
      PostedTo o taker P.id P.m2 P.a2 s'.acct post ∧
      fillsOf evs = fillsOf (eventsOf P.ctx s.queue.seqNum P.acts) := by
  have hacts := (P.acts_ok hS.live hS.base hS.quote).1
  have hq0 : ∀ i ∈ P.items, 0 < i.leaf.quantity := fun i hi => hS.live.pos _ _ _ (P.offers.mem hi)
  have hinv : o.side.invert ≠ o.side := by cases o.side <;> simp [Side.invert]
  have hctx : P.ctx.order.side = o.side := rfl
  -- opposing side
  have oback : ∀ c, ∀ y ∈ P.other'.get c, ∃ l ∈ (sp o.side.invert).get c, identL o.side.invert l = identL o.side.invert y := by
    intro c y hy
    rw [P.other_mem hS.live.is] at hy
    obtain ⟨l, hl, ⟨rfl, _⟩ | ⟨i, b, _, _, _, _, rfl⟩⟩ := hy
    · exact ⟨_, hl, rfl⟩
    · exact ⟨l, hl, rfl⟩
  have ofwd : ∀ c, ∀ l ∈ (sp o.side.invert).get c, (∃ y ∈ P.other'.get c, identL o.side.invert y = identL o.side.invert l) ∨
      (∃ e ∈ eventsOf P.ctx s.queue.seqNum P.acts, e.last = true ∧ e.ident = identL o.side.invert l) := by
    intro c l hl
    by_cases hex : ∃ a ∈ P.acts, ck a.item = (c, l.key) ∧ ∀ i, a ≠ .ignore i
    · obtain ⟨a, ha, hk, hni⟩ := hex
      have hm := P.offers.mem (P.item_mem ha)
      simp only [ck, Prod.mk.injEq] at hk
      obtain ⟨h1, h2⟩ := hk
      rw [h1] at hm
      have hl2 : a.item.leaf = l := key_inj (hS.live.is.keys _ c) hm hl h2
      have term : a.delete = [a.item] → ∃ e ∈ eventsOf P.ctx s.queue.seqNum P.acts, e.last = true ∧ e.ident = identL o.side.invert l := by
        intro hd
        obtain ⟨n, hn⟩ := eventsOf_mem (c := P.ctx) (seq := s.queue.seqNum) ha
        have : ∃ e, e ∈ a.event P.ctx n := by
          cases a with
          | ignore i => exact absurd rfl (hni i)
          | drop i => exact ⟨_, List.mem_singleton.mpr rfl⟩
          | cancel i => exact ⟨_, List.mem_singleton.mpr rfl⟩
          | fill i b => exact ⟨_, List.mem_singleton.mpr rfl⟩
        obtain ⟨e, he⟩ := this
        obtain ⟨f1, f2, f3⟩ := event_facts he
        exact ⟨e, hn e he, f3.mpr hd, by rw [f1, hl2, hctx]⟩
      cases a with
      | ignore i => exact absurd rfl (hni i)
      | drop i => exact .inr (term rfl)
      | cancel i => exact .inr (term rfl)
      | fill i b =>
        by_cases hz : b = l.quantity
        · exact .inr (term (by
            simp only [Act.delete, Act.item] at hl2 ⊢
            rw [if_pos]; rw [hl2]; omega))
        · left
          refine ⟨{ l with quantity := l.quantity - b }, ?_, rfl⟩
          rw [P.other_mem hS.live.is]
          exact ⟨l, hl, .inr ⟨i, b, ha, h1, hl2, hz, rfl⟩⟩
    · left
      refine ⟨l, ?_, rfl⟩
      rw [P.other_mem hS.live.is]
      refine ⟨l, hl, .inl ⟨rfl, ?_⟩⟩
      intro a ha hk
      by_contra hc
      exact hex ⟨a, ha, hk, fun i e => hc ⟨i, e⟩⟩
  have osrc : ∀ e ∈ eventsOf P.ctx s.queue.seqNum P.acts, 0 < e.qty ∧ ∃ sd c l, l ∈ (sp sd).get c ∧ e.ident = identL sd l ∧
      (e.last = true → ∀ y ∈ (P.post sd).get c, y.key ≠ l.key) := by
    intro e he
    obtain ⟨a, ha, n, hn⟩ := mem_eventsOf he
    obtain ⟨f1, f2, f3⟩ := event_facts hn
    refine ⟨?_, o.side.invert, a.item.comp, a.item.leaf, P.offers.mem (P.item_mem ha), f1, ?_⟩
    · rw [f2]
      have h1 := hacts a ha
      have h2 := hq0 _ (P.item_mem ha)
      cases a with
      | ignore i => simp [Act.event] at hn
      | drop i => exact h2
      | cancel i => exact h2
      | fill i b => simp only [actOK] at h1; exact h1.2.2.1
    · intro hlast
      rw [P.post_other]
      exact P.gone hS ha (by rw [f3.mp hlast]; simp)
  have osum : ∀ Q, sideLots Q o.side.invert P.other' + pendLots Q (eventsOf P.ctx s.queue.seqNum P.acts) = sideLots Q o.side.invert (sp o.side.invert) := by
    intro Q
    rw [pend_acts, P.e_other]
    unfold sideLots
    have := sideSum_acts (qtyFree_ident Q o.side.invert) (hS.live.is.keys _) P.offers P.sum.pre
    rw [this, hctx]; omega
  have hev := P.sum.evs
  rcases P.fin with ⟨hr, hs, hown⟩ | ⟨hr, t, hpt, _, hqp, _, ⟨W⟩⟩
  · have hsq : s'.queue = P.st.queue := by rw [← P.s1_queue, ← hs]
    refine ⟨_, none, by rw [hsq]; exact hev, by rw [hsq]; exact P.sum.inv, ⟨?_, ?_, osrc, by simp, ?_⟩, ?_, ⟨.inl ⟨rfl, ?_⟩⟩, rfl⟩
    · intro sd c y hy
      right
      by_cases h : sd = o.side
      · subst h; rw [P.post_own, hown] at hy; exact ⟨y, hy, rfl⟩
      · have : sd = o.side.invert := (side_or sd o.side).resolve_left h
        subst this; rw [P.post_other] at hy; exact oback c y hy
    · intro sd c l hl
      by_cases h : sd = o.side
      · subst h; left; exact ⟨l, by rw [P.post_own, hown]; exact hl, rfl⟩
      · have : sd = o.side.invert := (side_or sd o.side).resolve_left h
        subst this; rw [P.post_other]; exact ofwd c l hl
    · intro Q
      rw [restLots_split Q _ o.side, restLots_split Q sp o.side, P.post_own, P.post_other, hown]
      have := osum Q; simp only [postLots]; omega
    · rw [← P.s1_market, ← hs]
    · rw [← P.s1_acct, ← hs]
  · have hmidk : SpecSide.keysOk (sp o.side) := hS.live.is.keys _
    have hkey : W.leaf.key = P.id := by rw [W.leaf_eq]
    have hown' : W.leaf.owner = taker := by rw [W.leaf_eq]
    have hqty : 0 < W.leaf.quantity := by rw [W.leaf_eq]; exact hqp
    have hpres := W.outs.present
    have hslot : W.leaf.ownerSlot = W.slot := by rw [W.leaf_eq]
    have hslot2 : P.a2.nextOrderSlot = .ok W.leaf.ownerSlot := by rw [hslot, ← P.s1_acct]; exact W.slot_ok
    have hac : P.a2.addPerpOrder P.m2.idx o.side t W.leaf = .ok s'.acct := by
      have := W.acct; rw [P.s1_acct, P.s1_market] at this; exact this
    have hmk : s'.market = P.m2 := by rw [W.market, P.s1_market]
    have hmem0 := W.mem
    have howneq := W.own_eq
    have houts := W.outs
    have hevs := W.evs
    have hWinv := W.inv
    generalize W.leaf = lf at *
    generalize W.mid = mid at *
    generalize W.is = is at *
    have hmemown : ∀ c y, y ∈ P.own'.get c ↔ (c = t ∧ y = lf) ∨ (y ∈ mid.get c) := by
      intro c y
      rw [howneq]
      by_cases hc : c = t
      · subst hc
        rw [get_set_same, C13_spec_insert]
        constructor
        · rintro (h | h)
          · exact .inl ⟨rfl, h⟩
          · exact .inr h.1
        · rintro (⟨_, h⟩ | h)
          · exact .inl h
          · refine .inr ⟨h, ?_⟩
            rw [hkey]
            exact hfresh _ _ _ (houts.mem.mp h).1
      · have : c = t.other := by cases c <;> cases t <;> simp_all [Comp.other]
        subst this
        rw [get_set_other]
        simp [hc]
    have hfr : ∀ x ∈ mid.get t, x.key ≠ lf.key := by
      intro x hx; rw [hkey]; exact hfresh _ _ _ (houts.mem.mp hx).1
    refine ⟨eventsOf P.ctx s.queue.seqNum P.acts ++ outEventsOf o.side now P.st.queue.seqNum is, some (o.side, t, lf), ?_, hWinv, ⟨?_, ?_, ?_, ?_, ?_⟩, hmk, ⟨.inr ⟨t, lf, rfl, hkey, hown', hqty, hslot2, hac⟩⟩, ?_⟩
    · rw [hevs, P.s1_queue, hev, List.append_assoc]; rfl
    · intro sd c y hy
      by_cases h : sd = o.side
      · subst h; rw [P.post_own, hmemown] at hy
        rcases hy with ⟨rfl, rfl⟩ | hy
        · exact .inl rfl
        · exact .inr ⟨y, (houts.mem.mp hy).1, rfl⟩
      · have : sd = o.side.invert := (side_or sd o.side).resolve_left h
        subst this; rw [P.post_other] at hy; exact .inr (oback c y hy)
    · intro sd c l hl
      by_cases h : sd = o.side
      · subst h
        by_cases hd : ∃ d ∈ is, ck d = (c, l.key)
        · obtain ⟨d, hd, hk⟩ := hd
          right
          simp only [ck, Prod.mk.injEq] at hk
          have hm := hpres d hd
          rw [hk.1] at hm
          have : d.leaf = l := key_inj (hmidk c) hm hl hk.2
          obtain ⟨e, he, h1, h2⟩ := outEventsOf_mem (side := o.side) (now := now) (seq := P.st.queue.seqNum) hd
          exact ⟨e, List.mem_append_right _ he, h1, by rw [h2, this]⟩
        · left
          refine ⟨l, ?_, rfl⟩
          rw [P.post_own, hmemown]
          exact .inr (houts.mem.mpr ⟨hl, fun d hd' e => hd ⟨d, hd', e⟩⟩)
      · have : sd = o.side.invert := (side_or sd o.side).resolve_left h
        subst this
        rw [P.post_other]
        rcases ofwd c l hl with h | ⟨e, he, h⟩
        · exact .inl h
        · exact .inr ⟨e, List.mem_append_left _ he, h⟩
    · intro e he
      rcases List.mem_append.mp he with he | he
      · exact osrc e he
      · obtain ⟨i, hi, h1, h2, h3, _⟩ := mem_outEventsOf he
        have hm := hpres i hi
        refine ⟨by rw [h2]; exact hS.live.pos _ _ _ hm, o.side, i.comp, i.leaf, hm, h1, ?_⟩
        intro _ y hy
        rw [P.post_own, hmemown] at hy
        rcases hy with ⟨_, rfl⟩ | hy
        · rw [hkey]; exact fun e => hfresh _ _ _ hm e.symm
        · intro e
          exact (houts.mem.mp hy).2 i hi (by simp [ck, e])
    · rintro sd c y h
      simp only [Option.some.injEq, Prod.mk.injEq] at h
      obtain ⟨rfl, rfl, rfl⟩ := h
      rw [P.post_own]; exact hmem0
    · intro Q
      rw [restLots_split Q _ o.side, restLots_split Q sp o.side, P.post_own, P.post_other, pendLots_append, pend_outs]
      have h1 := osum Q
      have h2 := houts.sum (w := qtyW (fun _ l => Q (identL o.side l))) hmidk
      have h3 : sideLots Q o.side P.own' = sideSum (qtyW (fun _ l => Q (identL o.side l))) mid +
          (if Q (identL o.side lf) = true then lf.quantity else 0) := by
        unfold sideLots
        rw [howneq, sideSum_set, sumOf_insert hfr]
        simp only [qtyW]; omega
      rw [h3, h2]
      unfold sideLots at h1 ⊢
      simp only [postLots]
      omega
    · rw [fillsOf_append, fillsOf_outs, List.append_nil]

end Perp
end Mango
