import Verif.Perp.Match
import Verif.Props.Keys
import Verif.Props.Queue
import Verif.ListSum
/-! Helper: the matching loop as a relation over a list of actions, one per visited opposing order. -/
namespace Mango
namespace Perp
open Book

theorem pushBack_ok {q q' : Queue} {v : Event} (hI : EventQueue.Inv q) (h : q.pushBack v = .ok q') :
    EventQueue.Inv q' ∧ q'.toList = q.toList ++ [v] ∧ q'.seqNum = q.seqNum + 1 ∧ q'.buf.length = q.buf.length := by
  have hR : EventQueue.Rel q { cap := q.buf.length, items := q.toList, seq := q.seqNum } := ⟨hI, rfl, rfl, rfl⟩
  rcases EventQueue.step_refines hR (.push v) with ⟨o, q2, s', e1, e2, e3, e4, e5, e6⟩ | ⟨e, e1, e2⟩
  · simp only [EventQueue.step, h, bind, Except.bind, Except.ok.injEq, Prod.mk.injEq] at e1
    obtain ⟨_, rfl⟩ := e1
    simp only [FifoSpec.step] at e2
    split at e2
    · simp at e2
    · split at e2
      · simp only [Except.ok.injEq, Prod.mk.injEq] at e2
        obtain ⟨_, rfl⟩ := e2
        exact ⟨e3, e5.symm, e6.symm, e4.symm⟩
      · simp at e2
  · simp [EventQueue.step, h, bind, Except.bind] at e1

theorem popFront_ok {q q' : Queue} {v : Event} (hI : EventQueue.Inv q) (h : q.popFront = .ok (v, q')) :
    EventQueue.Inv q' ∧ q.toList = v :: q'.toList ∧ q'.seqNum = q.seqNum ∧ q'.buf.length = q.buf.length := by
  have hR : EventQueue.Rel q { cap := q.buf.length, items := q.toList, seq := q.seqNum } := ⟨hI, rfl, rfl, rfl⟩
  rcases EventQueue.step_refines hR .pop with ⟨o, q2, s', e1, e2, e3, e4, e5, e6⟩ | ⟨e, e1, e2⟩
  · simp only [EventQueue.step, h, bind, Except.bind, Except.ok.injEq, Prod.mk.injEq] at e1
    obtain ⟨rfl, rfl⟩ := e1
    simp only [FifoSpec.step] at e2
    split at e2
    · simp at e2
    · next x rest hx =>
      simp only [Except.ok.injEq, Prod.mk.injEq, Option.some.injEq] at e2
      obtain ⟨rfl, rfl⟩ := e2
      exact ⟨e3, by simp only at hx e5; rw [← e5]; exact hx, e6.symm, e4.symm⟩
  · simp [EventQueue.step, h, bind, Except.bind] at e1

theorem peek_pop {q : Queue} {v : Event} (hI : EventQueue.Inv q) (h : q.peekFront = some v) :
    ∃ q', q.popFront = .ok (v, q') := by
  unfold EventQueue.peekFront at h
  unfold EventQueue.popFront
  split at h
  · simp at h
  · next hh => rw [if_neg hh, h]; exact ⟨_, rfl⟩

/-- what the loop did with one visited opposing order -/
inductive Act where
  | drop (i : Item)              -- invalid, removed with an Out event
  | ignore (i : Item)            -- invalid, left alone (drop limit reached)
  | cancel (i : Item)            -- own order removed (cancel-provide)
  | fill (i : Item) (base : Int)

namespace Act
def item : Act → Item
  | drop i => i
  | ignore i => i
  | cancel i => i
  | fill i _ => i
/-- base lots traded -/
def base : Act → Int
  | fill _ b => b
  | _ => 0
/-- quote lots traded -/
def quote : Act → Int
  | fill i b => b * i.price
  | _ => 0
def isFill : Act → Bool
  | fill _ _ => true
  | _ => false
/-- quote lots of self-trades -/
def decQuote (taker : Nat) : Act → Int
  | fill i b => if taker = i.leaf.owner then b * i.price else 0
  | _ => 0
/-- lots leaving the book -/
def lots : Act → Int
  | drop i => i.leaf.quantity
  | ignore _ => 0
  | cancel i => i.leaf.quantity
  | fill _ b => b
def change : Act → List (Item × Int)
  | fill i b => if i.leaf.quantity - b = 0 then [] else [(i, i.leaf.quantity - b)]
  | _ => []
def delete : Act → List Item
  | drop i => [i]
  | cancel i => [i]
  | fill i b => if i.leaf.quantity - b = 0 then [i] else []
  | ignore _ => []
/-- the event pushed, given the queue's sequence number -/
def event (c : MCtx) (seq : Int) : Act → List Event
  | drop i => [outEvent c.order.side.invert c.now seq i.leaf]
  | cancel i => [outEvent c.order.side.invert c.now seq i.leaf]
  | fill i b => [fillEvent c i seq b]
  | ignore _ => []
end Act

def changesOf (acts : List Act) : List (Item × Int) := acts.flatMap Act.change
def deletesOf (acts : List Act) : List Item := acts.flatMap Act.delete
def eventsOf (c : MCtx) : Int → List Act → List Event
  | _, [] => []
  | seq, a :: acts => a.event c seq ++ eventsOf c (seq + (a.event c seq).length) acts

/-- the lots still wanted -/
def MState.open (s : MState) : Prop := ¬ (s.remBase = 0 ∨ s.remQuote = 0)

/-- an opposing order that the taker is allowed to match -/
def matchable (c : MCtx) (s : MState) (i : Item) : Prop :=
  i.isValid = true ∧ c.order.side.isPriceWithinLimit i.price c.price = true ∧ c.order.isPostOnly = false ∧ s.limit ≠ 0 ∧
  i.price ≠ 0 ∧ s.remQuote.tdiv i.price ≠ 0

inductive Trace (c : MCtx) : MState → List Item → List Act → MState → Prop
  | nil (s) : Trace c s [] [] s
  | full (s i rest) : ¬ s.open → Trace c s (i :: rest) [] s
  | drop (s i rest acts s' q) : s.open → i.isValid = false → s.dropped < DROP_EXPIRED_ORDER_LIMIT →
      s.queue.pushBack (outEvent c.order.side.invert c.now s.queue.seqNum i.leaf) = .ok q →
      Trace c { s with dropped := s.dropped + 1, queue := q, deletes := s.deletes ++ [(i.comp, i.leaf.key)] } rest acts s' →
      Trace c s (i :: rest) (.drop i :: acts) s'
  | ignore (s i rest acts s') : s.open → i.isValid = false → ¬ s.dropped < DROP_EXPIRED_ORDER_LIMIT →
      Trace c s rest acts s' → Trace c s (i :: rest) (.ignore i :: acts) s'
  | outside (s i rest) : s.open → i.isValid = true → c.order.side.isPriceWithinLimit i.price c.price = false →
      Trace c s (i :: rest) [] s
  | block (s i rest) : s.open → i.isValid = true → c.order.side.isPriceWithinLimit i.price c.price = true →
      (c.order.isPostOnly = true ∨ s.limit = 0) → Trace c s (i :: rest) [] { s with post := none }
  | noQuote (s i rest) : s.open → i.isValid = true → c.order.side.isPriceWithinLimit i.price c.price = true →
      c.order.isPostOnly = false → s.limit ≠ 0 → i.price ≠ 0 → s.remQuote.tdiv i.price = 0 → Trace c s (i :: rest) [] s
  | cancel (s i rest acts s' q) : s.open → matchable c s i → c.taker = i.leaf.owner → c.order.selfTrade = .cancelProvide →
      s.queue.pushBack (outEvent c.order.side.invert c.now s.queue.seqNum i.leaf) = .ok q →
      Trace c { s with queue := q, deletes := s.deletes ++ [(i.comp, i.leaf.key)] } rest acts s' →
      Trace c s (i :: rest) (.cancel i :: acts) s'
  | fill (s i rest acts s' q base) : s.open → matchable c s i →
      ¬ (c.taker = i.leaf.owner ∧ c.order.selfTrade ≠ .decrementTake) →
      base = min (min s.remBase i.leaf.quantity) (s.remQuote.tdiv i.price) →
      s.remQuote - base * i.price ≥ 0 →
      s.queue.pushBack (fillEvent c i s.queue.seqNum base) = .ok q →
      Trace c { s with remBase := s.remBase - base, remQuote := s.remQuote - base * i.price,
                       decBase := s.decBase + (if c.taker = i.leaf.owner then base else 0),
                       decQuote := s.decQuote + (if c.taker = i.leaf.owner then base * i.price else 0), queue := q,
                       limit := s.limit - 1,
                       changes := s.changes ++ ((Act.fill i base).change.map (fun x => (x.1.handle, x.2))),
                       deletes := s.deletes ++ ((Act.fill i base).delete.map (fun i => (i.comp, i.leaf.key))) } rest acts s' →
      Trace c s (i :: rest) (.fill i base :: acts) s'

theorem matchLoop_trace {c : MCtx} : ∀ {items : List Item} {s s' : MState}, matchLoop c items s = .ok s' →
    ∃ acts, Trace c s items acts s' := by
  intro items
  induction items with
  | nil => intro s s' h; simp only [matchLoop, ok_inj] at h; subst h; exact ⟨_, .nil _⟩
  | cons i rest ih =>
    intro s s' h
    unfold matchLoop at h
    by_cases h0 : s.remBase = 0 ∨ s.remQuote = 0
    · rw [if_pos h0, ok_inj] at h; subst h; exact ⟨_, .full _ _ _ (fun hc => hc h0)⟩
    rw [if_neg h0] at h
    have ho : s.open := h0
    by_cases h1 : i.isValid = false
    · rw [if_pos h1] at h
      by_cases h2 : s.dropped < DROP_EXPIRED_ORDER_LIMIT
      · rw [if_pos h2] at h
        simp only [bind_ok] at h
        obtain ⟨q, hq, h⟩ := h
        obtain ⟨acts, ht⟩ := ih h
        exact ⟨_, .drop _ _ _ _ _ q ho h1 h2 hq ht⟩
      · rw [if_neg h2] at h
        obtain ⟨acts, ht⟩ := ih h
        exact ⟨_, .ignore _ _ _ _ _ ho h1 h2 ht⟩
    rw [if_neg h1] at h
    have h1' : i.isValid = true := by simpa using h1
    by_cases h2 : c.order.side.isPriceWithinLimit i.price c.price = false
    · rw [if_pos h2, ok_inj] at h; subst h; exact ⟨_, .outside _ _ _ ho h1' h2⟩
    rw [if_neg h2] at h
    have h2' : c.order.side.isPriceWithinLimit i.price c.price = true := by simpa using h2
    by_cases h3 : c.order.isPostOnly = true
    · rw [if_pos h3, ok_inj] at h; subst h; exact ⟨_, .block _ _ _ ho h1' h2' (.inl h3)⟩
    rw [if_neg h3] at h
    have h3' : c.order.isPostOnly = false := by simpa using h3
    by_cases h4 : s.limit = 0
    · rw [if_pos h4, ok_inj] at h; subst h; exact ⟨_, .block _ _ _ ho h1' h2' (.inr h4)⟩
    rw [if_neg h4] at h
    simp only [bind_ok] at h
    obtain ⟨mq, hm, h⟩ := h
    by_cases h5 : i.price = 0
    · rw [if_pos h5] at hm; simp at hm
    rw [if_neg h5, ok_inj] at hm
    subst hm
    by_cases h6 : s.remQuote.tdiv i.price = 0
    · rw [if_pos h6, ok_inj] at h; subst h; exact ⟨_, .noQuote _ _ _ ho h1' h2' h3' h4 h5 h6⟩
    rw [if_neg h6] at h
    have hmt : matchable c s i := ⟨h1', h2', h3', h4, h5, h6⟩
    simp only [bind_ok] at h
    obtain ⟨quote, hq, h⟩ := h
    rw [ck64_ok] at hq
    obtain ⟨rfl, hqr⟩ := hq
    by_cases h7 : c.taker = i.leaf.owner ∧ c.order.selfTrade = .abortTransaction
    · rw [if_pos h7] at h; simp at h
    rw [if_neg h7] at h
    by_cases h8 : c.taker = i.leaf.owner ∧ c.order.selfTrade = .cancelProvide
    · rw [if_pos h8] at h
      simp only [bind_ok] at h
      obtain ⟨q, hq, h⟩ := h
      obtain ⟨acts, ht⟩ := ih h
      exact ⟨_, .cancel _ _ _ _ _ q ho hmt h8.1 h8.2 hq ht⟩
    rw [if_neg h8] at h
    simp only [bind_ok, ck64_ok, require_ok] at h
    obtain ⟨dq, ⟨rfl, _⟩, db, ⟨rfl, _⟩, rb, ⟨rfl, _⟩, rq, ⟨rfl, _⟩, _, hge, nq, ⟨rfl, _⟩, q, hq, h⟩ := h
    obtain ⟨acts, ht⟩ := ih h
    refine ⟨_, .fill s i rest acts s' q _ ho hmt ?_ rfl hge hq ?_⟩
    · rintro ⟨e1, e2⟩
      cases hst : c.order.selfTrade
      · exact e2 hst
      · exact h8 ⟨e1, hst⟩
      · exact h7 ⟨e1, hst⟩
    · convert ht using 2
      · split <;> simp
      · split <;> simp
      · simp only [Act.change]; split <;> simp
      · simp only [Act.delete]; split <;> simp

/-- all accumulators in closed form -/
structure TraceSum (c : MCtx) (s : MState) (items : List Item) (acts : List Act) (s' : MState) : Prop where
  pre : acts.map Act.item <+: items
  base : s'.remBase = s.remBase - sumOf Act.base acts
  quote : s'.remQuote = s.remQuote - sumOf Act.quote acts
  dec : s'.decQuote = s.decQuote + sumOf (Act.decQuote c.taker) acts
  lim : s'.limit + (acts.filter Act.isFill).length = s.limit
  chg : s'.changes = s.changes ++ (changesOf acts).map (fun x => (x.1.handle, x.2))
  del : s'.deletes = s.deletes ++ (deletesOf acts).map (fun i => (i.comp, i.leaf.key))
  inv : EventQueue.Inv s'.queue
  evs : s'.queue.toList = s.queue.toList ++ eventsOf c s.queue.seqNum acts
  cap : s'.queue.buf.length = s.queue.buf.length
  seq : s'.queue.seqNum = s.queue.seqNum + (eventsOf c s.queue.seqNum acts).length
  post : s'.post = s.post ∨ s'.post = none

theorem trace_sum {c : MCtx} {s s' : MState} {items : List Item} {acts : List Act} (h : Trace c s items acts s')
    (hI : EventQueue.Inv s.queue) : TraceSum c s items acts s' := by
  induction h with
  | nil s => exact ⟨by simp, by simp, by simp, by simp, by simp, by simp [changesOf], by simp [deletesOf], hI,
      by simp [eventsOf], rfl, by simp [eventsOf], .inl rfl⟩
  | full s i rest _ => exact ⟨by simp, by simp, by simp, by simp, by simp, by simp [changesOf], by simp [deletesOf], hI,
      by simp [eventsOf], rfl, by simp [eventsOf], .inl rfl⟩
  | outside s i rest _ _ _ => exact ⟨by simp, by simp, by simp, by simp, by simp, by simp [changesOf], by simp [deletesOf], hI,
      by simp [eventsOf], rfl, by simp [eventsOf], .inl rfl⟩
  | block s i rest _ _ _ _ => exact ⟨by simp, by simp, by simp, by simp, by simp, by simp [changesOf], by simp [deletesOf], hI,
      by simp [eventsOf], rfl, by simp [eventsOf], .inr rfl⟩
  | noQuote s i rest _ _ _ _ _ _ _ => exact ⟨by simp, by simp, by simp, by simp, by simp, by simp [changesOf],
      by simp [deletesOf], hI, by simp [eventsOf], rfl, by simp [eventsOf], .inl rfl⟩
  | ignore s i rest acts s' _ _ _ _ ih =>
    have t := ih hI
    refine ⟨?_, ?_, ?_, ?_, ?_, ?_, ?_, t.inv, ?_, t.cap, ?_, t.post⟩
    · simp only [List.map_cons, Act.item]; exact (List.prefix_cons_inj i).mpr t.pre
    · simp [t.base, Act.base]
    · simp [t.quote, Act.quote]
    · simp [t.dec, Act.decQuote]
    · simpa [List.filter_cons, Act.isFill] using t.lim
    · simp [t.chg, changesOf, Act.change]
    · simp [t.del, deletesOf, Act.delete]
    · simp [t.evs, eventsOf, Act.event]
    · simp [t.seq, eventsOf, Act.event]
  | drop s i rest acts s' q _ _ _ hq _ ih =>
    obtain ⟨hI', hl, hs, hb⟩ := pushBack_ok hI hq
    have t := ih hI'
    refine ⟨?_, ?_, ?_, ?_, ?_, ?_, ?_, t.inv, ?_, ?_, ?_, t.post⟩
    · simp only [List.map_cons, Act.item]; exact (List.prefix_cons_inj i).mpr t.pre
    · simp [t.base, Act.base]
    · simp [t.quote, Act.quote]
    · simp [t.dec, Act.decQuote]
    · simpa [List.filter_cons, Act.isFill] using t.lim
    · simp [t.chg, changesOf, Act.change]
    · simp [t.del, deletesOf, Act.delete]
    · rw [t.evs]; simp [hl, hs, eventsOf, Act.event]
    · rw [t.cap]; exact hb
    · rw [t.seq]; simp [hs, eventsOf, Act.event]; omega
  | cancel s i rest acts s' q _ _ _ _ hq _ ih =>
    obtain ⟨hI', hl, hs, hb⟩ := pushBack_ok hI hq
    have t := ih hI'
    refine ⟨?_, ?_, ?_, ?_, ?_, ?_, ?_, t.inv, ?_, ?_, ?_, t.post⟩
    · simp only [List.map_cons, Act.item]; exact (List.prefix_cons_inj i).mpr t.pre
    · simp [t.base, Act.base]
    · simp [t.quote, Act.quote]
    · simp [t.dec, Act.decQuote]
    · simpa [List.filter_cons, Act.isFill] using t.lim
    · simp [t.chg, changesOf, Act.change]
    · simp [t.del, deletesOf, Act.delete]
    · rw [t.evs]; simp [hl, hs, eventsOf, Act.event]
    · rw [t.cap]; exact hb
    · rw [t.seq]; simp [hs, eventsOf, Act.event]; omega
  | fill s i rest acts s' q base _ hm _ _ _ hq _ ih =>
    obtain ⟨hI', hl, hs, hb⟩ := pushBack_ok hI hq
    have t := ih hI'
    refine ⟨?_, ?_, ?_, ?_, ?_, ?_, ?_, t.inv, ?_, ?_, ?_, t.post⟩
    · simp only [List.map_cons, Act.item]; exact (List.prefix_cons_inj i).mpr t.pre
    · simp [t.base, Act.base]; omega
    · simp [t.quote, Act.quote]; omega
    · simp [t.dec, Act.decQuote]; omega
    · have := t.lim; simp only [List.filter_cons, Act.isFill, if_true, List.length_cons]
      have h0 : s.limit ≠ 0 := hm.2.2.2.1
      simp only at this; omega
    · rw [t.chg]; simp [changesOf]
    · rw [t.del]; simp [deletesOf]
    · rw [t.evs]; simp [hl, hs, eventsOf, Act.event]
    · rw [t.cap]; exact hb
    · rw [t.seq]; simp [hs, eventsOf, Act.event]; omega

/-- opposing orders as they occur in a sane book: positive quantity and price -/
def itemPos (i : Item) : Prop := 0 < i.leaf.quantity ∧ 1 ≤ i.price

/-- facts about each single action -/
def actOK (c : MCtx) : Act → Prop
  | .drop i => i.isValid = false
  | .ignore i => i.isValid = false
  | .cancel i => i.isValid = true ∧ c.order.side.isPriceWithinLimit i.price c.price = true ∧ c.taker = i.leaf.owner ∧
      c.order.selfTrade = .cancelProvide ∧ c.order.isPostOnly = false
  | .fill i b => i.isValid = true ∧ c.order.side.isPriceWithinLimit i.price c.price = true ∧ 0 < b ∧ b ≤ i.leaf.quantity ∧
      (c.taker = i.leaf.owner → c.order.selfTrade = .decrementTake) ∧ c.order.isPostOnly = false

theorem tdiv_pos_of_ne {a b : Int} (ha : 0 ≤ a) (hb : 1 ≤ b) (h : a.tdiv b ≠ 0) : 0 < a.tdiv b := by
  have := Int.tdiv_nonneg ha (by omega : 0 ≤ b); omega

theorem trace_acts {c : MCtx} {s s' : MState} {items : List Item} {acts : List Act} (h : Trace c s items acts s')
    (hb : 0 ≤ s.remBase) (hq : 0 ≤ s.remQuote) (hp : ∀ i ∈ items, itemPos i) :
    (∀ a ∈ acts, actOK c a) ∧ 0 ≤ s'.remBase ∧ 0 ≤ s'.remQuote := by
  induction h with
  | nil s => exact ⟨by simp, hb, hq⟩
  | full s i rest _ => exact ⟨by simp, hb, hq⟩
  | outside s i rest _ _ _ => exact ⟨by simp, hb, hq⟩
  | block s i rest _ _ _ _ => exact ⟨by simp, hb, hq⟩
  | noQuote s i rest _ _ _ _ _ _ _ => exact ⟨by simp, hb, hq⟩
  | ignore s i rest acts s' _ hv _ _ ih =>
    obtain ⟨h1, h2⟩ := ih hb hq (fun j hj => hp j (by simp [hj]))
    exact ⟨List.forall_mem_cons.mpr ⟨hv, h1⟩, h2⟩
  | drop s i rest acts s' q _ hv _ _ _ ih =>
    obtain ⟨h1, h2⟩ := ih hb hq (fun j hj => hp j (by simp [hj]))
    exact ⟨List.forall_mem_cons.mpr ⟨hv, h1⟩, h2⟩
  | cancel s i rest acts s' q _ hm h3 h4 _ _ ih =>
    obtain ⟨h1, h2⟩ := ih hb hq (fun j hj => hp j (by simp [hj]))
    exact ⟨List.forall_mem_cons.mpr ⟨⟨hm.1, hm.2.1, h3, h4, hm.2.2.1⟩, h1⟩, h2⟩
  | fill s i rest acts s' q base ho hm hst hbase hge hq' _ ih =>
    have hi := hp i (by simp)
    obtain ⟨v1, v2, v3, v4, v5, v6⟩ := hm
    have hd := tdiv_pos_of_ne hq hi.2 v6
    have hrb : 0 < s.remBase := by unfold MState.open at ho; omega
    have hi1 := hi.1; have hi2 := hi.2
    obtain ⟨h1, h2⟩ := ih (by simp only; omega) (by simp only; omega) (fun j hj => hp j (by simp [hj]))
    refine ⟨List.forall_mem_cons.mpr ⟨⟨v1, v2, by omega, by omega, ?_, v3⟩, h1⟩, h2⟩
    intro e
    by_contra hc
    exact hst ⟨e, hc⟩

theorem trace_closed {c : MCtx} {s s' : MState} {items : List Item} {acts : List Act} (h : Trace c s items acts s')
    (ho : ¬ s.open) : acts = [] := by
  cases h <;> first | rfl | (exfalso; exact ho ‹_›)

theorem trace_quote_le {c : MCtx} {s s' : MState} {items : List Item} {acts : List Act} (h : Trace c s items acts s')
    (hb : 0 ≤ s.remBase) (hq : 0 ≤ s.remQuote) (hp : ∀ i ∈ items, itemPos i) :
    ∀ ay, ay ∈ acts → ay.item.isValid = true → ay.item.price ≤ s.remQuote := by
  induction h with
  | nil s => simp
  | full s i rest _ => simp
  | outside s i rest _ _ _ => simp
  | block s i rest _ _ _ _ => simp
  | noQuote s i rest _ _ _ _ _ _ _ => simp
  | ignore s i rest acts s' _ hv _ _ ih =>
    have h1 := ih hb hq (fun j hj => hp j (by simp [hj]))
    intro ay hy hvy
    rcases List.mem_cons.mp hy with rfl | hy
    · simp only [Act.item] at hvy; rw [hv] at hvy; simp at hvy
    · exact h1 ay hy hvy
  | drop s i rest acts s' q _ hv _ _ _ ih =>
    have h1 := ih hb hq (fun j hj => hp j (by simp [hj]))
    intro ay hy hvy
    rcases List.mem_cons.mp hy with rfl | hy
    · simp only [Act.item] at hvy; rw [hv] at hvy; simp at hvy
    · exact h1 ay hy hvy
  | cancel s i rest acts s' q _ hm h3 h4 _ _ ih =>
    have h1 := ih hb hq (fun j hj => hp j (by simp [hj]))
    intro ay hy hvy
    rcases List.mem_cons.mp hy with rfl | hy
    · simp only [Act.item]
      by_contra hc
      have : s.remQuote.tdiv i.price = 0 := Int.tdiv_eq_zero_of_lt hq (by omega)
      exact hm.2.2.2.2.2 this
    · exact h1 ay hy hvy
  | fill s i rest acts s' q base ho hm hst hbase hge hq' _ ih =>
    have hi := hp i (by simp)
    obtain ⟨v1, v2, v3, v4, v5, v6⟩ := hm
    have hd := tdiv_pos_of_ne hq hi.2 v6
    have hrb : 0 < s.remBase := by unfold MState.open at ho; omega
    have hi1 := hi.1; have hi2 := hi.2
    have h1 := ih (by simp only; omega) (by simp only; omega) (fun j hj => hp j (by simp [hj]))
    intro ay hy hvy
    rw [List.mem_cons] at hy
    have hpos : 0 < base * i.price := by
      apply Int.mul_pos <;> omega
    rcases hy with hy | hy
    · subst hy
      simp only [Act.item]
      by_contra hc
      have : s.remQuote.tdiv i.price = 0 := Int.tdiv_eq_zero_of_lt hq (by omega)
      exact v6 this
    · have := h1 ay hy hvy; simp only at this; omega

/-- an order filled before another one was matched was filled completely, or the remaining quote could not buy another lot of it -/
theorem trace_order {c : MCtx} {s s' : MState} {items : List Item} {acts : List Act} (h : Trace c s items acts s')
    (hb : 0 ≤ s.remBase) (hq : 0 ≤ s.remQuote) (hp : ∀ i ∈ items, itemPos i) :
    ∀ pre x bx mid ay post, ay.item.isValid = true → acts = pre ++ Act.fill x bx :: (mid ++ ay :: post) →
      bx = x.leaf.quantity ∨ (ay.item.price < x.price ∧ s.remQuote - sumOf Act.quote (pre ++ [Act.fill x bx]) < x.price) := by
  induction h with
  | nil s => intro pre; simp
  | full s i rest _ => intro pre; simp
  | outside s i rest _ _ _ => intro pre; simp
  | block s i rest _ _ _ _ => intro pre; simp
  | noQuote s i rest _ _ _ _ _ _ _ => intro pre; simp
  | ignore s i rest acts s' _ hv _ _ ih =>
    have h1 := ih hb hq (fun j hj => hp j (by simp [hj]))
    intro pre x bx mid ay post hvy e
    cases pre with
    | nil => simp at e
    | cons a pre =>
      simp only [List.cons_append, List.cons.injEq] at e
      obtain ⟨rfl, e⟩ := e
      have := h1 pre x bx mid ay post hvy e
      simpa [Act.quote] using this
  | drop s i rest acts s' q _ hv _ _ _ ih =>
    have h1 := ih hb hq (fun j hj => hp j (by simp [hj]))
    intro pre x bx mid ay post hvy e
    cases pre with
    | nil => simp at e
    | cons a pre =>
      simp only [List.cons_append, List.cons.injEq] at e
      obtain ⟨rfl, e⟩ := e
      have := h1 pre x bx mid ay post hvy e
      simpa [Act.quote] using this
  | cancel s i rest acts s' q _ hm h3 h4 _ _ ih =>
    have h1 := ih hb hq (fun j hj => hp j (by simp [hj]))
    intro pre x bx mid ay post hvy e
    cases pre with
    | nil => simp at e
    | cons a pre =>
      simp only [List.cons_append, List.cons.injEq] at e
      obtain ⟨rfl, e⟩ := e
      have := h1 pre x bx mid ay post hvy e
      simpa [Act.quote] using this
  | fill s i rest acts s' q base ho hm hst hbase hge hq' ht ih =>
    have hi := hp i (by simp)
    obtain ⟨v1, v2, v3, v4, v5, v6⟩ := hm
    have hd := tdiv_pos_of_ne hq hi.2 v6
    have hrb : 0 < s.remBase := by unfold MState.open at ho; omega
    have hi1 := hi.1; have hi2 := hi.2
    have hpr : ∀ j ∈ rest, itemPos j := fun j hj => hp j (by simp [hj])
    have h1 := ih (by simp only; omega) (by simp only; omega) hpr
    intro pre x bx mid ay post hvy e
    cases pre with
    | cons a pre =>
      simp only [List.cons_append, List.cons.injEq] at e
      obtain ⟨rfl, e⟩ := e
      have := h1 pre x bx mid ay post hvy e
      simp only [List.cons_append, sumOf_cons] at this ⊢
      rcases this with h | ⟨h, h'⟩
      · exact .inl h
      · refine .inr ⟨h, ?_⟩
        have e2 : Act.quote (.fill i base) = base * i.price := rfl
        rw [e2]; omega
    | nil =>
      simp only [List.nil_append, List.cons.injEq] at e
      obtain ⟨e1, e⟩ := e
      injection e1 with e2 e3
      subst e2 e3
      have hmem : ay ∈ acts := by rw [e]; simp
      by_cases hc : base = i.leaf.quantity
      · exact .inl hc
      right
      have hnb : base ≠ s.remBase := by
        intro hh
        have := trace_closed ht (by unfold MState.open; simp only; omega)
        rw [this] at hmem; simp at hmem
      have hbe : base = s.remQuote.tdiv i.price := by omega
      have hlt : s.remQuote - base * i.price < i.price := by
        have hdm := Int.tmod_add_tdiv_mul s.remQuote i.price
        have hmod := Int.tmod_lt_of_pos s.remQuote (show 0 < i.price by omega)
        rw [hbe]; omega
      have hy := trace_quote_le ht (by simp only; omega) (by simp only; omega) hpr ay hmem hvy
      simp only at hy
      refine ⟨by omega, ?_⟩
      simp only [List.nil_append, sumOf_cons, sumOf_nil]
      have e2 : Act.quote (.fill i base) = base * i.price := rfl
      rw [e2]; omega

/-- why the loop stopped, and what a partially filled order implies -/
theorem trace_stop {c : MCtx} {s s' : MState} {items : List Item} {acts : List Act} (h : Trace c s items acts s')
    (hb : 0 ≤ s.remBase) (hq : 0 ≤ s.remQuote) (hp : ∀ i ∈ items, itemPos i) :
    (∃ rest, items = acts.map Act.item ++ rest ∧
      (rest = [] ∨ ¬ s'.open ∨ ∃ i r, rest = i :: r ∧ i.isValid = true ∧
        (c.order.side.isPriceWithinLimit i.price c.price = false ∨
          (s'.post = none ∧ (c.order.isPostOnly = true ∨ s'.limit = 0)) ∨ s'.remQuote < i.price))) ∧
    (∀ x b, Act.fill x b ∈ acts → b = x.leaf.quantity ∨ s'.remBase = 0 ∨ s'.remQuote < x.price) := by
  induction h with
  | nil s => exact ⟨⟨[], by simp, .inl rfl⟩, by simp⟩
  | full s i rest h0 => exact ⟨⟨i :: rest, by simp, .inr (.inl h0)⟩, by simp⟩
  | outside s i rest _ hv ho => exact ⟨⟨i :: rest, by simp, .inr (.inr ⟨i, rest, rfl, hv, .inl ho⟩)⟩, by simp⟩
  | block s i rest _ hv _ hbk => exact ⟨⟨i :: rest, by simp, .inr (.inr ⟨i, rest, rfl, hv, .inr (.inl ⟨rfl, hbk⟩)⟩)⟩, by simp⟩
  | noQuote s i rest _ hv _ _ _ _ hz =>
    refine ⟨⟨i :: rest, by simp, .inr (.inr ⟨i, rest, rfl, hv, .inr (.inr ?_)⟩)⟩, by simp⟩
    have hi := hp i (by simp)
    by_contra hc
    have hdm := Int.tmod_add_tdiv_mul s.remQuote i.price
    have hmod := Int.tmod_lt_of_pos s.remQuote (show 0 < i.price by have := hi.2; omega)
    rw [hz] at hdm; omega
  | ignore s i rest acts s' _ hv _ _ ih =>
    obtain ⟨⟨r, h1, h2⟩, h3⟩ := ih hb hq (fun j hj => hp j (by simp [hj]))
    exact ⟨⟨r, by simp [h1, Act.item], h2⟩, fun x b hx => h3 x b (by simpa using hx)⟩
  | drop s i rest acts s' q _ hv _ _ _ ih =>
    obtain ⟨⟨r, h1, h2⟩, h3⟩ := ih hb hq (fun j hj => hp j (by simp [hj]))
    exact ⟨⟨r, by simp [h1, Act.item], h2⟩, fun x b hx => h3 x b (by simpa using hx)⟩
  | cancel s i rest acts s' q _ hm h3 h4 _ _ ih =>
    obtain ⟨⟨r, h1, h2⟩, h3⟩ := ih hb hq (fun j hj => hp j (by simp [hj]))
    exact ⟨⟨r, by simp [h1, Act.item], h2⟩, fun x b hx => h3 x b (by simpa using hx)⟩
  | fill s i rest acts s' q base ho hm hst hbase hge hq' ht ih =>
    have hi := hp i (by simp)
    obtain ⟨v1, v2, v3, v4, v5, v6⟩ := hm
    have hd := tdiv_pos_of_ne hq hi.2 v6
    have hrb : 0 < s.remBase := by unfold MState.open at ho; omega
    have hi1 := hi.1; have hi2 := hi.2
    have hpr : ∀ j ∈ rest, itemPos j := fun j hj => hp j (by simp [hj])
    obtain ⟨⟨r, h1, h2⟩, h3⟩ := ih (by simp only; omega) (by simp only; omega) hpr
    refine ⟨⟨r, by simp [h1, Act.item], h2⟩, ?_⟩
    intro x b hx
    rw [List.mem_cons] at hx
    rcases hx with hx | hx
    · injection hx with e1 e2
      subst e1 e2
      by_cases hc : b = x.leaf.quantity
      · exact .inl hc
      right
      by_cases hc2 : b = s.remBase
      · left
        have : acts = [] := trace_closed ht (by unfold MState.open; simp only; omega)
        subst this
        cases ht <;> simp only <;> first | omega | (unfold MState.open at *; simp only at *; omega)
      · right
        have hbe : b = s.remQuote.tdiv x.price := by omega
        have hlt : s.remQuote - b * x.price < x.price := by
          have hdm := Int.tmod_add_tdiv_mul s.remQuote x.price
          have hmod := Int.tmod_lt_of_pos s.remQuote (show 0 < x.price by omega)
          rw [hbe]; omega
        have hmono : ∀ {s s' : MState} {items : List Item} {acts : List Act}, Trace c s items acts s' → 0 ≤ s.remBase → 0 ≤ s.remQuote →
            (∀ i ∈ items, itemPos i) → s'.remQuote ≤ s.remQuote := by
          intro s s' items acts ht
          induction ht with
          | nil s => intros; omega
          | full s i rest _ => intros; omega
          | outside s i rest _ _ _ => intros; omega
          | block s i rest _ _ _ _ => intros; simp
          | noQuote s i rest _ _ _ _ _ _ _ => intros; omega
          | ignore s i rest acts s' _ hv _ _ ih => intro a b d; exact ih a b (fun j hj => d j (by simp [hj]))
          | drop s i rest acts s' q _ hv _ _ _ ih => intro a b d; exact ih a b (fun j hj => d j (by simp [hj]))
          | cancel s i rest acts s' q _ hm h3 h4 _ _ ih => intro a b d; exact ih a b (fun j hj => d j (by simp [hj]))
          | fill s i rest acts s' q base ho hm hst hbase hge hq' ht ih =>
            intro a b d
            have hi := d i (by simp)
            obtain ⟨v1, v2, v3, v4, v5, v6⟩ := hm
            have hd := tdiv_pos_of_ne b hi.2 v6
            have hrb : 0 < s.remBase := by unfold MState.open at ho; omega
            have hi1 := hi.1; have hi2 := hi.2
            have hpos : 0 < base * i.price := by apply Int.mul_pos <;> omega
            have := ih (by simp only; omega) (by simp only; omega) (fun j hj => d j (by simp [hj]))
            simp only at this; omega
        have := hmono ht (by simp only; omega) (by simp only; omega) hpr
        simp only at this; omega
    · exact h3 x b hx

end Perp
end Mango
