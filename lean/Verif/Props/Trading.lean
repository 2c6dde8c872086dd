import Verif.Perp.SystemRun
/-!
# C24, C25 (base part), C26, C48: accounts, book and event queue stay consistent along every history

The system is a perp market with any number of accounts (`PSys`), the operations are `POp`; a history is any list of
operations, failing ones changing nothing.  The specification below uses only what can be read off the accounts, the book
(its orders in iteration order) and the queue (its pending events).
-/
namespace Mango
namespace Perp
open Book Fx

/-- the orders resting in one tree of one side -/
def booked (b : OBook) (sd : Side) (c : Comp) : List Leaf :=
  match (b.get sd).nodes.toList ((b.get sd).root c) with
  | .ok xs => xs.map Prod.snd
  | .error _ => []
/-- the orders resting on one side -/
def ordersOn (b : OBook) (sd : Side) : List Leaf := booked b sd .fixed ++ booked b sd .pegged
/-- events not yet consumed -/
def pending (s : PSys) : List Event := s.queue.toList

/-- lots of `u`'s resting orders on a side -/
def restingLots (s : PSys) (u : Nat) (sd : Side) : Int := sumOf (fun l => if l.owner = u then l.quantity else 0) (ordersOn s.book sd)
/-- lots of `u`'s maker orders on a side in pending fill events -/
def pendingFillLots (s : PSys) (u : Nat) (sd : Side) : Int :=
  sumOf (fun f => if f.maker = u ∧ f.takerSide.invert = sd then f.quantity else 0) (fillsOf (pending s))
/-- lots of `u`'s orders on a side in pending out events -/
def pendingOutLots (s : PSys) (u : Nat) (sd : Side) : Int :=
  sumOf (fun e => if e.owner = u ∧ e.side = sd then e.quantity else 0) (outsOf (pending s))

/-- the states reached from a new market by a history of well-typed operations -/
structure Reachable (s : PSys) : Prop where
  ex : ∃ m bookNodes queueLen fill ops, m.idx ≠ FREE ∧ bookNodes ≤ U32MAX ∧ 0 < queueLen ∧ (∀ op ∈ ops, POp.Typed op) ∧
    ordersPlaced ops < 9223372036854775808 ∧ s = prun (PSys.init m bookNodes queueLen fill) ops

theorem Reachable.inv {s : PSys} (h : Reachable s) : ∃ sp, PInv s sp := by
  obtain ⟨m, n, q, f, ops, h1, h2, h3, h4, h5, rfl⟩ := h.ex
  exact reach_inv m n q f h1 h2 h3 ops h4 h5

theorem booked_eq {b : OBook} {sp : Side → SpecSide} (h : BookIs b sp) (sd : Side) (c : Comp) :
    booked b sd c = ord (b.get sd).nodes.isBids ((sp sd).get c) := by
  unfold booked
  obtain ⟨xs, h1, h2⟩ := toList_sim (h.sim sd) c
  rw [h1]; exact h2

theorem sumOf_ord {α : Type} (isBids : Bool) (f : α → Int) (xs : List α) : sumOf f (ord isBids xs) = sumOf f xs := by
  unfold ord; split
  · exact sumOf_perm f (List.reverse_perm xs)
  · rfl

theorem mem_ord {α : Type} {isBids : Bool} {xs : List α} {x : α} : x ∈ ord isBids xs ↔ x ∈ xs := by
  unfold ord; split <;> simp

theorem resting_eq {s : PSys} {sp : Side → SpecSide} (h : PInv s sp) (u : Nat) (sd : Side) : restingLots s u sd = restLots (ownedBy u sd) sp := by
  unfold restingLots ordersOn
  rw [sumOf_append, booked_eq h.live.is, booked_eq h.live.is, sumOf_ord, sumOf_ord, restLots_split _ _ sd]
  have hz : sideLots (ownedBy u sd) sd.invert (sp sd.invert) = 0 := by
    unfold sideLots
    apply sideSum_zero
    intro c l _
    unfold qtyW
    rw [if_neg]
    intro e
    have := (ownedBy_iff.mp e).2
    simp only [identL] at this
    cases sd <;> simp [Side.invert] at this
  have he : sideLots (ownedBy u sd) sd (sp sd) = sumOf (fun l => if l.owner = u then l.quantity else 0) ((sp sd).get .fixed) +
      sumOf (fun l => if l.owner = u then l.quantity else 0) ((sp sd).get .pegged) := by
    unfold sideLots sideSum
    have : ∀ (c : Comp) (l : Leaf), qtyW (fun _ l => ownedBy u sd (identL sd l)) c l = if l.owner = u then l.quantity else 0 := by
      intro c l
      unfold qtyW
      show (if ownedBy u sd (identL sd l) = true then l.quantity else 0) = _
      by_cases hu : l.owner = u
      · rw [if_pos (ownedBy_iff.mpr (show u = (identL sd l).owner ∧ sd = (identL sd l).side from ⟨hu.symm, rfl⟩)), if_pos hu]
      · rw [if_neg (fun e => hu (ownedBy_iff.mp e).1.symm), if_neg hu]
    rw [sumOf_congr (fun l _ => this .fixed l), sumOf_congr (fun l _ => this .pegged l)]
    rfl
  rw [he, hz]; omega

theorem pending_eq (E : List Event) (u : Nat) (sd : Side) : pendLots (ownedBy u sd) E =
    sumOf (fun f => if f.maker = u ∧ f.takerSide.invert = sd then f.quantity else 0) (fillsOf E) +
    sumOf (fun e => if e.owner = u ∧ e.side = sd then e.quantity else 0) (outsOf E) := by
  induction E with
  | nil => rfl
  | cons e E ih =>
    rw [pendLots_cons, ih]
    cases e with
    | fill f =>
      have h1 : fillsOf (.fill f :: E) = f :: fillsOf E := rfl
      have h2 : outsOf (.fill f :: E) = outsOf E := rfl
      rw [h1, h2, sumOf_cons]
      by_cases hc : f.maker = u ∧ f.takerSide.invert = sd
      · rw [if_pos hc, if_pos (ownedBy_iff.mpr ⟨hc.1.symm, hc.2.symm⟩)]; simp only [Event.qty]; omega
      · rw [if_neg hc, if_neg (fun e => hc ⟨(ownedBy_iff.mp e).1.symm, (ownedBy_iff.mp e).2.symm⟩)]; omega
    | out f =>
      have h1 : fillsOf (.out f :: E) = fillsOf E := rfl
      have h2 : outsOf (.out f :: E) = f :: outsOf E := rfl
      rw [h1, h2, sumOf_cons]
      by_cases hc : f.owner = u ∧ f.side = sd
      · rw [if_pos hc, if_pos (ownedBy_iff.mpr ⟨hc.1.symm, hc.2.symm⟩)]; simp only [Event.qty]; omega
      · rw [if_neg hc, if_neg (fun e => hc ⟨(ownedBy_iff.mp e).1.symm, (ownedBy_iff.mp e).2.symm⟩)]; omega

/-- **C24.** In every reachable state, for every account (with or without a perp position, in which case the counters are
zero), `bids_base_lots` and `asks_base_lots` equal the lots of its resting orders on that side plus its lots in pending
fill events plus its lots in pending out events; `taker_base_lots` / `taker_quote_lots` equal the signed base and quote lots of
its pending fills as taker. -/
theorem C24_lot_counters {s : PSys} (h : Reachable s) (u : Nat) :
    (∀ sd, (pget s.accts u).lots sd = restingLots s u sd + pendingFillLots s u sd + pendingOutLots s u sd) ∧
    (pget s.accts u).takerBase =
      sumOf (fun f => if f.taker = u then (match f.takerSide with | .bid => f.quantity | .ask => -f.quantity) else 0) (fillsOf (pending s)) ∧
    (pget s.accts u).takerQuote =
      sumOf (fun f => if f.taker = u then (match f.takerSide with | .bid => -(f.price * f.quantity) | .ask => f.price * f.quantity) else 0) (fillsOf (pending s)) := by
  obtain ⟨sp, hI⟩ := h.inv
  refine ⟨?_, ?_, ?_⟩
  · intro sd
    rw [hI.lots, resting_eq hI, pending_eq]
    unfold pendingFillLots pendingOutLots pending
    omega
  · rw [hI.tb]
    apply sumOf_congr
    intro f _
    unfold tbOf; split
    · cases f.takerSide <;> simp [Side.sgn]
    · rfl
  · rw [hI.tq, ← sumOf_neg]
    apply sumOf_congr
    intro f _
    unfold tqOf; split
    · cases f.takerSide <;> simp [Side.sgn]
    · rfl

/-- **C24 (slots).** In every reachable state: every resting order has a positive size and is recorded in the slot of its
owner's account that it names, with its id, side and tree; every slot in use for this market records an order that rests
there, or that has left the book with its final event still pending; distinct orders have distinct ids. -/
theorem C24_slots {s : PSys} (h : Reachable s) :
    (∀ sd c, ∀ l ∈ booked s.book sd c, 0 < l.quantity ∧
      ∃ a oo, s.accts[l.owner]? = some a ∧ a.oos[l.ownerSlot]? = some oo ∧ oo.market = s.market.idx ∧ oo.side = sd ∧ oo.tree = c ∧ oo.id = l.key) ∧
    (∀ u a, s.accts[u]? = some a → ∀ i oo, a.oos[i]? = some oo → oo.market = s.market.idx →
      (∃ l ∈ booked s.book oo.side oo.tree, l.key = oo.id ∧ l.owner = u ∧ l.ownerSlot = i) ∨
      (∃ e ∈ pending s, e.last = true ∧ e.ident = ⟨oo.id, u, i, oo.side⟩)) ∧
    (∀ sd c, ∀ l ∈ booked s.book sd c, ∀ sd' c', ∀ l' ∈ booked s.book sd' c', l.key = l'.key → sd = sd' ∧ c = c' ∧ l = l') := by
  obtain ⟨sp, hI⟩ := h.inv
  have hm : ∀ sd c l, l ∈ booked s.book sd c ↔ l ∈ (sp sd).get c := by
    intro sd c l; rw [booked_eq hI.live.is, mem_ord]
  refine ⟨?_, ?_, ?_⟩
  · intro sd c l hl
    rw [hm] at hl
    obtain ⟨oo, ⟨a, h1, h2, h3⟩, h4, h5, h6⟩ := hI.slots.rest sd c l hl
    exact ⟨hI.live.pos sd c l hl, a, oo, h1, h2, h3, h4, h5, h6⟩
  · intro u a ha i oo ho hmk
    rcases hI.slots.act u i oo ⟨a, ha, ho, hmk⟩ with ⟨l, hl, hi⟩ | ⟨e, he, h1, h2⟩
    · simp only [identL, Ident.mk.injEq] at hi
      exact .inl ⟨l, (hm _ _ _).mpr hl, hi.1, hi.2.1, hi.2.2.1⟩
    · exact .inr ⟨e, he, h1, h2⟩
  · intro sd c l hl sd' c' l' hl' hk
    rw [hm] at hl hl'
    exact hI.ids hl hl' hk

/-- **C25 (base).** In every reachable state the open interest is the sum of the absolute base positions of all accounts,
and the base positions sum to zero. -/
theorem C25_open_interest {s : PSys} (h : Reachable s) :
    s.market.openInterest = sumOf (fun a => |(posD a).base|) s.accts ∧ sumOf (fun a => (posD a).base) s.accts = 0 := by
  obtain ⟨sp, hI⟩ := h.inv
  exact ⟨hI.oi, hI.zero⟩

/-- the market a pending event executes on keeps its index -/
theorem slotAfter_get {idx : Nat} {oos : List OO} {key slot : Nat} {last : Bool} {qty : Int} (hk : key ≠ 0) {i : Nat} {oo : OO} (h : oos[i]? = some oo) :
    (slotAfter idx oos key slot last qty)[i]? = some
      (if i = slot ∧ oo.market = idx ∧ oo.id = key then (if last = true then {} else { oo with quantity := max (oo.quantity - qty) 0 }) else oo) := by
  unfold slotAfter
  cases hs : oos[slot]? with
  | none =>
    simp only
    rw [if_neg, h]
    rintro ⟨rfl, _⟩; rw [hs] at h; simp at h
  | some o2 =>
    simp only
    have hlt : slot < oos.length := (List.getElem?_eq_some_iff.mp hs).1
    by_cases hi : i = slot
    · subst hi
      rw [hs, Option.some.injEq] at h
      subst h
      by_cases hc : o2.market = idx ∧ o2.id = key
      · have hR : i = i ∧ o2.market = idx ∧ o2.id = key := ⟨rfl, hc⟩
        have hL : o2.market = idx ∧ (key = 0 ∨ o2.id = key) := ⟨hc.1, .inr hc.2⟩
        rw [if_pos hR]; simp only [if_pos hL]
        exact List.getElem?_set_self hlt
      · have hR : ¬ (i = i ∧ o2.market = idx ∧ o2.id = key) := fun e => hc e.2
        have hL : ¬ (o2.market = idx ∧ (key = 0 ∨ o2.id = key)) := fun e => hc ⟨e.1, e.2.resolve_left hk⟩
        rw [if_neg hR]; simp only [if_neg hL]
        exact hs
    · have hR : ¬ (i = slot ∧ oo.market = idx ∧ oo.id = key) := fun e => hi e.1
      rw [if_neg hR]
      split
      · rw [List.getElem?_set_ne (by omega)]; exact h
      · exact h

/-- the accounts' slots before and after one event -/
theorem consume_slots {s s' : PSys} {sp : Side → SpecSide} (hI : PInv s sp) {avail : List Nat} {e : Event} (hpk : s.queue.peekFront = some e)
    (hc : consumeOne s avail = .ok (some s')) {u : Nat} {a : PAcct} (ha : s.accts[u]? = some a) :
    ∃ a', s'.accts[u]? = some a' ∧ (u = e.ident.owner → a'.oos = slotAfter s.market.idx a.oos e.ident.key e.ident.slot e.last e.qty) ∧ (u ≠ e.ident.owner → a'.oos = a.oos) := by
  obtain ⟨q0, hpop⟩ := peek_pop hI.queue hpk
  obtain ⟨hk, hqp⟩ := hI.ekey hpop
  have hlu : u < s.accts.length := (List.getElem?_eq_some_iff.mp ha).1
  unfold Perp.consumeOne at hc
  rw [hpk] at hc
  cases e with
  | fill f =>
    simp only [Event.ident, Event.last, Event.qty] at hk hqp ⊢
    have habs : |f.quantity| = f.quantity := abs_of_pos hqp
    simp only at hc
    split at hc
    · next hmt =>
      split at hc
      · split at hc
        · simp at hc
        · next a0 ha0 =>
          simp only [bind_ok, Prod.exists, hpop, ok_inj, Prod.mk.injEq, Option.some.injEq] at hc
          obtain ⟨a1, m1, h1, a2, m2, h2, e, q, _, rfl⟩ := hc
          have o1 := (executeMaker_ok h1).oos
          have o2 := (executeTaker_ok h2).oos
          rw [habs] at o1
          by_cases hu : u = f.maker
          · subst hu
            rw [ha, Option.some.injEq] at ha0; subst ha0
            exact ⟨a2, by simp [hlu], fun _ => by rw [o2, o1], fun h => absurd rfl h⟩
          · exact ⟨a, by simp only; rw [List.getElem?_set_ne (fun e => hu e.symm)]; exact ha, fun h => absurd h hu, fun _ => rfl⟩
      · simp at hc
    · next hmt =>
      split at hc
      · split at hc
        · split at hc
          · next a0 b0 ha0 hb0 =>
            simp only [bind_ok, Prod.exists, hpop, ok_inj, Prod.mk.injEq, Option.some.injEq] at hc
            obtain ⟨a1, m1, h1, a2, m2, h2, e, q, _, rfl⟩ := hc
            have o1 := (executeMaker_ok h1).oos
            have o2 := (executeTaker_ok h2).oos
            rw [habs] at o1
            by_cases hu : u = f.maker
            · subst hu
              rw [ha, Option.some.injEq] at ha0; subst ha0
              exact ⟨a1, by simp only; rw [List.getElem?_set_ne (fun e => hmt e.symm)]; simp [hlu], fun _ => o1, fun h => absurd rfl h⟩
            · by_cases hu2 : u = f.taker
              · subst hu2
                rw [ha, Option.some.injEq] at hb0; subst hb0
                exact ⟨a2, by simp [hlu], fun h => absurd h hu, fun _ => o2⟩
              · refine ⟨a, ?_, fun h => absurd h hu, fun _ => rfl⟩
                simp only
                rw [List.getElem?_set_ne (fun e => hu2 e.symm), List.getElem?_set_ne (fun e => hu e.symm)]; exact ha
          · simp at hc
        · simp at hc
      · simp at hc
  | out f =>
    simp only [Event.ident, Event.last, Event.qty] at hk hqp ⊢
    simp only at hc
    split at hc
    · split at hc
      · simp at hc
      · next a0 ha0 =>
        simp only [bind_ok, Prod.exists, hpop, ok_inj, Prod.mk.injEq, Option.some.injEq] at hc
        obtain ⟨a1, h1, e, q, _, rfl⟩ := hc
        have o1 := (executeOut_ok h1).2.2
        by_cases hu : u = f.owner
        · subst hu
          rw [ha, Option.some.injEq] at ha0; subst ha0
          exact ⟨a1, by simp [hlu], fun _ => o1, fun h => absurd rfl h⟩
        · exact ⟨a, by simp only; rw [List.getElem?_set_ne (fun e => hu e.symm)]; exact ha, fun h => absurd h hu, fun _ => rfl⟩
    · simp at hc

/-- **C26.** In every reachable state, consuming the next event leaves every order slot of every account as it is, unless the
slot is in use for this market by the very order the event is about; then the slot is the one named by the event, it is
freed if the order left the book with this event, and otherwise its size is reduced by exactly the event's lots.  So an
event of an order whose slot was reused (for any market) never frees or changes the new order's slot. -/
theorem C26_late_events {s s' : PSys} (h : Reachable s) {avail : List Nat} {e : Event} (hpk : s.queue.peekFront = some e)
    (hc : consumeOne s avail = .ok (some s')) {u : Nat} {a : PAcct} (ha : s.accts[u]? = some a) {i : Nat} {oo : OO} (ho : a.oos[i]? = some oo) :
    ∃ a', s'.accts[u]? = some a' ∧
      (¬ (oo.market = s.market.idx ∧ oo.id = e.ident.key) → a'.oos[i]? = some oo) ∧
      (oo.market = s.market.idx ∧ oo.id = e.ident.key → u = e.ident.owner ∧ i = e.ident.slot ∧ oo.side = e.ident.side ∧
        a'.oos[i]? = some (if e.last = true then {} else { oo with quantity := oo.quantity - e.qty })) := by
  obtain ⟨sp, hI⟩ := h.inv
  obtain ⟨a', h1, h2⟩ := consume_slots hI hpk hc ha
  obtain ⟨q0, hpop⟩ := peek_pop hI.queue hpk
  obtain ⟨hk, hqp⟩ := hI.ekey hpop
  obtain ⟨_, hE, _, _⟩ := popFront_ok hI.queue hpop
  have hmem : e ∈ s.queue.toList := by rw [hE]; simp
  refine ⟨a', h1, ?_, ?_⟩
  · intro hne
    by_cases hu : u = e.ident.owner
    · rw [h2.1 hu, slotAfter_get hk ho, if_neg]
      rintro ⟨_, hh⟩; exact hne hh
    · rw [h2.2 hu]; exact ho
  · intro hh
    have hA : Active s.market.idx s.accts u i oo := ⟨a, ha, ho, hh.1⟩
    have hid := hI.slots.loc u i oo hA e hmem hh.2.symm
    have hq := hI.slots.qty u i oo hA
    rw [hE, pendLots_cons, if_pos (keyIs_iff.mpr hh.2.symm)] at hq
    have n1 := restLots_nonneg (P := keyIs oo.id) hI.live.pos
    have n2 := pendLots_nonneg (P := keyIs oo.id) (E := q0.toList) (fun x hx => hI.slots.pos x (by rw [hE]; simp [hx]))
    have hmax : max (oo.quantity - e.qty) 0 = oo.quantity - e.qty := by omega
    have e1 : u = e.ident.owner := by rw [hid]
    have e2 : i = e.ident.slot := by rw [hid]
    refine ⟨e1, e2, by rw [hid], ?_⟩
    rw [h2.1 e1, slotAfter_get hk ho, if_pos ⟨e2, hh⟩, hmax]

/-- **C48.** In every reachable state, the account owning an order with a pending event exists and has a perp position, and
a taker with pending fills has one unless its pending fills cancel out exactly, in base and in quote. -/
theorem C48_positions_exist {s : PSys} (h : Reachable s) :
    (∀ e ∈ pending s, ∃ a p, s.accts[e.ident.owner]? = some a ∧ a.pos = some p) ∧
    (∀ u, (∀ a p, s.accts[u]? = some a → a.pos ≠ some p) →
      sumOf (fun f => if f.taker = u then (match f.takerSide with | .bid => f.quantity | .ask => -f.quantity) else 0) (fillsOf (pending s)) = 0 ∧
      sumOf (fun f => if f.taker = u then (match f.takerSide with | .bid => -(f.price * f.quantity) | .ask => f.price * f.quantity) else 0) (fillsOf (pending s)) = 0) := by
  obtain ⟨sp, hI⟩ := h.inv
  have hz : ∀ u, (∀ a p, s.accts[u]? = some a → a.pos ≠ some p) → pget s.accts u = {} := by
    intro u hu
    unfold pget
    cases ha : s.accts[u]? with
    | none => rfl
    | some a =>
      simp only [Option.getD_some, posD]
      cases hp : a.pos with
      | none => rfl
      | some p => exact absurd hp (hu a p ha)
  refine ⟨?_, ?_⟩
  · intro e he
    by_contra hc
    have h0 := hz e.ident.owner (fun a p ha hp => hc ⟨a, p, ha, hp⟩)
    have h1 := hI.lots e.ident.owner e.ident.side
    rw [h0] at h1
    have h2 := pendLots_pos (P := ownedBy e.ident.owner e.ident.side) hI.slots.pos he (ownedBy_iff.mpr ⟨rfl, rfl⟩)
    have h3 := restLots_nonneg (P := ownedBy e.ident.owner e.ident.side) hI.live.pos
    cases hs : e.ident.side <;> rw [hs] at h1 h2 h3 <;> simp only [Pos.lots] at h1 <;> omega
  · intro u hu
    obtain ⟨_, h2, h3⟩ := C24_lot_counters h u
    rw [hz u hu] at h2 h3
    exact ⟨h2.symm, h3.symm⟩

end Perp
end Mango
