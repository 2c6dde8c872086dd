import Verif.Props.PerpExposure
import Verif.Perp.CancelIx
/-!
# C74: cancelling perp orders
-/
namespace Mango
namespace PerpCancel
open Fx Perp Book

/-- an order resting in one of the slots `slots` of account `u` -/
def inSlots (u : Nat) (slots : List Nat) (l : Leaf) : Bool := decide (l.owner = u) && decide (l.ownerSlot ∈ slots)
/-- lots of `u`'s orders in these slots resting on a side of the book -/
def lotsIn (b : OBook) (u : Nat) (slots : List Nat) (sd : Side) : Int := sumOf (fun l => if inSlots u slots l = true then l.quantity else 0) (ordersOn b sd)

/-- The effect of cancelling what is in these slots of account `u`: the slots are empty, the orders in them that were still on the book are gone from it and their lots are no longer counted as open; nothing else changes. -/
structure Cancelled (s s' : PSys) (u : Nat) (slots : List Nat) : Prop where
  market : s'.market = s.market
  queue : s'.queue = s.queue
  others : ∀ v, v ≠ u → s'.accts[v]? = s.accts[v]?
  book : ∀ sd c, booked s'.book sd c = (booked s.book sd c).filter (fun l => !inSlots u slots l)
  acct : ∃ a a', s.accts[u]? = some a ∧ s'.accts[u]? = some a' ∧ a'.buybackCurrent = a.buybackCurrent ∧
    (∀ i, a'.oos[i]? = (a.oos[i]?).map (fun oo => if i ∈ slots then {} else oo))
  pos : pget s'.accts u = { pget s.accts u with
    bids := (pget s.accts u).bids - lotsIn s.book u slots .bid, asks := (pget s.accts u).asks - lotsIn s.book u slots .ask }

theorem sumOf_filter {α : Type} (f : α → Int) (p : α → Bool) (xs : List α) : sumOf f (xs.filter p) = sumOf (fun x => if p x = true then f x else 0) xs := by
  induction xs with
  | nil => rfl
  | cons x xs ih =>
    rw [List.filter_cons, sumOf_cons]
    by_cases h : p x = true
    · rw [if_pos h, if_pos h, sumOf_cons, ih]
    · rw [if_neg h, if_neg h, ih]; omega

theorem Cancelled.none {s : PSys} {u : Nat} {a : PAcct} (ha : s.accts[u]? = some a) : Cancelled s s u [] := by
  have h0 : ∀ sd, lotsIn s.book u [] sd = 0 := by
    intro sd
    unfold lotsIn
    apply sumOf_zero
    intro l _
    rw [if_neg]; simp [inSlots]
  refine ⟨rfl, rfl, fun _ _ => rfl, ?_, ⟨a, a, ha, ha, rfl, ?_⟩, ?_⟩
  · intro sd c; simp [inSlots]
  · intro i; simp
  · rw [h0, h0]; simp

theorem Cancelled.trans {s s1 s2 : PSys} {u : Nat} {x y : List Nat} (h : Cancelled s s1 u x) (h' : Cancelled s1 s2 u y) : Cancelled s s2 u (x ++ y) := by
  have hin : ∀ l, inSlots u (x ++ y) l = (inSlots u x l || inSlots u y l) := by
    intro l; unfold inSlots
    by_cases h1 : l.owner = u <;> by_cases h2 : l.ownerSlot ∈ x <;> by_cases h3 : l.ownerSlot ∈ y <;> simp [h1, h2, h3]
  have hl : ∀ sd, lotsIn s.book u (x ++ y) sd = lotsIn s.book u x sd + lotsIn s1.book u y sd := by
    intro sd
    unfold lotsIn ordersOn
    rw [h.book, h.book, ← List.filter_append, sumOf_filter, ← sumOf_add]
    apply sumOf_congr
    intro l _
    rw [hin]
    by_cases h1 : inSlots u x l = true <;> by_cases h2 : inSlots u y l = true <;> simp [h1, h2]
  refine ⟨h'.market.trans h.market, h'.queue.trans h.queue, fun v hv => (h'.others v hv).trans (h.others v hv), ?_, ?_, ?_⟩
  · intro sd c
    rw [h'.book, h.book, List.filter_filter]
    congr 1
    funext l
    rw [hin]
    cases inSlots u x l <;> cases inSlots u y l <;> rfl
  · obtain ⟨a, a1, e1, e2, e3, e4⟩ := h.acct
    obtain ⟨b, b1, f1, f2, f3, f4⟩ := h'.acct
    rw [e2, Option.some.injEq] at f1
    subst f1
    refine ⟨a, b1, e1, f2, f3.trans e3, ?_⟩
    intro i
    rw [f4, e4, Option.map_map]
    congr 1
    funext oo
    by_cases h1 : i ∈ x <;> by_cases h2 : i ∈ y <;> simp [h1, h2]
  · rw [h'.pos, h.pos, hl, hl]
    dsimp only
    congr 1 <;> omega

/-- lots of an account fit their integer type -/
def LotsFit (s : PSys) (u : Nat) : Prop := ∀ sd, (pget s.accts u).lots sd ≤ I64MAX

theorem Cancelled.fit {s s' : PSys} {u : Nat} {x : List Nat} (h : Cancelled s s' u x) {sp : Side → SpecSide} (hI : PInv s sp) (hf : LotsFit s u) : LotsFit s' u := by
  intro sd
  have h0 : ∀ sd, 0 ≤ lotsIn s.book u x sd := by
    intro sd
    unfold lotsIn
    apply sumOf_nonneg_mem
    intro l hl
    split
    · unfold ordersOn at hl
      rw [List.mem_append, booked_eq hI.live.is, booked_eq hI.live.is, mem_ord, mem_ord] at hl
      rcases hl with hl | hl
      · have := hI.live.pos _ _ _ hl; omega
      · have := hI.live.pos _ _ _ hl; omega
    · omega
  have h1 := hf sd
  rw [h.pos]
  have := h0 .bid
  have := h0 .ask
  cases sd <;> simp only [Pos.lots] at h1 ⊢ <;> omega

/-- cancelling one used slot always works, and does exactly that -/
theorem cancel_slot {s : PSys} {sp : Side → SpecSide} (h : PInv s sp) {u i : Nat} {a : PAcct} {oo : OO} (ha : s.accts[u]? = some a) (hoo : a.oos[i]? = some oo) (hact : oo.market = s.market.idx)
    (hf : LotsFit s u) : ∃ a' b', cancelBySlot s.market.idx u i a s.book = .ok (a', b') ∧ Cancelled s { s with accts := s.accts.set u a', book := b' } u [i] := by
  have hA : Active s.market.idx s.accts u i oo := (active_at ha).mpr ⟨hoo, hact⟩
  obtain ⟨b1, hb1, hsim, hlen, hbids⟩ := remove_sim (h.live.is.sim oo.side) oo.tree oo.id
  have hkeys := h.live.is.keys oo.side oo.tree
  -- an order is in this slot exactly if it is the one the slot names
  have hmine : ∀ sd c, ∀ l ∈ (sp sd).get c, (inSlots u [i] l = true ↔ sd = oo.side ∧ c = oo.tree ∧ l.key = oo.id) := by
    intro sd c l hl
    obtain ⟨o2, hA2, f1, f2, f3⟩ := h.slots.rest sd c l hl
    unfold inSlots
    constructor
    · intro e
      simp at e
      rw [e.1, e.2] at hA2
      have := h.slots.fn u i oo o2 hA hA2
      subst this
      exact ⟨f1.symm, f2.symm, f3.symm⟩
    · rintro ⟨_, _, e⟩
      obtain ⟨g1, g2⟩ := h.slots.uniq _ _ _ _ _ _ hA2 hA (by rw [f3, e])
      simp [g1, g2]
  have hfound : ∀ l, sFind oo.id ((sp oo.side).get oo.tree) = some l → l ∈ (sp oo.side).get oo.tree ∧ l.key = oo.id ∧ l.owner = u ∧ l.ownerSlot = i ∧ 0 < l.quantity := by
    intro l hl
    obtain ⟨m1, m2⟩ := sFind_mem hl
    have := (hmine _ _ l m1).mpr ⟨rfl, rfl, m2⟩
    simp [inSlots] at this
    exact ⟨m1, m2, this.1, this.2, h.live.pos _ _ _ m1⟩
  -- lots of the order on the book
  have hlots : ∀ sd, lotsIn s.book u [i] sd = if sd = oo.side then (match sFind oo.id ((sp oo.side).get oo.tree) with | some l => l.quantity | none => 0) else 0 := by
    intro sd
    unfold lotsIn ordersOn
    rw [sumOf_append, booked_eq h.live.is, booked_eq h.live.is, sumOf_ord, sumOf_ord]
    have hz : ∀ c, ¬ (sd = oo.side ∧ c = oo.tree) → sumOf (fun l => if inSlots u [i] l = true then l.quantity else 0) ((sp sd).get c) = 0 := by
      intro c hc
      apply sumOf_zero
      intro l hl
      rw [if_neg]
      intro e
      have := (hmine _ _ l hl).mp e
      exact hc ⟨this.1, this.2.1⟩
    by_cases hsd : sd = oo.side
    · rw [if_pos hsd]
      have ht : sumOf (fun l => if inSlots u [i] l = true then l.quantity else 0) ((sp sd).get oo.tree) =
          (match sFind oo.id ((sp oo.side).get oo.tree) with | some l => l.quantity | none => 0) := by
        rw [hsd]
        cases hx : sFind oo.id ((sp oo.side).get oo.tree) with
        | none =>
          have h0 := sFind_none hx
          apply sumOf_zero
          intro l hl
          rw [if_neg]
          intro e
          exact h0 l hl ((hmine _ _ l hl).mp e).2.2
        | some l =>
          obtain ⟨f1, f2, _, _, f5⟩ := hfound l hx
          have hrest : sumOf (fun x => if inSlots u [i] x = true then x.quantity else 0) (sRemove l.key ((sp oo.side).get oo.tree)) = 0 := by
            apply sumOf_zero
            intro x hx
            rw [if_neg]
            intro e
            unfold sRemove at hx
            rw [List.mem_filter] at hx
            have := ((hmine _ _ x hx.1).mp e).2.2
            simp [f2, this] at hx
          have := sumOf_remove (w := fun x => if inSlots u [i] x = true then x.quantity else 0) hkeys f1
          dsimp only at this hrest ⊢
          rw [hrest] at this
          rw [if_pos ((hmine _ _ l f1).mpr ⟨rfl, rfl, f2⟩)] at this
          omega
      cases htr : oo.tree with
      | fixed =>
        rw [hz .pegged (by rw [htr]; simp)]
        rw [htr] at ht
        rw [← htr] at ht ⊢
        rw [ht]; omega
      | pegged =>
        rw [hz .fixed (by rw [htr]; simp)]
        rw [htr] at ht
        rw [← htr] at ht ⊢
        rw [ht]; omega
    · rw [if_neg hsd, hz _ (fun e => hsd e.1), hz _ (fun e => hsd e.1)]; rfl
  have hle : lotsIn s.book u [i] oo.side + pendLots (ownedBy u oo.side) s.queue.toList ≤ (pget s.accts u).lots oo.side := by
    rw [h.lots, ← resting_eq h]
    unfold lotsIn restingLots
    have : sumOf (fun l => if inSlots u [i] l = true then l.quantity else 0) (ordersOn s.book oo.side) ≤ sumOf (fun l => if l.owner = u then l.quantity else 0) (ordersOn s.book oo.side) := by
      apply Health.sumOf_le
      intro l hl
      have hp : 0 < l.quantity := by
        unfold ordersOn at hl
        rw [List.mem_append, booked_eq h.live.is, booked_eq h.live.is, mem_ord, mem_ord] at hl
        rcases hl with hl | hl
        · exact h.live.pos _ _ _ hl
        · exact h.live.pos _ _ _ hl
      by_cases h1 : l.owner = u
      · rw [if_pos h1]; split <;> omega
      · rw [if_neg h1, if_neg (by simp [inSlots, h1])]
    omega
  have hp0 := pendLots_nonneg (P := ownedBy u oo.side) (E := s.queue.toList) h.slots.pos
  have hfit := hf oo.side
  -- the account has a position: some order or event of its is open
  have hsome : 0 < (pget s.accts u).lots oo.side := by
    rcases h.slots.act u i oo hA with ⟨l, hl, hid⟩ | ⟨e, he, hlast, hid⟩
    · have hk : l.key = oo.id := by simp only [identL, Ident.mk.injEq] at hid; exact hid.1
      cases hx : sFind oo.id ((sp oo.side).get oo.tree) with
      | none => exact absurd hk (sFind_none hx l hl)
      | some l' =>
        have h1 := hlots oo.side
        rw [if_pos rfl, hx] at h1
        dsimp only at h1
        have := (hfound l' hx).2.2.2.2
        omega
    · have hq := h.slots.pos e he
      have : e.qty ≤ pendLots (ownedBy u oo.side) s.queue.toList := by
        unfold pendLots
        have := sumOf_pos_mem (f := fun e => if ownedBy u oo.side e.ident = true then e.qty else 0) (l := s.queue.toList) (by
          intro x hx
          split
          · have := h.slots.pos x hx; omega
          · omega) he
        rw [if_pos (ownedBy_iff.mpr (by rw [hid]; exact ⟨rfl, rfl⟩))] at this
        exact this
      have h1 : 0 ≤ lotsIn s.book u [i] oo.side := by
        rw [hlots, if_pos rfl]
        cases hx : sFind oo.id ((sp oo.side).get oo.tree) with
        | none => simp
        | some l' => have := (hfound l' hx).2.2.2.2; dsimp only; omega
      omega
  obtain ⟨p, hp⟩ : ∃ p, a.pos = some p := by
    cases hpp : a.pos with
    | none =>
      rw [pget_some ha] at hsome
      unfold posD at hsome
      rw [hpp] at hsome
      cases hs : oo.side <;> rw [hs] at hsome <;> simp [Pos.lots] at hsome
    | some p => exact ⟨p, rfl⟩
  have hpg : pget s.accts u = p := by rw [pget_some ha, posD_some hp]
  -- quantity taken off
  obtain ⟨q, hq, hq0⟩ : ∃ q, (match sFind oo.id ((sp oo.side).get oo.tree) with
      | some l => (do
          require (l.ownerSlot = i) .requireFailed
          require (l.owner = u) .requireFailed
          .ok l.quantity : Res Int)
      | none => if oo.quantity = 0 then .error .perpOrderIdNotFound else .ok 0) = .ok q ∧ q = lotsIn s.book u [i] oo.side := by
    cases hx : sFind oo.id ((sp oo.side).get oo.tree) with
    | some l =>
      obtain ⟨f1, f2, f3, f4, f5⟩ := hfound l hx
      refine ⟨l.quantity, ?_, ?_⟩
      · dsimp only
        rw [f3, f4]
        simp only [bind_ok, require_ok]
        exact ⟨(), trivial, (), trivial, trivial⟩
      · rw [hlots, if_pos rfl, hx]
    | none =>
      refine ⟨0, ?_, ?_⟩
      · dsimp only
        rw [if_neg]
        have hqq := h.slots.qty u i oo hA
        have hr := restLots_nonneg (P := keyIs oo.id) h.live.pos
        rcases h.slots.act u i oo hA with ⟨l, hl, hid⟩ | ⟨e, he, hlast, hid⟩
        · have hk : l.key = oo.id := by simp only [identL, Ident.mk.injEq] at hid; exact hid.1
          exact absurd hk (sFind_none hx l hl)
        · have he0 := h.slots.pos e he
          have : e.qty ≤ pendLots (keyIs oo.id) s.queue.toList := by
            unfold pendLots
            have := sumOf_pos_mem (f := fun e => if keyIs oo.id e.ident = true then e.qty else 0) (l := s.queue.toList) (by
              intro x hx
              split
              · have := h.slots.pos x hx; omega
              · omega) he
            rw [if_pos (keyIs_iff.mpr (by rw [hid]))] at this
            exact this
          omega
      · rw [hlots, if_pos rfl, hx]
  have hq1 : 0 ≤ q := by
    rw [hq0, hlots, if_pos rfl]
    cases hx : sFind oo.id ((sp oo.side).get oo.tree) with
    | none => simp
    | some l' => have := (hfound l' hx).2.2.2.2; dsimp only; omega
  rw [hpg] at hle hfit
  obtain ⟨p', hp', hpe⟩ : ∃ p', p.adjustMakerLots oo.side (-q) = .ok p' ∧
      p' = { p with bids := p.bids - lotsIn s.book u [i] .bid, asks := p.asks - lotsIn s.book u [i] .ask } := by
    have hz : ∀ sd, sd ≠ oo.side → lotsIn s.book u [i] sd = 0 := fun sd hsd => by rw [hlots, if_neg hsd]
    cases hs : oo.side with
    | bid =>
      rw [hs] at hle hfit hq0
      simp only [Pos.lots] at hle hfit
      refine ⟨{ p with bids := p.bids + -q }, ?_, ?_⟩
      · simp only [Pos.adjustMakerLots, bind_ok, ck64_ok, ok_inj]
        refine ⟨_, ⟨rfl, ?_⟩, rfl⟩
        unfold I64MAX at *; unfold I64MIN; rw [hs] at hp0; omega
      · rw [hz .ask (by rw [hs]; simp), ← hq0]
        simp [Int.sub_eq_add_neg]
    | ask =>
      rw [hs] at hle hfit hq0
      simp only [Pos.lots] at hle hfit
      refine ⟨{ p with asks := p.asks + -q }, ?_, ?_⟩
      · simp only [Pos.adjustMakerLots, bind_ok, ck64_ok, ok_inj]
        refine ⟨_, ⟨rfl, ?_⟩, rfl⟩
        unfold I64MAX at *; unfold I64MIN; rw [hs] at hp0; omega
      · rw [hz .bid (by rw [hs]; simp), ← hq0]
        simp [Int.sub_eq_add_neg]
  have hlt : i < a.oos.length := (List.getElem?_eq_some_iff.mp hoo).1
  have hlu : u < s.accts.length := (List.getElem?_eq_some_iff.mp ha).1
  refine ⟨(a.setPos p').setOO i oo.clear, s.book.set oo.side b1, ?_, ?_⟩
  · unfold cancelBySlot
    simp only [bind_ok, getOO_ok, require_ok, ok_inj, Prod.exists, Prod.mk.injEq]
    refine ⟨oo, hoo, (), by simp [OO.isActiveForMarket, hact], _, _, hb1, q, hq, (a.setPos p').setOO i oo.clear, ?_, rfl, rfl⟩
    unfold PAcct.removePerpOrder
    simp only [bind_ok, getOO_ok, require_ok, getPos_ok, ck64_ok, ok_inj]
    refine ⟨oo, hoo, (), by rw [hact]; exact h.idx, p, hp, -q, ⟨rfl, ?_⟩, p', hp', rfl⟩
    unfold I64MAX at *; unfold I64MIN; omega
  · refine ⟨rfl, rfl, ?_, ?_, ?_, ?_⟩
    · intro v hv
      exact List.getElem?_set_ne (by omega)
    · intro sd c
      dsimp only
      have hside := side_or sd oo.side
      rw [booked_eq h.live.is]
      rcases hside with rfl | rfl
      · have e : booked (s.book.set oo.side b1) oo.side c = ord b1.nodes.isBids (((sp oo.side).set oo.tree (sRemove oo.id ((sp oo.side).get oo.tree))).get c) := by
          unfold booked
          rw [(side_get_set _ _ _).1]
          obtain ⟨xs, h1, h2⟩ := toList_sim hsim c
          rw [h1]; exact h2
        rw [e, hbids]
        have hfil : ((sp oo.side).set oo.tree (sRemove oo.id ((sp oo.side).get oo.tree))).get c = ((sp oo.side).get c).filter (fun l => !inSlots u [i] l) := by
          by_cases hc : c = oo.tree
          · subst hc
            rw [get_set_same]
            unfold sRemove
            apply List.filter_congr
            intro l hl
            have := hmine _ _ l hl
            by_cases hk : l.key = oo.id
            · rw [this.mpr ⟨rfl, rfl, hk⟩]; simp [hk]
            · have : inSlots u [i] l = false := by
                cases hb : inSlots u [i] l with
                | false => rfl
                | true => exact absurd (this.mp hb).2.2 hk
              rw [this]; simp [hk]
          · have hc' : c = oo.tree.other := by cases c <;> cases ht : oo.tree <;> simp_all [Comp.other]
            rw [hc', get_set_other, ← hc']
            symm
            rw [List.filter_eq_self]
            intro l hl
            cases hb : inSlots u [i] l with
            | false => rfl
            | true => exact absurd ((hmine _ _ l hl).mp hb).2.1 hc
        rw [hfil]
        unfold ord; split
        · rw [List.filter_reverse]
        · rfl
      · have e : booked (s.book.set oo.side b1) oo.side.invert c = booked s.book oo.side.invert c := by
          unfold booked
          rw [(side_get_set _ _ _).2]
        rw [e, booked_eq h.live.is]
        symm
        rw [List.filter_eq_self]
        intro l hl
        rw [mem_ord] at hl
        cases hb : inSlots u [i] l with
        | false => rfl
        | true =>
          have := ((hmine _ _ l hl).mp hb).1
          cases ho : oo.side <;> rw [ho] at this <;> simp [Side.invert] at this
    · refine ⟨a, (a.setPos p').setOO i oo.clear, ha, by simp [hlu], rfl, ?_⟩
      intro j
      unfold PAcct.setOO PAcct.setPos OO.clear
      dsimp only
      by_cases hj : j = i
      · subst hj
        rw [List.getElem?_set_self hlt, hoo]; simp
      · rw [List.getElem?_set_ne (by omega)]; simp [hj]
    · dsimp only
      rw [pget_set ha, if_pos rfl, posD_some (p := p') rfl, hpg, hpe]

/-- the slots that cancelling all orders (of one side) looks at, in order -/
def matching (idx : Nat) (sideOpt : Option Side) (oos : List OO) : List Nat :=
  (List.range oos.length).filter (fun j => match oos[j]? with
    | some oo => decide (oo.market = idx) && (decide (sideOpt = none) || decide (sideOpt = some oo.side))
    | none => false)

theorem cancelAll_loop {idx : Nat} {sideOpt : Option Side} : ∀ (n : Nat) {i limit : Nat} {s : PSys} {sp : Side → SpecSide} {u : Nat} {a : PAcct}, PInv s sp → s.market.idx = idx →
    s.accts[u]? = some a → LotsFit s u → i + n = a.oos.length → 0 < limit →
    ∃ a' b', cancelAllFrom idx u sideOpt n i limit a s.book = .ok (a', b') ∧
      Cancelled s { s with accts := s.accts.set u a', book := b' } u (((List.range' i n).filter (fun j => match a.oos[j]? with
        | some oo => decide (oo.market = idx) && (decide (sideOpt = none) || decide (sideOpt = some oo.side))
        | none => false)).take limit) := by
  intro n
  induction n with
  | zero =>
    intro i limit s sp u a h hidx ha hf hn hl
    refine ⟨a, s.book, rfl, ?_⟩
    rw [set_self ha]
    simpa using Cancelled.none ha
  | succ n ih =>
    intro i limit s sp u a h hidx ha hf hn hl
    have hlt : i < a.oos.length := by omega
    obtain ⟨oo, hoo⟩ : ∃ oo, a.oos[i]? = some oo := ⟨_, List.getElem?_eq_getElem hlt⟩
    have hlu : u < s.accts.length := (List.getElem?_eq_some_iff.mp ha).1
    rw [List.range'_succ, List.filter_cons, hoo]
    simp only [cancelAllFrom]
    have hget : a.getOO i = .ok oo := getOO_ok.mpr hoo
    rw [hget]
    simp only [bind, Except.bind]
    by_cases hact : oo.market = idx
    · have hno : oo.isActiveForMarket idx = true := by simp [OO.isActiveForMarket, hact]
      rw [if_neg (show ¬ oo.isActiveForMarket idx = false by rw [hno]; simp)]
      by_cases hside : sideOpt ≠ none ∧ sideOpt ≠ some oo.side
      · rw [if_pos hside, if_neg (by simp [hside.1, hside.2])]
        exact ih h hidx ha hf (by omega) hl
      · have hm : (decide (oo.market = idx) && (decide (sideOpt = none) || decide (sideOpt = some oo.side))) = true := by
          rw [not_and_or, not_not, not_not] at hside
          rcases hside with e | e <;> simp [hact, e]
        rw [if_neg hside, if_pos hm]
        obtain ⟨a1, b1, hc, C⟩ := cancel_slot h ha hoo (by rw [hidx]; exact hact) hf
        rw [hidx] at hc
        rw [hc]
        simp only
        rw [if_neg (show ¬ limit = 0 by omega)]
        obtain ⟨k, rfl⟩ : ∃ k, limit = k + 1 := ⟨limit - 1, by omega⟩
        rw [List.take_succ_cons]
        by_cases h1 : k = 0
        · subst h1
          simp only [Nat.zero_add, if_true, List.take_zero]
          exact ⟨a1, b1, rfl, C⟩
        · rw [if_neg (by omega)]
          obtain ⟨sp1, hI1⟩ := h.cancel ha (hidx ▸ hc)
          have ha1 : ({ s with accts := s.accts.set u a1, book := b1 } : PSys).accts[u]? = some a1 := by simp [hlu]
          have hlen : a1.oos.length = a.oos.length ∧ ∀ j : Nat, i + 1 ≤ j → a1.oos[j]? = a.oos[j]? := by
            obtain ⟨x, x', e1, e2, _, e4⟩ := C.acct
            rw [ha, Option.some.injEq] at e1
            rw [ha1, Option.some.injEq] at e2
            subst e1 e2
            constructor
            · have hle : ∀ j : Nat, a1.oos[j]? = none ↔ a.oos[j]? = none := by
                intro j; rw [e4 j]; simp
              have q1 := (hle a.oos.length).mpr (List.getElem?_eq_none (le_refl _))
              have q2 := (hle a1.oos.length).mp (List.getElem?_eq_none (le_refl _))
              rw [List.getElem?_eq_none_iff] at q1 q2
              omega
            · intro j hj
              rw [e4 j]
              have : j ≠ i := by omega
              simp [this]
          obtain ⟨a2, b2, hc2, C2⟩ := ih (i := i + 1) (limit := k) (u := u) (a := a1) hI1 hidx ha1 (C.fit h hf) (by rw [hlen.1]; omega) (by omega)
          refine ⟨a2, b2, by rw [show k + 1 - 1 = k by omega]; exact hc2, ?_⟩
          have T := C.trans C2
          simp only [List.set_set] at T
          have hsame : (List.range' (i + 1) n).filter (fun j => match a1.oos[j]? with
              | some oo => decide (oo.market = idx) && (decide (sideOpt = none) || decide (sideOpt = some oo.side))
              | none => false) = (List.range' (i + 1) n).filter (fun j => match a.oos[j]? with
              | some oo => decide (oo.market = idx) && (decide (sideOpt = none) || decide (sideOpt = some oo.side))
              | none => false) := by
            apply List.filter_congr
            intro j hj
            rw [List.mem_range'_1] at hj
            rw [hlen.2 j hj.1]
          rw [hsame] at T
          exact T
    · have hno : oo.isActiveForMarket idx = false := by simp [OO.isActiveForMarket, hact]
      rw [if_pos hno, if_neg (by simp [hact])]
      exact ih h hidx ha hf (by omega) hl

/-- **C74.** In every reachable state an owner can cancel any of the account's open orders by its id, whatever happened to the order since (unless its slot was freed, the order was never its own, or the id names another
market): the slot becomes free, the order disappears from the book if it is still there, its remaining lots stop counting as open, and nothing else changes. -/
theorem C74_cancel_by_id {s : PSys} (hR : Reachable s) {u i : Nat} {a : PAcct} {oo : OO} (ha : s.accts[u]? = some a) (hoo : a.oos[i]? = some oo) (hact : oo.market = s.market.idx) (hf : LotsFit s u) :
    ∃ s', pstep s (.cancelId u oo.id) = .ok s' ∧ Cancelled s s' u [i] := by
  obtain ⟨sp, h⟩ := hR.inv
  obtain ⟨a', b', hc, C⟩ := cancel_slot h ha hoo hact hf
  refine ⟨_, ?_, C⟩
  have hfi : a.oos.findIdx? (fun o => o.isActiveForMarket s.market.idx && o.id == oo.id) = some i := by
    rw [List.findIdx?_eq_some_iff_getElem]
    obtain ⟨hlt, he⟩ := List.getElem?_eq_some_iff.mp hoo
    refine ⟨hlt, by rw [he]; simp [OO.isActiveForMarket, hact], ?_⟩
    intro j hj hc
    have hjl : j < a.oos.length := by omega
    simp [OO.isActiveForMarket] at hc
    have := h.slots.uniq u j a.oos[j] u i oo ((active_at ha).mpr ⟨List.getElem?_eq_getElem hjl, hc.1⟩) ((active_at ha).mpr ⟨hoo, hact⟩) hc.2
    omega
  simp only [pstep, cancelOp, ha, cancelById, hfi, hc, bind, Except.bind]

/-- **C74.** Cancelling by an id that none of the account's open orders in this market has fails; cancelling by a client id cancels the first slot with this client id, and fails if there is none. -/
theorem C74_cancel_missing {s : PSys} {u : Nat} {a : PAcct} (ha : s.accts[u]? = some a) (x : Nat) :
    ((∀ (i : Nat) (oo : OO), a.oos[i]? = some oo → oo.market = s.market.idx → oo.id ≠ x) → pstep s (.cancelId u x) = .error .perpOrderIdNotFound) ∧
    ((∀ (i : Nat) (oo : OO), a.oos[i]? = some oo → oo.market = s.market.idx → oo.clientId ≠ x) → pstep s (.cancelClient u x) = .error .perpOrderIdNotFound) := by
  constructor
  · intro hno
    have hfi : a.oos.findIdx? (fun o => o.isActiveForMarket s.market.idx && o.id == x) = none := by
      rw [List.findIdx?_eq_none_iff]
      intro oo hm
      obtain ⟨i, hi⟩ := List.mem_iff_getElem?.mp hm
      by_cases hmk : oo.market = s.market.idx
      · have := hno i oo hi hmk
        simp [this]
      · simp [OO.isActiveForMarket, hmk]
    simp only [pstep, cancelOp, ha, cancelById, hfi, bind, Except.bind]
  · intro hno
    have hfi : a.oos.findIdx? (fun o => o.isActiveForMarket s.market.idx && o.clientId == x) = none := by
      rw [List.findIdx?_eq_none_iff]
      intro oo hm
      obtain ⟨i, hi⟩ := List.mem_iff_getElem?.mp hm
      by_cases hmk : oo.market = s.market.idx
      · have := hno i oo hi hmk
        simp [this]
      · simp [OO.isActiveForMarket, hmk]
    simp only [pstep, cancelOp, ha, cancelByClientId, hfi, bind, Except.bind]

/-- **C74.** The same by client id: the first slot with that client id is cancelled. -/
theorem C74_cancel_by_client {s : PSys} (hR : Reachable s) {u i : Nat} {a : PAcct} {oo : OO} (ha : s.accts[u]? = some a) (hoo : a.oos[i]? = some oo) (hact : oo.market = s.market.idx) (hf : LotsFit s u)
    (hfirst : ∀ j, j < i → ∀ o, a.oos[j]? = some o → o.market = s.market.idx → o.clientId ≠ oo.clientId) :
    ∃ s', pstep s (.cancelClient u oo.clientId) = .ok s' ∧ Cancelled s s' u [i] := by
  obtain ⟨sp, h⟩ := hR.inv
  obtain ⟨a', b', hc, C⟩ := cancel_slot h ha hoo hact hf
  refine ⟨_, ?_, C⟩
  have hfi : a.oos.findIdx? (fun o => o.isActiveForMarket s.market.idx && o.clientId == oo.clientId) = some i := by
    rw [List.findIdx?_eq_some_iff_getElem]
    obtain ⟨hlt, he⟩ := List.getElem?_eq_some_iff.mp hoo
    refine ⟨hlt, by rw [he]; simp [OO.isActiveForMarket, hact], ?_⟩
    intro j hj hc
    have hjl : j < a.oos.length := by omega
    simp [OO.isActiveForMarket] at hc
    exact hfirst j hj _ (List.getElem?_eq_getElem hjl) hc.1 hc.2
  simp only [pstep, cancelOp, ha, cancelByClientId, hfi, hc, bind, Except.bind]

/-- **C74.** Cancelling all orders (of a side) with a limit of at least one always works in a reachable state; it cancels the orders in the first `limit` slots in use for this market (and side), nothing else. -/
theorem C74_cancel_all {s : PSys} (hR : Reachable s) {u limit : Nat} {a : PAcct} (ha : s.accts[u]? = some a) (hf : LotsFit s u) (hl : 0 < limit) (sideOpt : Option Side) :
    ∃ s', pstep s (.cancelAll u limit sideOpt) = .ok s' ∧ Cancelled s s' u ((matching s.market.idx sideOpt a.oos).take limit) := by
  obtain ⟨sp, h⟩ := hR.inv
  obtain ⟨a', b', hc, C⟩ := cancelAll_loop (idx := s.market.idx) (sideOpt := sideOpt) a.oos.length (i := 0) h rfl ha hf (by omega) hl
  refine ⟨{ s with accts := s.accts.set u a', book := b' }, ?_, ?_⟩
  · simp only [pstep, cancelOp, ha, cancelAll, hc, bind, Except.bind]
  · unfold matching
    rw [List.range_eq_range']
    exact C

/-- **C74.** If the limit covers all of them, no order of the account (on that side) is left on the book or in a slot, and the lots still counted as open are those of events not yet processed. -/
theorem C74_cancel_all_clears {s : PSys} (hR : Reachable s) {u limit : Nat} {a : PAcct} (ha : s.accts[u]? = some a) (hf : LotsFit s u) (hl : 0 < limit) (sideOpt : Option Side)
    (hn : (matching s.market.idx sideOpt a.oos).length ≤ limit) :
    ∃ s' a', pstep s (.cancelAll u limit sideOpt) = .ok s' ∧ s'.accts[u]? = some a' ∧
      ∀ sd, sideOpt = none ∨ sideOpt = some sd → (∀ c, ∀ l ∈ booked s'.book sd c, l.owner ≠ u) ∧
        (∀ (i : Nat) (oo : OO), a'.oos[i]? = some oo → oo.market = s.market.idx → oo.side ≠ sd) ∧
        (pget s'.accts u).lots sd = pendingFillLots s u sd + pendingOutLots s u sd := by
  obtain ⟨s', hs', C⟩ := C74_cancel_all hR ha hf hl sideOpt
  rw [List.take_of_length_le hn] at C
  obtain ⟨x, a', e1, e2, _, e4⟩ := C.acct
  rw [ha, Option.some.injEq] at e1
  subst e1
  refine ⟨s', a', hs', e2, ?_⟩
  intro sd hsd
  have hmem : ∀ (i : Nat) (oo : OO), a.oos[i]? = some oo → oo.market = s.market.idx → oo.side = sd → i ∈ matching s.market.idx sideOpt a.oos := by
    intro i oo hi hm hs
    unfold matching
    rw [List.mem_filter, List.mem_range]
    refine ⟨(List.getElem?_eq_some_iff.mp hi).1, ?_⟩
    rw [hi]
    rcases hsd with e | e
    · simp [hm, e]
    · simp [hm, e, hs]
  have hbook : ∀ c, ∀ l ∈ booked s'.book sd c, l.owner ≠ u := by
    intro c l hlm ho
    rw [C.book, List.mem_filter] at hlm
    obtain ⟨_, a2, oo, f1, f2, f3, f4, _, _⟩ := (C24_slots hR).1 sd c l hlm.1
    rw [ho, ha, Option.some.injEq] at f1
    subst f1
    have := hmem _ _ f2 f3 f4
    simp [inSlots, ho, this] at hlm
  have hR' : Reachable s' := hR.step (op := .cancelAll u limit sideOpt) trivial rfl hs'
  refine ⟨hbook, ?_, ?_⟩
  · intro i oo hi hm hs
    rw [e4 i] at hi
    cases ho : a.oos[i]? with
    | none => rw [ho] at hi; simp at hi
    | some o =>
      rw [ho] at hi
      simp only [Option.map_some, Option.some.injEq] at hi
      by_cases hin : i ∈ matching s.market.idx sideOpt a.oos
      · rw [if_pos hin] at hi
        subst hi
        obtain ⟨sp, h⟩ := hR.inv
        exact h.idx hm.symm
      · rw [if_neg hin] at hi
        subst hi
        exact hin (hmem i o ho hm hs)
  · obtain ⟨hlots, _⟩ := C24_lot_counters hR' u
    rw [hlots sd]
    have h0 : restingLots s' u sd = 0 := by
      unfold restingLots ordersOn
      apply sumOf_zero
      intro l hlm
      rw [List.mem_append] at hlm
      rw [if_neg]
      rcases hlm with hlm | hlm
      · exact hbook _ l hlm
      · exact hbook _ l hlm
    have hq : pendingFillLots s' u sd = pendingFillLots s u sd ∧ pendingOutLots s' u sd = pendingOutLots s u sd := by
      unfold pendingFillLots pendingOutLots pending
      rw [C.queue]
      exact ⟨rfl, rfl⟩
    rw [h0, hq.1, hq.2]; omega

end PerpCancel
end Mango
