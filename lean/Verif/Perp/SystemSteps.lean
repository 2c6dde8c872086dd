import Verif.Perp.SystemInv
/-! Helper: every instruction keeps the invariant of the perp market (C24–C26). -/
namespace Mango
namespace Perp
open Book Fx

theorem ownedBy_iff {u : Nat} {sd : Side} {i : Ident} : ownedBy u sd i = true ↔ u = i.owner ∧ sd = i.side := by
  simp only [ownedBy, Bool.and_eq_true, decide_eq_true_eq]
  exact ⟨fun h => ⟨h.1.symm, h.2.symm⟩, fun h => ⟨h.1.symm, h.2.symm⟩⟩

theorem pendLots_cons (P : Ident → Bool) (e : Event) (E : List Event) :
    pendLots P (e :: E) = (if P e.ident = true then e.qty else 0) + pendLots P E := by
  simp only [pendLots, sumOf_cons]

/-- resting orders have a nonzero counter below the market's -/
theorem PInv.lseq {s : PSys} {sp : Side → SpecSide} (h : PInv s sp) : ∀ sd c, ∀ l ∈ (sp sd).get c, 1 ≤ idSeq l.key ∧ idSeq l.key ≤ s.market.seqNum := by
  intro sd c l hl
  obtain ⟨oo, a, _, _, e⟩ := h.slots.rest sd c l hl
  rw [← e]; exact h.slots.seqA _ _ _ a

/-- order ids are unique over both sides and both trees -/
theorem PInv.ids {s : PSys} {sp : Side → SpecSide} (h : PInv s sp) {sd sd' : Side} {c c' : Comp} {l l' : Leaf}
    (hl : l ∈ (sp sd).get c) (hl' : l' ∈ (sp sd').get c') (hk : l.key = l'.key) : sd = sd' ∧ c = c' ∧ l = l' := by
  obtain ⟨o1, a1, b1, c1, d1⟩ := h.slots.rest sd c l hl
  obtain ⟨o2, a2, b2, c2, d2⟩ := h.slots.rest sd' c' l' hl'
  obtain ⟨e1, e2⟩ := h.slots.uniq _ _ _ _ _ _ a1 a2 (by rw [d1, d2, hk])
  rw [e1, e2] at a1
  have := h.slots.fn _ _ _ _ a1 a2
  subst this
  subst b1 c1 b2 c2
  exact ⟨rfl, rfl, key_inj (h.live.is.keys _ _) hl hl' hk⟩

/-- what a placed order did to the whole system, besides keeping the invariant -/
theorem PInv.place {s : PSys} {sp : Side → SpecSide} (h : PInv s sp) {u : Nat} {a : PAcct} (ha : s.accts[u]? = some a) {p : Pos} (hp : a.pos = some p)
    {o : Order} (ht : o.Typed) (hb : 0 ≤ o.maxBase) (hq : 0 ≤ o.maxQuote) {oracle : I80F48} {now limit : Nat} {r : Option Nat} {n : NOState}
    (hn : newOrder o oracle u now limit { market := s.market, acct := a, book := s.book, queue := s.queue } = .ok (r, n))
    (hseq : s.market.seqNum + 1 < 9223372036854775808) :
    ∃ sp', PInv { market := n.market, accts := s.accts.set u n.acct, book := n.book, queue := n.queue } sp' := by
  have hS : Setup o { market := s.market, acct := a, book := s.book, queue := s.queue } sp := ⟨ht, hb, hq, h.live, h.queue⟩
  obtain ⟨P⟩ := Perp.place hS hn
  obtain ⟨_, p2, p3⟩ := price_facts ht P.e_price
  obtain ⟨g1, g2, g3⟩ := genOrderId_ok P.e_gen
  simp only at g1 g2 g3
  have hid : idSeq P.id = s.market.seqNum + 1 := by
    rw [g2]; refine idSeq_new ?_ hseq
    cases hpa : o.params with
    | pegged off ty lim =>
      simp only [hpa] at p3
      have := pegData_eq (P.price - P.oracle) p3.2.1 p3.2.2
      rw [p3.1]; unfold I64MIN I64MAX at p3; omega
    | market => simp only [hpa] at p3; unfold I64MAX at p2; omega
    | ioc p => simp only [hpa] at p3; unfold I64MAX at p2; omega
    | fixed p ty => simp only [hpa] at p3; unfold I64MAX at p2; omega
  have hfresh : ∀ sd c, ∀ l ∈ (sp sd).get c, l.key ≠ P.id := by
    intro sd c l hl e
    have := (h.lseq sd c l hl).2
    rw [e, hid] at this; omega
  obtain ⟨evs, post, hE, hqi, hM, hmk, hPT, hfe⟩ := P.moved hS hfresh
  obtain ⟨⟨⟨sn, hm2⟩, ⟨p0, hp0, hpa2⟩, hoos⟩, hsn⟩ := P.charged h.live hb hq
  simp only at hm2 hp0 hpa2 hoos hsn hE hfe
  rw [hp, Option.some.injEq] at hp0
  subst hp0
  have hidx : P.m2.idx = s.market.idx := by rw [hm2]
  have hoi2 : P.m2.openInterest = s.market.openInterest := by rw [hm2]
  obtain ⟨p', hp', l1, l2, l3, l4, _, _, _, l5, l6⟩ := hPT.effect hpa2 (by rw [hidx]; exact h.idx)
  simp only at l2 l3 l4
  rw [hoos, hidx] at l5
  rw [hoos, hidx] at l6
  have hpD := posD_some hp'
  have hpg : pget s.accts u = p := by rw [pget_some ha, posD_some hp]
  refine ⟨P.post, P.live ht h.live hb hq, hqi, by simp only; rw [hmk, hidx]; exact h.idx, ?_, ?_, ?_, ?_, ?_, ?_⟩
  · simp only
    rw [hE, hmk, hidx, hsn]
    refine h.slots.place hM (idx := s.market.idx) ?_ ?_
    · intro v i oo
      rw [active_set ha, l5]
      by_cases hv : v = u
      · subst hv
        rw [active_at ha]
        constructor
        · rintro (⟨_, h1 | ⟨sd, t, y, e1, e2, e3⟩⟩ | ⟨h1, _⟩)
          · exact .inl h1
          · exact .inr ⟨sd, t, y, e1, ((l6 _ _ _ e1).1).symm, e2, e3⟩
          · exact absurd rfl h1
        · rintro (h1 | ⟨sd, t, y, e1, _, e2, e3⟩)
          · exact .inl ⟨rfl, .inl h1⟩
          · exact .inl ⟨rfl, .inr ⟨sd, t, y, e1, e2, e3⟩⟩
      · constructor
        · rintro (⟨h1, _⟩ | ⟨_, h1⟩)
          · exact absurd h1 hv
          · exact .inl h1
        · rintro (h1 | ⟨sd, t, y, e1, e2, _⟩)
          · exact .inr ⟨hv, h1⟩
          · exact absurd (e2.trans (l6 _ _ _ e1).1) hv
    · intro sd t y e1
      obtain ⟨f1, f2, f3⟩ := l6 _ _ _ e1
      refine ⟨by rw [f2, hid], ?_⟩
      intro oo hc
      rw [f1, active_at ha] at hc
      exact f3 oo hc
  · intro v sd
    simp only
    rw [hE, pendLots_append, pget_set ha]
    have hs := hM.sum (ownedBy v sd)
    have h0 := h.lots v sd
    split
    · next hv =>
      have := (l1 v sd).1 hv
      rw [hpD, this]
      rw [hv, hpg] at h0
      rw [hv] at hs ⊢
      have e : ({ p with
        quote := p.quote - (if o.needsPenalty = true then s.market.feePenalty else 0) - s.market.quoteLotSize * (sumOf Act.quote P.acts - sumOf (Act.decQuote u) P.acts) * s.market.takerFee } : Pos).lots sd = p.lots sd := by cases sd <;> rfl
      have e2 : ∀ (x y : Int) (z w : I80F48), ({ p with
        takerBase := x, takerQuote := y, quote := z, oneshot := w } : Pos).lots sd = p.lots sd := by intros; cases sd <;> rfl
      rw [e2]
      omega
    · next hv =>
      have := (l1 v sd).2 hv
      omega
  · intro v
    simp only
    rw [hE, fillsOf_append, sumOf_append, hfe, (P.takerSums v).1, pget_set ha]
    split
    · next hv => rw [hpD, l2, ← h.tb v, hv, hpg]
    · rw [← h.tb v]; omega
  · intro v
    simp only
    rw [hE, fillsOf_append, sumOf_append, hfe, (P.takerSums v).2, pget_set ha]
    have h0 := h.tq v
    split
    · next hv =>
      rw [hpD, l3]
      rw [hv, hpg] at h0
      rw [hv, h0]; omega
    · rw [h0]; omega
  · simp only
    rw [hmk, hoi2, sumOf_set _ ha, h.oi, hpD, l4, posD_some hp]; omega
  · simp only
    rw [sumOf_set _ ha, h.zero, hpD, l4, posD_some hp]; omega

theorem restLots_side (P : Ident → Bool) {sp sp' : Side → SpecSide} (sd : Side) (h : ∀ sd', sd' ≠ sd → sp' sd' = sp sd') :
    restLots P sp' = restLots P sp - sideLots P sd (sp sd) + sideLots P sd (sp' sd) := by
  rw [restLots_split P sp' sd, restLots_split P sp sd, h sd.invert (by cases sd <;> simp [Side.invert])]; omega

theorem sFind_mem {k : Nat} {xs : List Leaf} {l : Leaf} (h : sFind k xs = some l) : l ∈ xs ∧ l.key = k := by
  unfold sFind at h
  exact ⟨List.mem_of_find?_eq_some h, by simpa using List.find?_some h⟩

theorem sFind_none {k : Nat} {xs : List Leaf} (h : sFind k xs = none) : ∀ l ∈ xs, l.key ≠ k := by
  unfold sFind at h
  rw [List.find?_eq_none] at h
  intro l hl; simpa using h l hl

/-- cancelling one slot -/
theorem PInv.cancel {s : PSys} {sp : Side → SpecSide} (h : PInv s sp) {u slot : Nat} {a a' : PAcct} {b' : OBook} (ha : s.accts[u]? = some a)
    (hc : cancelBySlot s.market.idx u slot a s.book = .ok (a', b')) :
    ∃ sp', PInv { s with accts := s.accts.set u a', book := b' } sp' := by
  unfold cancelBySlot at hc
  simp only [bind_ok, getOO_ok, require_ok, ok_inj, Prod.exists, Prod.mk.injEq] at hc
  obtain ⟨oo, hoo, _, hact, x, bs, hrem, qty, hqty, a1, hrm, rfl, rfl⟩ := hc
  have hact : oo.market = s.market.idx := by simpa [OO.isActiveForMarket] using hact
  obtain ⟨b1, hb1, hsim, hlen, hbids⟩ := remove_sim (h.live.is.sim oo.side) oo.tree oo.id
  rw [hb1, ok_inj, Prod.mk.injEq] at hrem
  obtain ⟨hx, hbs⟩ := hrem
  subst hbs
  have hA : Active s.market.idx s.accts u slot oo := (active_at ha).mpr ⟨hoo, hact⟩
  have hkeys := h.live.is.keys oo.side oo.tree
  -- what was found
  have hfound : ∀ l, x = some l → l ∈ (sp oo.side).get oo.tree ∧ l.key = oo.id ∧ l.owner = u ∧ l.ownerSlot = slot ∧ qty = l.quantity := by
    intro l hl
    rw [hl] at hqty hx
    simp only [bind_ok, require_ok, ok_inj] at hqty
    obtain ⟨_, e1, _, e2, e3⟩ := hqty
    obtain ⟨m1, m2⟩ := sFind_mem hx
    exact ⟨m1, m2, e2, e1, e3.symm⟩
  have hnone : x = none → qty = 0 := by
    intro hl
    rw [hl] at hqty
    simp only at hqty
    split at hqty
    · simp at hqty
    · rw [ok_inj] at hqty; exact hqty.symm
  let sp' : Side → SpecSide := fun sd => if sd = oo.side then (sp oo.side).set oo.tree (sRemove oo.id ((sp oo.side).get oo.tree)) else sp sd
  have hsp1 : sp' oo.side = (sp oo.side).set oo.tree (sRemove oo.id ((sp oo.side).get oo.tree)) := by simp [sp']
  have hsp2 : ∀ sd, sd ≠ oo.side → sp' sd = sp sd := by intro sd hsd; simp [sp', hsd]
  have hmem : ∀ sd c y, y ∈ (sp' sd).get c ↔ y ∈ (sp sd).get c ∧ ¬ (sd = oo.side ∧ c = oo.tree ∧ y.key = oo.id) := by
    intro sd c y
    by_cases hsd : sd = oo.side
    · subst hsd
      rw [hsp1]
      by_cases hc : c = oo.tree
      · subst hc
        rw [get_set_same, C13_spec_remove]; simp
      · have : c = oo.tree.other := by cases c <;> cases ht : oo.tree <;> simp_all [Comp.other]
        rw [this, get_set_other]; simp [← this, hc]
    · rw [hsp2 sd hsd]; simp [hsd]
  have hsum : ∀ P, restLots P sp' = restLots P sp - leafLots P oo.side x := by
    intro P
    rw [restLots_side P oo.side hsp2]
    have : sideLots P oo.side (sp' oo.side) = sideLots P oo.side (sp oo.side) - leafLots P oo.side x := by
      unfold sideLots
      rw [hsp1, sideSum_set]
      cases hxx : x with
      | none =>
        rw [hxx] at hx
        have h0 := sFind_none hx
        have : sRemove oo.id ((sp oo.side).get oo.tree) = (sp oo.side).get oo.tree := by
          unfold sRemove
          rw [List.filter_eq_self]
          intro y hy; simpa using h0 y hy
        rw [this]; simp [leafLots]
      | some l =>
        obtain ⟨f1, f2, _⟩ := hfound l hxx
        rw [← f2, sumOf_remove hkeys f1]
        simp only [leafLots, qtyW]; omega
    omega
  have hlive : LiveBook (s.book.set oo.side b1) sp' := by
    have hside : ∀ sd : Side, sd = oo.side ∨ sd = oo.side.invert := fun sd => side_or sd oo.side
    have hinv : oo.side.invert ≠ oo.side := by cases oo.side <;> simp [Side.invert]
    refine ⟨⟨?_, ?_, ?_⟩, ?_, ?_⟩
    · intro sd
      rcases hside sd with rfl | rfl
      · rw [(side_get_set _ _ _).1, hsp1]; exact hsim
      · rw [(side_get_set _ _ _).2, hsp2 _ hinv]; exact h.live.is.sim _
    · intro sd
      rcases hside sd with rfl | rfl
      · rw [(side_get_set _ _ _).1, hbids]; exact h.live.is.bids _
      · rw [(side_get_set _ _ _).2]; exact h.live.is.bids _
    · intro sd
      apply good_of_keys (h.live.is.good sd)
      intro c y hy
      exact ⟨y, ((hmem _ _ _).mp hy).1, rfl⟩
    · intro sd c l hl; exact h.live.pos sd c l ((hmem _ _ _).mp hl).1
    · intro sd l hl
      exact h.live.one sd l ((hmem sd .fixed l).mp hl).1
  obtain ⟨oo2, p, p', hoo2, hp, hp', r1, r2, r3, r4, r5, r6, r7, r8, r9⟩ := removePerpOrder_ok hrm
  rw [hoo, Option.some.injEq] at hoo2
  subst hoo2
  have hpD := posD_some hp'
  have hpD0 := posD_some hp
  have hpg : pget s.accts u = p := by rw [pget_some ha, hpD0]
  refine ⟨sp', hlive, h.queue, h.idx, ?_, ?_, ?_, ?_, ?_, ?_⟩
  · refine h.slots.cancel hA (x := x) ?_ hmem (fun l hl => (hfound l hl).2.1) hsum
    intro v i o'
    rw [active_set ha, r9]
    by_cases hv : v = u
    · subst hv
      rw [active_at ha]
      have hlt : slot < a.oos.length := (List.getElem?_eq_some_iff.mp hoo).1
      by_cases hi : i = slot
      · subst hi
        rw [List.getElem?_set_self hlt]
        constructor
        · rintro (⟨_, e1, e2⟩ | ⟨e, _⟩)
          · rw [Option.some.injEq] at e1; subst e1; exact absurd e2.symm h.idx
          · exact absurd rfl e
        · rintro ⟨_, e⟩; exact absurd ⟨rfl, rfl⟩ e
      · rw [List.getElem?_set_ne (by omega)]; simp [hi]
    · simp [hv]
  · intro v sd
    simp only
    rw [hsum, pget_set ha]
    have h0 := h.lots v sd
    by_cases hv : v = u
    · rw [if_pos hv, hpD, r1 sd]
      rw [hv, hpg] at h0
      rw [hv]
      cases hxx : x with
      | none => rw [hnone hxx]; simp only [leafLots]; split <;> omega
      | some l =>
        obtain ⟨f1, f2, f3, f4, f5⟩ := hfound l hxx
        simp only [leafLots]
        by_cases hs : sd = oo.side
        · rw [if_pos hs, if_pos (ownedBy_iff.mpr ⟨f3.symm, hs⟩), f5]; omega
        · rw [if_neg hs, if_neg (fun e => hs (ownedBy_iff.mp e).2)]; omega
    · rw [if_neg hv]
      have : leafLots (ownedBy v sd) oo.side x = 0 := by
        cases hxx : x with
        | none => rfl
        | some l =>
          simp only [leafLots]
          rw [if_neg]
          intro e; exact hv ((ownedBy_iff.mp e).1.trans (hfound l hxx).2.2.1)
      omega
  · intro v
    simp only
    rw [← h.tb v, pget_set ha]
    split
    · next hv => rw [hv, hpD, r4, hpg]
    · rfl
  · intro v
    simp only
    rw [← h.tq v, pget_set ha]
    split
    · next hv => rw [hv, hpD, r5, hpg]
    · rfl
  · simp only; rw [sumOf_set _ ha, h.oi, hpD, hpD0, r2]; omega
  · simp only; rw [sumOf_set _ ha, h.zero, hpD, hpD0, r2]; omega

theorem set_self {α : Type} {l : List α} {k : Nat} {x : α} (h : l[k]? = some x) : l.set k x = l := by
  obtain ⟨hlt, he⟩ := List.getElem?_eq_some_iff.mp h
  rw [← he]; exact List.set_getElem_self hlt

theorem PInv.cancelAll {sideOpt : Option Side} : ∀ (n : Nat) {i limit : Nat} {s : PSys} {sp : Side → SpecSide} {u : Nat} {a a' : PAcct} {b' : OBook}, PInv s sp →
    s.accts[u]? = some a → cancelAllFrom s.market.idx u sideOpt n i limit a s.book = .ok (a', b') →
    ∃ sp', PInv { s with accts := s.accts.set u a', book := b' } sp' := by
  intro n
  induction n with
  | zero =>
    intro i limit s sp u a a' b' h ha hc
    simp only [cancelAllFrom, ok_inj, Prod.mk.injEq] at hc
    obtain ⟨rfl, rfl⟩ := hc
    exact ⟨sp, by rw [set_self ha]; exact h⟩
  | succ n ih =>
    intro i limit s sp u a a' b' h ha hc
    simp only [cancelAllFrom, bind_ok, getOO_ok] at hc
    obtain ⟨oo, hoo, hc⟩ := hc
    split at hc
    · exact ih h ha hc
    · split at hc
      · exact ih h ha hc
      · simp only [bind_ok, Prod.exists] at hc
        obtain ⟨a1, b1, h1, hc⟩ := hc
        have hstep : ∃ sp1, PInv { s with accts := s.accts.set u a1, book := b1 } sp1 := by
          split at h1
          · rw [ok_inj, Prod.mk.injEq] at h1
            obtain ⟨rfl, rfl⟩ := h1
            exact ⟨sp, by rw [set_self ha]; exact h⟩
          · exact h.cancel ha h1
        obtain ⟨sp1, hI1⟩ := hstep
        split at hc
        · simp at hc
        · split at hc
          · rw [ok_inj, Prod.mk.injEq] at hc
            obtain ⟨rfl, rfl⟩ := hc
            exact ⟨sp1, hI1⟩
          · have hlt : u < s.accts.length := (List.getElem?_eq_some_iff.mp ha).1
            obtain ⟨sp2, hI2⟩ := ih (u := u) (a := a1) hI1 (by simp [hlt]) hc
            simp only [List.set_set] at hI2
            exact ⟨sp2, hI2⟩

theorem slotAfter_active {idx : Nat} {oos : List OO} {key slot : Nat} {last : Bool} {qty : Int} (hk : key ≠ 0) (hidx : idx ≠ FREE) {i : Nat} {oo' : OO} :
    ((slotAfter idx oos key slot last qty)[i]? = some oo' ∧ oo'.market = idx) ↔
    ((oos[i]? = some oo' ∧ oo'.market = idx) ∧ ¬ (i = slot ∧ oo'.id = key)) ∨
    (last = false ∧ ∃ oo, (oos[i]? = some oo ∧ oo.market = idx) ∧ i = slot ∧ oo.id = key ∧ oo' = { oo with quantity := max (oo.quantity - qty) 0 }) := by
  unfold slotAfter
  cases hs : oos[slot]? with
  | none =>
    simp only
    constructor
    · intro h
      refine .inl ⟨h, ?_⟩
      rintro ⟨rfl, _⟩; rw [hs] at h; simp at h
    · rintro (h | ⟨_, oo, h, rfl, _⟩)
      · exact h.1
      · rw [hs] at h; simp at h
  | some oo =>
    simp only
    have hlt : slot < oos.length := (List.getElem?_eq_some_iff.mp hs).1
    split
    · next hc =>
      have hid : oo.id = key := hc.2.resolve_left hk
      by_cases hi : i = slot
      · subst hi
        rw [List.getElem?_set_self hlt, Option.some.injEq]
        cases last
        · simp only [Bool.false_eq_true, if_false, true_and]
          constructor
          · rintro ⟨rfl, e⟩
            exact .inr ⟨oo, ⟨hs, hc.1⟩, hid, rfl⟩
          · rintro (⟨h1, h2⟩ | ⟨o2, ⟨h1, h2⟩, h3, rfl⟩)
            · rw [hs, Option.some.injEq] at h1
              rw [← h1.1] at h2; exact absurd hid h2
            · rw [hs, Option.some.injEq] at h1; subst h1; exact ⟨rfl, h2⟩
        · simp only [if_true]
          constructor
          · rintro ⟨rfl, e⟩; exact absurd e.symm hidx
          · rintro (⟨h1, h2⟩ | ⟨h, _⟩)
            · rw [hs, Option.some.injEq] at h1
              rw [← h1.1] at h2; exact absurd ⟨trivial, hid⟩ h2
            · simp at h
      · rw [List.getElem?_set_ne (by omega)]
        constructor
        · intro h; exact .inl ⟨h, fun e => hi e.1⟩
        · rintro (h | ⟨_, o2, _, h, _⟩)
          · exact h.1
          · exact absurd h hi
    · next hc =>
      constructor
      · intro h
        refine .inl ⟨h, ?_⟩
        rintro ⟨rfl, e⟩
        rw [hs, Option.some.injEq] at h
        rw [← h.1] at e
        exact hc ⟨h.1 ▸ h.2, .inr e⟩
      · rintro (h | ⟨_, o2, ⟨h1, h2⟩, rfl, h3, _⟩)
        · exact h.1
        · rw [hs, Option.some.injEq] at h1; subst h1; exact absurd ⟨h2, .inr h3⟩ hc

/-- taker lots of an event -/
def evTb (v : Nat) : Event → Int
  | .fill f => tbOf v f
  | .out _ => 0
def evTq (v : Nat) : Event → Int
  | .fill f => tqOf v f
  | .out _ => 0

theorem fills_cons_tb (v : Nat) (e : Event) (E : List Event) : sumOf (tbOf v) (fillsOf (e :: E)) = evTb v e + sumOf (tbOf v) (fillsOf E) := by
  cases e <;> simp [fillsOf, evTb]
theorem fills_cons_tq (v : Nat) (e : Event) (E : List Event) : sumOf (tqOf v) (fillsOf (e :: E)) = evTq v e + sumOf (tqOf v) (fillsOf E) := by
  cases e <;> simp [fillsOf, evTq]

theorem PInv.consumed {s s' : PSys} {sp : Side → SpecSide} (h : PInv s sp) {e : Event} (hpop : s.queue.popFront = .ok (e, s'.queue))
    (hbook : s'.book = s.book) (hmi : s'.market.idx = s.market.idx) (hms : s'.market.seqNum = s.market.seqNum)
    (hA : ∀ u i oo', Active s.market.idx s'.accts u i oo' ↔
      (Active s.market.idx s.accts u i oo' ∧ ¬ (u = e.ident.owner ∧ i = e.ident.slot ∧ oo'.id = e.ident.key)) ∨
      (e.last = false ∧ ∃ oo, Active s.market.idx s.accts u i oo ∧ u = e.ident.owner ∧ i = e.ident.slot ∧ oo.id = e.ident.key ∧
        oo' = { oo with quantity := max (oo.quantity - e.qty) 0 }))
    (hl : ∀ v sd, (pget s'.accts v).lots sd = (pget s.accts v).lots sd - (if v = e.ident.owner ∧ sd = e.ident.side then e.qty else 0))
    (htb : ∀ v, (pget s'.accts v).takerBase = (pget s.accts v).takerBase - evTb v e)
    (htq : ∀ v, (pget s'.accts v).takerQuote = (pget s.accts v).takerQuote + evTq v e)
    (hoi : s'.market.openInterest - sumOf (fun a => |(posD a).base|) s'.accts = s.market.openInterest - sumOf (fun a => |(posD a).base|) s.accts)
    (hz : sumOf (fun a => (posD a).base) s'.accts = sumOf (fun a => (posD a).base) s.accts) : PInv s' sp := by
  obtain ⟨hqi, hE, _, _⟩ := popFront_ok h.queue hpop
  refine ⟨by rw [hbook]; exact h.live, hqi, by rw [hmi]; exact h.idx, ?_, ?_, ?_, ?_, ?_, ?_⟩
  · rw [hmi, hms]
    have := h.slots
    rw [hE] at this
    exact this.consume h.live.pos hA
  · intro v sd
    have h0 := h.lots v sd
    rw [hE, pendLots_cons] at h0
    rw [hl v sd, h0]
    by_cases hc : v = e.ident.owner ∧ sd = e.ident.side
    · rw [if_pos hc, if_pos (ownedBy_iff.mpr hc)]; omega
    · rw [if_neg hc, if_neg (fun e => hc (ownedBy_iff.mp e))]; omega
  · intro v
    have h0 := h.tb v
    rw [hE, fills_cons_tb] at h0
    rw [htb v, h0]; omega
  · intro v
    have h0 := h.tq v
    rw [hE, fills_cons_tq] at h0
    rw [htq v, h0]; omega
  · have := h.oi; omega
  · rw [hz]; exact h.zero

/-- keys of pending events are not zero -/
theorem PInv.ekey {s : PSys} {sp : Side → SpecSide} (h : PInv s sp) {e : Event} {q : Queue} (hpop : s.queue.popFront = .ok (e, q)) :
    e.ident.key ≠ 0 ∧ 0 < e.qty := by
  obtain ⟨_, hE, _, _⟩ := popFront_ok h.queue hpop
  have hm : e ∈ s.queue.toList := by rw [hE]; simp
  refine ⟨?_, h.slots.pos e hm⟩
  intro h0
  have := (h.slots.seqE e hm).1
  rw [h0] at this
  simp [idSeq] at this

theorem PInv.consumeFill {s : PSys} {sp : Side → SpecSide} (h : PInv s sp) {f : FillEv} {q : Queue} (hpop : s.queue.popFront = .ok (.fill f, q))
    {a a1 b b1 : PAcct} {m1 m2 : Market} (ha : s.accts[f.maker]? = some a) (hm : a.executeMaker s.market f = .ok (a1, m1))
    (hb : (s.accts.set f.maker a1)[f.taker]? = some b) (htk : b.executeTaker m1 f = .ok (b1, m2)) :
    PInv { s with market := m2, accts := (s.accts.set f.maker a1).set f.taker b1, queue := q } sp := by
  obtain ⟨hk, hqp⟩ := h.ekey hpop
  simp only [Event.ident, Event.qty] at hk hqp
  obtain ⟨⟨p, p1, uf, hp, hp1, _, m_l, m_b, _, _, m_tb, m_tq, _, _, m_m⟩, _, m_o⟩ := executeMaker_ok hm
  obtain ⟨⟨r, r1, uf', hr, hr1, _, t_l, t_b, _, _, t_tb, t_tq, _, _, t_m⟩, t_o⟩ := executeTaker_ok htk
  have habs : |f.quantity| = f.quantity := abs_of_pos hqp
  rw [habs] at m_l m_o
  have hpa : pget s.accts f.maker = p := by rw [pget_some ha, posD_some hp]
  have hrb : pget (s.accts.set f.maker a1) f.taker = r := by rw [pget_some hb, posD_some hr]
  have hoo : b1.oos = b.oos := t_o
  refine h.consumed (e := .fill f) hpop rfl ?_ ?_ ?_ ?_ ?_ ?_ ?_ ?_
  · simp only; rw [t_m, m_m]
  · simp only; rw [t_m, m_m]
  · intro u i oo'
    have step2 : Active s.market.idx ((s.accts.set f.maker a1).set f.taker b1) u i oo' ↔ Active s.market.idx (s.accts.set f.maker a1) u i oo' := by
      rw [active_set hb]
      by_cases hu : u = f.taker
      · subst hu
        rw [active_at hb, hoo]; simp
      · simp [hu]
    simp only [Event.ident, Event.last, Event.qty]
    rw [step2, active_set ha, m_o, slotAfter_active hk h.idx]
    by_cases hu : u = f.maker
    · subst hu
      simp only [active_at ha, true_and, ne_eq, not_true_eq_false, false_and, or_false]
    · simp [hu]
  · intro v sd
    simp only [Event.ident, Event.qty]
    rw [pget_set hb]
    have step1 : (pget (s.accts.set f.maker a1) v).lots sd = (pget s.accts v).lots sd - (if v = f.maker ∧ sd = f.takerSide.invert then f.quantity else 0) := by
      rw [pget_set ha]
      by_cases hv : v = f.maker
      · rw [if_pos hv, hv, hpa, posD_some hp1, m_l sd]; simp
      · rw [if_neg hv]; simp [hv]
    refine Eq.trans ?_ step1
    split
    · next hv => rw [hv, hrb, posD_some hr1, t_l]
    · rfl
  · intro v
    simp only [evTb, tbOf]
    rw [pget_set hb]
    have step1 : (pget (s.accts.set f.maker a1) v).takerBase = (pget s.accts v).takerBase := by
      rw [pget_set ha]
      by_cases hv : v = f.maker
      · rw [if_pos hv, hv, hpa, posD_some hp1, m_tb]
      · rw [if_neg hv]
    rw [← step1]
    by_cases hv : v = f.taker
    · rw [if_pos hv, hv, hrb, posD_some hr1, t_tb, if_pos rfl]
    · rw [if_neg hv, if_neg (fun e => hv e.symm)]; omega
  · intro v
    simp only [evTq, tqOf]
    rw [pget_set hb]
    have step1 : (pget (s.accts.set f.maker a1) v).takerQuote = (pget s.accts v).takerQuote := by
      rw [pget_set ha]
      by_cases hv : v = f.maker
      · rw [if_pos hv, hv, hpa, posD_some hp1, m_tq]
      · rw [if_neg hv]
    rw [← step1]
    by_cases hv : v = f.taker
    · rw [if_pos hv, hv, hrb, posD_some hr1, t_tq, if_pos rfl]
    · rw [if_neg hv, if_neg (fun e => hv e.symm)]; omega
  · simp only
    rw [sumOf_set _ hb, sumOf_set _ ha, t_m, m_m, posD_some hp1, posD_some hp, posD_some hr, posD_some hr1]
    simp only; omega
  · simp only
    rw [sumOf_set _ hb, sumOf_set _ ha, posD_some hp1, posD_some hp, posD_some hr, posD_some hr1, t_b, m_b]
    omega

theorem PInv.consumeOut {s : PSys} {sp : Side → SpecSide} (h : PInv s sp) {e : OutEv} {q : Queue} (hpop : s.queue.popFront = .ok (.out e, q))
    {a a1 : PAcct} (ha : s.accts[e.owner]? = some a) (hm : a.executeOut s.market.idx e = .ok a1) :
    PInv { s with accts := s.accts.set e.owner a1, queue := q } sp := by
  obtain ⟨hk, hqp⟩ := h.ekey hpop
  simp only [Event.ident, Event.qty] at hk hqp
  obtain ⟨⟨p, p1, hp, hp1, m_l, m_b, _, m_tb, m_tq, _⟩, _, m_o⟩ := executeOut_ok hm
  have hpa : pget s.accts e.owner = p := by rw [pget_some ha, posD_some hp]
  refine h.consumed (e := .out e) hpop rfl rfl rfl ?_ ?_ ?_ ?_ ?_ ?_
  · intro u i oo'
    simp only [Event.ident, Event.last, Event.qty]
    rw [active_set ha, m_o, slotAfter_active hk h.idx]
    by_cases hu : u = e.owner
    · subst hu
      simp only [active_at ha, true_and, ne_eq, not_true_eq_false, false_and, or_false]
    · simp [hu]
  · intro v sd
    simp only [Event.ident, Event.qty]
    rw [pget_set ha]
    by_cases hv : v = e.owner
    · rw [if_pos hv, hv, hpa, posD_some hp1, m_l sd]; simp
    · rw [if_neg hv]; simp [hv]
  · intro v
    simp only [evTb]
    rw [pget_set ha]
    by_cases hv : v = e.owner
    · rw [if_pos hv, hv, hpa, posD_some hp1, m_tb]; omega
    · rw [if_neg hv]; omega
  · intro v
    simp only [evTq]
    rw [pget_set ha]
    by_cases hv : v = e.owner
    · rw [if_pos hv, hv, hpa, posD_some hp1, m_tq]; omega
    · rw [if_neg hv]; omega
  · simp only; rw [sumOf_set _ ha, posD_some hp1, posD_some hp, m_b]; omega
  · simp only; rw [sumOf_set _ ha, posD_some hp1, posD_some hp, m_b]; omega

theorem MakerDone.seqNum {a a' : PAcct} {m m' : Market} {f : FillEv} (h : MakerDone a m f a' m') : m'.seqNum = m.seqNum := by
  obtain ⟨_, _, _, _, _, _, _, _, _, _, _, _, _, _, e⟩ := h.pos; rw [e]
theorem TakerDone.seqNum {a a' : PAcct} {m m' : Market} {f : FillEv} (h : TakerDone a m f a' m') : m'.seqNum = m.seqNum := by
  obtain ⟨_, _, _, _, _, _, _, _, _, _, _, _, _, _, e⟩ := h.pos; rw [e]

theorem PInv.consumeOne {s s' : PSys} {sp : Side → SpecSide} {avail : List Nat} (h : PInv s sp) (hc : consumeOne s avail = .ok (some s')) :
    PInv s' sp ∧ s'.market.seqNum = s.market.seqNum := by
  unfold Perp.consumeOne at hc
  split at hc
  · simp at hc
  · next f hpk =>
    obtain ⟨q0, hpop⟩ := peek_pop h.queue hpk
    split at hc
    · next hmt =>
      split at hc
      · split at hc
        · simp at hc
        · next a ha =>
          simp only [bind_ok, Prod.exists, hpop, ok_inj, Prod.mk.injEq, Option.some.injEq] at hc
          obtain ⟨a1, m1, h1, a2, m2, h2, e, q, ⟨rfl, rfl⟩, rfl⟩ := hc
          have hlt : f.maker < s.accts.length := (List.getElem?_eq_some_iff.mp ha).1
          have := h.consumeFill hpop ha h1 (b := a1) (by rw [← hmt]; simp [hlt]) h2
          rw [← hmt, List.set_set] at this
          exact ⟨this, by simp only; rw [(executeTaker_ok h2).seqNum, (executeMaker_ok h1).seqNum]⟩
      · simp at hc
    · next hmt =>
      split at hc
      · split at hc
        · split at hc
          · next a b ha hb =>
            simp only [bind_ok, Prod.exists, hpop, ok_inj, Prod.mk.injEq, Option.some.injEq] at hc
            obtain ⟨a1, m1, h1, a2, m2, h2, e, q, ⟨rfl, rfl⟩, rfl⟩ := hc
            exact ⟨h.consumeFill hpop ha h1 (by rw [List.getElem?_set_ne hmt]; exact hb) h2,
              by simp only; rw [(executeTaker_ok h2).seqNum, (executeMaker_ok h1).seqNum]⟩
          · simp at hc
        · simp at hc
      · simp at hc
  · next e hpk =>
    obtain ⟨q0, hpop⟩ := peek_pop h.queue hpk
    split at hc
    · split at hc
      · simp at hc
      · next a ha =>
        simp only [bind_ok, Prod.exists, hpop, ok_inj, Prod.mk.injEq, Option.some.injEq] at hc
        obtain ⟨a1, h1, e', q, ⟨rfl, rfl⟩, rfl⟩ := hc
        exact ⟨h.consumeOut hpop ha h1, rfl⟩
    · simp at hc

theorem PInv.consumeLoop {avail : List Nat} {sp : Side → SpecSide} : ∀ (n : Nat) {s s' : PSys}, PInv s sp → consumeLoop n s avail = .ok s' →
    PInv s' sp ∧ s'.market.seqNum = s.market.seqNum := by
  intro n
  induction n with
  | zero => intro s s' h hc; simp only [Perp.consumeLoop, ok_inj] at hc; subst hc; exact ⟨h, rfl⟩
  | succ n ih =>
    intro s s' h hc
    simp only [Perp.consumeLoop, bind_ok] at hc
    obtain ⟨r, h1, hc⟩ := hc
    cases r with
    | none => simp only [ok_inj] at hc; subst hc; exact ⟨h, rfl⟩
    | some s1 =>
      obtain ⟨h2, h3⟩ := h.consumeOne h1
      obtain ⟨h4, h5⟩ := ih h2 hc
      exact ⟨h4, h5.trans h3⟩

theorem restLots_pos {P : Ident → Bool} {sp : Side → SpecSide} (h : ∀ sd c, ∀ l ∈ (sp sd).get c, 0 < l.quantity) {sd : Side} {c : Comp} {l : Leaf}
    (hl : l ∈ (sp sd).get c) (hP : P (identL sd l) = true) : 0 < restLots P sp := by
  have hn : ∀ sd c, ∀ l ∈ (sp sd).get c, 0 ≤ qtyW (fun _ l => P (identL sd l)) c l := by
    intro sd c l hl; unfold qtyW; split
    · have := h sd c l hl; omega
    · omega
  rw [restLots_split P sp sd]
  have h1 : 0 ≤ sideLots P sd.invert (sp sd.invert) := sideSum_nonneg (hn sd.invert)
  have h2 : 0 < sideLots P sd (sp sd) := by
    unfold sideLots sideSum
    have g1 := sumOf_nonneg_mem (fun l hl => hn sd .fixed l hl)
    have g2 := sumOf_nonneg_mem (fun l hl => hn sd .pegged l hl)
    have g3 := sumOf_pos_mem (fun l hl => hn sd c l hl) hl
    have g4 := h sd c l hl
    have g5 : qtyW (fun _ l => P (identL sd l)) c l = l.quantity := by simp [qtyW, hP]
    rw [g5] at g3
    cases c <;> simp only [SpecSide.get] at g1 g2 g3 <;> omega
  omega

theorem pendLots_pos {P : Ident → Bool} {E : List Event} (h : ∀ e ∈ E, 0 < e.qty) {e : Event} (he : e ∈ E) (hP : P e.ident = true) : 0 < pendLots P E := by
  unfold pendLots
  have h1 := sumOf_pos_mem (f := fun e : Event => if P e.ident = true then e.qty else 0) (l := E) (by
    intro x hx; split
    · have := h x hx; omega
    · omega) he
  simp only [hP, if_true] at h1
  have := h e he; omega

/-- an account with an active slot has open lots on that slot's side -/
theorem PInv.active_lots {s : PSys} {sp : Side → SpecSide} (h : PInv s sp) {u i : Nat} {oo : OO} (ha : Active s.market.idx s.accts u i oo) :
    0 < (pget s.accts u).lots oo.side := by
  rw [h.lots]
  have n1 := restLots_nonneg (P := ownedBy u oo.side) h.live.pos
  have n2 := pendLots_nonneg (P := ownedBy u oo.side) h.slots.pos
  rcases h.slots.act u i oo ha with ⟨l, hl, hi⟩ | ⟨e, he, _, hi⟩
  · have := restLots_pos (P := ownedBy u oo.side) h.live.pos hl (by rw [hi]; exact ownedBy_iff.mpr ⟨rfl, rfl⟩)
    omega
  · have := pendLots_pos (P := ownedBy u oo.side) h.slots.pos he (by rw [hi]; exact ownedBy_iff.mpr ⟨rfl, rfl⟩)
    omega

end Perp
end Mango
