import Verif.Props.MatchFull
import Verif.Props.Ledger
/-!
# C75: what placing an order does to the other orders of its own side
-/
namespace Mango
namespace Perp
open Book Fx

variable {o : Order} {oracleNative : I80F48} {taker now limit : Nat} {s s' : NOState} {sp sp' : Side → SpecSide} {r : Option Nat}

/-- the event that tells the owner of `l` that the whole order left the book -/
def toldOut (side : Side) (evs : List Event) (l : Leaf) : Prop :=
  ∃ e ∈ outsOf evs, e.side = side ∧ e.owner = l.owner ∧ e.orderId = l.key ∧ e.ownerSlot = l.ownerSlot ∧ e.quantity = l.quantity

theorem outs_told {side : Side} {now : Nat} {i : Item} : ∀ {is : List Item} {seq : Int}, i ∈ is → toldOut side (outEventsOf side now seq is) i.leaf := by
  intro is
  induction is with
  | nil => intro seq h; simp at h
  | cons j is ih =>
    intro seq h
    rcases List.mem_cons.mp h with rfl | h
    · exact ⟨_, by unfold outEventsOf outsOf outEvent; exact List.mem_cons_self, rfl, rfl, rfl, rfl, rfl⟩
    · obtain ⟨e, he, h'⟩ := ih (seq := seq + 1) h
      refine ⟨e, ?_, h'⟩
      unfold outEventsOf
      unfold outsOf outEvent at *
      simp only [List.filterMap_cons]
      exact List.mem_cons_of_mem _ he

theorem Outs.len {s s' : SpecSide} {is : List Item} (h : Outs s is s') : ∀ c, (s'.get c).length ≤ (s.get c).length := by
  induction h with
  | nil => intro c; exact le_refl _
  | @cons s i is s' _ _ ih =>
    intro c
    refine le_trans (ih c) ?_
    unfold del
    by_cases hc : c = i.comp
    · subst hc
      rw [get_set_same]
      exact List.length_filter_le _ _
    · have : c = i.comp.other := by cases c <;> cases hi : i.comp <;> simp_all [Comp.other]
      subst this
      rw [get_set_other]

/-- **C75.** Placing an order removes other orders from its own side of the book only like this: at most one order whose time in force
has run out, and, only if at most two nodes of the side are then unused, at most one order that no order of the side (other than
the expired one) is worse than and that is strictly worse than the new order.  Each of them is reported to its owner with its whole
remaining size.  If nothing is left resting, the side does not change at all. -/
theorem C75_own_side (hS : Setup o s sp) (h : newOrder o oracleNative taker now limit s = .ok (r, s'))
    {oracle : Int} (hor : s.market.nativePriceToLot oracleNative = .ok oracle) (hB' : BookIs s'.book sp')
    (hnow : now ≤ U64MAXN) (hnew : ∀ id, r = some id → ∀ c, ∀ l ∈ (sp o.side).get c, l.key ≠ id) :
    ∃ evs p d expired evicted, s'.queue.toList = s.queue.toList ++ evs ∧ o.price now oracle s.book = .ok (p, d) ∧
      (r = none → sp' o.side = sp o.side) ∧
      (expired : List (Comp × Leaf)).length ≤ 1 ∧ (evicted : List (Comp × Leaf)).length ≤ 1 ∧
      (∀ c, ∀ l ∈ (sp o.side).get c, l ∈ (sp' o.side).get c ∨ (c, l) ∈ expired ∨ (c, l) ∈ evicted) ∧
      (∀ x ∈ expired, timedOut x.2 now ∧ toldOut o.side evs x.2) ∧
      (∀ x ∈ evicted, x ∉ expired ∧ toldOut o.side evs x.2 ∧ o.side.isPriceBetter p (rankPrice o.side oracle x.1 x.2) = true ∧
        (s.book.get o.side).nodes.nodes.length ≤ treeNodes (sp o.side).fixedL + treeNodes (sp o.side).peggedL + 2 ∧
        ∀ c, ∀ l ∈ (sp o.side).get c, (c, l) ∈ expired ∨ o.side.isPriceBetter (rankPrice o.side oracle x.1 x.2) (rankPrice o.side oracle c l) = false) := by
  obtain ⟨P⟩ := place hS h
  have ho := P.e_oracle
  rw [hor, ok_inj] at ho
  subst ho
  have hsp : sp' = P.post := hB'.unique (P.live hS.typed hS.live hS.base hS.quote).is
  rw [hsp, P.post_own]
  obtain ⟨evs, e1, _, is, e3, _⟩ := P.events
  rcases P.fin with ⟨hr, hs, hown⟩ | ⟨hr, t, hpt, hpost, hq0, hdec, ⟨W⟩⟩
  · refine ⟨evs, P.price, P.pd, [], [], e1, P.e_price, fun _ => hown, by simp, by simp, ?_, by simp, by simp⟩
    intro c l hl; left; rw [hown]; exact hl
  obtain ⟨is1, is2, mid1, hi, k1, k2, o1, w1, w2⟩ := W.why'
  have hkey : W.leaf.key = P.id := by rw [W.leaf_eq]
  have hnew' := hnew P.id hr
  have hcap : (P.s1.book.get o.side).nodes.nodes.length = (s.book.get o.side).nodes.nodes.length := by rw [P.s1_own]
  have hev : s'.queue.toList = s.queue.toList ++ (eventsOf P.ctx s.queue.seqNum P.acts ++ outEventsOf o.side now P.s1.queue.seqNum W.is) := by
    rw [W.evs, P.s1_queue, P.sum.evs, List.append_assoc]; rfl
  have hmid : ∀ c l, l ∈ (sp o.side).get c → l ∈ mid1.get c ∨ (c, l) ∈ is1.map (fun i => (i.comp, i.leaf)) := by
    intro c l hl
    by_cases hc : l ∈ mid1.get c
    · exact .inl hc
    · right
      rw [o1.mem] at hc
      push Not at hc
      obtain ⟨d, hd, e⟩ := hc hl
      simp only [ck, Prod.mk.injEq] at e
      have hp := o1.present d hd
      rw [e.1] at hp
      have := key_inj (hS.live.is.keys _ c) hp hl e.2
      exact List.mem_map.mpr ⟨d, hd, by rw [e.1, this]⟩
  have htold : ∀ i ∈ W.is, toldOut o.side (eventsOf P.ctx s.queue.seqNum P.acts ++ outEventsOf o.side now P.s1.queue.seqNum W.is) i.leaf := by
    intro i hi
    obtain ⟨e, he, h'⟩ := outs_told (side := o.side) (now := now) (seq := P.s1.queue.seqNum) hi
    exact ⟨e, by rw [outsOf_append]; exact List.mem_append_right _ he, h'⟩
  refine ⟨_, P.price, P.pd, is1.map (fun i => (i.comp, i.leaf)), is2.map (fun i => (i.comp, i.leaf)), hev, P.e_price, ?_, ?_, ?_, ?_, ?_, ?_⟩
  · intro hn; rw [hr] at hn; simp at hn
  · simpa using k1
  · simpa using k2
  · intro c l hl
    by_cases hc : l ∈ W.mid.get c
    · left
      rw [W.own_eq]
      by_cases hct : c = t
      · subst hct
        rw [get_set_same, C13_spec_insert]
        exact .inr ⟨hc, by rw [hkey]; exact hnew' c l hl⟩
      · have : c = t.other := by cases c <;> cases t <;> simp_all [Comp.other]
        subst this
        rw [get_set_other]; exact hc
    · right
      rw [W.outs.mem] at hc
      push Not at hc
      obtain ⟨d, hd, e⟩ := hc hl
      simp only [ck, Prod.mk.injEq] at e
      have hp := W.outs.present d hd
      rw [e.1] at hp
      have := key_inj (hS.live.is.keys _ c) hp hl e.2
      rw [hi] at hd
      rcases List.mem_append.mp hd with hd | hd
      · left; exact List.mem_map.mpr ⟨d, hd, by rw [e.1, this]⟩
      · right; exact List.mem_map.mpr ⟨d, hd, by rw [e.1, this]⟩
  · intro x hx
    obtain ⟨i, hi1, rfl⟩ := List.mem_map.mp hx
    refine ⟨?_, htold i (by rw [hi]; simp [hi1])⟩
    have hx : i.leaf.expiry < now := w1 i hi1
    unfold Leaf.expiry at hx
    unfold timedOut
    by_cases h0 : i.leaf.timeInForce = 0
    · rw [if_pos h0] at hx; omega
    · rw [if_neg h0] at hx; dsimp only; omega
  · intro x hx
    obtain ⟨i, hi2, rfl⟩ := List.mem_map.mp hx
    obtain ⟨a1, a2, a3, a4⟩ := w2 i hi2
    refine ⟨?_, htold i (by rw [hi]; simp [hi2]), a3, ?_, ?_⟩
    · intro hc
      obtain ⟨j, hj, e⟩ := List.mem_map.mp hc
      simp only [Prod.mk.injEq] at e
      have := (o1.mem.mp a2).2 j hj
      exact this (by simp [ck, e.1, e.2])
    · rw [hcap] at a1
      have h1 := o1.len .fixed
      have h2 := o1.len .pegged
      unfold treeNodes at *
      simp only [SpecSide.get] at h1 h2
      change (s.book.get o.side).nodes.nodes.length ≤ _ at a1
      omega
    · intro c l hl
      rcases hmid c l hl with hm | hm
      · right; exact a4 c l hm
      · left; exact hm

/-- In every market state that can arise the id given to a new order is not used by any order on the book. -/
theorem C75_fresh_id {s : PSys} {sp : Side → SpecSide} (h : PInv s sp) {o : Order} (ht : o.Typed) (hb : 0 ≤ o.maxBase) (hq : 0 ≤ o.maxQuote)
    {a : PAcct} {oracle : I80F48} {u now limit id : Nat} {n : NOState} (hseq : s.market.seqNum + 1 < 9223372036854775808)
    (hn : newOrder o oracle u now limit { market := s.market, acct := a, book := s.book, queue := s.queue } = .ok (some id, n)) :
    ∀ sd c, ∀ l ∈ (sp sd).get c, l.key ≠ id := by
  have hS : Setup o { market := s.market, acct := a, book := s.book, queue := s.queue } sp := ⟨ht, hb, hq, h.live, h.queue⟩
  obtain ⟨P⟩ := Perp.place hS hn
  obtain ⟨_, p2, p3⟩ := price_facts ht P.e_price
  obtain ⟨g1, g2, g3⟩ := genOrderId_ok P.e_gen
  simp only at g1 g2 g3
  have hid : idSeq P.id = s.market.seqNum + 1 := by
    rw [g2]; refine idSeq_new ?_ hseq
    cases hpa : o.params with
    | pegged off ty lim =>
      simp only [hpa] at p3
      have := pegData_eq (P.price - P.oracle) p3.2.1 p3.2.2
      rw [p3.1]; unfold I64MIN I64MAX at p3; omega
    | market => simp only [hpa] at p3; unfold I64MAX at p2; omega
    | ioc p => simp only [hpa] at p3; unfold I64MAX at p2; omega
    | fixed p ty => simp only [hpa] at p3; unfold I64MAX at p2; omega
  have hr : id = P.id := by
    rcases P.fin with ⟨hr, _⟩ | ⟨hr, _⟩
    · simp at hr
    · simpa using hr
  intro sd c l hl e
  have := (h.lseq sd c l hl).2
  rw [e, hr, hid] at this; omega

end Perp
end Mango
