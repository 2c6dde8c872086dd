import Verif.Perp.Moved
/-! Helper: the invariant tying resting orders, pending events and open-order slots (C24, C26). -/
namespace Mango
namespace Perp
open Book Fx

/-- the order counter value an id was made from, for counters below 2^63 -/
def idSeq (key : Nat) : Nat :=
  if key % 18446744073709551616 < 9223372036854775808 then key % 18446744073709551616 else 18446744073709551615 - key % 18446744073709551616

theorem idSeq_new {side : Side} {pd n : Nat} (hp : pd < 18446744073709551616) (hn : n < 9223372036854775808) : idSeq (newNodeKey side pd n) = n := by
  have h := newNodeKey_eq side pd n (by unfold U64MAXN; omega)
  unfold idSeq
  rw [h]
  unfold U64MAXN
  cases side
  · simp only [if_true]
    split <;> omega
  · simp only [reduceCtorEq, if_false]
    split <;> omega

def keyIs (k : Nat) : Ident → Bool := fun i => decide (i.key = k)
theorem keyIs_iff {k : Nat} {i : Ident} : keyIs k i = true ↔ i.key = k := by simp [keyIs]
theorem keyIs_false {k : Nat} {i : Ident} : keyIs k i = false ↔ i.key ≠ k := by simp [keyIs]
def ownedBy (u : Nat) (sd : Side) : Ident → Bool := fun i => decide (i.owner = u) && decide (i.side = sd)

/-- `A u i oo`: slot `i` of account `u` is in use for this market and holds `oo` -/
structure SlotInv (A : Nat → Nat → OO → Prop) (sp : Side → SpecSide) (E : List Event) (n : Nat) : Prop where
  fn : ∀ u i oo oo', A u i oo → A u i oo' → oo = oo'
  rest : ∀ sd c, ∀ l ∈ (sp sd).get c, ∃ oo, A l.owner l.ownerSlot oo ∧ oo.side = sd ∧ oo.tree = c ∧ oo.id = l.key
  act : ∀ u i oo, A u i oo → (∃ l ∈ (sp oo.side).get oo.tree, identL oo.side l = ⟨oo.id, u, i, oo.side⟩) ∨
    ∃ e ∈ E, e.last = true ∧ e.ident = ⟨oo.id, u, i, oo.side⟩
  loc : ∀ u i oo, A u i oo → ∀ e ∈ E, e.ident.key = oo.id → e.ident = ⟨oo.id, u, i, oo.side⟩
  uniq : ∀ u i oo u' i' oo', A u i oo → A u' i' oo' → oo.id = oo'.id → u = u' ∧ i = i'
  term : ∀ e ∈ E, e.last = true → ∀ sd c, ∀ l ∈ (sp sd).get c, l.key ≠ e.ident.key
  pos : ∀ e ∈ E, 0 < e.qty
  seqE : ∀ e ∈ E, 1 ≤ idSeq e.ident.key ∧ idSeq e.ident.key ≤ n
  seqA : ∀ u i oo, A u i oo → 1 ≤ idSeq oo.id ∧ idSeq oo.id ≤ n
  qty : ∀ u i oo, A u i oo → oo.quantity = restLots (keyIs oo.id) sp + pendLots (keyIs oo.id) E

theorem pendLots_nonneg {P : Ident → Bool} {E : List Event} (h : ∀ e ∈ E, 0 < e.qty) : 0 ≤ pendLots P E := by
  unfold pendLots
  apply sumOf_nonneg_mem
  intro e he
  split
  · have := h e he; omega
  · omega

theorem sideSum_nonneg {w : Comp → Leaf → Int} {s : SpecSide} (h : ∀ c, ∀ l ∈ s.get c, 0 ≤ w c l) : 0 ≤ sideSum w s := by
  unfold sideSum
  have h1 := sumOf_nonneg_mem (fun l hl => h .fixed l hl)
  have h2 := sumOf_nonneg_mem (fun l hl => h .pegged l hl)
  simp only [SpecSide.get] at h1 h2
  omega

theorem sideSum_zero {w : Comp → Leaf → Int} {s : SpecSide} (h : ∀ c, ∀ l ∈ s.get c, w c l = 0) : sideSum w s = 0 := by
  unfold sideSum
  have h1 := sumOf_zero (fun l hl => h .fixed l hl)
  have h2 := sumOf_zero (fun l hl => h .pegged l hl)
  simp only [SpecSide.get] at h1 h2
  omega

theorem restLots_nonneg {P : Ident → Bool} {sp : Side → SpecSide} (h : ∀ sd c, ∀ l ∈ (sp sd).get c, 0 < l.quantity) : 0 ≤ restLots P sp := by
  unfold restLots sideLots
  have h1 := fun sd => sideSum_nonneg (w := qtyW (fun _ l => P (identL sd l))) (s := sp sd) (by
    intro c l hl; unfold qtyW; split
    · have := h sd c l hl; omega
    · omega)
  have := h1 .bid; have := h1 .ask; omega

theorem restLots_zero {P : Ident → Bool} {sp : Side → SpecSide} (h : ∀ sd c, ∀ l ∈ (sp sd).get c, P (identL sd l) = false) : restLots P sp = 0 := by
  unfold restLots sideLots
  have h1 := fun sd => sideSum_zero (w := qtyW (fun _ l => P (identL sd l))) (s := sp sd) (by
    intro c l hl; simp [qtyW, h sd c l hl])
  rw [h1 .bid, h1 .ask]; rfl

theorem pendLots_zero {P : Ident → Bool} {E : List Event} (h : ∀ e ∈ E, P e.ident = false) : pendLots P E = 0 := by
  unfold pendLots
  apply sumOf_zero
  intro e he
  rw [if_neg]; rw [h e he]; simp

theorem SlotInv.congr {A A' : Nat → Nat → OO → Prop} {sp : Side → SpecSide} {E : List Event} {n : Nat} (h : SlotInv A sp E n)
    (hA : ∀ u i oo, A' u i oo ↔ A u i oo) : SlotInv A' sp E n := by
  have : A' = A := by funext u i oo; exact propext (hA u i oo)
  rw [this]; exact h

/-- placing an order -/
theorem SlotInv.place {A A' : Nat → Nat → OO → Prop} {sp sp' : Side → SpecSide} {E evs : List Event} {n : Nat} {post : Option (Side × Comp × Leaf)}
    (h : SlotInv A sp E n) (hM : Moved sp sp' evs post) {idx : Nat}
    (hA : ∀ u i oo, A' u i oo ↔ A u i oo ∨ ∃ sd t y, post = some (sd, t, y) ∧ u = y.owner ∧ i = y.ownerSlot ∧
      oo = { market := idx, side := sd, tree := t, clientId := y.clientOrderId, id := y.key, quantity := y.quantity })
    (hfree : ∀ sd t y, post = some (sd, t, y) → idSeq y.key = n + 1 ∧ ∀ oo, ¬ A y.owner y.ownerSlot oo) :
    SlotInv A' sp' (E ++ evs) (n + 1) := by
  have lseq : ∀ sd c, ∀ l ∈ (sp sd).get c, 1 ≤ idSeq l.key ∧ idSeq l.key ≤ n := by
    intro sd c l hl
    obtain ⟨oo, a, _, _, e⟩ := h.rest sd c l hl
    rw [← e]; exact h.seqA _ _ _ a
  have evseq : ∀ e ∈ evs, 1 ≤ idSeq e.ident.key ∧ idSeq e.ident.key ≤ n := by
    intro e he
    obtain ⟨_, sd, c, l, hl, hi, _⟩ := hM.src e he
    rw [hi]; exact lseq sd c l hl
  refine ⟨?_, ?_, ?_, ?_, ?_, ?_, ?_, ?_, ?_, ?_⟩
  · intro u i oo oo' h1 h2
    rw [hA] at h1 h2
    rcases h1 with h1 | ⟨sd, t, y, hp, rfl, rfl, rfl⟩ <;> rcases h2 with h2 | ⟨sd', t', y', hp', e1, e2, rfl⟩
    · exact h.fn _ _ _ _ h1 h2
    · subst e1 e2; exact absurd h1 ((hfree _ _ _ hp').2 _)
    · exact absurd h2 ((hfree _ _ _ hp).2 _)
    · rw [hp] at hp'; simp only [Option.some.injEq, Prod.mk.injEq] at hp'; obtain ⟨rfl, rfl, rfl⟩ := hp'; rfl
  · intro sd c l hl
    rcases hM.back sd c l hl with hp | ⟨l0, hl0, hi⟩
    · exact ⟨_, (hA _ _ _).mpr (.inr ⟨sd, c, l, hp, rfl, rfl, rfl⟩), rfl, rfl, rfl⟩
    · simp only [identL, Ident.mk.injEq] at hi
      obtain ⟨oo, a, b, c', d⟩ := h.rest sd c l0 hl0
      rw [hi.2.1, hi.2.2.1] at a
      exact ⟨oo, (hA _ _ _).mpr (.inl a), b, c', d.trans hi.1⟩
  · intro u i oo h1
    rw [hA] at h1
    rcases h1 with h1 | ⟨sd, t, y, hp, rfl, rfl, rfl⟩
    · rcases h.act u i oo h1 with ⟨l, hl, hi⟩ | ⟨e, he, h2⟩
      · rcases hM.fwd _ _ l hl with ⟨y, hy, hyi⟩ | ⟨e, he, h2, h3⟩
        · exact .inl ⟨y, hy, by rw [hyi, hi]⟩
        · exact .inr ⟨e, List.mem_append_right _ he, h2, by rw [h3, hi]⟩
      · exact .inr ⟨e, List.mem_append_left _ he, h2⟩
    · exact .inl ⟨y, hM.new _ _ _ hp, rfl⟩
  · intro u i oo h1 e he hk
    rw [hA] at h1
    rcases h1 with h1 | ⟨sd, t, y, hp, rfl, rfl, rfl⟩
    · rcases List.mem_append.mp he with he | he
      · exact h.loc u i oo h1 e he hk
      · obtain ⟨_, sd, c, l, hl, hi, _⟩ := hM.src e he
        obtain ⟨oo', a, b, c', d⟩ := h.rest sd c l hl
        have hid : oo.id = oo'.id := by rw [d, ← hk, hi]; rfl
        obtain ⟨rfl, rfl⟩ := h.uniq _ _ _ _ _ _ h1 a hid
        have := h.fn _ _ _ _ h1 a
        subst this
        rw [hi]; simp only [identL, Ident.mk.injEq]; exact ⟨d.symm, trivial, trivial, b.symm⟩
    · exfalso
      have h2 := (hfree _ _ _ hp).1
      have h3 : idSeq e.ident.key ≤ n := by
        rcases List.mem_append.mp he with he | he
        · exact (h.seqE e he).2
        · exact (evseq e he).2
      simp only at hk
      rw [hk] at h3; omega
  · intro u i oo u' i' oo' h1 h2 hid
    rw [hA] at h1 h2
    rcases h1 with h1 | ⟨sd, t, y, hp, rfl, rfl, rfl⟩ <;> rcases h2 with h2 | ⟨sd', t', y', hp', rfl, rfl, rfl⟩
    · exact h.uniq _ _ _ _ _ _ h1 h2 hid
    · exfalso; have a := (h.seqA _ _ _ h1).2; have b := (hfree _ _ _ hp').1; rw [hid] at a; simp only at a; omega
    · exfalso; have a := (h.seqA _ _ _ h2).2; have b := (hfree _ _ _ hp).1; rw [← hid] at a; simp only at a; omega
    · rw [hp] at hp'; simp only [Option.some.injEq, Prod.mk.injEq] at hp'; obtain ⟨rfl, rfl, rfl⟩ := hp'; exact ⟨rfl, rfl⟩
  · intro e he hlast sd c l hl hk
    have hes : idSeq e.ident.key ≤ n := by
      rcases List.mem_append.mp he with he | he
      · exact (h.seqE e he).2
      · exact (evseq e he).2
    rcases hM.back sd c l hl with hp | ⟨l0, hl0, hi⟩
    · have := (hfree _ _ _ hp).1; rw [hk] at this; omega
    · simp only [identL, Ident.mk.injEq] at hi
      rcases List.mem_append.mp he with he | he
      · exact h.term e he hlast sd c l0 hl0 (by rw [hi.1, hk])
      · obtain ⟨_, sd', c', l', hl', hi', hgone⟩ := hM.src e he
        obtain ⟨o1, a1, b1, c1, d1⟩ := h.rest sd c l0 hl0
        obtain ⟨o2, a2, b2, c2, d2⟩ := h.rest sd' c' l' hl'
        have hkk : l'.key = l.key := by rw [hk, hi']; rfl
        obtain ⟨e1, e2⟩ := h.uniq _ _ _ _ _ _ a1 a2 (by rw [d1, d2, hkk, hi.1])
        rw [e1, e2] at a1
        have := h.fn _ _ _ _ a1 a2
        subst this
        subst b1 c1
        subst b2 c2
        exact hgone hlast l hl hkk.symm
  · intro e he
    rcases List.mem_append.mp he with he | he
    · exact h.pos e he
    · exact (hM.src e he).1
  · intro e he
    rcases List.mem_append.mp he with he | he
    · have := h.seqE e he; omega
    · have := evseq e he; omega
  · intro u i oo h1
    rw [hA] at h1
    rcases h1 with h1 | ⟨sd, t, y, hp, rfl, rfl, rfl⟩
    · have := h.seqA _ _ _ h1; omega
    · have := (hfree _ _ _ hp).1; simp only; omega
  · intro u i oo h1
    rw [hA] at h1
    have hs := hM.sum (keyIs oo.id)
    rw [pendLots_append]
    rcases h1 with h1 | ⟨sd, t, y, hp, rfl, rfl, rfl⟩
    · have hq := h.qty _ _ _ h1
      have : postLots (keyIs oo.id) post = 0 := by
        cases hpo : post with
        | none => rfl
        | some x =>
          obtain ⟨sd, t, y⟩ := x
          simp only [postLots]
          rw [if_neg]
          intro e
          rw [keyIs_iff] at e
          simp only [identL] at e
          have a := (h.seqA _ _ _ h1).2; have b := (hfree _ _ _ hpo).1
          rw [e] at b; omega
      omega
    · have h0 := (hfree _ _ _ hp).1
      simp only at hs ⊢
      have z1 : restLots (keyIs y.key) sp = 0 := by
        apply restLots_zero
        intro sd c l hl
        rw [keyIs_false]
        intro e
        simp only [identL] at e
        have := (lseq sd c l hl).2; rw [e] at this; omega
      have z2 : pendLots (keyIs y.key) E = 0 := by
        apply pendLots_zero
        intro e he
        rw [keyIs_false]
        intro hk
        have := (h.seqE e he).2; rw [hk] at this; omega
      have z3 : postLots (keyIs y.key) post = y.quantity := by
        rw [hp]; simp [postLots, keyIs, identL]
      omega

/-- the lots of an order, if there is one and `P` selects it -/
def leafLots (P : Ident → Bool) (sd : Side) : Option Leaf → Int
  | none => 0
  | some l => if P (identL sd l) = true then l.quantity else 0

/-- cancelling the order of slot (u, i): `x` is its resting order, if there is one -/
theorem SlotInv.cancel {A A' : Nat → Nat → OO → Prop} {sp sp' : Side → SpecSide} {E : List Event} {n : Nat}
    (h : SlotInv A sp E n) {u i : Nat} {oo : OO} (ha : A u i oo) {x : Option Leaf}
    (hA : ∀ u' i' o', A' u' i' o' ↔ A u' i' o' ∧ ¬ (u' = u ∧ i' = i))
    (hsp : ∀ sd c y, y ∈ (sp' sd).get c ↔ y ∈ (sp sd).get c ∧ ¬ (sd = oo.side ∧ c = oo.tree ∧ y.key = oo.id))
    (hx : ∀ l, x = some l → l.key = oo.id)
    (hsum : ∀ P, restLots P sp' = restLots P sp - leafLots P oo.side x) :
    SlotInv A' sp' E n := by
  refine ⟨?_, ?_, ?_, ?_, ?_, ?_, h.pos, h.seqE, ?_, ?_⟩
  · intro u' i' o1 o2 h1 h2
    rw [hA] at h1 h2; exact h.fn _ _ _ _ h1.1 h2.1
  · intro sd c l hl
    rw [hsp] at hl
    obtain ⟨o1, a, b, c', d⟩ := h.rest sd c l hl.1
    refine ⟨o1, (hA _ _ _).mpr ⟨a, ?_⟩, b, c', d⟩
    rintro ⟨e1, e2⟩
    rw [e1, e2] at a
    have := h.fn _ _ _ _ a ha
    subst this
    exact hl.2 ⟨b.symm, c'.symm, d.symm⟩
  · intro u' i' o1 h1
    rw [hA] at h1
    rcases h.act u' i' o1 h1.1 with ⟨l, hl, hi⟩ | he
    · left
      refine ⟨l, (hsp _ _ _).mpr ⟨hl, ?_⟩, hi⟩
      rintro ⟨_, _, e3⟩
      simp only [identL, Ident.mk.injEq] at hi
      obtain ⟨e1, e2⟩ := h.uniq _ _ _ _ _ _ h1.1 ha (by rw [← hi.1, e3])
      exact h1.2 ⟨e1, e2⟩
    · exact .inr he
  · intro u' i' o1 h1
    rw [hA] at h1
    exact h.loc _ _ _ h1.1
  · intro u1 i1 o1 u2 i2 o2 h1 h2
    rw [hA] at h1 h2
    exact h.uniq _ _ _ _ _ _ h1.1 h2.1
  · intro e he hl sd c l hlm
    rw [hsp] at hlm
    exact h.term e he hl sd c l hlm.1
  · intro u' i' o1 h1
    rw [hA] at h1
    exact h.seqA _ _ _ h1.1
  · intro u' i' o1 h1
    rw [hA] at h1
    have hne : oo.id ≠ o1.id := by
      intro e
      obtain ⟨e1, e2⟩ := h.uniq _ _ _ _ _ _ h1.1 ha e.symm
      exact h1.2 ⟨e1, e2⟩
    rw [hsum, h.qty _ _ _ h1.1]
    have : leafLots (keyIs o1.id) oo.side x = 0 := by
      cases hx' : x with
      | none => rfl
      | some l =>
        unfold leafLots
        simp only
        rw [if_neg]
        rw [keyIs_iff]
        simp only [identL]
        rw [hx l hx']; exact hne
    rw [this]; omega

/-- consuming the first pending event -/
theorem SlotInv.consume {A A' : Nat → Nat → OO → Prop} {sp : Side → SpecSide} {E : List Event} {n : Nat} {e : Event}
    (h : SlotInv A sp (e :: E) n) (hl : ∀ sd c, ∀ l ∈ (sp sd).get c, 0 < l.quantity)
    (hA : ∀ u i oo', A' u i oo' ↔
      (A u i oo' ∧ ¬ (u = e.ident.owner ∧ i = e.ident.slot ∧ oo'.id = e.ident.key)) ∨
      (e.last = false ∧ ∃ oo, A u i oo ∧ u = e.ident.owner ∧ i = e.ident.slot ∧ oo.id = e.ident.key ∧
        oo' = { oo with quantity := max (oo.quantity - e.qty) 0 })) :
    SlotInv A' sp E n := by
  have hsame : ∀ u i oo', A' u i oo' → ∃ oo, A u i oo ∧ oo'.id = oo.id ∧ oo'.side = oo.side ∧ oo'.tree = oo.tree := by
    intro u i oo' h1
    rw [hA] at h1
    rcases h1 with ⟨h1, _⟩ | ⟨_, oo, h1, _, _, _, rfl⟩
    · exact ⟨oo', h1, rfl, rfl, rfl⟩
    · exact ⟨oo, h1, rfl, rfl, rfl⟩
  refine ⟨?_, ?_, ?_, ?_, ?_, ?_, ?_, ?_, ?_, ?_⟩
  · intro u i o1 o2 h1 h2
    rw [hA] at h1 h2
    rcases h1 with ⟨h1, g1⟩ | ⟨_, o1', h1, e1, e2, e3, rfl⟩ <;> rcases h2 with ⟨h2, g2⟩ | ⟨_, o2', h2, e1', e2', e3', rfl⟩
    · exact h.fn _ _ _ _ h1 h2
    · have := h.fn _ _ _ _ h1 h2; subst this; exact absurd ⟨e1', e2', e3'⟩ g1
    · have := h.fn _ _ _ _ h1 h2; subst this; exact absurd ⟨e1, e2, e3⟩ g2
    · have := h.fn _ _ _ _ h1 h2; subst this; rfl
  · intro sd c l hlm
    obtain ⟨o1, a, b, c', d⟩ := h.rest sd c l hlm
    by_cases hm : l.owner = e.ident.owner ∧ l.ownerSlot = e.ident.slot ∧ o1.id = e.ident.key
    · have hlast : e.last = false := by
        cases hh : e.last with
        | false => rfl
        | true => exact absurd (d.symm.trans hm.2.2) (h.term e (by simp) hh sd c l hlm)
      exact ⟨_, (hA _ _ _).mpr (.inr ⟨hlast, o1, a, hm.1, hm.2.1, hm.2.2, rfl⟩), b, c', d⟩
    · exact ⟨o1, (hA _ _ _).mpr (.inl ⟨a, hm⟩), b, c', d⟩
  · intro u i oo' h1
    obtain ⟨oo, a, e1, e2, e3⟩ := hsame u i oo' h1
    rw [e1, e2, e3]
    rcases h.act u i oo a with hx | ⟨e', he', hlast, hid⟩
    · exact .inl hx
    · rcases List.mem_cons.mp he' with rfl | he'
      · exfalso
        rw [hA] at h1
        rcases h1 with ⟨h1, g⟩ | ⟨hf, _⟩
        · have := h.fn _ _ _ _ h1 a; subst this
          exact g ⟨by rw [hid], by rw [hid], by rw [hid]⟩
        · rw [hlast] at hf; simp at hf
      · exact .inr ⟨e', he', hlast, hid⟩
  · intro u i oo' h1 e' he' hk
    obtain ⟨oo, a, e1, e2, e3⟩ := hsame u i oo' h1
    rw [e1, e2]
    exact h.loc u i oo a e' (by simp [he']) (by rw [hk, e1])
  · intro u i o1 u' i' o2 h1 h2 hid
    obtain ⟨p1, a1, e1, _⟩ := hsame _ _ _ h1
    obtain ⟨p2, a2, e2, _⟩ := hsame _ _ _ h2
    exact h.uniq _ _ _ _ _ _ a1 a2 (by rw [← e1, ← e2, hid])
  · intro e' he'; exact h.term e' (by simp [he'])
  · intro e' he'; exact h.pos e' (by simp [he'])
  · intro e' he'; exact h.seqE e' (by simp [he'])
  · intro u i oo' h1
    obtain ⟨oo, a, e1, _⟩ := hsame _ _ _ h1
    rw [e1]; exact h.seqA _ _ _ a
  · intro u i oo' h1
    rw [hA] at h1
    have hcons : ∀ k, pendLots (keyIs k) (e :: E) = (if e.ident.key = k then e.qty else 0) + pendLots (keyIs k) E := by
      intro k; simp [pendLots, keyIs]
    rcases h1 with ⟨h1, g⟩ | ⟨_, oo, h1, e1, e2, e3, rfl⟩
    · have hq := h.qty _ _ _ h1
      rw [hcons, if_neg] at hq
      · omega
      · intro hk
        have := h.loc _ _ _ h1 e (by simp) hk
        exact g ⟨by rw [this], by rw [this], by rw [this]⟩
    · have hq := h.qty _ _ _ h1
      rw [hcons, if_pos e3.symm] at hq
      have n1 := restLots_nonneg (P := keyIs oo.id) hl
      have n2 := pendLots_nonneg (P := keyIs oo.id) (E := E) (fun e' he' => h.pos e' (by simp [he']))
      simp only
      omega

end Perp
end Mango
