import Verif.Perp.Exec
/-! Helper: the invariant of a perp market with all its accounts (C24–C26). -/
namespace Mango
namespace Perp
open Book Fx

/-- the position of an account (all zero if it has none) -/
def posD (a : PAcct) : Pos := a.pos.getD {}
/-- the position of account number `u` -/
def pget (accts : List PAcct) (u : Nat) : Pos := posD (accts[u]?.getD {})
/-- slot `i` of account `u` is in use for market `idx` -/
def Active (idx : Nat) (accts : List PAcct) (u i : Nat) (oo : OO) : Prop :=
  ∃ a, accts[u]? = some a ∧ a.oos[i]? = some oo ∧ oo.market = idx

def tbOf (u : Nat) (f : FillEv) : Int := if f.taker = u then Side.sgn f.takerSide * f.quantity else 0
def tqOf (u : Nat) (f : FillEv) : Int := if f.taker = u then Side.sgn f.takerSide * (f.price * f.quantity) else 0

structure PInv (s : PSys) (sp : Side → SpecSide) : Prop where
  live : LiveBook s.book sp
  queue : EventQueue.Inv s.queue
  idx : s.market.idx ≠ FREE
  slots : SlotInv (Active s.market.idx s.accts) sp s.queue.toList s.market.seqNum
  lots : ∀ u sd, (pget s.accts u).lots sd = restLots (ownedBy u sd) sp + pendLots (ownedBy u sd) s.queue.toList
  tb : ∀ u, (pget s.accts u).takerBase = sumOf (tbOf u) (fillsOf s.queue.toList)
  tq : ∀ u, (pget s.accts u).takerQuote = - sumOf (tqOf u) (fillsOf s.queue.toList)
  oi : s.market.openInterest = sumOf (fun a => |(posD a).base|) s.accts
  zero : sumOf (fun a => (posD a).base) s.accts = 0

theorem pget_set {accts : List PAcct} {u : Nat} {a a' : PAcct} (h : accts[u]? = some a) (v : Nat) :
    pget (accts.set u a') v = if v = u then posD a' else pget accts v := by
  unfold pget
  by_cases hv : v = u
  · subst hv
    have : v < accts.length := (List.getElem?_eq_some_iff.mp h).1
    simp [this]
  · rw [if_neg hv, List.getElem?_set_ne (by omega)]

theorem pget_some {accts : List PAcct} {u : Nat} {a : PAcct} (h : accts[u]? = some a) : pget accts u = posD a := by
  simp [pget, h]

theorem posD_some {a : PAcct} {p : Pos} (h : a.pos = some p) : posD a = p := by simp [posD, h]

theorem active_set {idx : Nat} {accts : List PAcct} {u : Nat} {a a' : PAcct} (h : accts[u]? = some a) {v i : Nat} {oo : OO} :
    Active idx (accts.set u a') v i oo ↔ (v = u ∧ a'.oos[i]? = some oo ∧ oo.market = idx) ∨ (v ≠ u ∧ Active idx accts v i oo) := by
  have hl : u < accts.length := (List.getElem?_eq_some_iff.mp h).1
  unfold Active
  by_cases hv : v = u
  · subst hv
    simp [hl]
  · rw [List.getElem?_set_ne (by omega)]
    simp [hv]

theorem active_at {idx : Nat} {accts : List PAcct} {u : Nat} {a : PAcct} (h : accts[u]? = some a) {i : Nat} {oo : OO} :
    Active idx accts u i oo ↔ a.oos[i]? = some oo ∧ oo.market = idx := by
  unfold Active
  rw [h]; simp

/-- replacing one account by one with the same slots of this market and the same base position, lots and taker lots -/
theorem PInv.acct {s : PSys} {sp : Side → SpecSide} (h : PInv s sp) {u : Nat} {a a' : PAcct} (ha : s.accts[u]? = some a)
    (ho : ∀ (i : Nat) (oo : OO), (a'.oos[i]? = some oo ∧ oo.market = s.market.idx) ↔ (a.oos[i]? = some oo ∧ oo.market = s.market.idx))
    (hl : ∀ sd, (posD a').lots sd = (posD a).lots sd) (htb : (posD a').takerBase = (posD a).takerBase)
    (htq : (posD a').takerQuote = (posD a).takerQuote) (hb : (posD a').base = (posD a).base) :
    PInv { s with accts := s.accts.set u a' } sp := by
  have hp := pget_some ha
  refine ⟨h.live, h.queue, h.idx, ?_, ?_, ?_, ?_, ?_, ?_⟩
  · apply h.slots.congr
    intro v i oo
    rw [active_set ha]
    by_cases hv : v = u
    · subst hv
      rw [active_at ha, ho]; simp
    · simp [hv]
  · intro v sd
    rw [← h.lots v sd]
    simp only [pget_set ha]
    split
    · next e => subst e; rw [hl, hp]
    · rfl
  · intro v
    rw [← h.tb v]
    simp only [pget_set ha]
    split
    · next e => subst e; rw [htb, hp]
    · rfl
  · intro v
    rw [← h.tq v]
    simp only [pget_set ha]
    split
    · next e => subst e; rw [htq, hp]
    · rfl
  · simp only; rw [sumOf_set _ ha, h.oi, hb]; omega
  · simp only; rw [sumOf_set _ ha, h.zero, hb]; omega

theorem PInv.ensure {s : PSys} {sp : Side → SpecSide} (h : PInv s sp) {u : Nat} {a a' : PAcct} {room : Bool} (ha : s.accts[u]? = some a)
    (he : ensurePos a room = .ok a') : PInv { s with accts := s.accts.set u a' } sp ∧ posD a' = posD a ∧ a'.oos = a.oos ∧ ∃ p, a'.pos = some p := by
  unfold ensurePos at he
  have : posD a' = posD a ∧ a'.oos = a.oos ∧ ∃ p, a'.pos = some p := by
    cases hp : a.pos with
    | some p => rw [hp] at he; simp only [ok_inj] at he; subst he; exact ⟨rfl, rfl, p, hp⟩
    | none =>
      rw [hp] at he
      simp only at he
      split at he
      · rw [ok_inj] at he; subst he; refine ⟨?_, rfl, _, rfl⟩; unfold posD; rw [hp]; rfl
      · simp at he
  obtain ⟨e1, e2, e3⟩ := this
  refine ⟨h.acct ha ?_ ?_ ?_ ?_ ?_, e1, e2, e3⟩
  · rw [e2]; intros; rfl
  all_goals simp [e1]

theorem fillsOf_cons_fill (f : FillEv) (E : List Event) : fillsOf (.fill f :: E) = f :: fillsOf E := rfl
theorem fillsOf_cons_out (e : OutEv) (E : List Event) : fillsOf (.out e :: E) = fillsOf E := rfl

theorem postLots_owned {u v : Nat} {sd sd' : Side} {t : Comp} {l : Leaf} (hl : l.owner = u) :
    postLots (ownedBy v sd) (some (sd', t, l)) = if v = u ∧ sd = sd' then l.quantity else 0 := by
  unfold postLots
  simp only [ownedBy, identL, Bool.and_eq_true, decide_eq_true_eq, hl]
  by_cases h : v = u ∧ sd = sd'
  · rw [if_pos h, if_pos ⟨h.1.symm, h.2.symm⟩]
  · rw [if_neg h, if_neg (fun e => h ⟨e.1.symm, e.2.symm⟩)]

/-- the effect of a posted remainder on the account -/
theorem PostedTo.effect {o : Order} {taker id : Nat} {m : Market} {a a' : PAcct} {post : Option (Side × Comp × Leaf)} (h : PostedTo o taker id m a a' post)
    {p : Pos} (hp : a.pos = some p) (hidx : m.idx ≠ FREE) :
    ∃ p', a'.pos = some p' ∧ (∀ v sd, (v = taker → p'.lots sd = p.lots sd + postLots (ownedBy v sd) post) ∧ (v ≠ taker → postLots (ownedBy v sd) post = 0)) ∧
      p'.takerBase = p.takerBase ∧ p'.takerQuote = p.takerQuote ∧ p'.base = p.base ∧ p'.quote = p.quote ∧
      p'.longSettled = p.longSettled ∧ p'.shortSettled = p.shortSettled ∧
      (∀ (i : Nat) (oo : OO), (a'.oos[i]? = some oo ∧ oo.market = m.idx) ↔ (a.oos[i]? = some oo ∧ oo.market = m.idx) ∨
        ∃ sd t y, post = some (sd, t, y) ∧ i = y.ownerSlot ∧
          oo = { market := m.idx, side := sd, tree := t, clientId := y.clientOrderId, id := y.key, quantity := y.quantity }) ∧
      (∀ sd t y, post = some (sd, t, y) → y.owner = taker ∧ y.key = id ∧ ∀ oo, ¬ (a.oos[y.ownerSlot]? = some oo ∧ oo.market = m.idx)) := by
  obtain ⟨⟨rfl, rfl⟩ | ⟨t, l, rfl, hk, ho, hq, hslot, hadd⟩⟩ := h
  · refine ⟨p, hp, ?_, rfl, rfl, rfl, rfl, rfl, rfl, by simp, by simp⟩
    intro v sd
    simp [postLots]
  · unfold PAcct.addPerpOrder at hadd
    simp only [bind_ok, getPos_ok, getOO_ok, ok_inj] at hadd
    obtain ⟨p0, hp0, p', hp', oo0, hoo0, rfl⟩ := hadd
    rw [hp, Option.some.injEq] at hp0
    subst hp0
    obtain ⟨l1, l2, l3, l4, l5, l6, l7, _⟩ := adjust_lots hp'
    simp only [PAcct.setPos] at hoo0
    have hfree : oo0.market = FREE := by
      unfold PAcct.nextOrderSlot at hslot
      cases hf : a.oos.findIdx? (fun o => o.market == FREE) with
      | none => rw [hf] at hslot; simp at hslot
      | some j =>
        rw [hf] at hslot
        simp only [ok_inj] at hslot
        subst hslot
        rw [List.findIdx?_eq_some_iff_getElem] at hf
        obtain ⟨hlt, hm, _⟩ := hf
        rw [List.getElem?_eq_getElem hlt, Option.some.injEq] at hoo0
        rw [← hoo0]; simpa using hm
    refine ⟨p', rfl, ?_, l4, l5, l2, l3, l6, l7, ?_, ?_⟩
    · intro v sd
      rw [postLots_owned ho]
      constructor
      · intro hv; rw [l1 sd]; simp [hv]
      · intro hv; rw [if_neg]; exact fun e => hv e.1
    · intro i oo
      simp only [PAcct.setOO, PAcct.setPos]
      have hlt : l.ownerSlot < a.oos.length := (List.getElem?_eq_some_iff.mp hoo0).1
      by_cases hi : i = l.ownerSlot
      · subst hi
        rw [List.getElem?_set_self hlt]
        constructor
        · rintro ⟨e1, e2⟩
          right
          rw [Option.some.injEq] at e1
          exact ⟨o.side, t, l, rfl, rfl, e1.symm⟩
        · rintro (⟨e1, e2⟩ | ⟨sd, t', y, e1, e2, e3⟩)
          · rw [hoo0, Option.some.injEq] at e1; subst e1; exact absurd (hfree.symm.trans e2).symm hidx
          · simp only [Option.some.injEq, Prod.mk.injEq] at e1
            obtain ⟨rfl, rfl, rfl⟩ := e1
            subst e3; exact ⟨rfl, rfl⟩
      · rw [List.getElem?_set_ne (by omega)]
        constructor
        · exact .inl
        · rintro (h | ⟨sd, t', y, e1, e2, e3⟩)
          · exact h
          · simp only [Option.some.injEq, Prod.mk.injEq] at e1
            obtain ⟨rfl, rfl, rfl⟩ := e1
            exact absurd e2 hi
    · intro sd t' y e1
      simp only [Option.some.injEq, Prod.mk.injEq] at e1
      obtain ⟨rfl, rfl, rfl⟩ := e1
      refine ⟨ho, hk, ?_⟩
      rintro oo ⟨e1, e2⟩
      rw [hoo0, Option.some.injEq] at e1; subst e1; exact hidx (e2.symm.trans hfree)

theorem sumOf_neg {α : Type} (f : α → Int) (l : List α) : sumOf (fun x => - f x) l = - sumOf f l := by
  induction l with
  | nil => rfl
  | cons a l ih => simp [ih]; omega

theorem sumOf_mul {α : Type} (c : Int) (f : α → Int) (l : List α) : sumOf (fun x => c * f x) l = c * sumOf f l := by
  induction l with
  | nil => simp
  | cons a l ih => simp only [sumOf_cons, ih]; ring

/-- the taker lots in the events of an order -/
theorem Placed.takerSums {o : Order} {oracleNative : I80F48} {taker now limit : Nat} {s s' : NOState} {sp : Side → SpecSide} {r : Option Nat}
    (P : Placed o oracleNative taker now limit s sp r s') (v : Nat) :
    sumOf (tbOf v) (fillsOf (eventsOf P.ctx s.queue.seqNum P.acts)) = (if v = taker then Side.sgn o.side * sumOf Act.base P.acts else 0) ∧
    sumOf (tqOf v) (fillsOf (eventsOf P.ctx s.queue.seqNum P.acts)) = (if v = taker then Side.sgn o.side * sumOf Act.quote P.acts else 0) := by
  have h := (fills_acts P.ctx P.acts s.queue.seqNum).1
  constructor
  · rw [h (tbOf v) (fun a => if v = taker then Side.sgn o.side * a.base else 0)]
    · split
      · exact sumOf_mul _ _ _
      · exact sumOf_zero (fun _ _ => rfl)
    · intro i b n f hf
      unfold fillEvent at hf
      injection hf with hf
      subst hf
      unfold tbOf
      by_cases hv : v = taker
      · subst hv; simp [ctx, Act.base]
      · rw [if_neg hv, if_neg]; exact fun e => hv e.symm
    · intro a ha; cases a <;> simp_all [Act.isFill, Act.base]
  · rw [h (tqOf v) (fun a => if v = taker then Side.sgn o.side * a.quote else 0)]
    · split
      · exact sumOf_mul _ _ _
      · exact sumOf_zero (fun _ _ => rfl)
    · intro i b n f hf
      unfold fillEvent at hf
      injection hf with hf
      subst hf
      unfold tqOf
      by_cases hv : v = taker
      · subst hv; simp [ctx, Act.quote, mul_comm]
      · rw [if_neg hv, if_neg]; exact fun e => hv e.symm
    · intro a ha; cases a <;> simp_all [Act.isFill, Act.quote]

theorem reduceOrder_ok {o o' : Order} {p : Pos} {m : Market} (h : reduceOrder o p m = .ok o') (ht : o.TypedArgs) (hb : 0 ≤ o.maxBase) (hq : 0 ≤ o.maxQuote) :
    ∃ mb, o' = { o with maxBase := mb } ∧ 0 ≤ mb ∧ mb ≤ o.maxBase ∧ o'.Typed := by
  unfold reduceOrder at h
  simp only [bind_ok, require_ok, ok_inj] at h
  obtain ⟨eff, _, mb, h1, _, _, rfl⟩ := h
  have key : 0 ≤ mb ∧ mb ≤ o.maxBase := by
    split at h1
    · unfold reduceOnlyMax at h1
      simp only [bind_ok, ok_inj] at h1
      obtain ⟨e, _, al, h2, rfl⟩ := h1
      have : 0 ≤ al := by
        split at h2
        · rw [ok_inj] at h2; omega
        · split at h2
          · cases hs : o.side <;> rw [hs] at h2 <;> simp only [bind_ok, ck64_ok, abs64_ok, ok_inj] at h2
            · obtain ⟨x, _, rfl, _⟩ := h2; exact abs_nonneg _
            · obtain ⟨x, _, rfl⟩ := h2; omega
          · rw [abs64_ok] at h2; rw [h2.1]; exact abs_nonneg _
      omega
    · rw [ok_inj] at h1; omega
  refine ⟨mb, rfl, key.1, key.2, ⟨⟨?_, ?_⟩, ⟨?_, ht.quote⟩, ht.price⟩⟩
  · simp only; unfold I64MIN; omega
  · simp only; have := ht.base; omega
  · simp only; unfold I64MIN; omega

end Perp
end Mango
