import Verif.Account.Close
import Verif.Props.SlotPlan
import Verif.Props.TradingEx
/-!
# C102: closing an account leaves nothing behind
-/
namespace Mango
namespace AccountClose
open Slots SlotPlan

/-! ## Specification -/

/-- nothing is open: no token position, spot market account, perp position or conditional swap -/
structure Nothing (a : Acc) : Prop where
  tokens : ∀ p ∈ a.tokens, p.index = FREE
  serums : ∀ p ∈ a.serums, p.market = FREE
  perps : ∀ p ∈ a.perps, p.market = FREE
  swaps : ∀ p ∈ a.tcss, p.configured = false

/-- the number of things open in an account -/
def size (a : Acc) : Nat :=
  (a.tokens.filter (fun p => p.index ≠ FREE)).length + (a.serums.filter (fun p => p.market ≠ FREE)).length +
  (a.perps.filter (fun p => p.market ≠ FREE)).length + (a.tcss.filter (fun p => p.configured)).length

/-- the owner may use the instruction -/
structure Allowed (e : Env) : Prop where
  enabled : e.enabled = true
  group : e.accountGroup = e.group
  owner : e.accountOwner = e.owner
  signed : e.ownerSigned = true
  thawed : e.frozenUntil < e.now

/-! ## When it closes -/

theorem close_ok {e : Env} {force : Bool} {a : Acc} : closeAccount e force a = .ok () ↔ Allowed e ∧ (e.testing = false → force = false) ∧
    (force = false → e.beingLiquidated = false ∧ (∀ p ∈ a.tokens, p.index = FREE) ∧ (∀ p ∈ a.serums, p.market = FREE) ∧ (∀ p ∈ a.perps, p.market = FREE)) := by
  unfold closeAccount
  simp only [bind_ok, require_ok]
  have k : checkForce e.testing force = .ok () ↔ (e.testing = false → force = false) := by
    unfold checkForce
    by_cases ht : e.testing = false
    · rw [if_pos ht, require_ok]; exact ⟨fun h _ => h, fun h => h ht⟩
    · rw [if_neg ht]; exact ⟨fun _ h => absurd h ht, fun _ => rfl⟩
  constructor
  · rintro ⟨_, h1, _, h2, _, h3, _, h4, _, h5, _, h6, h7⟩
    refine ⟨⟨h1, h2, h3, h5, h4⟩, k.1 h6, ?_⟩
    intro hf
    rw [if_pos hf] at h7
    unfold checkEmpty at h7
    simp only [bind_ok, require_ok, List.all_eq_true, beq_iff_eq] at h7
    obtain ⟨_, k1, _, k2, _, k3, k4⟩ := h7
    exact ⟨k1, k2, k3, k4⟩
  · rintro ⟨⟨h1, h2, h3, h5, h4⟩, h6, h7⟩
    refine ⟨(), h1, (), h2, (), h3, (), h4, (), h5, (), k.2 h6, ?_⟩
    by_cases hf : force = false
    · rw [if_pos hf]
      unfold checkEmpty
      simp only [bind_ok, require_ok, List.all_eq_true, beq_iff_eq]
      obtain ⟨k1, k2, k3, k4⟩ := h7 hf
      exact ⟨(), k1, (), k2, (), k3, k4⟩
    · rw [if_neg hf]

/-- an account without token positions has nothing else either -/
theorem nothing_of_tokens {mk : Markets} {a : Acc} (I : Inv mk a) (h : ∀ p ∈ a.tokens, p.index = FREE) : Nothing a := by
  have hz : ∀ t, t ≠ FREE → ¬ 0 < refs mk a t := by
    intro t ht hc
    obtain ⟨p, hp, e⟩ := I.uses.held t ht hc
    exact ht (by rw [← e]; exact h p hp)
  refine ⟨h, ?_, ?_, ?_⟩
  · intro p hp
    by_contra hc
    obtain ⟨_, _, h3, _⟩ := I.serRef p hp hc
    have h5 := serum_le_refs mk p.base hp
    have h6 : serumRefs p.base p = one p.base p.base + one p.quote p.base := by unfold serumRefs; rw [if_neg hc]
    rw [h6, one_self] at h5
    have := one_nonneg p.quote p.base
    exact hz _ h3 (by omega)
  · intro p hp
    by_contra hc
    have h3 := I.perRef p hp hc
    have h5 := perp_le_refs mk (mk.settle p.market) hp
    have h6 : perpRefs mk (mk.settle p.market) p = one (mk.settle p.market) (mk.settle p.market) := by unfold perpRefs; rw [if_neg hc]
    rw [h6, one_self] at h5
    exact hz _ h3 (by omega)
  · intro p hp
    by_contra hc
    have hcc : p.configured = true := by simpa using hc
    obtain ⟨_, h3, _, _⟩ := I.tcsRef p hp hcc
    have h5 := tcs_le_refs mk p.buy hp
    have h6 : tcsRefs p.buy p = one p.buy p.buy + one p.sell p.buy := by unfold tcsRefs; rw [hcc]; rfl
    rw [h6, one_self] at h5
    have := one_nonneg p.sell p.buy
    exact hz _ h3 (by omega)

/-- **C102 (1).** On a production group an account is closed exactly if its owner signed, it is not frozen, `force_close` is not
asked for, it is not marked as being liquidated and nothing is open in it: no token position, no spot market account, no perp
position and no conditional swap, although the last are not looked at. -/
theorem C102_iff {mk : Markets} {a : Acc} (h : Reach mk a) {e : Env} (hp : e.testing = false) (force : Bool) :
    closeAccount e force a = .ok () ↔ Allowed e ∧ force = false ∧ e.beingLiquidated = false ∧ Nothing a := by
  rw [close_ok]
  constructor
  · rintro ⟨h1, h2, h3⟩
    obtain ⟨k1, k2, k3, k4⟩ := h3 (h2 hp)
    exact ⟨h1, h2 hp, k1, nothing_of_tokens (reach_inv h) k2⟩
  · rintro ⟨h1, h2, h3, h4⟩
    exact ⟨h1, fun _ => h2, fun _ => ⟨h3, h4.tokens, h4.serums, h4.perps⟩⟩

/-! ## It can always be brought about -/

theorem runOps_append {mk : Markets} (x y : List Op) {a b c : Acc} (h1 : runOps mk a x = .ok b) (h2 : runOps mk b y = .ok c) : runOps mk a (x ++ y) = .ok c := by
  induction x generalizing a with
  | nil => simp only [runOps, Except.ok.injEq] at h1; subst h1; exact h2
  | cons o os ih =>
    simp only [runOps, bind_ok, List.cons_append] at h1 ⊢
    obtain ⟨d, h3, h4⟩ := h1
    exact ⟨d, h3, ih h4⟩

theorem runOps_reach {mk : Markets} : ∀ (os : List Op) {a b : Acc}, Reach mk a → (∀ o ∈ os, o.Registered mk) → runOps mk a os = .ok b → Reach mk b := by
  intro os
  induction os with
  | nil => intro a b h _ e; simp only [runOps, Except.ok.injEq] at e; subst e; exact h
  | cons o os ih =>
    intro a b h hr e
    simp only [runOps, bind_ok] at e
    obtain ⟨d, h3, h4⟩ := e
    exact ih (.step o h (hr o (by simp)) h3) (fun o' h' => hr o' (by simp [h'])) h4

theorem filter_set' {α : Type} {f : α → Bool} : ∀ {l : List α} {k : Nat} {p : α} (q : α), l[k]? = some p → f p = true → f q = false →
    ((l.set k q).filter f).length + 1 = (l.filter f).length := by
  intro l
  induction l with
  | nil => intro k p q h; simp at h
  | cons a l ih =>
    intro k p q h hp hq
    cases k with
    | zero =>
      simp only [List.getElem?_cons_zero, Option.some.injEq] at h
      subst h
      simp [hp, hq]
    | succ k =>
      simp only [List.getElem?_cons_succ] at h
      have := ih q h hp hq
      simp only [List.set_cons_succ, List.filter_cons]
      split
      · simp only [List.length_cons]; omega
      · exact this

/-- a release changes no count of positions -/
theorem release_active {T T' : List TokenSlot} {x : Nat} (h : releaseToken T x = .ok T') : active T' = active T := (release_same h).1.act

theorem releaseDust_active {T T' : List TokenSlot} {x : Nat} (h : releaseDust T x false = .ok T') : active T' = active T := by
  unfold releaseDust at h
  split at h
  · cases h; rfl
  · rename_i raw hr
    simp only [bind_ok] at h
    obtain ⟨t1, h1, h2⟩ := h
    have h3 : releaseToken T x = .ok t1 := by unfold releaseToken; rw [hr]; exact h1
    have := release_active h3
    split at h2
    · cases h2
    · split at h2
      · rw [pure_ok] at h2; subst h2; exact this
      · rw [if_neg (by decide), pure_ok] at h2; subst h2; exact this

/-- one instruction that closes one thing -/
theorem shrink {mk : Markets} {a : Acc} (I : Inv mk a) (h : ¬ Nothing a) :
    ∃ (o : Op) (b : Acc), o.Registered mk ∧ step mk a o = .ok b ∧ size b + 1 = size a := by
  by_cases hs : ∃ p ∈ a.serums, p.market ≠ FREE
  · obtain ⟨p, hp, hf⟩ := hs
    obtain ⟨b, h1, _⟩ := closeSerum_spec I hf ⟨p, hp, rfl⟩
    obtain ⟨r1, r2, r3, r4⟩ := I.serRef p hp hf
    refine ⟨.closeSerum p.market, b, ⟨hf, by rw [← r1]; exact r3, by rw [← r2]; exact r4⟩, h1, ?_⟩
    unfold closeSerum at h1
    split at h1
    · simp only [bind_ok] at h1
      obtain ⟨t1, e1, t2, e2, h2⟩ := h1
      have a1 := release_active e1
      have a2 := release_active e2
      split at h2
      · cases h2
      · rename_i raw hraw
        split at h2
        · cases h2
        · rename_i q hq
          rw [pure_ok] at h2; subst h2
          obtain ⟨x, g1, g2, _⟩ := findIdx?_some hraw
          rw [hq] at g1; cases g1
          have hqf : q.market ≠ FREE := by rw [show q.market = p.market by simpa using g2]; exact hf
          have := filter_set' (f := fun p : SerumSlot => p.market ≠ FREE) { q with market := FREE } hq (by simpa using hqf) (by simp)
          unfold active at a1 a2
          unfold size
          dsimp only
          omega
    · cases h1
  by_cases hs : ∃ p ∈ a.perps, p.market ≠ FREE
  · obtain ⟨p, hp, hf⟩ := hs
    obtain ⟨b, h1, _⟩ := deactivatePerp_spec I hf ⟨p, hp, rfl⟩
    refine ⟨.deactivatePerp p.market, b, ⟨hf, I.perRef p hp hf⟩, h1, ?_⟩
    unfold deactivatePerp at h1
    split at h1
    · cases h1
    · rename_i raw hraw
      split at h1
      · cases h1
      · rename_i q hq
        simp only [bind_ok] at h1
        obtain ⟨t1, e1, h2⟩ := h1
        have a1 := release_active e1
        rw [pure_ok] at h2; subst h2
        obtain ⟨x, g1, g2, _⟩ := findIdx?_some hraw
        rw [hq] at g1; cases g1
        have hqf : q.market ≠ FREE := by rw [show q.market = p.market by simpa using g2]; exact hf
        have := filter_set' (f := fun p : PerpSlot => p.market ≠ FREE) { q with market := FREE } hq (by simpa using hqf) (by simp)
        unfold active at a1
        unfold size
        dsimp only
        omega
  by_cases hs : ∃ p ∈ a.tcss, p.configured = true
  · obtain ⟨p, hp, hf⟩ := hs
    obtain ⟨i, hi⟩ := List.mem_iff_getElem?.1 hp
    obtain ⟨b, h1, _, _⟩ := closeTcs_spec I hi hf rfl false false
    refine ⟨.closeTcs i p.id false false, b, trivial, h1, ?_⟩
    unfold closeTcs at h1
    rw [hi] at h1
    dsimp only at h1
    rw [if_neg (by simp [hf]), if_neg (by simp)] at h1
    simp only [bind_ok] at h1
    obtain ⟨t1, e1, t2, e2, h2⟩ := h1
    have a1 := releaseDust_active e1
    have a2 := releaseDust_active e2
    rw [pure_ok] at h2; subst h2
    have := filter_set' (f := fun p : TcsSlot => p.configured) freeTcs hi hf rfl
    unfold active at a1 a2
    unfold size
    dsimp only
    omega
  rename_i n1 n2
  have m1 : ∀ p ∈ a.serums, p.market = FREE := fun p hp => by_contra fun hc => n1 ⟨p, hp, hc⟩
  have m2 : ∀ p ∈ a.perps, p.market = FREE := fun p hp => by_contra fun hc => n2 ⟨p, hp, hc⟩
  have m3 : ∀ p ∈ a.tcss, p.configured = false := fun p hp => by
    cases hc : p.configured with
    | false => rfl
    | true => exact absurd ⟨p, hp, hc⟩ hs
  by_cases ht : ∃ p ∈ a.tokens, p.index ≠ FREE
  swap
  · exact absurd ⟨fun p hp => by_contra fun hc => ht ⟨p, hp, hc⟩, m1, m2, m3⟩ h
  obtain ⟨p, hp, hf⟩ := ht
  have hz : ∀ t, refs mk a t = 0 := by
    intro t
    unfold refs
    rw [sumOf_zero (fun y hy => by unfold serumRefs; rw [if_pos (m1 y hy)]), sumOf_zero (fun y hy => by unfold perpRefs; rw [if_pos (m2 y hy)]),
      sumOf_zero (fun y hy => by unfold tcsRefs; rw [if_neg (by simp [m3 y hy])])]
    rfl
  rcases ens (refs_nonneg mk a) I.uses hf with ⟨_, raw, act, q, a2, a3, a4⟩ | ⟨a1, _, _⟩ | ⟨a1, _⟩
  · have hu : q.inUse = 0 := by
      have := I.uses.count q (List.mem_iff_getElem?.2 ⟨raw, a3⟩) (by rw [a4]; exact hf)
      rw [hz] at this; omega
    have hget : (a.tokens.set raw { q with pos := 0 })[raw]? = some { q with pos := 0 } := by rw [List.getElem?_set_self', a3]; rfl
    refine ⟨.token p.index 0 true, { a with tokens := (a.tokens.set raw { q with pos := 0 }).set raw { { q with pos := 0 } with index := FREE } }, hf, ?_, ?_⟩
    · show changeToken a p.index 0 true = _
      unfold changeToken
      rw [a2]
      simp only [bind, Except.bind, a3]
      rw [if_pos ⟨trivial, hu⟩]
      unfold deactivateToken
      rw [hget]
      dsimp only
      rw [if_pos hu]
      rfl
    · have := filter_set' (f := fun p : TokenSlot => p.index ≠ FREE) ({ { q with pos := 0 } with index := FREE } : TokenSlot) a3 (by simp [a4, hf]) (by simp)
      rw [← List.set_set { q with pos := 0 }] at this
      unfold size
      dsimp only at this ⊢
      omega
  · exact absurd rfl (mis_one.1 a1 p hp)
  · exact absurd rfl (mis_one.1 a1 p hp)

/-- **C102 (2).** From every reachable account as many instructions as it has things open close all of them: no combination of
slots keeps an account open. (Whether what is open can be emptied is a matter of its balances and orders.) -/
theorem C102_can {mk : Markets} {a : Acc} (h : Reach mk a) :
    ∃ (os : List Op) (b : Acc), os.length = size a ∧ (∀ o ∈ os, o.Registered mk) ∧ runOps mk a os = .ok b ∧ Reach mk b ∧ Nothing b ∧
      ∀ e : Env, Allowed e → e.beingLiquidated = false → closeAccount e false b = .ok () := by
  generalize hn : size a = n
  induction n generalizing a with
  | zero =>
    have : Nothing a := by
      by_contra hc
      obtain ⟨_, _, _, _, h4⟩ := shrink (reach_inv h) hc
      omega
    exact ⟨[], a, rfl, by simp, rfl, h, this, fun e h1 h2 => close_ok.2 ⟨h1, fun _ => rfl, fun _ => ⟨h2, this.tokens, this.serums, this.perps⟩⟩⟩
  | succ n ih =>
    have hne : ¬ Nothing a := by
      intro hc
      have h1 : a.tokens.filter (fun p => p.index ≠ FREE) = [] := List.filter_eq_nil_iff.2 (fun p hp => by simp [hc.tokens p hp])
      have h2 : a.serums.filter (fun p => p.market ≠ FREE) = [] := List.filter_eq_nil_iff.2 (fun p hp => by simp [hc.serums p hp])
      have h3 : a.perps.filter (fun p => p.market ≠ FREE) = [] := List.filter_eq_nil_iff.2 (fun p hp => by simp [hc.perps p hp])
      have h4 : a.tcss.filter (fun p => p.configured) = [] := List.filter_eq_nil_iff.2 (fun p hp => by simp [hc.swaps p hp])
      unfold size at hn
      rw [h1, h2, h3, h4] at hn
      simp at hn
    obtain ⟨o, b, h1, h2, h3⟩ := shrink (reach_inv h) hne
    obtain ⟨os, c, k1, k2, k3, k4⟩ := ih (Reach.step o h h1 h2) (by omega)
    refine ⟨o :: os, c, by simp [k1], ?_, ?_, k4⟩
    · intro o' ho'
      rcases List.mem_cons.mp ho' with rfl | h'
      · exact h1
      · exact k2 _ h'
    · simp only [runOps, bind_ok]
      exact ⟨b, h2, k3⟩

end AccountClose

namespace Perp
open Book Fx

/-- **C102 (3).** When an account is closed, nothing in a perp market depends on it: it has no order on the book, no slot of it
records one, none of its orders has an event waiting, its pending fills as a taker cancel out exactly in base and in quote, and the
book, the queue, the open interest and all other accounts are as before. -/
theorem C102_orders {s s' : PSys} (h : Reachable s) {u : Nat} (hc : pstep s (.close u) = .ok s') :
    (∀ sd c, ∀ l ∈ booked s.book sd c, l.owner ≠ u) ∧
    (∀ a, s.accts[u]? = some a → ∀ oo ∈ a.oos, oo.market ≠ s.market.idx) ∧
    (∀ e ∈ pending s, e.ident.owner ≠ u) ∧
    sumOf (fun f => if f.taker = u then (match f.takerSide with | .bid => f.quantity | .ask => -f.quantity) else 0) (fillsOf (pending s)) = 0 ∧
    sumOf (fun f => if f.taker = u then (match f.takerSide with | .bid => -(f.price * f.quantity) | .ask => f.price * f.quantity) else 0) (fillsOf (pending s)) = 0 ∧
    s'.book = s.book ∧ s'.queue = s.queue ∧ s'.market = s.market ∧ (∀ v, v ≠ u → s'.accts[v]? = s.accts[v]?) ∧ s'.accts[u]? = some {} := by
  obtain ⟨sp, hI⟩ := h.inv
  simp only [pstep] at hc
  split at hc
  · cases hc
  · rename_i a ha
    simp only [bind_ok, require_ok, Except.ok.injEq] at hc
    obtain ⟨_, hpos, rfl⟩ := hc
    have hnone : ∀ b p, s.accts[u]? = some b → b.pos ≠ some p := by
      intro b p hb hp
      rw [ha] at hb; cases hb
      rw [hpos] at hp; cases hp
    obtain ⟨p1, p2⟩ := C48_positions_exist h
    have hev : ∀ e ∈ pending s, e.ident.owner ≠ u := by
      intro e he hou
      obtain ⟨b, p, g1, g2⟩ := p1 e he
      rw [hou] at g1
      exact hnone b p g1 g2
    have hz : pget s.accts u = {} := by rw [pget_some ha]; unfold posD; rw [hpos]; rfl
    have hm : ∀ sd c l, l ∈ booked s.book sd c ↔ l ∈ (sp sd).get c := by
      intro sd c l; rw [booked_eq hI.live.is, mem_ord]
    have hbk : ∀ sd c, ∀ l ∈ booked s.book sd c, l.owner ≠ u := by
      intro sd c l hl hou
      rw [hm] at hl
      have h1 := hI.lots u sd
      rw [hz] at h1
      have h2 := pendLots_nonneg (P := ownedBy u sd) hI.slots.pos
      have h3 := restLots_pos hI.live.pos hl (P := ownedBy u sd) (ownedBy_iff.mpr ⟨by simp [identL, hou], by simp [identL]⟩)
      cases sd <;> simp only [Pos.lots] at h1 <;> omega
    have hl : u < s.accts.length := (List.getElem?_eq_some_iff.mp ha).1
    obtain ⟨q1, q2⟩ := p2 u hnone
    refine ⟨hbk, ?_, hev, q1, q2, rfl, rfl, rfl, ?_, ?_⟩
    · intro b hb oo hoo hmk
      obtain ⟨i, hi⟩ := List.mem_iff_getElem?.1 hoo
      rcases (C24_slots h).2.1 u b hb i oo hi hmk with ⟨l, hl1, _, hl2, _⟩ | ⟨e, he, _, h4⟩
      · exact hbk _ _ l hl1 hl2
      · exact hev e he (by rw [h4])
    · intro v hv
      dsimp only
      rw [List.getElem?_set_ne (by omega)]
    · dsimp only
      rw [List.getElem?_set_self hl]

end Perp

namespace AccountClose
open Slots

/-! ## Examples -/

/-- spot market 3 of the tokens 5 and 0 -/
def exMk : Markets := ⟨fun _ => 5, fun _ => 0, fun _ => 0⟩
def exEnv : Env := ⟨false, true, 1, 1, 2, 2, true, 0, 100, false⟩
/-- a deposit, a spot account, a perp position, a conditional swap -/
def exOps : List Op := [.token 5 100 false, .createSerum 3 7, .ensurePerp 1, .createTcs 0 5 9]
/-- everything closed -/
def exShut : List Op := [.closeSerum 3, .deactivatePerp 1, .closeTcs 0 0 false false, .token 5 0 true, .token 0 0 true]
def exOpen : Acc := ⟨[⟨5, 2, 100⟩, ⟨0, 3, 0⟩], [⟨3, 5, 0, 7⟩], [⟨1, 0⟩], [⟨true, 0, 0, 5, 9⟩], 1⟩
def exBare : Acc := ⟨[⟨FREE, 0, 0⟩, ⟨FREE, 0, 0⟩], [⟨FREE, 5, 0, 7⟩], [⟨FREE, 0⟩], [freeTcs], 1⟩

theorem exOpen_reach : Reach exMk exOpen :=
  runOps_reach exOps (.new 2 1 1 1) (by
    intro o ho
    simp only [exOps, List.mem_cons, List.not_mem_nil, or_false] at ho
    rcases ho with rfl | rfl | rfl | rfl <;> simp only [Op.Registered, exMk] <;> decide) (by decide +kernel)

example : runOps exMk exOpen exShut = .ok exBare ∧ size exOpen = 5 ∧ exShut.length = 5 ∧ closeAccount exEnv false exOpen = .error .requireFailed ∧
    closeAccount exEnv false exBare = .ok () ∧ closeAccount exEnv true exBare = .error .someError ∧
    closeAccount { exEnv with beingLiquidated := true } false exBare = .error .someError ∧ closeAccount { exEnv with testing := true } true exOpen = .ok () ∧
    closeAccount { exEnv with frozenUntil := 100 } false exBare = .error .requireFailed := by decide +kernel

example : ∃ (os : List Op) (b : Acc), os.length = 5 ∧ runOps exMk exOpen os = .ok b ∧ closeAccount exEnv false b = .ok () := by
  obtain ⟨os, b, h1, _, h2, _, _, h3⟩ := C102_can exOpen_reach
  exact ⟨os, b, h1, h2, h3 exEnv ⟨rfl, rfl, rfl, rfl, by decide⟩ rfl⟩

end AccountClose

namespace Perp
-- the account of a taker that is closed while its two fills, which cancel out, are pending
example : (pstep (txRun txFree) (.close 1)).toOption.isSome = true ∧ (fillsOf (pending (txRun txFree))).length = 2 := by decide +kernel
-- an account with an order on the book cannot be closed
example : pstep (txRun txOps) (.close 1) = .error .requireFailed := by decide +kernel
end Perp
end Mango
