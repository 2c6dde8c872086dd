import Verif.Props.PerpOrder
/-!
# C68: exposure in a reduce-only market, over any history
-/
namespace Mango
namespace PerpOrder
open Fx Perp Book

/-- the longest the position can get by executing the owner's open bids, zero if that is still short -/
def worstLong (p : Perp.Pos) : Int := max (effective p + p.bids) 0
/-- the shortest the position can get by executing the owner's open asks, zero if that is still long -/
def worstShort (p : Perp.Pos) : Int := max (p.asks - effective p) 0

/-- neither exposure grows -/
def NoMore (p p' : Perp.Pos) : Prop := worstLong p' ≤ worstLong p ∧ worstShort p' ≤ worstShort p

theorem NoMore.rfl' {p : Perp.Pos} : NoMore p p := ⟨le_refl _, le_refl _⟩
theorem NoMore.trans {p q r : Perp.Pos} (h : NoMore p q) (h' : NoMore q r) : NoMore p r := ⟨h'.1.trans h.1, h'.2.trans h.2⟩

/-- same position and open lots -/
theorem NoMore.same {p p' : Perp.Pos} (hb : p'.base = p.base) (ht : p'.takerBase = p.takerBase) (hl : ∀ sd, p'.lots sd = p.lots sd) : NoMore p p' := by
  have h1 := hl .bid
  have h2 := hl .ask
  simp only [Pos.lots] at h1 h2
  unfold NoMore worstLong worstShort effective
  rw [hb, ht, h1, h2]
  exact ⟨le_refl _, le_refl _⟩

/-- fewer open lots -/
theorem NoMore.fewer {p p' : Perp.Pos} (hb : p'.base = p.base) (ht : p'.takerBase = p.takerBase) (hl : ∀ sd, p'.lots sd ≤ p.lots sd) : NoMore p p' := by
  have h1 := hl .bid
  have h2 := hl .ask
  simp only [Pos.lots] at h1 h2
  unfold NoMore worstLong worstShort effective
  rw [hb, ht]
  constructor <;> omega

/-- instructions that leave the account `u` and the market's reduce-only flag to the orders: no liquidation of `u` or by `u`, no forced close of `u` -/
def Allowed (u : Nat) : POp → Prop
  | .forceClose a b _ => a ≠ u ∧ b ≠ u
  | .liqBase a b _ _ _ => a ≠ u ∧ b ≠ u
  | .market m => m.reduceOnly = true
  | _ => True

/-- one slot cancelled -/
theorem cancel_noMore {s : PSys} {sp : Side → SpecSide} (h : PInv s sp) {u slot : Nat} {a a' : PAcct} {b' : OBook}
    (hc : cancelBySlot s.market.idx u slot a s.book = .ok (a', b')) : NoMore (posD a) (posD a') := by
  unfold cancelBySlot at hc
  simp only [bind_ok, getOO_ok, require_ok, ok_inj, Prod.exists, Prod.mk.injEq] at hc
  obtain ⟨oo, hoo, _, hact, x, bs, hrem, qty, hqty, a1, hrm, rfl, rfl⟩ := hc
  obtain ⟨b1, hb1, hsim, hlen, hbids⟩ := remove_sim (h.live.is.sim oo.side) oo.tree oo.id
  rw [hb1, ok_inj, Prod.mk.injEq] at hrem
  obtain ⟨hx, hbs⟩ := hrem
  have hq : 0 ≤ qty := by
    cases hxx : x with
    | none =>
      rw [hxx] at hqty
      simp only at hqty
      split at hqty
      · simp at hqty
      · rw [ok_inj] at hqty; omega
    | some l =>
      rw [hxx] at hqty hx
      simp only [bind_ok, require_ok, ok_inj] at hqty
      obtain ⟨_, e1, _, e2, e3⟩ := hqty
      obtain ⟨m1, m2⟩ := sFind_mem hx
      have := h.live.pos _ _ _ m1
      omega
  obtain ⟨oo2, p, p', hoo2, hp, hp', r1, r2, r3, r4, _⟩ := removePerpOrder_ok hrm
  rw [posD_some hp, posD_some hp']
  refine NoMore.fewer r2 r4 (fun sd => ?_)
  rw [r1 sd]; split <;> omega

theorem cancelAll_noMore {sideOpt : Option Side} : ∀ (n : Nat) {i limit : Nat} {s : PSys} {sp : Side → SpecSide} {u : Nat} {a a' : PAcct} {b' : OBook}, PInv s sp →
    s.accts[u]? = some a → cancelAllFrom s.market.idx u sideOpt n i limit a s.book = .ok (a', b') → NoMore (posD a) (posD a') := by
  intro n
  induction n with
  | zero =>
    intro i limit s sp u a a' b' h ha hc
    simp only [cancelAllFrom, ok_inj, Prod.mk.injEq] at hc
    obtain ⟨rfl, rfl⟩ := hc
    exact NoMore.rfl'
  | succ n ih =>
    intro i limit s sp u a a' b' h ha hc
    simp only [cancelAllFrom, bind_ok, getOO_ok] at hc
    obtain ⟨oo, hoo, hc⟩ := hc
    split at hc
    · exact ih h ha hc
    · split at hc
      · exact ih h ha hc
      · simp only [bind_ok, Prod.exists] at hc
        obtain ⟨a1, b1, h1, hc⟩ := hc
        have hstep : NoMore (posD a) (posD a1) ∧ ∃ sp1, PInv { s with accts := s.accts.set u a1, book := b1 } sp1 := by
          split at h1
          · rw [ok_inj, Prod.mk.injEq] at h1
            obtain ⟨rfl, rfl⟩ := h1
            exact ⟨NoMore.rfl', sp, by rw [set_self ha]; exact h⟩
          · exact ⟨cancel_noMore h h1, h.cancel ha h1⟩
        obtain ⟨hn, sp1, hI1⟩ := hstep
        split at hc
        · simp at hc
        · split at hc
          · rw [ok_inj, Prod.mk.injEq] at hc
            obtain ⟨rfl, rfl⟩ := hc
            exact hn
          · have hlt : u < s.accts.length := (List.getElem?_eq_some_iff.mp ha).1
            exact hn.trans (ih (u := u) (a := a1) hI1 (by simp [hlt]) hc)

/-- one account changed -/
theorem set_noMore {accts : List PAcct} {u v : Nat} {a a' : PAcct} (ha : accts[u]? = some a) (h : NoMore (posD a) (posD a')) : NoMore (pget accts v) (pget (accts.set u a') v) := by
  rw [pget_set ha]
  split
  · next hv => rw [hv, pget_some ha]; exact h
  · exact NoMore.rfl'

theorem cancelOp_noMore {s s' : PSys} {u v : Nat} {f : PAcct → OBook → Res (PAcct × OBook)} (hf : ∀ a a' b', s.accts[u]? = some a → f a s.book = .ok (a', b') → NoMore (posD a) (posD a'))
    (h : cancelOp s u f = .ok s') : NoMore (pget s.accts v) (pget s'.accts v) ∧ s'.market.reduceOnly = s.market.reduceOnly := by
  unfold cancelOp at h
  split at h
  · simp at h
  · next a ha =>
    simp only [bind_ok, Prod.exists, ok_inj] at h
    obtain ⟨a', b', h1, rfl⟩ := h
    exact ⟨set_noMore ha (hf a a' b' ha h1), rfl⟩

/-- the maker's side of a fill -/
theorem maker_noMore {a a' : PAcct} {m m' : Market} {f : FillEv} (hq : 0 < f.quantity) (h : a.executeMaker m f = .ok (a', m')) : NoMore (posD a) (posD a') ∧ m'.reduceOnly = m.reduceOnly := by
  obtain ⟨⟨p, p1, uf, hp, hp1, _, m_l, m_b, _, _, m_tb, _, _, _, m_m⟩, _, _⟩ := executeMaker_ok h
  rw [posD_some hp, posD_some hp1]
  refine ⟨?_, by rw [m_m]⟩
  rw [abs_of_pos hq] at m_l
  have l1 := m_l .bid
  have l2 := m_l .ask
  simp only [Pos.lots] at l1 l2
  unfold NoMore worstLong worstShort effective
  rw [m_b, m_tb, l1, l2]
  cases hs : f.takerSide <;> simp [Side.invert, Side.sgn] <;> omega

/-- the taker's side of a fill -/
theorem taker_noMore {a a' : PAcct} {m m' : Market} {f : FillEv} (h : a.executeTaker m f = .ok (a', m')) : NoMore (posD a) (posD a') ∧ m'.reduceOnly = m.reduceOnly := by
  obtain ⟨⟨r, r1, uf', hr, hr1, _, t_l, t_b, _, _, t_tb, _, _, _, t_m⟩, _⟩ := executeTaker_ok h
  rw [posD_some hr, posD_some hr1]
  refine ⟨?_, by rw [t_m]⟩
  have l1 := t_l .bid
  have l2 := t_l .ask
  simp only [Pos.lots] at l1 l2
  unfold NoMore worstLong worstShort effective
  rw [t_b, t_tb, l1, l2]
  constructor <;> omega

theorem consumeOne_noMore {s s' : PSys} {sp : Side → SpecSide} {avail : List Nat} (h : PInv s sp) (v : Nat) (hc : consumeOne s avail = .ok (some s')) :
    NoMore (pget s.accts v) (pget s'.accts v) ∧ s'.market.reduceOnly = s.market.reduceOnly := by
  unfold Perp.consumeOne at hc
  split at hc
  · simp at hc
  · next f hpk =>
    obtain ⟨q0, hpop⟩ := peek_pop h.queue hpk
    have hq : 0 < f.quantity := (h.ekey hpop).2
    split at hc
    · next hmt =>
      split at hc
      · split at hc
        · simp at hc
        · next a ha =>
          simp only [bind_ok, Prod.exists, hpop, ok_inj, Prod.mk.injEq, Option.some.injEq] at hc
          obtain ⟨a1, m1, h1, a2, m2, h2, e, q, ⟨rfl, rfl⟩, rfl⟩ := hc
          have g1 := maker_noMore hq h1
          have g2 := taker_noMore h2
          exact ⟨set_noMore ha (g1.1.trans g2.1), g2.2.trans g1.2⟩
      · simp at hc
    · next hmt =>
      split at hc
      · split at hc
        · split at hc
          · next a b ha hb =>
            simp only [bind_ok, Prod.exists, hpop, ok_inj, Prod.mk.injEq, Option.some.injEq] at hc
            obtain ⟨a1, m1, h1, a2, m2, h2, e, q, ⟨rfl, rfl⟩, rfl⟩ := hc
            have g1 := maker_noMore hq h1
            have g2 := taker_noMore h2
            refine ⟨(set_noMore ha g1.1).trans (set_noMore (a := b) ?_ g2.1), g2.2.trans g1.2⟩
            rw [List.getElem?_set_ne hmt]; exact hb
          · simp at hc
        · simp at hc
      · simp at hc
  · next e hpk =>
    obtain ⟨q0, hpop⟩ := peek_pop h.queue hpk
    have hq : 0 < e.quantity := (h.ekey hpop).2
    split at hc
    · split at hc
      · simp at hc
      · next a ha =>
        simp only [bind_ok, Prod.exists, hpop, ok_inj, Prod.mk.injEq, Option.some.injEq] at hc
        obtain ⟨a1, h1, e', q, ⟨rfl, rfl⟩, rfl⟩ := hc
        obtain ⟨⟨p, p1, hp, hp1, m_l, m_b, _, m_tb, _⟩, _, _⟩ := executeOut_ok h1
        refine ⟨set_noMore ha ?_, rfl⟩
        rw [posD_some hp, posD_some hp1]
        refine NoMore.fewer m_b m_tb (fun sd => ?_)
        rw [m_l sd]; split <;> omega
    · simp at hc

theorem consumeLoop_noMore {avail : List Nat} {sp : Side → SpecSide} (v : Nat) : ∀ (n : Nat) {s s' : PSys}, PInv s sp → consumeLoop n s avail = .ok s' →
    NoMore (pget s.accts v) (pget s'.accts v) ∧ s'.market.reduceOnly = s.market.reduceOnly := by
  intro n
  induction n with
  | zero => intro s s' h hc; simp only [Perp.consumeLoop, ok_inj] at hc; subst hc; exact ⟨NoMore.rfl', rfl⟩
  | succ n ih =>
    intro s s' h hc
    simp only [Perp.consumeLoop, bind_ok] at hc
    obtain ⟨r, h1, hc⟩ := hc
    cases r with
    | none => simp only [ok_inj] at hc; subst hc; exact ⟨NoMore.rfl', rfl⟩
    | some s1 =>
      obtain ⟨h2, h3⟩ := consumeOne_noMore h v h1
      obtain ⟨h4, h5⟩ := ih (h.consumeOne h1).1 hc
      exact ⟨h2.trans h4, h5.trans h3⟩

/-- positions after a transfer between two other accounts -/
theorem two_set {accts : List PAcct} {i j v : Nat} {a b a' b' : PAcct} (ha : accts[i]? = some a) (hb : accts[j]? = some b) (hij : i ≠ j) (hi : i ≠ v) (hj : j ≠ v) :
    pget ((accts.set i a').set j b') v = pget accts v := by
  rw [pget_set (a := b) (by rw [List.getElem?_set_ne hij]; exact hb), if_neg (fun e => hj e.symm), pget_set ha, if_neg (fun e => hi e.symm)]

/-- one instruction in a reduce-only market -/
theorem step_noMore {s s' : PSys} {sp : Side → SpecSide} (h : PInv s sp) {op : POp} (ht : op.Typed) {u : Nat} (hal : Allowed u op) (hro : s.market.reduceOnly = true)
    (hs : pstep s op = .ok s') : NoMore (pget s.accts u) (pget s'.accts u) ∧ s'.market.reduceOnly = true := by
  cases op with
  | place v o oracle now limit room =>
    obtain ⟨size, filled, posted, g1, g2, g3, _, g5, g6, g7, _, g9, _, g11, _⟩ := placed_position h ht hs
    refine ⟨?_, g11.trans hro⟩
    by_cases hv : u = v
    · subst hv
      have g9 := g9 hro
      have l1 := g6 .bid
      have l2 := g6 .ask
      cases hsd : o.side <;> simp only [hsd, Side.sgn, Pos.lots] at * <;> simp at l1 l2 <;> unfold NoMore worstLong worstShort <;> constructor <;> omega
    · rw [g7 u hv]; exact NoMore.rfl'
  | cancelId v id =>
    obtain ⟨g1, g2⟩ := cancelOp_noMore (v := u) (fun a a' b' ha hc => by
      unfold cancelById at hc
      split at hc
      · simp at hc
      · exact cancel_noMore h hc) hs
    exact ⟨g1, g2.trans hro⟩
  | cancelClient v cid =>
    obtain ⟨g1, g2⟩ := cancelOp_noMore (v := u) (fun a a' b' ha hc => by
      unfold cancelByClientId at hc
      split at hc
      · simp at hc
      · exact cancel_noMore h hc) hs
    exact ⟨g1, g2.trans hro⟩
  | cancelAll v limit sideOpt =>
    obtain ⟨g1, g2⟩ := cancelOp_noMore (v := u) (fun a a' b' ha hc => cancelAll_noMore _ h ha hc) hs
    exact ⟨g1, g2.trans hro⟩
  | consume limit avail =>
    obtain ⟨g1, g2⟩ := consumeLoop_noMore u _ h hs
    exact ⟨g1, g2.trans hro⟩
  | deactivate v =>
    simp only [pstep, deactivateOp] at hs
    split at hs
    · simp at hs
    · next a ha =>
      simp only [bind_ok, getPos_ok, require_ok, ok_inj] at hs
      obtain ⟨p, hp, p1, h1, _, z1, _, z2, _, z3, _, z4, rfl⟩ := hs
      obtain ⟨v1, v2, v3, v4⟩ := settle_view h1
      refine ⟨set_noMore ha ?_, hro⟩
      rw [posD_some hp]
      refine NoMore.same ?_ ?_ ?_
      · rw [← v1]; exact z1.symm
      · rw [← v3]; exact z4.1.symm
      · intro sd; rw [← v2 sd]; cases sd
        · exact z3.1.symm
        · exact z3.2.symm
  | forceClose i j price =>
    simp only [pstep, forceCloseOp, bind_ok, require_ok] at hs
    obtain ⟨_, hij, _, _, hs⟩ := hs
    split at hs
    · next a b ha hb =>
      simp only [bind_ok, getPos_ok, require_ok, ck64_ok, abs64_ok, mul_ok, neg_ok, Prod.exists, ok_inj] at hs
      obtain ⟨p, hp, q, hq, _, _, _, _, qa, ⟨rfl, _⟩, nat, ⟨rfl, _⟩, quote, ⟨rfl, _⟩, nt, ⟨rfl, _⟩, nq, ⟨rfl, _⟩, p', m1, h1, q', m2, h2, rfl⟩ := hs
      have t1 := recordTrade_ok h1
      have t2 := recordTrade_ok h2
      refine ⟨?_, ?_⟩
      · dsimp only; rw [two_set ha hb hij hal.1 hal.2]; exact NoMore.rfl'
      · show m2.reduceOnly = true
        rw [t2.2, t1.2]; exact hro
    · simp at hs
  | liqBase i j base ql qr =>
    simp only [pstep, liqBaseOp, bind_ok, require_ok] at hs
    obtain ⟨_, hij, hs⟩ := hs
    split at hs
    · next a b ha hb =>
      simp only [bind_ok, getPos_ok, require_ok, ck64_ok, Prod.exists, ok_inj] at hs
      obtain ⟨p, hp, b1, hb1, q, hq, p1, hp1, q1, hq1, _, _, p', m1, h1, nb, ⟨rfl, _⟩, q', m2, h2, rfl⟩ := hs
      have t1 := recordTrade_ok h1
      have t2 := recordTrade_ok h2
      refine ⟨?_, ?_⟩
      · dsimp only; rw [two_set ha hb hij hal.1 hal.2]; exact NoMore.rfl'
      · show m2.reduceOnly = true
        rw [t2.2, t1.2]; exact hro
    · simp at hs
  | resize v n =>
    simp only [pstep] at hs
    split at hs
    · simp at hs
    · next a ha =>
      simp only [bind_ok, ok_inj, resizeOO, require_ok] at hs
      obtain ⟨oos, ⟨_, hd, rfl⟩, rfl⟩ := hs
      exact ⟨set_noMore ha NoMore.rfl', hro⟩
  | create n =>
    simp only [pstep, ok_inj] at hs
    subst hs
    refine ⟨?_, hro⟩
    have hpg : pget (s.accts ++ [{ oos := List.replicate n ({} : OO) }]) u = pget s.accts u := by
      unfold pget
      rw [List.getElem?_append]
      split
      · rfl
      · next hl =>
        rw [List.getElem?_eq_none (l := s.accts) (by omega)]
        by_cases hv : u - s.accts.length = 0
        · rw [hv]; rfl
        · rw [List.getElem?_eq_none (by simp; omega)]
    dsimp only
    rw [hpg]; exact NoMore.rfl'
  | close v =>
    simp only [pstep] at hs
    split at hs
    · simp at hs
    · next a ha =>
      simp only [bind_ok, require_ok, ok_inj] at hs
      obtain ⟨_, hp, rfl⟩ := hs
      refine ⟨set_noMore ha ?_, hro⟩
      have hD : posD a = {} := by simp [posD, hp]
      rw [hD]; exact NoMore.rfl'
  | ensure v =>
    simp only [pstep] at hs
    split at hs
    · simp at hs
    · next a ha =>
      simp only [bind_ok, ok_inj] at hs
      obtain ⟨a', h1, rfl⟩ := hs
      refine ⟨set_noMore ha ?_, hro⟩
      rw [(h.ensure ha h1).2.1]; exact NoMore.rfl'
  | quotes v quote ls ss os rc w st =>
    simp only [pstep] at hs
    split at hs
    · simp at hs
    · next a ha =>
      simp only [bind_ok, getPos_ok, ok_inj] at hs
      obtain ⟨p, hp, rfl⟩ := hs
      refine ⟨set_noMore ha ?_, hro⟩
      rw [posD_some hp]
      refine NoMore.same rfl rfl ?_
      intro sd; cases sd <;> rfl
  | market m =>
    simp only [pstep, ok_inj] at hs
    subst hs
    exact ⟨NoMore.rfl', hal⟩
  | otherSlot v i oo =>
    simp only [pstep] at hs
    split at hs
    · simp at hs
    · next a ha =>
      simp only [bind_ok, getOO_ok, require_ok, ok_inj] at hs
      obtain ⟨old, hold, _, ⟨n1, n2⟩, rfl⟩ := hs
      exact ⟨set_noMore ha NoMore.rfl', hro⟩

theorem run_noMore (u : Nat) : ∀ (ops : List POp) {s : PSys} {sp : Side → SpecSide}, PInv s sp → (∀ op ∈ ops, op.Typed ∧ Allowed u op) →
    s.market.seqNum + ordersPlaced ops < 9223372036854775808 → s.market.reduceOnly = true →
    NoMore (pget s.accts u) (pget (prun s ops).accts u) ∧ (prun s ops).market.reduceOnly = true := by
  intro ops
  induction ops with
  | nil => intro s sp _ _ _ hr; exact ⟨NoMore.rfl', hr⟩
  | cons op ops ih =>
    intro s sp h ht hn hr
    simp only [ordersPlaced, List.map_cons, List.sum_cons] at hn ih
    unfold prun
    split
    · next s' hs =>
      obtain ⟨⟨sp', h1⟩, h2⟩ := pstep_inv h (ht op (by simp)).1 (by omega) hs
      obtain ⟨g1, g2⟩ := step_noMore h (ht op (by simp)).1 (ht op (by simp)).2 hr hs
      obtain ⟨g3, g4⟩ := ih h1 (fun o ho => ht o (by simp [ho])) (by omega) g2
      exact ⟨g1.trans g3, g4⟩
    · exact ih h (fun o ho => ht o (by simp [ho])) (by omega) hr

/-- **C68.** From any reachable state of a reduce-only market, whatever history of instructions follows by anybody (orders, cancellations, event processing, settlements, funding; the flag stays set), as long as the account itself is
neither liquidated, nor liquidates, nor is closed by force: neither the longest nor the shortest position it can reach with its open orders ever grows. -/
theorem C68_exposure {s : PSys} (hR : Reachable s) (hro : s.market.reduceOnly = true) (u : Nat) (ops : List POp) (ht : ∀ op ∈ ops, op.Typed) (hal : ∀ op ∈ ops, Allowed u op)
    (hn : s.market.seqNum + ordersPlaced ops < 9223372036854775808) :
    let p := pget s.accts u
    let p' := pget (prun s ops).accts u
    max (p'.base + p'.takerBase + p'.bids) 0 ≤ max (p.base + p.takerBase + p.bids) 0 ∧
    max (-(p'.base + p'.takerBase - p'.asks)) 0 ≤ max (-(p.base + p.takerBase - p.asks)) 0 := by
  intro p p'
  obtain ⟨sp, hI⟩ := hR.inv
  obtain ⟨h1, h2⟩ := (run_noMore u ops hI (fun op ho => ⟨ht op ho, hal op ho⟩) hn hro).1
  unfold worstLong effective at h1
  unfold worstShort effective at h2
  have e1 : -(p'.base + p'.takerBase - p'.asks) = p'.asks - (p'.base + p'.takerBase) := by ring
  have e2 : -(p.base + p.takerBase - p.asks) = p.asks - (p.base + p.takerBase) := by ring
  rw [e1, e2]
  exact ⟨h1, h2⟩

/-- **C68.** So an account without position and without orders never gets any in a reduce-only market. -/
theorem C68_no_new {s : PSys} (hR : Reachable s) (hro : s.market.reduceOnly = true) (u : Nat) (ops : List POp) (ht : ∀ op ∈ ops, op.Typed) (hal : ∀ op ∈ ops, Allowed u op)
    (hn : s.market.seqNum + ordersPlaced ops < 9223372036854775808)
    (h0 : (pget s.accts u).base + (pget s.accts u).takerBase = 0 ∧ (pget s.accts u).bids = 0 ∧ (pget s.accts u).asks = 0) :
    let p' := pget (prun s ops).accts u
    p'.base + p'.takerBase = 0 ∧ p'.bids = 0 ∧ p'.asks = 0 := by
  intro p'
  obtain ⟨h1, h2⟩ := C68_exposure hR hro u ops ht hal hn
  obtain ⟨sp, hI⟩ := hR.inv
  obtain ⟨sp', hI'⟩ := prun_inv ops hI ht hn
  have b1 := lots_nonneg hI' u .bid
  have b2 := lots_nonneg hI' u .ask
  simp only [Pos.lots] at b1 b2
  rw [h0.1, h0.2.1] at h1
  rw [h0.1, h0.2.2] at h2
  change 0 ≤ p'.bids at b1
  change 0 ≤ p'.asks at b2
  change max (p'.base + p'.takerBase + p'.bids) 0 ≤ _ at h1
  change max (-(p'.base + p'.takerBase - p'.asks)) 0 ≤ _ at h2
  refine ⟨?_, ?_, ?_⟩ <;> omega

end PerpOrder
end Mango
