import Verif.Perp.SystemSteps
/-! Helper: the invariant holds along every history of the perp market (C24–C26). -/
namespace Mango
namespace Perp
open Book Fx

/-- a failing or succeeding `record_trade` pair with opposite base changes -/
theorem PInv.transfer {s : PSys} {sp : Side → SpecSide} (h : PInv s sp) {i j : Nat} (hij : i ≠ j) {a b a' b' : PAcct} {p q p' q' : Pos} {m1 m2 : Market}
    {t : Int} {x y : I80F48} (ha : s.accts[i]? = some a) (hb : s.accts[j]? = some b) (hp : a.pos = some p) (hq : b.pos = some q)
    {p0 q0 : Pos} (hp0 : p0.base = p.base ∧ (∀ sd, p0.lots sd = p.lots sd) ∧ p0.takerBase = p.takerBase ∧ p0.takerQuote = p.takerQuote)
    (hq0 : q0.base = q.base ∧ (∀ sd, q0.lots sd = q.lots sd) ∧ q0.takerBase = q.takerBase ∧ q0.takerQuote = q.takerQuote)
    (h1 : Traded p0 s.market t x p' m1) (h2 : Traded q0 m1 (-t) y q' m2) (ha' : a' = a.setPos p') (hb' : b' = b.setPos q') :
    PInv { s with market := m2, accts := (s.accts.set i a').set j b' } sp := by
  obtain ⟨⟨r1, e1⟩, e2⟩ := h1
  obtain ⟨⟨r2, e3⟩, e4⟩ := h2
  have hb2 : (s.accts.set i a')[j]? = some b := by rw [List.getElem?_set_ne hij]; exact hb
  have hpa : pget s.accts i = p := by rw [pget_some ha, posD_some hp]
  have hqb : pget s.accts j = q := by rw [pget_some hb, posD_some hq]
  have hDa : posD a' = p' := by rw [ha']; rfl
  have hDb : posD b' = q' := by rw [hb']; rfl
  have hpg : ∀ v, pget ((s.accts.set i a').set j b') v = if v = j then q' else if v = i then p' else pget s.accts v := by
    intro v
    rw [pget_set hb2, pget_set ha, hDa, hDb]
  have l1 : ∀ sd, p'.lots sd = p.lots sd := by intro sd; rw [← hp0.2.1 sd, e1]; cases sd <;> rfl
  have l2 : ∀ sd, q'.lots sd = q.lots sd := by intro sd; rw [← hq0.2.1 sd, e3]; cases sd <;> rfl
  refine ⟨h.live, h.queue, ?_, ?_, ?_, ?_, ?_, ?_, ?_⟩
  · simp only; rw [e4, e2]; exact h.idx
  · simp only
    have hi : m2.idx = s.market.idx := by rw [e4, e2]
    have hs : m2.seqNum = s.market.seqNum := by rw [e4, e2]
    rw [hi, hs]
    apply h.slots.congr
    intro v k oo
    rw [active_set hb2, active_set ha]
    have o1 : a'.oos = a.oos := by rw [ha']; rfl
    have o2 : b'.oos = b.oos := by rw [hb']; rfl
    by_cases hv : v = j
    · subst hv; rw [active_at hb, o2]; simp
    · by_cases hv2 : v = i
      · subst hv2; rw [active_at ha, o1]; simp [hv]
      · simp [hv, hv2]
  · intro v sd
    rw [← h.lots v sd]
    simp only; rw [hpg]
    split
    · next hv => rw [hv, hqb, l2]
    · split
      · next hv => rw [hv, hpa, l1]
      · rfl
  · intro v
    rw [← h.tb v]
    simp only; rw [hpg]
    split
    · next hv => rw [hv, hqb, ← hq0.2.2.1, e3]
    · split
      · next hv => rw [hv, hpa, ← hp0.2.2.1, e1]
      · rfl
  · intro v
    rw [← h.tq v]
    simp only; rw [hpg]
    split
    · next hv => rw [hv, hqb, ← hq0.2.2.2, e3]
    · split
      · next hv => rw [hv, hpa, ← hp0.2.2.2, e1]
      · rfl
  · simp only
    rw [sumOf_set _ hb2, sumOf_set _ ha, hDa, hDb, posD_some hp, posD_some hq, e4, e2, e1, e3, ← hp0.1, ← hq0.1]
    simp only
    have := h.oi; omega
  · simp only
    rw [sumOf_set _ hb2, sumOf_set _ ha, hDa, hDb, posD_some hp, posD_some hq, e1, e3, ← hp0.1, ← hq0.1]
    simp only
    have := h.zero; omega

theorem settle_view {p p' : Pos} {m : Market} (h : p.settleFunding m = .ok p') :
    p'.base = p.base ∧ (∀ sd, p'.lots sd = p.lots sd) ∧ p'.takerBase = p.takerBase ∧ p'.takerQuote = p.takerQuote := by
  obtain ⟨f, _, rfl⟩ := settleFunding_ok h
  exact ⟨rfl, fun sd => by cases sd <;> rfl, rfl, rfl⟩

theorem Traded.seqNum {p p' : Pos} {m m' : Market} {b : Int} {q : I80F48} (h : Traded p m b q p' m') : m'.seqNum = m.seqNum := by rw [h.market]

theorem cancelBySlot_inv {k : Nat} {s s' : PSys} {sp : Side → SpecSide} (h : PInv s sp) {u : Nat} {f : PAcct → OBook → Res (PAcct × OBook)}
    (hf : ∀ a a' b', s.accts[u]? = some a → f a s.book = .ok (a', b') → ∃ sp', PInv { s with accts := s.accts.set u a', book := b' } sp')
    (hc : cancelOp s u f = .ok s') : (∃ sp', PInv s' sp') ∧ s'.market.seqNum ≤ s.market.seqNum + k := by
  unfold cancelOp at hc
  split at hc
  · simp at hc
  · next a ha =>
    simp only [bind_ok, Prod.exists, ok_inj] at hc
    obtain ⟨a', b', h1, rfl⟩ := hc
    exact ⟨hf a a' b' ha h1, by simp⟩

theorem newOrder_seq {s : PSys} {sp : Side → SpecSide} (h : PInv s sp) {u : Nat} {a : PAcct}
    {o : Order} (ht : o.Typed) (hb : 0 ≤ o.maxBase) (hq : 0 ≤ o.maxQuote) {oracle : I80F48} {now limit : Nat} {r : Option Nat} {n : NOState}
    (hn : newOrder o oracle u now limit { market := s.market, acct := a, book := s.book, queue := s.queue } = .ok (r, n)) :
    n.market.seqNum = s.market.seqNum + 1 := by
  have hS : Setup o { market := s.market, acct := a, book := s.book, queue := s.queue } sp := ⟨ht, hb, hq, h.live, h.queue⟩
  obtain ⟨P⟩ := place hS hn
  have h2 := (P.charged h.live hb hq).2
  have : n.market = P.m2 := by
    rcases P.fin with ⟨_, hs, _⟩ | ⟨_, t, _, _, _, _, ⟨W⟩⟩
    · rw [← P.s1_market, ← hs]
    · rw [W.market, P.s1_market]
  rw [this]; exact h2

theorem pstep_inv {s s' : PSys} {sp : Side → SpecSide} (h : PInv s sp) {op : POp} (ht : op.Typed)
    (hseq : s.market.seqNum + op.orders < 9223372036854775808) (hs : pstep s op = .ok s') :
    (∃ sp', PInv s' sp') ∧ s'.market.seqNum ≤ s.market.seqNum + op.orders := by
  cases op with
  | place u o oracle now limit room =>
    simp only [pstep, placeOp, bind_ok, require_ok] at hs
    obtain ⟨_, hb, _, hq, hs⟩ := hs
    split at hs
    · simp at hs
    · next a ha =>
      simp only [bind_ok, getPos_ok, Prod.exists, ok_inj] at hs
      obtain ⟨a1, h1, p, hp, o', h2, r, n, h3, rfl⟩ := hs
      obtain ⟨hI, _, _, _⟩ := h.ensure ha h1
      obtain ⟨mb, e, hmb, _, ho'⟩ := reduceOrder_ok h2 ht hb hq
      have hlt : u < s.accts.length := (List.getElem?_eq_some_iff.mp ha).1
      have hq' : 0 ≤ o'.maxQuote := by rw [e]; exact hq
      have hb' : 0 ≤ o'.maxBase := by rw [e]; exact hmb
      obtain ⟨sp', hI'⟩ := hI.place (u := u) (a := a1) (by simp [hlt]) hp ho' hb' hq' h3 hseq
      refine ⟨⟨sp', ?_⟩, ?_⟩
      · simpa only [List.set_set] using hI'
      · have := newOrder_seq hI (u := u) ho' hb' hq' h3
        simp only [POp.orders] at this ⊢; omega
  | cancelId u id =>
    apply cancelBySlot_inv h _ hs
    intro a a' b' ha hc
    unfold cancelById at hc
    split at hc
    · simp at hc
    · exact h.cancel ha hc
  | cancelClient u cid =>
    apply cancelBySlot_inv h _ hs
    intro a a' b' ha hc
    unfold cancelByClientId at hc
    split at hc
    · simp at hc
    · exact h.cancel ha hc
  | cancelAll u limit sideOpt =>
    apply cancelBySlot_inv h _ hs
    intro a a' b' ha hc
    exact PInv.cancelAll _ h ha hc
  | consume limit avail =>
    obtain ⟨h1, h2⟩ := h.consumeLoop _ hs
    exact ⟨⟨sp, h1⟩, by omega⟩
  | deactivate u =>
    simp only [pstep, deactivateOp] at hs
    split at hs
    · simp at hs
    · next a ha =>
      simp only [bind_ok, getPos_ok, require_ok, ok_inj] at hs
      obtain ⟨p, hp, p1, h1, _, z1, _, z2, _, z3, _, z4, rfl⟩ := hs
      obtain ⟨v1, v2, v3, v4⟩ := settle_view h1
      have hD := posD_some hp
      refine ⟨⟨sp, h.acct ha (fun _ _ => Iff.rfl) ?_ ?_ ?_ ?_⟩, by simp⟩
      · intro sd; rw [hD, ← v2 sd]; cases sd
        · exact z3.1.symm
        · exact z3.2.symm
      · rw [hD, ← v3]; exact z4.1.symm
      · rw [hD, ← v4]; exact z4.2.symm
      · rw [hD, ← v1]; exact z1.symm
  | forceClose i j price =>
    simp only [pstep, forceCloseOp, bind_ok, require_ok] at hs
    obtain ⟨_, hij, _, _, hs⟩ := hs
    split at hs
    · next a b ha hb =>
      simp only [bind_ok, getPos_ok, require_ok, ck64_ok, abs64_ok, mul_ok, neg_ok, Prod.exists, ok_inj] at hs
      obtain ⟨p, hp, q, hq, _, _, _, _, qa, ⟨rfl, _⟩, nat, ⟨rfl, _⟩, quote, ⟨rfl, _⟩, nt, ⟨rfl, _⟩, nq, ⟨rfl, _⟩, p', m1, h1, q', m2, h2, rfl⟩ := hs
      have t1 := recordTrade_ok h1
      have t2 := recordTrade_ok h2
      have t2' := t2
      rw [← neg_neg (max (min p.base |q.base|) 0)] at t2'
      refine ⟨⟨sp, h.transfer hij ha hb hp hq ⟨rfl, fun _ => rfl, rfl, rfl⟩ ⟨rfl, fun _ => rfl, rfl, rfl⟩ t1 t2' rfl rfl⟩, ?_⟩
      · simp only; rw [t2.seqNum, t1.seqNum]; omega
    · simp at hs
  | liqBase i j base ql qr =>
    simp only [pstep, liqBaseOp, bind_ok, require_ok] at hs
    obtain ⟨_, hij, hs⟩ := hs
    split at hs
    · next a b ha hb =>
      simp only [bind_ok, getPos_ok, require_ok, ck64_ok, Prod.exists, ok_inj] at hs
      obtain ⟨p, hp, b1, hb1, q, hq, p1, hp1, q1, hq1, _, _, p', m1, h1, nb, ⟨rfl, _⟩, q', m2, h2, rfl⟩ := hs
      have t1 := recordTrade_ok h1
      have t2 := recordTrade_ok h2
      obtain ⟨hI, _⟩ := h.ensure hb hb1
      have hlt : j < s.accts.length := (List.getElem?_eq_some_iff.mp hb).1
      have := hI.transfer (i := i) (j := j) hij (a := a) (b := b1) (by rw [List.getElem?_set_ne (fun e => hij e.symm)]; exact ha) (by simp [hlt])
        hp hq (settle_view hp1) (settle_view hq1) t1 t2 rfl rfl
      refine ⟨⟨sp, ?_⟩, ?_⟩
      · have e : ((s.accts.set j b1).set i (a.setPos p')).set j (b1.setPos q') = (s.accts.set i (a.setPos p')).set j (b1.setPos q') := by
          rw [List.set_comm _ _ (fun e => hij e.symm), List.set_set]
        rw [e] at this
        exact this
      · simp only; rw [t2.seqNum, t1.seqNum]; omega
    · simp at hs
  | resize u n =>
    simp only [pstep] at hs
    split at hs
    · simp at hs
    · next a ha =>
      simp only [bind_ok, ok_inj, resizeOO, require_ok] at hs
      obtain ⟨oos, ⟨_, hd, rfl⟩, rfl⟩ := hs
      refine ⟨⟨sp, h.acct ha ?_ (fun _ => rfl) rfl rfl rfl⟩, by simp⟩
      intro i oo
      simp only
      rw [List.all_eq_true] at hd
      constructor
      · rintro ⟨e1, e2⟩
        refine ⟨?_, e2⟩
        rw [List.getElem?_append] at e1
        split at e1
        · next hl =>
          rw [List.length_take] at hl
          rw [List.getElem?_take] at e1
          rw [if_pos (by omega)] at e1; exact e1
        · have := List.mem_of_getElem? e1
          rw [List.mem_replicate] at this
          rw [this.2] at e2; exact absurd e2.symm h.idx
      · rintro ⟨e1, e2⟩
        refine ⟨?_, e2⟩
        have hlt : i < a.oos.length := (List.getElem?_eq_some_iff.mp e1).1
        by_cases hin : i < n
        · rw [List.getElem?_append_left (by rw [List.length_take]; omega), List.getElem?_take, if_pos hin]; exact e1
        · exfalso
          have : oo ∈ a.oos.drop n := by
            rw [List.mem_iff_getElem?]
            exact ⟨i - n, by rw [List.getElem?_drop]; rw [show n + (i - n) = i by omega]; exact e1⟩
          have := hd oo this
          exact h.idx (e2.symm.trans (by simpa using this))
  | create n =>
    simp only [pstep, ok_inj] at hs
    subst hs
    have hpg : ∀ v, pget (s.accts ++ [{ oos := List.replicate n ({} : OO) }]) v = pget s.accts v := by
      intro v
      unfold pget
      rw [List.getElem?_append]
      split
      · rfl
      · next hl =>
        rw [List.getElem?_eq_none (l := s.accts) (by omega)]
        by_cases hv : v - s.accts.length = 0
        · rw [hv]; rfl
        · rw [List.getElem?_eq_none (by simp; omega)]
    refine ⟨⟨sp, h.live, h.queue, h.idx, ?_, ?_, ?_, ?_, ?_, ?_⟩, by simp⟩
    · apply h.slots.congr
      intro v i oo
      unfold Active
      simp only
      rw [List.getElem?_append]
      constructor
      · rintro ⟨a, e1, e2, e3⟩
        split at e1
        · exact ⟨a, e1, e2, e3⟩
        · exfalso
          have := List.mem_of_getElem? e1
          rw [List.mem_singleton] at this
          subst this
          have := List.mem_of_getElem? e2
          rw [List.mem_replicate] at this
          rw [this.2] at e3; exact h.idx e3.symm
      · rintro ⟨a, e1, e2, e3⟩
        have hlt : v < s.accts.length := (List.getElem?_eq_some_iff.mp e1).1
        rw [if_pos hlt]; exact ⟨a, e1, e2, e3⟩
    · intro v sd; simp only; rw [hpg]; exact h.lots v sd
    · intro v; simp only; rw [hpg]; exact h.tb v
    · intro v; simp only; rw [hpg]; exact h.tq v
    · simp only; rw [sumOf_append, h.oi]; simp [posD]
    · simp only; rw [sumOf_append, h.zero]; simp [posD]
  | close u =>
    simp only [pstep] at hs
    split at hs
    · simp at hs
    · next a ha =>
      simp only [bind_ok, require_ok, ok_inj] at hs
      obtain ⟨_, hp, rfl⟩ := hs
      have hD : posD a = {} := by simp [posD, hp]
      refine ⟨⟨sp, h.acct ha ?_ ?_ ?_ ?_ ?_⟩, by simp⟩
      · intro i oo
        simp only [List.getElem?_nil, reduceCtorEq, false_and, false_iff]
        intro hc
        have := h.active_lots ((active_at ha).mpr hc)
        rw [pget_some ha, hD] at this
        cases hs : oo.side <;> rw [hs] at this <;> simp [Pos.lots] at this
      · intro sd; rw [hD]; rfl
      · rw [hD]; rfl
      · rw [hD]; rfl
      · rw [hD]; rfl
  | ensure u =>
    simp only [pstep] at hs
    split at hs
    · simp at hs
    · next a ha =>
      simp only [bind_ok, ok_inj] at hs
      obtain ⟨a', h1, rfl⟩ := hs
      exact ⟨⟨sp, (h.ensure ha h1).1⟩, by simp⟩
  | quotes u quote ls ss os rc w st =>
    simp only [pstep] at hs
    split at hs
    · simp at hs
    · next a ha =>
      simp only [bind_ok, getPos_ok, ok_inj] at hs
      obtain ⟨p, hp, rfl⟩ := hs
      have hD := posD_some hp
      refine ⟨⟨sp, h.acct ha (fun _ _ => Iff.rfl) ?_ ?_ ?_ ?_⟩, by simp⟩
      · intro sd; rw [hD]; cases sd <;> rfl
      · rw [hD]; rfl
      · rw [hD]; rfl
      · rw [hD]; rfl
  | market m =>
    simp only [pstep, ok_inj] at hs
    subst hs
    exact ⟨⟨sp, h.live, h.queue, h.idx, h.slots, h.lots, h.tb, h.tq, h.oi, h.zero⟩, by simp⟩
  | otherSlot u i oo =>
    simp only [pstep] at hs
    split at hs
    · simp at hs
    · next a ha =>
      simp only [bind_ok, getOO_ok, require_ok, ok_inj] at hs
      obtain ⟨old, hold, _, ⟨n1, n2⟩, rfl⟩ := hs
      refine ⟨⟨sp, h.acct ha ?_ (fun _ => rfl) rfl rfl rfl⟩, by simp⟩
      intro k o2
      have hlt : i < a.oos.length := (List.getElem?_eq_some_iff.mp hold).1
      simp only [PAcct.setOO]
      by_cases hk : k = i
      · subst hk
        rw [List.getElem?_set_self hlt, hold]
        constructor
        · rintro ⟨e1, e2⟩; rw [Option.some.injEq] at e1; subst e1; exact absurd e2 n2
        · rintro ⟨e1, e2⟩; rw [Option.some.injEq] at e1; subst e1; exact absurd e2 n1
      · rw [List.getElem?_set_ne (by omega)]

theorem prun_inv : ∀ (ops : List POp) {s : PSys} {sp : Side → SpecSide}, PInv s sp → (∀ op ∈ ops, op.Typed) →
    s.market.seqNum + ordersPlaced ops < 9223372036854775808 → ∃ sp', PInv (prun s ops) sp' := by
  intro ops
  induction ops with
  | nil => intro s sp h _ _; exact ⟨sp, h⟩
  | cons op ops ih =>
    intro s sp h ht hn
    simp only [ordersPlaced, List.map_cons, List.sum_cons] at hn ih
    unfold prun
    split
    · next s' hs =>
      obtain ⟨⟨sp', h1⟩, h2⟩ := pstep_inv h (ht op (by simp)) (by omega) hs
      exact ih h1 (fun o ho => ht o (by simp [ho])) (by omega)
    · exact ih h (fun o ho => ht o (by simp [ho])) (by omega)

theorem init_inv (m : Market) (bookNodes queueLen : Nat) (fill : Event) (hm : m.idx ≠ FREE) (hn : bookNodes ≤ U32MAX) (hq : 0 < queueLen) :
    PInv (PSys.init m bookNodes queueLen fill) (fun _ => ⟨[], []⟩) := by
  have hE : (EventQueue.init fill queueLen).toList = [] := by simp [EventQueue.init, EventQueue.toList]
  have nil : ∀ c, (⟨[], []⟩ : SpecSide).get c = [] := by intro c; cases c <;> rfl
  have z : ∀ P : Ident → Bool, restLots P (fun _ => ⟨[], []⟩) = 0 := by intro P; rfl
  refine ⟨⟨⟨?_, ?_, ?_⟩, ?_, ?_⟩, (EventQueue.init_rel fill queueLen hq).1, hm, ?_, ?_, ?_, ?_, rfl, rfl⟩
  · intro sd; cases sd <;> exact sim_init _ _ hn
  · intro sd; cases sd <;> rfl
  · intro sd; exact ⟨by simp, by simp⟩
  · intro sd c l hl; rw [nil] at hl; simp at hl
  · intro sd l hl; simp at hl
  · have hA : ∀ u i oo, ¬ Active m.idx [] u i oo := by rintro u i oo ⟨a, h, _⟩; simp at h
    simp only [PSys.init, hE]
    constructor
    · intro u i oo oo' h; exact absurd h (hA _ _ _)
    · intro sd c l hl; rw [nil] at hl; simp at hl
    · intro u i oo h; exact absurd h (hA _ _ _)
    · intro u i oo h; exact absurd h (hA _ _ _)
    · intro u i oo u' i' oo' h; exact absurd h (hA _ _ _)
    · simp
    · simp
    · simp
    · intro u i oo h; exact absurd h (hA _ _ _)
    · intro u i oo h; exact absurd h (hA _ _ _)
  · intro u sd; simp only [PSys.init, hE, z]; cases sd <;> rfl
  · intro u; simp only [PSys.init, hE]; rfl
  · intro u; simp only [PSys.init, hE]; rfl

/-- the invariant in every reachable state -/
theorem reach_inv (m : Market) (bookNodes queueLen : Nat) (fill : Event) (hm : m.idx ≠ FREE) (hn : bookNodes ≤ U32MAX) (hq : 0 < queueLen)
    (ops : List POp) (ht : ∀ op ∈ ops, op.Typed) (hlen : ordersPlaced ops < 9223372036854775808) :
    ∃ sp, PInv (prun (PSys.init m bookNodes queueLen fill) ops) sp :=
  prun_inv ops (init_inv m bookNodes queueLen fill hm hn hq) ht (by simpa [PSys.init] using hlen)

end Perp
end Mango
