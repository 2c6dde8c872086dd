import Verif.Props.Trading
import Verif.Props.Match3
/-!
# C25 (quote part): trading conserves quote

`owed` is a specification of the funding a position still has to pay; `netQuote` adds what all positions are worth in quote
(after paying funding), the fees the market has accrued and takes off the maker fees it has accrued in advance for fills whose
event is still pending.  All values are I80F48 bit patterns.
-/
namespace Mango
namespace Perp
open Book Fx

/-- funding owed by a position: its size in lots times the index change since it last settled -/
def owed (m : Market) (p : Pos) : Int :=
  if p.base > 0 then p.base * (m.longFunding - p.longSettled) else if p.base < 0 then p.base * (m.shortFunding - p.shortSettled) else 0

/-- maker fees the market has already booked for fills that makers will pay on consumption -/
def pendingMakerFees (m : Market) (fs : List FillEv) : Int := sumOf (fun f => |m.quoteLotSize * (f.price * f.quantity)| * f.makerFee) fs

def netQuote (s : PSys) : Int :=
  sumOf (fun a => (posD a).quote - owed s.market (posD a)) s.accts + s.market.feesAccrued - pendingMakerFees s.market (fillsOf (pending s))

theorem owed_settled {m : Market} {p : Pos} (h1 : p.longSettled = m.longFunding) (h2 : p.shortSettled = m.shortFunding) : owed m p = 0 := by
  unfold owed; rw [h1, h2]; simp

theorem owed_of {m : Market} {p : Pos} {f : I80F48} (h : p.unsettledFunding m = .ok f) : f = owed m p := unsettledFunding_ok h

theorem owed_congr {m m' : Market} {p p' : Pos} (h1 : m'.longFunding = m.longFunding) (h2 : m'.shortFunding = m.shortFunding) (h3 : p'.base = p.base)
    (h4 : p'.longSettled = p.longSettled) (h5 : p'.shortSettled = p.shortSettled) : owed m' p' = owed m p := by
  unfold owed; rw [h1, h2, h3, h4, h5]

theorem owed_empty (m : Market) : owed m {} = 0 := by simp [owed]

/-- a step that changes one account and keeps funding indexes, accrued fees and the queue -/
theorem net_acct {s : PSys} {u : Nat} {a a' : PAcct} (ha : s.accts[u]? = some a) (b' : OBook)
    (h : (posD a').quote - owed s.market (posD a') = (posD a).quote - owed s.market (posD a)) :
    netQuote { s with accts := s.accts.set u a', book := b' } = netQuote s := by
  unfold netQuote pending
  simp only
  rw [sumOf_set _ ha, h]; omega

theorem net_book (s : PSys) (b' : OBook) : netQuote { s with book := b' } = netQuote s := rfl

theorem net_cancel {s : PSys} {u slot : Nat} {a a' : PAcct} {b' : OBook} (ha : s.accts[u]? = some a)
    (hc : cancelBySlot s.market.idx u slot a s.book = .ok (a', b')) : netQuote { s with accts := s.accts.set u a', book := b' } = netQuote s := by
  unfold cancelBySlot at hc
  simp only [bind_ok, getOO_ok, require_ok, ok_inj, Prod.exists, Prod.mk.injEq] at hc
  obtain ⟨oo, hoo, _, hact, x, bs, hrem, qty, hqty, a1, hrm, rfl, rfl⟩ := hc
  obtain ⟨_, p, p', _, hp, hp', _, e1, e2, _, _, e3, e4, _⟩ := removePerpOrder_ok hrm
  apply net_acct ha
  rw [posD_some hp, posD_some hp', e2, owed_congr rfl rfl e1 e3 e4]

theorem net_cancelAll {sideOpt : Option Side} : ∀ (n : Nat) {i limit : Nat} {s : PSys} {u : Nat} {a a' : PAcct} {b' : OBook},
    s.accts[u]? = some a → cancelAllFrom s.market.idx u sideOpt n i limit a s.book = .ok (a', b') →
    netQuote { s with accts := s.accts.set u a', book := b' } = netQuote s := by
  intro n
  induction n with
  | zero =>
    intro i limit s u a a' b' ha hc
    simp only [cancelAllFrom, ok_inj, Prod.mk.injEq] at hc
    obtain ⟨rfl, rfl⟩ := hc
    rw [set_self ha]
  | succ n ih =>
    intro i limit s u a a' b' ha hc
    simp only [cancelAllFrom, bind_ok, getOO_ok] at hc
    obtain ⟨oo, hoo, hc⟩ := hc
    split at hc
    · exact ih ha hc
    · split at hc
      · exact ih ha hc
      · simp only [bind_ok, Prod.exists] at hc
        obtain ⟨a1, b1, h1, hc⟩ := hc
        have hstep : netQuote { s with accts := s.accts.set u a1, book := b1 } = netQuote s := by
          split at h1
          · rw [ok_inj, Prod.mk.injEq] at h1
            obtain ⟨rfl, rfl⟩ := h1
            rw [set_self ha]
          · exact net_cancel ha h1
        split at hc
        · simp at hc
        · split at hc
          · rw [ok_inj, Prod.mk.injEq] at hc
            obtain ⟨rfl, rfl⟩ := hc
            exact hstep
          · have hlt : u < s.accts.length := (List.getElem?_eq_some_iff.mp ha).1
            have := ih (u := u) (a := a1) (s := { s with accts := s.accts.set u a1, book := b1 }) (by simp [hlt]) hc
            simp only [List.set_set] at this
            rw [this, hstep]

theorem net_ensure {s : PSys} {u : Nat} {a a' : PAcct} {room : Bool} (ha : s.accts[u]? = some a) (h : ensurePos a room = .ok a') :
    netQuote { s with accts := s.accts.set u a' } = netQuote s := by
  apply net_acct ha
  unfold ensurePos at h
  split at h
  · rw [ok_inj] at h; subst h; rfl
  · next hp =>
    split at h
    · rw [ok_inj] at h; subst h; simp [posD, hp]
    · simp at h

theorem net_fill {s : PSys} {f : FillEv} {q : Queue} (hpop : s.queue.toList = .fill f :: q.toList)
    {a a1 b b1 : PAcct} {m1 m2 : Market} (ha : s.accts[f.maker]? = some a) (hm : a.executeMaker s.market f = .ok (a1, m1))
    (hb : (s.accts.set f.maker a1)[f.taker]? = some b) (htk : b.executeTaker m1 f = .ok (b1, m2)) :
    netQuote { s with market := m2, accts := (s.accts.set f.maker a1).set f.taker b1, queue := q } = netQuote s := by
  obtain ⟨⟨p, p1, uf, hp, hp1, hu, _, _, m_q, _, _, _, m_l, m_s, m_m⟩, _, _⟩ := executeMaker_ok hm
  obtain ⟨⟨r, r1, uf', hr, hr1, hu', _, _, t_q, _, _, _, t_l, t_s, t_m⟩, _⟩ := executeTaker_ok htk
  have f1 : ∀ x, owed m2 x = owed s.market x := by intro x; apply owed_congr <;> simp [t_m, m_m]
  have f2 : ∀ x, owed m1 x = owed s.market x := by intro x; apply owed_congr <;> simp [m_m]
  have hu1 := owed_of hu
  have hu2 := (owed_of hu').trans (f2 r)
  have z1 : owed s.market p1 = 0 := owed_settled m_l m_s
  have z2 : owed s.market r1 = 0 := by rw [← f2]; exact owed_settled t_l t_s
  unfold netQuote pending
  simp only
  have hv : f.value m1 = f.value s.market := by simp [FillEv.value, m_m]
  have hql : m2.quoteLotSize = s.market.quoteLotSize := by rw [t_m, m_m]
  have hfa : m2.feesAccrued = s.market.feesAccrued := by rw [t_m, m_m]
  have hfe : fillsOf (.fill f :: q.toList) = f :: fillsOf q.toList := rfl
  have hpend : ∀ l, pendingMakerFees m2 l = pendingMakerFees s.market l := by intro l; unfold pendingMakerFees; rw [hql]
  rw [hpop, hfe, hfa, hpend, sumOf_set _ hb, sumOf_set _ ha, posD_some hp1, posD_some hp, posD_some hr, posD_some hr1]
  simp only [f1]
  rw [z1, z2, m_q, t_q, hu1, hu2, hv]
  unfold pendingMakerFees
  rw [sumOf_cons]
  unfold FillEv.value
  omega

theorem net_out {s : PSys} {e : OutEv} {q : Queue} (hpop : s.queue.toList = .out e :: q.toList)
    {a a1 : PAcct} (ha : s.accts[e.owner]? = some a) (hm : a.executeOut s.market.idx e = .ok a1) :
    netQuote { s with accts := s.accts.set e.owner a1, queue := q } = netQuote s := by
  obtain ⟨⟨p, p1, hp, hp1, _, m_b, m_q, _, _, m_l, m_s, _⟩, _, _⟩ := executeOut_ok hm
  unfold netQuote pending
  simp only
  have hfe : fillsOf (.out e :: q.toList) = fillsOf q.toList := rfl
  rw [hpop, hfe, sumOf_set _ ha, posD_some hp1, posD_some hp, m_q, owed_congr rfl rfl m_b m_l m_s]
  omega

theorem net_consumeOne {s s' : PSys} {sp : Side → SpecSide} (h : PInv s sp) {avail : List Nat} (hc : consumeOne s avail = .ok (some s')) :
    netQuote s' = netQuote s := by
  unfold Perp.consumeOne at hc
  split at hc
  · simp at hc
  · next f hpk =>
    obtain ⟨q0, hpop⟩ := peek_pop h.queue hpk
    obtain ⟨_, hE, _, _⟩ := popFront_ok h.queue hpop
    split at hc
    · next hmt =>
      split at hc
      · split at hc
        · simp at hc
        · next a ha =>
          simp only [bind_ok, Prod.exists, hpop, ok_inj, Prod.mk.injEq, Option.some.injEq] at hc
          obtain ⟨a1, m1, h1, a2, m2, h2, e, q, ⟨rfl, rfl⟩, rfl⟩ := hc
          have hlt : f.maker < s.accts.length := (List.getElem?_eq_some_iff.mp ha).1
          have := net_fill hE ha h1 (b := a1) (by rw [← hmt]; simp [hlt]) h2
          rw [← hmt, List.set_set] at this
          exact this
      · simp at hc
    · next hmt =>
      split at hc
      · split at hc
        · split at hc
          · next a b ha hb =>
            simp only [bind_ok, Prod.exists, hpop, ok_inj, Prod.mk.injEq, Option.some.injEq] at hc
            obtain ⟨a1, m1, h1, b1, m2, h2, e, q, ⟨rfl, rfl⟩, rfl⟩ := hc
            exact net_fill hE ha h1 (b := b) (by rw [List.getElem?_set_ne hmt]; exact hb) h2
          · simp at hc
        · simp at hc
      · simp at hc
  · next e hpk =>
    obtain ⟨q0, hpop⟩ := peek_pop h.queue hpk
    obtain ⟨_, hE, _, _⟩ := popFront_ok h.queue hpop
    split at hc
    · split at hc
      · simp at hc
      · next a ha =>
        simp only [bind_ok, Prod.exists, hpop, ok_inj, Prod.mk.injEq, Option.some.injEq] at hc
        obtain ⟨a1, h1, e, q, ⟨rfl, rfl⟩, rfl⟩ := hc
        exact net_out hE ha h1
    · simp at hc

theorem net_consumeLoop {avail : List Nat} {sp : Side → SpecSide} : ∀ (n : Nat) {s s' : PSys}, PInv s sp → consumeLoop n s avail = .ok s' →
    netQuote s' = netQuote s := by
  intro n
  induction n with
  | zero => intro s s' h hc; simp only [Perp.consumeLoop, ok_inj] at hc; subst hc; rfl
  | succ n ih =>
    intro s s' h hc
    simp only [Perp.consumeLoop, bind_ok] at hc
    obtain ⟨r, h1, hc⟩ := hc
    cases r with
    | none => simp only [ok_inj] at hc; subst hc; rfl
    | some s1 =>
      obtain ⟨h2, _⟩ := h.consumeOne h1
      exact (ih h2 hc).trans (net_consumeOne h h1)

/-- trading steps other than placing an order -/
def POp.plain : POp → Bool
  | .cancelId .. | .cancelClient .. | .cancelAll .. | .consume .. | .deactivate .. | .resize .. | .create .. | .close .. | .ensure .. | .otherSlot .. => true
  | _ => false

/-- **C25 (quote).** In every reachable state, cancelling orders, consuming events (fills between any makers and takers, self
trades, outs), deactivating positions, and opening, closing and resizing accounts all leave
`netQuote` (the quote value of all positions after funding, plus accrued fees, minus maker fees still to be collected) exactly
unchanged. -/
theorem C25_quote_conserved {s s' : PSys} (h : Reachable s) {op : POp} (hop : op.plain = true) (hs : pstep s op = .ok s') : netQuote s' = netQuote s := by
  obtain ⟨sp, hI⟩ := h.inv
  cases op with
  | place => simp [POp.plain] at hop
  | forceClose => simp [POp.plain] at hop
  | liqBase => simp [POp.plain] at hop
  | quotes => simp [POp.plain] at hop
  | market => simp [POp.plain] at hop
  | cancelId u id =>
    simp only [pstep, cancelOp] at hs
    split at hs
    · simp at hs
    · next a ha =>
      simp only [bind_ok, Prod.exists, ok_inj] at hs
      obtain ⟨a', b', h1, rfl⟩ := hs
      unfold cancelById at h1
      split at h1
      · simp at h1
      · exact net_cancel ha h1
  | cancelClient u id =>
    simp only [pstep, cancelOp] at hs
    split at hs
    · simp at hs
    · next a ha =>
      simp only [bind_ok, Prod.exists, ok_inj] at hs
      obtain ⟨a', b', h1, rfl⟩ := hs
      unfold cancelByClientId at h1
      split at h1
      · simp at h1
      · exact net_cancel ha h1
  | cancelAll u limit sideOpt =>
    simp only [pstep, cancelOp] at hs
    split at hs
    · simp at hs
    · next a ha =>
      simp only [bind_ok, Prod.exists, ok_inj] at hs
      obtain ⟨a', b', h1, rfl⟩ := hs
      exact net_cancelAll _ ha h1
  | consume limit avail => exact net_consumeLoop _ hI hs
  | deactivate u =>
    simp only [pstep, deactivateOp] at hs
    split at hs
    · simp at hs
    · next a ha =>
      simp only [bind_ok, getPos_ok, require_ok, ok_inj] at hs
      obtain ⟨p, hp, p1, h1, _, z1, _, z2, _, z3, _, z4, rfl⟩ := hs
      obtain ⟨f, hf, rfl⟩ := settleFunding_ok h1
      have := owed_of hf
      simp only at z2
      apply net_acct ha
      rw [posD_some hp]
      simp only [posD, Option.getD_none]
      rw [owed_empty]; omega
  | resize u n =>
    simp only [pstep] at hs
    split at hs
    · simp at hs
    · next a ha =>
      simp only [bind_ok, ok_inj] at hs
      obtain ⟨oos, _, rfl⟩ := hs
      apply net_acct ha; rfl
  | create n =>
    simp only [pstep, ok_inj] at hs
    subst hs
    unfold netQuote pending
    simp only [sumOf_append]
    simp [posD, owed_empty]
  | close u =>
    simp only [pstep] at hs
    split at hs
    · simp at hs
    · next a ha =>
      simp only [bind_ok, require_ok, ok_inj] at hs
      obtain ⟨_, hp, rfl⟩ := hs
      apply net_acct ha
      simp [posD, hp]
  | ensure u =>
    simp only [pstep] at hs
    split at hs
    · simp at hs
    · next a ha =>
      simp only [bind_ok, ok_inj] at hs
      obtain ⟨a', h1, rfl⟩ := hs
      exact net_ensure ha h1
  | otherSlot u i oo =>
    simp only [pstep] at hs
    split at hs
    · simp at hs
    · next a ha =>
      simp only [bind_ok, getOO_ok, require_ok, ok_inj] at hs
      obtain ⟨old, hold, _, ⟨n1, n2⟩, rfl⟩ := hs
      apply net_acct ha; rfl

/-- **C25 (quote, placing).** Placing an order appends events `evs` to the queue and changes `netQuote` only by the difference
between the market's maker fee rate and its value in the fill event (a 32-bit float), on the quote of the fills with other makers. -/
theorem C25_quote_place {s s' : PSys} (h : Reachable s) (hql : 0 ≤ s.market.quoteLotSize) {u : Nat} {o : Order} {oracle : I80F48} {now limit : Nat} {room : Bool}
    (ht : o.TypedArgs) (hs : pstep s (.place u o oracle now limit room) = .ok s') :
    ∃ evs, pending s' = pending s ++ evs ∧ netQuote s' = netQuote s +
      (s.market.makerFee - s.market.makerFeeF32) *
        (s.market.quoteLotSize * sumOf (fun f => if f.maker = u then 0 else f.quantity * f.price) (fillsOf evs)) := by
  obtain ⟨sp, hI⟩ := h.inv
  simp only [pstep, placeOp, bind_ok, require_ok] at hs
  obtain ⟨_, hb, _, hq, hs⟩ := hs
  split at hs
  · simp at hs
  · next a ha =>
    simp only [bind_ok, getPos_ok, Prod.exists, ok_inj] at hs
    obtain ⟨a1, h1, p, hp, o', h2, r, n, h3, rfl⟩ := hs
    obtain ⟨hI1, _, _, _⟩ := hI.ensure ha h1
    have hne := net_ensure ha h1
    obtain ⟨mb, e, hmb, _, ho'⟩ := reduceOrder_ok h2 ht hb hq
    have hlt : u < s.accts.length := (List.getElem?_eq_some_iff.mp ha).1
    have hq' : 0 ≤ o'.maxQuote := by rw [e]; exact hq
    have hb' : 0 ≤ o'.maxBase := by rw [e]; exact hmb
    have hS : Setup o' { market := s.market, acct := a1, book := s.book, queue := s.queue } sp := ⟨ho', hb', hq', hI.live, hI.queue⟩
    obtain ⟨P⟩ := Perp.place hS h3
    obtain ⟨evs, e1, e2, _⟩ := P.events
    obtain ⟨evs', p0, p', f1, f2, f3, f4, f5, f6⟩ := C27_order_fees hS h3
    have hevs : evs' = evs := List.append_cancel_left (f1.symm.trans e1)
    subst hevs
    simp only at f2 f4 f5 f6
    rw [hp, Option.some.injEq] at f2
    subst f2
    -- base and settled funding of the taker, market fields
    have hmk : n.market = P.m2 := by
      rcases P.fin with ⟨hr, hs, hown⟩ | ⟨hr, t, hpt, _, hq0, _, ⟨W⟩⟩
      · rw [← P.s1_market, ← hs]
      · rw [W.market, P.s1_market]
    obtain ⟨⟨⟨sn, hm2⟩, ⟨p2, hp2, hpa2⟩, _⟩, _⟩ := P.charged hI.live hb' hq'
    simp only at hm2 hp2 hpa2
    rw [hp, Option.some.injEq] at hp2
    subst hp2
    have hview : p'.base = p.base ∧ p'.longSettled = p.longSettled ∧ p'.shortSettled = p.shortSettled := by
      rcases P.fin with ⟨hr, hs, hown⟩ | ⟨hr, t, hpt, _, hq0, _, ⟨W⟩⟩
      · have : n.acct = P.a2 := by rw [← P.s1_acct, ← hs]
        rw [this, hpa2, Option.some.injEq] at f3
        rw [← f3]; exact ⟨rfl, rfl, rfl⟩
      · have hw := W.acct
        unfold PAcct.addPerpOrder at hw
        simp only [bind_ok, getPos_ok, ok_inj] at hw
        obtain ⟨q, hq', q', hq'', _, _, hw⟩ := hw
        rw [P.s1_acct, hpa2, Option.some.injEq] at hq'
        subst hq'
        have : n.acct.pos = some q' := by rw [← hw]; rfl
        rw [this, Option.some.injEq] at f3
        subst f3
        obtain ⟨_, l2, _, _, _, l6, l7, _⟩ := adjust_lots hq''
        exact ⟨l2, l6, l7⟩
    refine ⟨evs', f1, ?_⟩
    rw [← hne]
    unfold netQuote pending
    simp only
    have hg : (s.accts.set u a1)[u]? = some a1 := by simp [hlt]
    have hset : s.accts.set u n.acct = (s.accts.set u a1).set u n.acct := by rw [List.set_set]
    have ho : ∀ x, owed n.market x = owed s.market x := by intro x; apply owed_congr <;> simp [hmk, hm2]
    have hqls : n.market.quoteLotSize = s.market.quoteLotSize := by rw [hmk, hm2]
    have hpend : ∀ l, pendingMakerFees n.market l = pendingMakerFees s.market l := by intro l; unfold pendingMakerFees; rw [hqls]
    rw [hset, sumOf_set _ hg, f1, fillsOf_append, posD_some hp, posD_some f3]
    simp only [ho]
    rw [hpend, owed_congr rfl rfl hview.1 hview.2.1 hview.2.2, f4, f5]
    have hnew : pendingMakerFees s.market (fillsOf evs') =
        s.market.quoteLotSize * sumOf (fun f => if f.maker = u then 0 else f.quantity * f.price) (fillsOf evs') * s.market.makerFeeF32 := by
      unfold pendingMakerFees
      rw [show ∀ x, s.market.quoteLotSize * x * s.market.makerFeeF32 = (s.market.quoteLotSize * s.market.makerFeeF32) * x by intro x; ring, ← sumOf_mul]
      apply sumOf_congr
      intro f hf
      rw [f6 f hf]
      have hf' := hf
      rw [e2] at hf'
      obtain ⟨i, b, _, _, _, g3, g4, _, _, _, _, _, _, _, g7, g8, _⟩ := P.fill_facts hS hf'
      split
      · simp
      · have : 0 ≤ s.market.quoteLotSize * (f.price * f.quantity) := by
          apply Int.mul_nonneg hql
          apply Int.mul_nonneg
          · rw [g4]; have := g7.2; omega
          · omega
        rw [abs_of_nonneg this]; ring
    have happ : pendingMakerFees s.market (fillsOf s.queue.toList ++ fillsOf evs') =
        pendingMakerFees s.market (fillsOf s.queue.toList) + pendingMakerFees s.market (fillsOf evs') := by
      unfold pendingMakerFees; rw [sumOf_append]
    rw [happ, hnew]
    ring

theorem net_transfer {s : PSys} {i j : Nat} (hij : i ≠ j) {a b : PAcct} {p q p0 q0 p' q' : Pos} {m1 m2 : Market} {t t' : Int} {x y : I80F48}
    (ha : s.accts[i]? = some a) (hb : s.accts[j]? = some b) (hp : posD a = p) (hq : posD b = q)
    (hp0 : p0.quote = p.quote - owed s.market p ∧ p0.longSettled = s.market.longFunding ∧ p0.shortSettled = s.market.shortFunding)
    (hq0 : q0.quote = q.quote - owed s.market q ∧ q0.longSettled = s.market.longFunding ∧ q0.shortSettled = s.market.shortFunding)
    (h1 : Traded p0 s.market t x p' m1) (h2 : Traded q0 m1 t' y q' m2) :
    netQuote { s with market := m2, accts := (s.accts.set i (a.setPos p')).set j (b.setPos q') } = netQuote s + (x + y) := by
  obtain ⟨⟨r1, e1⟩, e2⟩ := h1
  obtain ⟨⟨r2, e3⟩, e4⟩ := h2
  have hb2 : (s.accts.set i (a.setPos p'))[j]? = some b := by rw [List.getElem?_set_ne hij]; exact hb
  have hDa : posD (a.setPos p') = p' := rfl
  have hDb : posD (b.setPos q') = q' := rfl
  have ho : ∀ x, owed m2 x = owed s.market x := by intro x; apply owed_congr <;> simp [e4, e2]
  have z1 : owed s.market p' = 0 := by apply owed_settled <;> rw [e1] <;> simp [hp0]
  have z2 : owed s.market q' = 0 := by apply owed_settled <;> rw [e3] <;> simp [hq0]
  have hqls : m2.quoteLotSize = s.market.quoteLotSize := by rw [e4, e2]
  have hf : m2.feesAccrued = s.market.feesAccrued := by rw [e4, e2]
  have hpend : ∀ l, pendingMakerFees m2 l = pendingMakerFees s.market l := by intro l; unfold pendingMakerFees; rw [hqls]
  unfold netQuote pending
  simp only
  rw [hpend, hf, sumOf_set _ hb2, sumOf_set _ ha, hDa, hDb, hp, hq]
  simp only [ho]
  rw [z1, z2]
  have q1 : p'.quote = p0.quote + x := by rw [e1]
  have q2 : q'.quote = q0.quote + y := by rw [e3]
  rw [q1, q2, hp0.1, hq0.1]; omega

theorem settle_owed {p p' : Pos} {m : Market} (h : p.settleFunding m = .ok p') :
    p'.quote = p.quote - owed m p ∧ p'.longSettled = m.longFunding ∧ p'.shortSettled = m.shortFunding := by
  obtain ⟨f, hf, rfl⟩ := settleFunding_ok h
  have := owed_of hf
  subst this; exact ⟨rfl, rfl, rfl⟩

/-- **C25 (quote, liquidation).** A liquidation transfer changes `netQuote` by exactly the two quote amounts (which differ by the
fee for the insurance fund); funding of both sides is settled first and nothing of it is lost. -/
theorem C25_quote_liq {s s' : PSys} {i j : Nat} {base : Int} {ql qr : I80F48} (hs : pstep s (.liqBase i j base ql qr) = .ok s') :
    netQuote s' = netQuote s + (ql + qr) := by
  simp only [pstep, liqBaseOp, bind_ok, require_ok] at hs
  obtain ⟨_, hij, hs⟩ := hs
  split at hs
  · next a b ha hb =>
    simp only [bind_ok, getPos_ok, require_ok, ck64_ok, Prod.exists, ok_inj] at hs
    obtain ⟨p, hp, b1, hb1, q, hq, p1, hp1, q1, hq1, _, _, p', m1, h1, nb, ⟨rfl, _⟩, q', m2, h2, rfl⟩ := hs
    have hlt : j < s.accts.length := (List.getElem?_eq_some_iff.mp hb).1
    have hne := net_ensure hb hb1
    have := net_transfer (s := { s with accts := s.accts.set j b1 }) hij (a := a) (b := b1) (by simp only; rw [List.getElem?_set_ne (fun e => hij e.symm)]; exact ha) (by simp [hlt])
      (posD_some hp) (posD_some hq) (settle_owed hp1) (settle_owed hq1) (recordTrade_ok h1) (recordTrade_ok h2)
    rw [hne] at this
    rw [← this]
    have e : ((s.accts.set j b1).set i (a.setPos p')).set j (b1.setPos q') = (s.accts.set i (a.setPos p')).set j (b1.setPos q') := by
      rw [List.set_comm _ _ (fun e => hij e.symm), List.set_set]
    simp only [e]
  · simp at hs

/-- **C25 (quote, force close).** Force-closing two positions conserves `netQuote` if both have settled their funding (the
instruction does not settle it itself, see `C25_force_close_loses_funding`). -/
theorem C25_quote_force_close {s s' : PSys} {i j : Nat} {price : I80F48} (hs : pstep s (.forceClose i j price) = .ok s')
    (hset : ∀ k, k = i ∨ k = j → (pget s.accts k).longSettled = s.market.longFunding ∧ (pget s.accts k).shortSettled = s.market.shortFunding) :
    netQuote s' = netQuote s := by
  simp only [pstep, forceCloseOp, bind_ok, require_ok] at hs
  obtain ⟨_, hij, _, _, hs⟩ := hs
  split at hs
  · next a b ha hb =>
    simp only [bind_ok, getPos_ok, require_ok, ck64_ok, abs64_ok, mul_ok, neg_ok, Prod.exists, ok_inj] at hs
    obtain ⟨p, hp, q, hq, _, _, _, _, qa, ⟨rfl, _⟩, nat, ⟨rfl, _⟩, quote, ⟨rfl, _⟩, nt, ⟨rfl, _⟩, nq, ⟨rfl, _⟩, p', m1, h1, q', m2, h2, rfl⟩ := hs
    obtain ⟨s1, s2⟩ := hset i (.inl rfl)
    obtain ⟨s3, s4⟩ := hset j (.inr rfl)
    rw [pget_some ha, posD_some hp] at s1 s2
    rw [pget_some hb, posD_some hq] at s3 s4
    have := net_transfer hij ha hb (posD_some hp) (posD_some hq) ⟨by rw [owed_settled s1 s2]; omega, s1, s2⟩ ⟨by rw [owed_settled s3 s4]; omega, s3, s4⟩
      (recordTrade_ok h1) (recordTrade_ok h2)
    rw [this]; omega
  · simp at hs

/-- **C18–C22, C27 hold in every reachable state**: their hypothesis `Setup` (and the distinctness of order ids `C21_makers` asks
for) is met by the book, queue and market of every reachable state, for every account and every well-typed order. -/
theorem setup_reachable {s : PSys} (h : Reachable s) : ∃ sp, BookIs s.book sp ∧
    (∀ (o : Order) (a : PAcct), o.Typed → 0 ≤ o.maxBase → 0 ≤ o.maxQuote → Setup o { market := s.market, acct := a, book := s.book, queue := s.queue } sp) ∧
    (∀ sd, ∀ x ∈ (sp sd).fixedL, ∀ y ∈ (sp sd).peggedL, x.key ≠ y.key) := by
  obtain ⟨sp, hI⟩ := h.inv
  refine ⟨sp, hI.live.is, fun o a h1 h2 h3 => ⟨h1, h2, h3, hI.live, hI.queue⟩, ?_⟩
  intro sd x hx y hy e
  have := (hI.ids (sd := sd) (sd' := sd) (c := .fixed) (c' := .pegged) hx hy e).2.1
  simp at this

/-- **C27 (consumption).** Executing a fill debits the maker exactly the fee at the rate recorded in the event on the traded quote
(and its funding), credits or debits the traded quote, and books no further fees; the taker pays no fee then. -/
theorem C27_consumption_fees {a a' b b' : PAcct} {m m1 m2 : Market} {f : FillEv} (h1 : a.executeMaker m f = .ok (a', m1))
    (h2 : b.executeTaker m1 f = .ok (b', m2)) :
    ∃ p p' r r', a.pos = some p ∧ a'.pos = some p' ∧ b.pos = some r ∧ b'.pos = some r' ∧
      (let v := m.quoteLotSize * (f.price * f.quantity)
       p'.quote = p.quote - owed m p - |v| * f.makerFee + (match f.takerSide with | .bid => v * S | .ask => -(v * S)) ∧
       r'.quote = r.quote - owed m r + (match f.takerSide with | .bid => -(v * S) | .ask => v * S)) ∧
      m2.feesAccrued = m.feesAccrued := by
  obtain ⟨⟨p, p1, uf, hp, hp1, hu, _, _, m_q, _, _, _, m_l, m_s, m_m⟩, _, _⟩ := executeMaker_ok h1
  obtain ⟨⟨r, r1, uf', hr, hr1, hu', _, _, t_q, _, _, _, t_l, t_s, t_m⟩, _⟩ := executeTaker_ok h2
  have e2 : owed m1 r = owed m r := by apply owed_congr <;> simp [m_m]
  have e3 : f.value m1 = f.value m := by simp [FillEv.value, m_m]
  refine ⟨p, p1, r, r1, hp, hp1, hr, hr1, ⟨?_, ?_⟩, by rw [t_m, m_m]⟩
  · rw [m_q, owed_of hu]; unfold FillEv.value; cases f.takerSide <;> simp [Side.sgn]
  · rw [t_q, owed_of hu', e2, e3]; unfold FillEv.value; cases f.takerSide <;> simp [Side.sgn] <;> omega

end Perp
end Mango
