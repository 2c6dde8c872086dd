import Verif.Perp.SettleSystem
import Verif.Props.SettleLimit
/-!
# C50: settlement, funding updates and bankruptcies create no value

`netQuote` (see `Verif.Props.Ledger`) is the quote value of all positions after funding plus the market's fee balance.
-/
namespace Mango
namespace Perp
open Book Fx

/-! ## per instruction -/

/-- the part of a position other than quote, allowances and funding snapshots -/
def SameSize (p p' : Pos) : Prop := p'.base = p.base ∧ p'.bids = p.bids ∧ p'.asks = p.asks ∧ p'.takerBase = p.takerBase ∧ p'.takerQuote = p.takerQuote

/-- a position whose funding is settled, of unchanged size, whose quote is the quote after funding plus `x` -/
structure Paid (m : Market) (p : Pos) (x : Int) (p' : Pos) : Prop where
  quote : p'.quote = p.quote - owed m p + x
  size : SameSize p p'
  long : p'.longSettled = m.longFunding
  short : p'.shortSettled = m.shortFunding

theorem settleFunding_paid {m : Market} {p p' : Pos} (h : p.settleFunding m = .ok p') : Paid m p 0 p' := by
  obtain ⟨f, hf, rfl⟩ := settleFunding_ok h
  have := owed_of hf
  exact ⟨by simp only; omega, ⟨rfl, rfl, rfl, rfl, rfl⟩, rfl, rfl⟩

theorem Paid.settle {m m' : Market} {p p1 p2 : Pos} {x s : Int} (h : Paid m p x p1) (hs : p1.recordSettle m' s = .ok p2) : Paid m p (x - s) p2 := by
  have e := (recordSettle_ok hs).pos
  obtain ⟨h1, h2, h3, h4⟩ := h
  rw [e]
  exact ⟨by simp only; omega, h2, h3, h4⟩

theorem Paid.window {m m' : Market} {p p1 p2 : Pos} {x : Int} {now : Int} (h : Paid m p x p1) (hs : p1.updateSettleLimit m' now = .ok p2) : Paid m p x p2 := by
  unfold Pos.updateSettleLimit at hs
  simp only [bind_ok] at hs
  obtain ⟨_, _, _, _, hs⟩ := hs
  obtain ⟨h1, h2, h3, h4⟩ := h
  split at hs
  · split at hs
    · simp at hs
    · split at hs
      · simp at hs
      · rw [ok_inj] at hs; subst hs; exact ⟨h1, h2, h3, h4⟩
  · rw [ok_inj] at hs; subst hs; exact ⟨h1, h2, h3, h4⟩

theorem Paid.liqQuote {m : Market} {p p1 p2 : Pos} {x c : Int} (h : Paid m p x p1) (hs : p1.recordLiquidationQuoteChange c = .ok p2) : Paid m p (x + c) p2 := by
  unfold Pos.recordLiquidationQuoteChange Pos.changeQuote at hs
  simp only [bind_ok, ok_inj, add_ok] at hs
  obtain ⟨_, ⟨q, ⟨rfl, _⟩, rfl⟩, o, _, rfl⟩ := hs
  obtain ⟨h1, h2, h3, h4⟩ := h
  exact ⟨by simp only; omega, h2, h3, h4⟩

/-- **C50 (settle pnl).** A pnl settlement takes exactly the settled amount out of `a`'s quote position and adds exactly it to `b`'s,
after both paid their funding; sizes and open orders stay; the fee is between zero and the settled amount. -/
theorem C50_settle_pnl {lim : I80F48 → Int} {m : Market} {a b a' b' : Pos} {oracle price bMax liqEnd maint s fee : I80F48} {now : Int}
    (hflat : 0 ≤ m.settleFeeFlat) (h : settlePnl lim m a b oracle price now bMax liqEnd maint = .ok (a', b', s, fee)) :
    Paid m a (-s) a' ∧ Paid m b s b' ∧ 0 < s ∧ s ≤ bMax ∧ 0 ≤ fee ∧ fee ≤ s := by
  unfold settlePnl at h
  simp only [bind_ok, require_ok, neg_ok, ok_inj, Prod.mk.injEq] at h
  obtain ⟨a0, h1, b0, h2, ap, h3, bp, h4, _, h5, _, h6, a1, h7, aS, h8, b1, h9, bS, h10, _, h11, _, h12, _, h13, nb, ⟨rfl, _⟩, _, h14, a2, h15, ns, ⟨rfl, _⟩, b2, h16,
    _, _, _, _, _, _, _, _, f, hfee, rfl, rfl, rfl, rfl⟩ := h
  have hs : 0 < max (min (min aS (-bS)) bMax) 0 := by omega
  obtain ⟨f1, f2, _⟩ := C30_settle_fee hflat (by omega) hfee
  have p1 := ((settleFunding_paid h1).window h7).settle h15
  have p2 := ((settleFunding_paid h2).window h9).settle h16
  refine ⟨?_, ?_, hs, by omega, f1, f2⟩
  · simpa using p1
  · simpa using p2

/-- **C50 (settle fees).** A fee settlement moves exactly the settled amount from the market's fee balance to the position. -/
theorem C50_settle_fees {lim : I80F48 → Int} {m m' : Market} {p p' : Pos} {oracle s : I80F48} {maxAmount : Int} (hm : 0 ≤ maxAmount)
    (h : settleFees lim m p oracle maxAmount = .ok (p', m', s)) :
    Paid m p s p' ∧ m' = { m with feesAccrued := m.feesAccrued - s, feesSettled := m.feesSettled + s } ∧ 0 ≤ s ∧ s ≤ max m.feesAccrued 0 ∧ s ≤ Fx.ofInt maxAmount := by
  unfold settleFees at h
  simp only [bind_ok] at h
  obtain ⟨p0, h1, pnl, h2, x, h3, h⟩ := h
  have hp := settleFunding_paid h1
  split at h
  · simp only [ok_inj, Prod.mk.injEq] at h
    obtain ⟨rfl, rfl, rfl⟩ := h
    refine ⟨hp, by simp, by omega, by omega, ?_⟩
    unfold Fx.ofInt S; omega
  · next hc =>
    simp only [bind_ok, require_ok, neg_ok, sub_ok, add_ok, ok_inj, Prod.mk.injEq] at h
    obtain ⟨sa, h4, fa, h5, _, h6, ns, ⟨rfl, _⟩, p1, h7, fees, ⟨rfl, _⟩, st, ⟨rfl, _⟩, rfl, rfl, rfl⟩ := h
    have e2 := fxabs_ok h5
    rw [abs_of_pos (by omega)] at e2
    have := hp.settle h7
    rw [Int.sub_neg, Int.zero_add] at this
    exact ⟨this, rfl, h6, by omega, by omega⟩

/-- **C50 (bankruptcy).** Everything the liquidated account's pnl rises by is paid for: the liqor's position falls by the settled
amount plus what the insurance paid for, and the rest is socialized over all positions through the funding indexes; the insurance
paid is at most the vault, and none is paid or socialized unless the settleable part has been settled in full. -/
theorem C50_bankruptcy {lim : I80F48 → Int} {m : Market} {e r : Pos} {oracle price iprice ff emax : I80F48} {hmax : Res I80F48} {now mt vault : Int} {R : Bankrupt} (hv : 0 ≤ vault)
    (h : bankruptcy lim m e r oracle price iprice ff now emax hmax mt vault = .ok R) :
    Paid m e (R.settlement + R.insuranceLiab + R.socialized) R.liqee ∧ Paid m r (-(R.settlement + R.insuranceLiab)) R.liqor ∧
    0 ≤ R.settlement ∧ R.settlement ≤ max 0 (Fx.ofInt mt) ∧ 0 ≤ R.insurance ∧ R.insurance ≤ vault ∧ 0 ≤ R.socialized ∧
    (R.insurance = 0 → R.insuranceLiab = 0) ∧
    (R.socialized = 0 → R.market = m) ∧ (R.socialized ≠ 0 → R.insurance = vault ∧ ∃ x, m.socializeLoss (-R.socialized) = .ok (x, R.market)) := by
  unfold bankruptcy at h
  simp only [bind_ok, require_ok, neg_ok, sub_ok, Prod.exists] at h
  obtain ⟨e0, h1, r0, h2, pnl, h3, _, h4, e1, h5, s, h6, ns, ⟨rfl, _⟩, nset, ⟨rfl, _⟩, e2, r2, pnl2, h7, left, ⟨rfl, _⟩, h⟩ := h
  generalize hset : max (min (max (min emax (-s)) 0) (ofInt mt)) 0 = st at *
  have hst : 0 ≤ st ∧ st ≤ max 0 (Fx.ofInt mt) := by omega
  have p1 := (settleFunding_paid h1).window h5
  have p2 := settleFunding_paid h2
  have q : Paid m e st e2 ∧ Paid m r (-st) r2 := by
    split at h7
    · simp only [bind_ok, ok_inj, Prod.mk.injEq] at h7
      obtain ⟨r3, h8, e3, h9, _, _, rfl, rfl, _⟩ := h7
      have a1 := p1.settle h9
      have a2 := p2.liqQuote h8
      rw [Int.zero_sub, Int.neg_neg] at a1
      rw [Int.zero_add] at a2
      exact ⟨a1, a2⟩
    · simp only [ok_inj, Prod.mk.injEq] at h7
      obtain ⟨rfl, rfl, _⟩ := h7
      have : st = 0 := by omega
      rw [this]; exact ⟨p1, p2⟩
  split at h
  · simp only [bind_ok, neg_ok, sub_ok, Prod.exists] at h
    obtain ⟨pnl3, _, np, ⟨rfl, _⟩, hm, _, pr, _, x, _, y, _, c, _, u, hu, z, _, w, _, nl, ⟨rfl, _⟩, e4, r4, h8, rem, ⟨rfl, _⟩, h⟩ := h
    have hu0 : 0 ≤ u := by unfold toU64 at hu; rw [cku64_ok] at hu; omega
    generalize hin : min u vault = ins at *
    have hins : 0 ≤ ins ∧ ins ≤ vault := by omega
    generalize hlb : min w (max (min (max (min (-pnl3) hm) 0) (ofInt mt - st)) 0) = lb at *
    have q2 : Paid m e (st + (if ins > 0 then lb else 0)) e4 ∧ Paid m r (-(st + (if ins > 0 then lb else 0))) r4 := by
      split at h8
      · next hpos =>
        rw [if_pos hpos]
        simp only [bind_ok, ok_inj, Prod.mk.injEq] at h8
        obtain ⟨e5, h9, r5, h10, rfl, rfl⟩ := h8
        have a1 := q.1.settle h9
        have a2 := q.2.liqQuote h10
        rw [Int.sub_neg] at a1
        rw [← Int.neg_add] at a2
        exact ⟨a1, a2⟩
      · next hpos =>
        rw [if_neg hpos]
        simp only [ok_inj, Prod.mk.injEq] at h8
        obtain ⟨rfl, rfl⟩ := h8
        rw [Int.add_zero]; exact q
    have hz : ins = 0 → (if ins > 0 then lb else 0) = 0 := by intro h; rw [if_neg (by omega)]
    split at h
    · next hc =>
      simp only [bind_ok, neg_ok, ok_inj, Prod.exists] at h
      obtain ⟨nr, ⟨rfl, _⟩, sx, m', h11, e6, h12, rfl⟩ := h
      have a1 := q2.1.settle h12
      rw [Int.sub_neg] at a1
      exact ⟨a1, q2.2, hst.1, hst.2, hins.1, hins.2, by simp only; omega, hz, fun h => by simp only at h; omega, fun _ => ⟨hc.1, sx, h11⟩⟩
    · rw [ok_inj] at h
      subst h
      refine ⟨?_, q2.2, hst.1, hst.2, hins.1, hins.2, by simp only; omega, hz, fun _ => rfl, fun h => absurd rfl h⟩
      simp only; rw [Int.add_zero]; exact q2.1
  · rw [ok_inj] at h
    subst h
    refine ⟨?_, ?_, hst.1, hst.2, by simp, hv, by simp, fun _ => rfl, fun _ => rfl, fun h => absurd rfl h⟩
    · simp only; rw [Int.add_zero, Int.add_zero]; exact q.1
    · simp only; rw [Int.add_zero]; exact q.2

/-! ## on the whole market -/

theorem prun_append (s : PSys) (xs ys : List POp) : prun s (xs ++ ys) = prun (prun s xs) ys := by
  induction xs generalizing s with
  | nil => rfl
  | cons x xs ih =>
    simp only [List.cons_append, prun]
    split <;> exact ih _

theorem Reachable.step {s s' : PSys} (h : Reachable s) {op : POp} (ht : op.Typed) (ho : op.orders = 0) (hs : pstep s op = .ok s') : Reachable s' := by
  obtain ⟨m, n, q, f, ops, h1, h2, h3, h4, h5, rfl⟩ := h.ex
  refine ⟨m, n, q, f, ops ++ [op], h1, h2, h3, ?_, ?_, ?_⟩
  · intro o ho
    rw [List.mem_append, List.mem_singleton] at ho
    rcases ho with ho | rfl
    · exact h4 o ho
    · exact ht
  · unfold ordersPlaced at h5 ⊢
    simp [ho]; exact h5
  · rw [prun_append]
    simp only [prun, hs]

/-- the market fields settlement never writes -/
def SameCore (m m' : Market) : Prop :=
  m'.idx = m.idx ∧ m'.seqNum = m.seqNum ∧ m'.openInterest = m.openInterest ∧ m'.baseLotSize = m.baseLotSize ∧ m'.quoteLotSize = m.quoteLotSize

theorem Reachable.setMarket {s : PSys} (h : Reachable s) {m' : Market} (hm : SameCore s.market m') : Reachable { s with market := m' } := by
  apply h.step (op := .market m') trivial rfl
  simp only [pstep, ok_inj]
  obtain ⟨h1, h2, h3, h4, h5⟩ := hm
  rw [← h1, ← h2, ← h3, ← h4, ← h5]

theorem Reachable.setQuotes {s : PSys} (h : Reachable s) {u : Nat} {a : PAcct} {p p' : Pos} (ha : s.accts[u]? = some a) (hp : a.pos = some p)
    (hz : SameSize p p') : Reachable { s with accts := s.accts.set u (a.setPos p') } := by
  apply h.step (op := .quotes u p'.quote p'.longSettled p'.shortSettled p'.oneshot p'.recurring p'.window p'.settledInWindow) trivial rfl
  simp only [pstep, ha]
  obtain ⟨h1, h2, h3, h4, h5⟩ := hz
  simp only [PAcct.getPos, hp]
  change Except.ok _ = _
  rw [← h1, ← h2, ← h3, ← h4, ← h5]

theorem onTwo_ok {s s' : PSys} {i j : Nat} {f : Pos → Pos → Res (Pos × Pos × Market)} (h : onTwo s i j f = .ok s') :
    i ≠ j ∧ ∃ a b p q p' q' m', s.accts[i]? = some a ∧ s.accts[j]? = some b ∧ a.pos = some p ∧ b.pos = some q ∧ f p q = .ok (p', q', m') ∧
      s' = { s with market := m', accts := (s.accts.set i (a.setPos p')).set j (b.setPos q') } := by
  unfold onTwo at h
  simp only [bind_ok, require_ok] at h
  obtain ⟨_, hij, h⟩ := h
  refine ⟨hij, ?_⟩
  split at h
  · next a b ha hb =>
    simp only [bind_ok, getPos_ok, Prod.exists, ok_inj] at h
    obtain ⟨p, hp, q, hq, p', q', m', hf, rfl⟩ := h
    exact ⟨a, b, p, q, p', q', m', ha, hb, hp, hq, hf, rfl⟩
  · simp at h

theorem Reachable.two {s : PSys} (h : Reachable s) {i j : Nat} (hij : i ≠ j) {a b : PAcct} {p q p' q' : Pos} {m' : Market} (ha : s.accts[i]? = some a) (hb : s.accts[j]? = some b)
    (hp : a.pos = some p) (hq : b.pos = some q) (hz : SameSize p p') (hz' : SameSize q q') (hm : SameCore s.market m') :
    Reachable { s with market := m', accts := (s.accts.set i (a.setPos p')).set j (b.setPos q') } := by
  have h1 := h.setQuotes ha hp hz
  have h2 := h1.setQuotes (u := j) (a := b) (p := q) (p' := q') (by simp only; rw [List.getElem?_set_ne hij]; exact hb) hq hz'
  exact h2.setMarket hm

/-- the net quote after two positions changed and the funding indexes did not -/
theorem net_two {s : PSys} {i j : Nat} (hij : i ≠ j) {a b : PAcct} {p q p' q' : Pos} {x y : Int} (ha : s.accts[i]? = some a) (hb : s.accts[j]? = some b)
    (hp : a.pos = some p) (hq : b.pos = some q) (h1 : p'.quote - owed s.market p' = p.quote - owed s.market p + x)
    (h2 : q'.quote - owed s.market q' = q.quote - owed s.market q + y) :
    netQuote { s with accts := (s.accts.set i (a.setPos p')).set j (b.setPos q') } = netQuote s + (x + y) := by
  unfold netQuote pending
  simp only
  have hb' : (s.accts.set i (a.setPos p'))[j]? = some b := by rw [List.getElem?_set_ne hij]; exact hb
  have e1 : posD (a.setPos p') = p' := rfl
  have e2 : posD (b.setPos q') = q' := rfl
  rw [sumOf_set _ hb', sumOf_set _ ha, e1, e2, posD_some hp, posD_some hq]
  omega

theorem Paid.net {m : Market} {p p' : Pos} {x : Int} (h : Paid m p x p') : p'.quote - owed m p' = p.quote - owed m p + x := by
  rw [owed_settled h.long h.short, h.quote]; omega

theorem socialize_core {m m' : Market} {loss x : I80F48} (h : m.socializeLoss loss = .ok (x, m')) : SameCore m m' := by
  unfold Market.socializeLoss at h
  simp only [bind_ok, require_ok, sub_ok, add_ok, ok_inj, Prod.mk.injEq] at h
  obtain ⟨_, hl, s0, hs, l, ⟨rfl, _⟩, sh, ⟨rfl, _⟩, rfl, rfl⟩ := h
  exact ⟨rfl, rfl, rfl, rfl, rfl⟩

/-- the effect of socializing on the net quote of a reachable market -/
theorem net_socialize {s : PSys} (hR : Reachable s) {loss x : I80F48} {m' : Market} (h : s.market.socializeLoss loss = .ok (x, m')) :
    netQuote s + loss ≤ netQuote { s with market := m' } ∧
    (0 < s.market.openInterest → netQuote { s with market := m' } < netQuote s + loss + s.market.openInterest) ∧
    (s.market.openInterest = 0 → netQuote { s with market := m' } = netQuote s) := by
  obtain ⟨k, hk, e, hsh, h1, h2, h3⟩ := C31_socialize hR h
  have hq : m'.quoteLotSize = s.market.quoteLotSize := by rw [e]
  have hf : m'.feesAccrued = s.market.feesAccrued := by rw [e]
  have hs : ∀ m : Market, sumOf (fun a => (posD a).quote - owed m (posD a)) s.accts = sumOf (fun a => (posD a).quote) s.accts - sumOf (fun a => owed m (posD a)) s.accts := by
    intro m
    have := sumOf_add (fun a => (posD a).quote) (fun a => - owed m (posD a)) s.accts
    rw [sumOf_neg] at this
    rw [← Int.sub_eq_add_neg] at this
    rw [← this]
    apply sumOf_congr; intro a _; omega
  have hn : netQuote { s with market := m' } = netQuote s - (sumOf (fun a => owed m' (posD a)) s.accts - sumOf (fun a => owed s.market (posD a)) s.accts) := by
    unfold netQuote pendingMakerFees pending
    simp only [hq, hf]
    rw [hs, hs]
    omega
  rw [hn]
  exact ⟨by omega, fun h => by have := h2 h; omega, fun h => by have := h3 h; omega⟩

/-- hypotheses on instruction arguments and market configuration: u64 amounts, ordered funding bounds, a non-negative flat fee -/
def SOp.Typed : SOp → Prop
  | .settleFees _ _ mx => 0 ≤ mx
  | .bankrupt _ _ _ _ _ _ _ _ _ _ vault => 0 ≤ vault
  | _ => True

def SOp.bankrupts : SOp → Bool
  | .bankrupt .. => true
  | _ => false

/-- **C50 (market).** In every reachable state, every funding update, pnl settlement, fee settlement and pnl takeover leaves the net
quote of the market exactly unchanged; a bankruptcy never lowers it and raises it by less than one unit in the last place per lot of
open interest (the rounding of the socialized loss) if there is open interest; and the resulting state is again reachable, so all
properties of trading histories also hold for histories with settlement. -/
theorem C50_market {lim : I80F48 → Int} {s s' : PSys} {op : SOp} (hR : Reachable s) (hmm : s.market.minFunding ≤ s.market.maxFunding)
    (hflat : 0 ≤ s.market.settleFeeFlat) (ht : op.Typed) (h : sstep lim s op = .ok s') :
    Reachable s' ∧ netQuote s ≤ netQuote s' ∧
    (op.bankrupts = false → netQuote s' = netQuote s) ∧
    (op.bankrupts = true → 0 < s.market.openInterest → netQuote s' < netQuote s + s.market.openInterest) := by
  cases op with
  | funding oracle now stable =>
    simp only [sstep, bind_ok, ok_inj] at h
    obtain ⟨m', hu, rfl⟩ := h
    replace h := hu
    have hz := (C28_zero_sum hR h hmm).2
    obtain ⟨_, _, d, rate, tf, e, _⟩ := C28_update_funding hmm h
    refine ⟨hR.setMarket (by rw [e]; exact ⟨rfl, rfl, rfl, rfl, rfl⟩), by omega, fun _ => hz, fun hb => by simp [SOp.bankrupts] at hb⟩
  | settlePnl i j oracle price now bMax liqEnd maint =>
    unfold sstep at h
    obtain ⟨hij, a, b, p, q, p', q', m', ha, hb, hp, hq, hf, rfl⟩ := onTwo_ok h
    simp only [bind_ok, Prod.exists, ok_inj, Prod.mk.injEq] at hf
    obtain ⟨p1, q1, st, fee, hf, rfl, rfl, rfl⟩ := hf
    obtain ⟨h1, h2, _⟩ := C50_settle_pnl hflat hf
    have hn := net_two hij ha hb hp hq h1.net h2.net
    refine ⟨hR.two hij ha hb hp hq h1.size h2.size ⟨rfl, rfl, rfl, rfl, rfl⟩, ?_, fun _ => ?_, fun hb => by simp [SOp.bankrupts] at hb⟩ <;> omega
  | settleFees u oracle mx =>
    simp only [sstep] at h
    split at h
    · simp at h
    · next a ha =>
      simp only [bind_ok, getPos_ok, Prod.exists, ok_inj] at h
      obtain ⟨p, hp, p', m', st, hf, rfl⟩ := h
      obtain ⟨h1, e, _⟩ := C50_settle_fees ht hf
      have hn : netQuote { s with market := m', accts := s.accts.set u (a.setPos p') } = netQuote s := by
        unfold netQuote pending pendingMakerFees
        simp only
        have ho : ∀ p, owed m' p = owed s.market p := fun p => owed_congr (by rw [e]) (by rw [e]) rfl rfl rfl
        have e1 : posD (a.setPos p') = p' := rfl
        simp only [ho]
        rw [sumOf_set _ ha, e1, posD_some hp, h1.net]
        have e2 : m'.feesAccrued = s.market.feesAccrued - st := by rw [e]
        have e3 : m'.quoteLotSize = s.market.quoteLotSize := by rw [e]
        rw [e2, e3]
        omega
      refine ⟨(hR.setQuotes ha hp h1.size).setMarket (by rw [e]; exact ⟨rfl, rfl, rfl, rfl, rfl⟩), by omega, fun _ => hn, fun hb => by simp [SOp.bankrupts] at hb⟩
  | bankrupt i j oracle price iprice ff now emax hmax mt vault =>
    unfold sstep at h
    obtain ⟨hij, a, b, p, q, p', q', m', ha, hb, hp, hq, hf, rfl⟩ := onTwo_ok h
    simp only [bind_ok, ok_inj, Prod.mk.injEq] at hf
    obtain ⟨R, hf, rfl, rfl, rfl⟩ := hf
    obtain ⟨h1, h2, _, _, _, _, h3, _, h4, h5⟩ := C50_bankruptcy ht hf
    have hn := net_two hij ha hb hp hq h1.net h2.net
    have hR1 := hR.two (m' := s.market) hij ha hb hp hq h1.size h2.size ⟨rfl, rfl, rfl, rfl, rfl⟩
    by_cases hz : R.socialized = 0
    · rw [h4 hz]
      refine ⟨hR1, ?_, fun hb => by simp [SOp.bankrupts] at hb, fun _ ho => ?_⟩ <;> omega
    · obtain ⟨_, x, hs⟩ := h5 hz
      have hso := net_socialize hR1 hs
      have hcore := socialize_core hs
      refine ⟨hR1.setMarket hcore, ?_, fun hb => by simp [SOp.bankrupts] at hb, fun _ ho => ?_⟩
      · have := hso.1; simp only at this hn ⊢; omega
      · have := hso.2.1 ho; simp only at this hn ⊢; omega
  | takeover i j pnl r o =>
    unfold sstep at h
    obtain ⟨hij, a, b, p, q, p', q', m', ha, hb, hp, hq, hf, rfl⟩ := onTwo_ok h
    simp only [bind_ok, ok_inj, Prod.mk.injEq] at hf
    obtain ⟨q1, h1, p1, h2, rfl, rfl, rfl⟩ := hf
    have e := (recordSettle_ok h2).pos
    have e2 : q1 = { q with quote := q.quote + pnl, recurring := q.recurring + r, oneshot := q.oneshot + Fx.ofInt o } := by
      unfold Pos.recordLiquidationPnlTakeover Pos.changeQuote at h1
      simp only [bind_ok, ok_inj, add_ok, ck64_ok] at h1
      obtain ⟨_, ⟨qq, ⟨rfl, _⟩, rfl⟩, _, ⟨rfl, _⟩, _, ⟨rfl, _⟩, rfl⟩ := h1
      rfl
    have hn := net_two (x := -pnl) (y := pnl) (p' := p1) (q' := q1) hij ha hb hp hq
      (by rw [owed_congr (m := s.market) (m' := s.market) (p := p) (p' := p1) rfl rfl (by rw [e]) (by rw [e]) (by rw [e])]; rw [e]; simp only; omega)
      (by rw [owed_congr (m := s.market) (m' := s.market) (p := q) (p' := q1) rfl rfl (by rw [e2]) (by rw [e2]) (by rw [e2])]; rw [e2]; simp only; omega)
    refine ⟨hR.two hij ha hb hp hq (by rw [e]; exact ⟨rfl, rfl, rfl, rfl, rfl⟩) (by rw [e2]; exact ⟨rfl, rfl, rfl, rfl, rfl⟩) ⟨rfl, rfl, rfl, rfl, rfl⟩, ?_,
      fun _ => ?_, fun hb => by simp [SOp.bankrupts] at hb⟩ <;> omega

end Perp
end Mango
