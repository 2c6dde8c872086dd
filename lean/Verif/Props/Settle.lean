import Verif.Perp.Settle
import Verif.Props.Ledger
/-!
# C28–C31: funding, settle limits, settle fees, socialized losses; C50: settlement creates no value
-/
namespace Mango
namespace Perp
open Book Fx

/-! ## C30 settle fee -/

/-- **C30.** The settle fee lies between zero and the settled amount, is at most twice the flat fee (the flat fee itself for
settlements at the threshold), and is zero when the pnl is below one percent of the position and, for settlements below the
threshold, when the account's liquidation-end health is not negative. -/
theorem C30_settle_fee {m : Market} {settlement pnlValue posValue liqEnd maint fee : I80F48} (hflat : 0 ≤ m.settleFeeFlat) (hs : 0 ≤ settlement)
    (h : m.computeSettleFee settlement pnlValue posValue liqEnd maint = .ok fee) :
    0 ≤ fee ∧ fee ≤ settlement ∧ fee ≤ 2 * m.settleFeeFlat ∧
    (100 * pnlValue ≤ posValue → fee = 0) ∧
    (settlement < m.settleFeeAmountThreshold → 0 ≤ liqEnd → fee = 0) ∧
    (m.settleFeeAmountThreshold ≤ settlement → fee ≤ m.settleFeeFlat) := by
  unfold Market.computeSettleFee at h
  simp only [bind_ok, mul_ok] at h
  obtain ⟨hh, ⟨rfl, _⟩, h⟩ := h
  have e100 : Fx.ofInt 100 * pnlValue / S = 100 * pnlValue := by
    unfold Fx.ofInt; rw [show (100 * S) * pnlValue = (100 * pnlValue) * S by ring]; exact Int.mul_ediv_cancel _ (by have := S_pos; omega)
  rw [e100] at h
  split at h
  · next hgt =>
    simp only [bind_ok, require_ok, ok_inj] at h
    obtain ⟨_, _, low, hlow, fee0, hfee, _, hge, rfl⟩ := h
    have hz : 0 ≤ liqEnd → low = 0 := by
      intro h0
      rw [if_neg (by omega), ok_inj] at hlow; exact hlow.symm
    have hle : (m.settleFeeAmountThreshold ≤ settlement → fee0 = m.settleFeeFlat) ∧
        (settlement < m.settleFeeAmountThreshold → fee0 ≤ 2 * m.settleFeeFlat ∧ fee0 ≤ low) := by
      split at hfee
      · next ht => rw [ok_inj] at hfee; exact ⟨fun _ => hfee.symm, fun h => absurd h (by omega)⟩
      · next ht =>
        simp only [bind_ok, mul_ok, ok_inj] at hfee
        obtain ⟨two, ⟨rfl, _⟩, rfl⟩ := hfee
        have e2 : m.settleFeeFlat * Fx.ofInt 2 / S = 2 * m.settleFeeFlat := by
          rw [mul_comm, mul_ofInt]
        rw [e2]
        exact ⟨fun h => absurd h (by omega), fun _ => ⟨min_le_right _ _, min_le_left _ _⟩⟩
    refine ⟨hge, min_le_right _ _, ?_, fun h => absurd h (by omega), ?_, ?_⟩
    · by_cases ht : m.settleFeeAmountThreshold ≤ settlement
      · have := hle.1 ht; have := min_le_left fee0 settlement; omega
      · have := (hle.2 (by omega)).1; have := min_le_left fee0 settlement; omega
    · intro ht h0
      have h1 := (hle.2 ht).2
      rw [hz h0] at h1
      have := min_le_left fee0 settlement
      omega
    · intro ht
      have := hle.1 ht; have := min_le_left fee0 settlement; omega
  · rw [ok_inj] at h
    subst h
    exact ⟨by omega, hs, by omega, fun _ => rfl, fun _ _ => rfl, fun _ => hflat⟩

/-! ## C28 funding -/

/-- **C28 (settle).** Settling funding takes exactly the funding owed off the quote position, leaves base position, lots and
everything but the settle bookkeeping alone, leaves nothing owed, and settling again changes nothing. -/
theorem C28_settle_exact {p p' : Pos} {m : Market} (h : p.settleFunding m = .ok p') :
    p'.quote = p.quote - owed m p ∧ owed m p' = 0 ∧ p'.base = p.base ∧ p'.bids = p.bids ∧ p'.asks = p.asks ∧ p'.takerBase = p.takerBase ∧
    p'.takerQuote = p.takerQuote ∧ p'.settleFunding m = .ok p' := by
  have h0 := h
  obtain ⟨f, hf, e⟩ := settleFunding_ok h
  have hfo := owed_of hf
  have hz : p'.unsettledFunding m = .ok 0 := by
    have hs : ∀ x : Int, Fx.sub x x = .ok 0 := by
      intro x; rw [sub_ok]; refine ⟨by omega, ?_⟩; unfold inRange; rw [show x - x = 0 by omega]; decide
    have hm : ∀ x : Int, Fx.mul 0 x = .ok 0 := by
      intro x; rw [mul_ok]; refine ⟨by simp, ?_⟩; unfold inRange; simp; decide
    unfold Pos.unsettledFunding
    rw [e]
    simp only [hs]
    split
    · exact hm _
    · split
      · exact hm _
      · rfl
  have hr : inRange p'.quote ∧ inRange p'.oneshot := by
    unfold Pos.settleFunding at h0
    simp only [bind_ok, sub_ok, ok_inj] at h0
    obtain ⟨f, h1, q, ⟨e1, r1⟩, o, ⟨e2, r2⟩, rfl⟩ := h0
    exact ⟨by simp only; rw [e1]; exact r1, by simp only; rw [e2]; exact r2⟩
  refine ⟨by rw [e, hfo], ?_, by rw [e], by rw [e], by rw [e], by rw [e], by rw [e], ?_⟩
  · exact owed_settled (by rw [e]) (by rw [e])
  · have hsub : ∀ x : Int, inRange x → Fx.sub x 0 = .ok x := by
      intro x hx; rw [sub_ok]; exact ⟨by omega, by rw [Int.sub_zero]; exact hx⟩
    unfold Pos.settleFunding
    rw [hz]
    simp only [bind, Except.bind]
    rw [hsub _ hr.1, hsub _ hr.2]
    simp only
    rw [e]

/-- the change of what a position owes when both funding indexes move by `d` -/
theorem owed_shift {m m' : Market} {d : Int} (h1 : m'.longFunding = m.longFunding + d) (h2 : m'.shortFunding = m.shortFunding + d) (p : Pos) :
    owed m' p = owed m p + p.base * d := by
  unfold owed
  rw [h1, h2]
  by_cases hb : p.base > 0
  · rw [if_pos hb, if_pos hb]; ring
  · rw [if_neg hb, if_neg hb]
    by_cases hb2 : p.base < 0
    · rw [if_pos hb2, if_pos hb2]; ring
    · rw [if_neg hb2, if_neg hb2]
      have : p.base = 0 := by omega
      rw [this]; ring

theorem fundingRate_bounds {m : Market} {bid ask : Option Int} {oracle rate : I80F48} (h : m.fundingRate bid ask oracle = .ok rate) :
    min m.minFunding 0 ≤ rate ∧ rate ≤ max m.maxFunding 0 ∨ m.maxFunding < m.minFunding := by
  unfold Market.fundingRate at h
  split at h
  · simp only [bind_ok, require_ok, ok_inj] at h
    obtain ⟨_, _, _, _, _, _, d, _, _, hle, rfl⟩ := h
    omega
  · rw [ok_inj] at h; omega
  · rw [ok_inj] at h; omega
  · rw [ok_inj] at h; omega

/-- Specification of the funding rate: from the impact bid and ask prices (in lots) and the oracle price. With both sides it is the
relative distance of the mid price from the oracle price, kept within the market's bounds; with one side only it is the bound on that side's
end; with neither it is zero. Divisions round toward zero. -/
def FundingSpec (m : Market) (bid ask : Option Int) (oracle rate : I80F48) : Prop :=
  match bid, ask with
  | some b, some a =>
      let mid := Int.tdiv (Int.tdiv (b + a) 2 * m.quoteLotSize * S * S) (m.baseLotSize * S)
      let d := Int.tdiv (mid * S) oracle - S
      (d < m.minFunding ∧ rate = m.minFunding) ∨ (m.maxFunding < d ∧ rate = m.maxFunding) ∨ (m.minFunding ≤ d ∧ d ≤ m.maxFunding ∧ rate = d)
  | some _, none => rate = m.maxFunding
  | none, some _ => rate = m.minFunding
  | none, none => rate = 0

theorem fundingRate_spec {m : Market} {bid ask : Option Int} {oracle rate : I80F48} (h : m.fundingRate bid ask oracle = .ok rate) :
    FundingSpec m bid ask oracle rate := by
  unfold Market.fundingRate at h
  unfold FundingSpec
  split at h
  · rename_i b a
    unfold Market.lotToNativePrice at h
    simp only [bind_ok, require_ok, ok_inj, ck64_ok, mul_ok, div_ok, sub_ok] at h
    obtain ⟨s, ⟨rfl, _⟩, bp, ⟨a, ⟨rfl, _⟩, _, rfl, _⟩, q, ⟨_, rfl, _⟩, d, ⟨rfl, _⟩, _, hle, rfl⟩ := h
    dsimp only
    rw [mul_ofInt]
    unfold Fx.ofInt Fx.ONE
    have e : (b + a).tdiv 2 * (m.quoteLotSize * S) = (b + a).tdiv 2 * m.quoteLotSize * S := by ring
    rw [e]
    omega
  · rw [ok_inj] at h; exact h.symm
  · rw [ok_inj] at h; exact h.symm
  · rw [ok_inj] at h; exact h.symm

/-- **C28 (rate).** After an update at a later time the change is that of the specified rate over the elapsed time, at most an hour, in days. -/
theorem C28_update_rate {m m' : Market} {b : OBook} {oracle stable : I80F48} {now : Nat} (hlt : m.fundingLastUpdated < now)
    (h : m.updateFunding b oracle now stable = .ok m') :
    ∃ lots bid ask rate, m.nativePriceToLot oracle = .ok lots ∧ (b.get .bid).impactPrice m.impactQuantity now lots = .ok bid ∧
      (b.get .ask).impactPrice m.impactQuantity now lots = .ok ask ∧ FundingSpec m bid ask oracle rate ∧
      m'.longFunding = m.longFunding + (oracle * m.baseLotSize * rate / S) * (min (now - m.fundingLastUpdated : Int) 3600 * S / 86400) / S ∧
      m'.shortFunding = m.shortFunding + (oracle * m.baseLotSize * rate / S) * (min (now - m.fundingLastUpdated : Int) 3600 * S / 86400) / S ∧
      m'.fundingLastUpdated = now ∧ m'.stablePrice = stable := by
  unfold Market.updateFunding at h
  rw [if_neg (by omega)] at h
  simp only [bind_ok, ok_inj, mul_ok, add_ok, div_ok] at h
  obtain ⟨lots, h1, bid, h2, ask, h3, rate, hr, tf, ⟨hne, rfl, _⟩, x, ⟨rfl, _⟩, y, ⟨rfl, _⟩, d, ⟨rfl, _⟩, l, ⟨rfl, _⟩, s, ⟨rfl, _⟩, rfl⟩ := h
  have e : oracle * Fx.ofInt m.baseLotSize / S = oracle * m.baseLotSize := by
    rw [mul_comm, mul_ofInt, mul_comm]
  have e2 : (Fx.ofInt (min ((now : Int) - m.fundingLastUpdated) 3600) * S).tdiv (Fx.ofInt 86400) =
      min ((now : Int) - m.fundingLastUpdated) 3600 * S / 86400 := by
    unfold Fx.ofInt
    rw [Int.mul_tdiv_mul_of_pos_left _ _ S_pos]
    apply Int.tdiv_eq_ediv_of_nonneg
    apply Int.mul_nonneg (by omega) S_pos.le
  rw [e, e2]
  exact ⟨lots, bid, ask, rate, h1, h2, h3, fundingRate_spec hr, rfl, rfl, rfl, rfl⟩

/-- **C28 (update).** A funding update moves both funding indexes by the same amount, and only if time has passed; the amount is
the oracle value of one base lot times a rate within the market's funding bounds times at most 1/24 (an hour's share of a day); no
other market state except the stable price changes. -/
theorem C28_update_funding {m m' : Market} {b : OBook} {oracle stable : I80F48} {now : Nat} (hmm : m.minFunding ≤ m.maxFunding)
    (h : m.updateFunding b oracle now stable = .ok m') :
    (now ≤ m.fundingLastUpdated → m' = m) ∧ m.fundingLastUpdated ≤ m'.fundingLastUpdated ∧
    ∃ d rate tf, m' = { m with longFunding := m.longFunding + d, shortFunding := m.shortFunding + d, fundingLastUpdated := m'.fundingLastUpdated, stablePrice := m'.stablePrice } ∧
      d = (oracle * m.baseLotSize * rate / S) * tf / S ∧ min m.minFunding 0 ≤ rate ∧ rate ≤ max m.maxFunding 0 ∧ 0 ≤ tf ∧ 24 * tf ≤ S := by
  unfold Market.updateFunding at h
  split at h
  · next hn =>
    rw [ok_inj] at h
    subst h
    refine ⟨fun _ => rfl, by omega, 0, 0, 0, by simp, by simp, by omega, by omega, by omega, ?_⟩
    have := S_pos; omega
  · next hn =>
    simp only [bind_ok, ok_inj, mul_ok, add_ok, div_ok] at h
    obtain ⟨lots, _, bid, _, ask, _, rate, hr, tf, ⟨hne, rfl, _⟩, x, ⟨rfl, _⟩, y, ⟨rfl, _⟩, d, ⟨rfl, _⟩, l, ⟨rfl, _⟩, s, ⟨rfl, _⟩, rfl⟩ := h
    refine ⟨fun h => absurd h hn, by simp only; omega, (oracle * Fx.ofInt m.baseLotSize / S * rate / S) * ((Fx.ofInt (min ((now : Int) - m.fundingLastUpdated) 3600) * S).tdiv (Fx.ofInt 86400)) / S, rate,
      (Fx.ofInt (min ((now : Int) - m.fundingLastUpdated) 3600) * S).tdiv (Fx.ofInt 86400), rfl, ?_, ?_, ?_, ?_, ?_⟩
    · have e : oracle * Fx.ofInt m.baseLotSize / S = oracle * m.baseLotSize := by
        rw [mul_comm, mul_ofInt, mul_comm]
      rw [e]
    · rcases fundingRate_bounds hr with h | h
      · exact h.1
      · omega
    · rcases fundingRate_bounds hr with h | h
      · exact h.2
      · omega
    · apply Int.tdiv_nonneg
      · apply Int.mul_nonneg
        · unfold Fx.ofInt S; omega
        · have := S_pos; omega
      · unfold Fx.ofInt S; omega
    · have hb := tdiv_bounds (a := Fx.ofInt (min ((now : Int) - m.fundingLastUpdated) 3600) * S) (b := Fx.ofInt 86400)
        (by unfold Fx.ofInt S; omega) (by unfold Fx.ofInt S; omega)
      unfold Fx.ofInt at hb ⊢
      unfold S at hb ⊢
      omega

/-- **C28 (zero-sum).** In every reachable state a funding update leaves the total funding owed by all positions, and the net quote
of the market, unchanged: what longs pay shorts receive. -/
theorem C28_zero_sum {s : PSys} (hR : Reachable s) {oracle stable : I80F48} {now : Nat} {m' : Market} (h : s.market.updateFunding s.book oracle now stable = .ok m')
    (hmm : s.market.minFunding ≤ s.market.maxFunding) :
    sumOf (fun a => owed m' (posD a)) s.accts = sumOf (fun a => owed s.market (posD a)) s.accts ∧ netQuote { s with market := m' } = netQuote s := by
  obtain ⟨_, _, d, rate, tf, e, _⟩ := C28_update_funding hmm h
  have hz := (C25_open_interest hR).2
  have hsh : ∀ a, owed m' (posD a) = owed s.market (posD a) + (posD a).base * d :=
    fun a => owed_shift (by rw [e]) (by rw [e]) (posD a)
  have hq : m'.quoteLotSize = s.market.quoteLotSize := by rw [e]
  have hf : m'.feesAccrued = s.market.feesAccrued := by rw [e]
  have hsum : sumOf (fun a => owed m' (posD a)) s.accts = sumOf (fun a => owed s.market (posD a)) s.accts := by
    rw [sumOf_congr (fun a _ => hsh a), sumOf_add]
    have : sumOf (fun a => (posD a).base * d) s.accts = d * sumOf (fun a => (posD a).base) s.accts := by
      rw [← sumOf_mul]; apply sumOf_congr; intro a _; ring
    rw [this, hz]; ring
  refine ⟨hsum, ?_⟩
  unfold netQuote pendingMakerFees pending
  simp only [hq, hf]
  have hs : ∀ m : Market, sumOf (fun a => (posD a).quote - owed m (posD a)) s.accts = sumOf (fun a => (posD a).quote) s.accts - sumOf (fun a => owed m (posD a)) s.accts := by
    intro m
    have := sumOf_add (fun a => (posD a).quote) (fun a => - owed m (posD a)) s.accts
    rw [sumOf_neg] at this
    rw [← Int.sub_eq_add_neg] at this
    rw [← this]
    apply sumOf_congr; intro a _; omega
  rw [hs, hs, hsum]

/-! ## C31 socialized losses -/

/-- the change of what a position owes when long funding rises and short funding falls by `k` -/
theorem owed_social {m m' : Market} {k : Int} (h1 : m'.longFunding = m.longFunding + k) (h2 : m'.shortFunding = m.shortFunding - k) (p : Pos) :
    owed m' p = owed m p + |p.base| * k := by
  unfold owed
  rw [h1, h2]
  by_cases hb : p.base > 0
  · rw [if_pos hb, if_pos hb, abs_of_pos hb]; ring
  · rw [if_neg hb, if_neg hb]
    by_cases hb2 : p.base < 0
    · rw [if_pos hb2, if_pos hb2, abs_of_neg hb2]; ring
    · rw [if_neg hb2, if_neg hb2]
      have : p.base = 0 := by omega
      rw [this]; simp

/-- the exact effect of `socialize_loss` -/
theorem socializeLoss_ok {m m' : Market} {loss s : I80F48} (hoi : 0 ≤ m.openInterest) (h : m.socializeLoss loss = .ok (s, m')) :
    loss ≤ 0 ∧ ∃ k, m' = { m with longFunding := m.longFunding + k, shortFunding := m.shortFunding - k } ∧ 0 ≤ k ∧ m.openInterest * k ≤ -loss ∧
      (0 < m.openInterest → -loss < m.openInterest * k + m.openInterest) ∧ (m.openInterest = 0 → k = 0) := by
  unfold Market.socializeLoss at h
  simp only [bind_ok, require_ok, sub_ok, add_ok, ok_inj, Prod.mk.injEq] at h
  obtain ⟨_, hl, s0, hs, l, ⟨rfl, _⟩, sh, ⟨rfl, _⟩, rfl, rfl⟩ := h
  refine ⟨hl, -s0, by simp only [Int.sub_eq_add_neg, neg_neg], ?_⟩
  split at hs
  · next h0 =>
    rw [ok_inj] at hs; subst hs
    rw [h0]; exact ⟨by omega, by omega, fun h => absurd h (by omega), fun _ => by omega⟩
  · next h0 =>
    rw [div_ok] at hs
    obtain ⟨_, rfl, _⟩ := hs
    have e : (loss * S).tdiv (Fx.ofInt m.openInterest) = -((-loss) / m.openInterest) := by
      unfold Fx.ofInt
      rw [Int.mul_tdiv_mul_of_pos_left _ _ S_pos]
      rw [show loss = -(-loss) by omega, Int.neg_tdiv, neg_neg, Int.tdiv_eq_ediv_of_nonneg (by omega)]
    rw [e, neg_neg]
    have hp : 0 < m.openInterest := by omega
    refine ⟨Int.ediv_nonneg (by omega) hoi, ?_, ?_, fun h => absurd h h0⟩
    · rw [Int.mul_comm]; exact Int.ediv_mul_le _ (by omega)
    · intro _
      have := Int.lt_ediv_add_one_mul_self (-loss) hp
      rw [Int.add_mul, Int.one_mul, Int.mul_comm] at this; exact this

/-- **C31.** In every reachable state, socializing a loss raises the long funding index and lowers the short one by the same amount, so
every open position is charged in proportion to its size; the total charged over all positions never exceeds the loss and
falls short of it by less than one unit of the last place per lot of open interest; with no open interest nobody is charged. -/
theorem C31_socialize {s : PSys} (hR : Reachable s) {loss x : I80F48} {m' : Market} (h : s.market.socializeLoss loss = .ok (x, m')) :
    ∃ k, 0 ≤ k ∧ m' = { s.market with longFunding := s.market.longFunding + k, shortFunding := s.market.shortFunding - k } ∧
      (∀ p, owed m' p = owed s.market p + |p.base| * k) ∧
      (let charged := sumOf (fun a => owed m' (posD a)) s.accts - sumOf (fun a => owed s.market (posD a)) s.accts
       charged ≤ -loss ∧ (0 < s.market.openInterest → -loss < charged + s.market.openInterest) ∧ (s.market.openInterest = 0 → charged = 0)) := by
  have hoi := (C25_open_interest hR).1
  have hnn : 0 ≤ s.market.openInterest := by rw [hoi]; exact sumOf_nonneg (fun a => abs_nonneg _)
  obtain ⟨hl, k, e, hk, h1, h2, h3⟩ := socializeLoss_ok hnn h
  have hsh : ∀ p, owed m' p = owed s.market p + |p.base| * k := fun p => owed_social (by rw [e]) (by rw [e]) p
  refine ⟨k, hk, e, hsh, ?_⟩
  have hsum : sumOf (fun a => owed m' (posD a)) s.accts - sumOf (fun a => owed s.market (posD a)) s.accts = s.market.openInterest * k := by
    rw [sumOf_congr (fun a _ => hsh (posD a)), sumOf_add]
    have : sumOf (fun a => |(posD a).base| * k) s.accts = k * sumOf (fun a => |(posD a).base|) s.accts := by
      rw [← sumOf_mul]; apply sumOf_congr; intro a _; ring
    rw [this, ← hoi]; ring
  simp only [hsum]
  exact ⟨h1, h2, fun h => by rw [h]; ring⟩

end Perp
end Mango
