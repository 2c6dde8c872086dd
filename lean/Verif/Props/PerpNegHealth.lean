import Verif.Props.PerpNeg
/-!
# C73: liquidation of negative perp pnl and perp bankruptcy, part 3: amounts and health
-/
namespace Mango
namespace Liquidation
open Fx Health Bank
open Settlement (pnl unsettled_pnl)

/-- what the settle limit lets the liqee lose now, of its pnl after funding, in the window of `now` -/
def Settleable (lim : I80F48 → Int) (now : Int) (m : Perp.Market) (p : Perp.Pos) (P sl : Int) : Prop :=
  ∃ e0 e1, p.settleFunding m = .ok e0 ∧ e0.updateSettleLimit m now = .ok e1 ∧ e1.applyPnlSettleLimit lim m P = .ok sl

theorem bankruptcy_settles {lim : I80F48 → Int} {m : Perp.Market} {e r : Perp.Pos} {oracle price iprice ff emax : I80F48} {hmax : Res I80F48} {now mt vault : Int} {R : Perp.Bankrupt}
    (h : Perp.bankruptcy lim m e r oracle price iprice ff now emax hmax mt vault = .ok R) :
    ∃ sl, Settleable lim now m e (pnl m e oracle) sl ∧ R.settlement = max (min (max (min emax (-sl)) 0) (mt * S)) 0 ∧
      (R.insurance ≠ 0 ∨ R.insuranceLiab ≠ 0 ∨ R.socialized ≠ 0 → R.settlement = max (min emax (-sl)) 0) := by
  unfold Perp.bankruptcy at h
  simp only [bind_ok, require_ok, neg_ok, sub_ok, Prod.exists] at h
  obtain ⟨e0, h1, r0, h2, pn, h3, _, h4, e1, h5, s, h6, ns, ⟨rfl, _⟩, nset, ⟨rfl, _⟩, e2, r2, pnl2, h7, left, ⟨rfl, _⟩, h⟩ := h
  have hP := unsettled_pnl (Perp.settleFunding_paid h1) h3
  subst hP
  refine ⟨s, ⟨e0, e1, h1, h5, h6⟩, ?_⟩
  have hM : ofInt mt = mt * S := rfl
  rw [hM] at h
  by_cases hc : max (min (max (min emax (-s)) 0) (mt * S)) 0 = max (min emax (-s)) 0 ∧ pnl2 < 0
  · rw [if_pos hc] at h
    simp only [bind_ok, Prod.exists] at h
    obtain ⟨pnl3, _, np, _, hm, _, pr, _, x, _, y, _, c, _, u, _, z, _, w, _, nl, _, e4, r4, _, rem, _, h⟩ := h
    generalize (min w (max (min (max (min np hm) 0) (mt * S - max (min (max (min emax (-s)) 0) (mt * S)) 0)) 0)) = lb at h
    by_cases hd : min u vault = vault ∧ rem > 0
    · rw [if_pos hd] at h
      simp only [bind_ok, ok_inj, Prod.exists] at h
      obtain ⟨nr, _, sx, m', h11, e6, h12, rfl⟩ := h
      exact ⟨rfl, fun _ => hc.1⟩
    · rw [if_neg hd, ok_inj] at h
      subst h
      exact ⟨rfl, fun _ => hc.1⟩
  · rw [if_neg hc, ok_inj] at h
    subst h
    exact ⟨rfl, fun hx => by simp at hx⟩

/-- **C73, amounts** `P`: the liqee's pnl after funding at the oracle price; `sl`: the part the settle limit lets settle; `emax`: what health lets it settle. The settled amount is exactly the smallest of the
request, the settleable pnl, and what health allows; only if all that can be settled is, can insurance be paid or loss be socialized; the liqor never takes over more than it asked for; altogether
the negative pnl is reduced but never turned positive; the insurance tokens are worth the pnl taken over plus the liquidation fee, to the token (`insPrice`, and settle token price with fee). -/
theorem C73_amounts {env : NegEnv} {s s' : NegLiq} {mt : Int} {r : NegReport} (hv : 0 ≤ s.vault) (hmt : 0 ≤ mt) (hpf : 0 < s.price * (S + s.fee) / S) (hip : 0 < s.insPrice)
    (h : perpLiqNegative env s mt = .ok (s', some r)) {P : Int} (hP : P = pnl s.market s.liqee s.oracle) :
    P < 0 ∧ (∃ emax sl, s.cache.perpMaxSettle env.fd s.market.settleTokenIndex = .ok emax ∧ Settleable env.lim env.now s.market s.liqee P sl ∧ r.settlement = min (max (min emax (-sl)) 0) (mt * S) ∧
      (r.insurance ≠ 0 ∨ r.liab ≠ 0 ∨ r.socialized ≠ 0 → r.settlement = max (min emax (-sl)) 0)) ∧
    0 ≤ r.settlement ∧ 0 ≤ r.liab ∧ 0 ≤ r.socialized ∧ r.settlement + r.liab ≤ mt * S ∧ r.settlement + r.liab + r.socialized ≤ -P ∧ (r.insurance = 0 → r.liab = 0) ∧
    (0 < r.insurance → (r.insurance - 1) * s.insPrice * S < (r.liab + 1) * (s.price * (S + s.fee) / S) ∧ r.liab * (s.price * (S + s.fee) / S) ≤ r.insurance * s.insPrice * S) := by
  obtain ⟨_, _, le, _, _, _, hd⟩ := C73_conditions h
  obtain ⟨emax, ff, B, s1, s2, s3, nd, hs'⟩ := hd r rfl
  have hf : 0 ≤ fundOf s := by unfold fundOf; split <;> omega
  have hrun : Perp.bankruptcy env.lim s.market s.liqee s.liqor s.oracle s.price s.insPrice ff env.now emax (pnlForHealth { s with liqeeFlag := ⟨true⟩ } le) mt (fundOf s) = .ok B := nd.run
  have hff : ff = S + s.fee := nd.factor
  subst hff
  have A := bankruptcy_amounts hf hmt hpf hip hrun
  obtain ⟨sl, q1, q2, q3⟩ := bankruptcy_settles hrun
  obtain ⟨_, _, c3, _, c5, c6, c7, c8, c9, c10⟩ := Perp.C50_bankruptcy hf hrun
  have hr := nd.report
  subst hr
  have hmS : 0 ≤ mt * S := Int.mul_nonneg hmt S_pos.le
  subst hP
  exact ⟨A.negative, ⟨emax, sl, nd.max, q1, by dsimp only; omega, q3⟩, c3, A.liab0, A.soc0, A.request, A.total, c8, A.fair⟩

/-- the cache shows the liqee's position and the settle token (so it is when the cache was made from the accounts); spot markets without funds have none; weights are in order -/
structure NegReflects (s : NegLiq) (pi : PerpInfo) (t : TokenInfo) : Prop where
  distinct : (s.cache.tokens.map (·.tokenIndex)).Nodup
  markets : ∀ x ∈ s.cache.serums, x.hasZeroFunds = true → x.reservedBase = 0 ∧ x.reservedQuote = 0 ∧ 0 ≤ x.reservedQuoteAsBaseHighestBid
  found : s.cache.perps.find? (fun i => i.perpMarketIndex == s.market.idx) = some pi
  info : perpInfoOf s.market s.liqee s.oracle = .ok pi
  mem : t ∈ s.cache.tokens
  settle : t.tokenIndex = s.market.settleTokenIndex
  price : t.prices.oracle = s.price
  weights : t.initAssetWeight = s.bank.initAssetWeight ∧ t.initLiabWeight = s.bank.initLiabWeight
  order : 0 ≤ t.initAssetWeight ∧ t.initAssetWeight ≤ t.initLiabWeight ∧ 0 ≤ t.prices.oracle

/-- fields of the market socialization does not touch -/
theorem socialize_rest {m m' : Perp.Market} {l x : I80F48} (h : m.socializeLoss l = .ok (x, m')) :
    ∃ a b, m' = { m with longFunding := a, shortFunding := b } := by
  unfold Perp.Market.socializeLoss at h
  simp only [bind_ok, require_ok, ok_inj, Prod.mk.injEq] at h
  obtain ⟨_, _, s0, _, l, _, sh, _, _, rfl⟩ := h
  exact ⟨l, sh, rfl⟩

theorem setself {α : Type} {l : List α} {n : Nat} {x : α} (hx : l[n]? = some x) : l.set n x = l := by
  rw [List.getElem?_eq_some_iff] at hx
  obtain ⟨h1, h2⟩ := hx
  rw [← h2]; simp

/-- health after `g` more settle tokens, where `g` is what the code computes to bring it to zero -/
theorem given_hAt {t : TokenInfo} {H b0 g : Int} (hA : 0 ≤ awp t) (hL : awp t ≤ lwp t) (h : spotGiven H b0 (awp t) (lwp t) = .ok g) :
    (0 ≤ H → g = 0) ∧ (H < 0 → 0 ≤ g ∧ hAt t H b0 (b0 + g) ≤ 1 ∧ -(lwp t) - S < hAt t H b0 (b0 + g) * S) := by
  have hS := S_pos
  have k := C39_given hA hL h
  refine ⟨k.1, fun hn => ?_⟩
  obtain ⟨g0, k1, k2⟩ := k.2 hn
  have p1 := mulFloor_bounds (priced (awp t) (lwp t) b0)
  have p2 := mulFloor_bounds (priced (awp t) (lwp t) (b0 + g))
  rw [← tv_priced] at p1 p2
  have e : hAt t H b0 (b0 + g) * S = H * S - tv (awp t) (lwp t) b0 * S + tv (awp t) (lwp t) (b0 + g) * S := by unfold hAt; ring
  refine ⟨g0, ?_, by omega⟩
  have : hAt t H b0 (b0 + g) * S < 2 * S := by omega
  have := Int.lt_of_mul_lt_mul_right this hS.le
  omega

/-- **C73, health** Settling does not change the liqee's liquidation-end health. Insurance and socialization are used only below zero health, raise it, and never (apart from one unit in the last place) above zero. And if the liqor's request
did not limit settlement and the insurance fund is used up, the loss does not stay: either no negative pnl is left or health is back at zero, up to the value of one unit in the last place. -/
theorem C73_health {env : NegEnv} (hfd0 : ∀ p x, env.fd 0 p = .ok x → x = 0) {s s' : NegLiq} {mt : Int} {r : NegReport} (hv : 0 ≤ s.vault) (hmt : 0 ≤ mt) (hpf : 0 < s.price * (S + s.fee) / S)
    (hip : 0 < s.insPrice) (h : perpLiqNegative env s mt = .ok (s', some r)) {pi : PerpInfo} {t : TokenInfo} (hr : NegReflects s pi t) {H H' : Int}
    (hH : s.cache.health env.fd .liqEnd = .ok H) (hH' : s'.cache.health env.fd .liqEnd = .ok H') :
    H ≤ H' ∧ (r.liab + r.socialized = 0 → H' = H) ∧ (0 < r.liab + r.socialized → H < 0 ∧ H' ≤ 1) ∧
    (r.settlement < mt * S → r.insurance = fundOf s → s'.liqee.quote = 0 ∨ -(t.initLiabWeight * t.prices.oracle / S) - S < H' * S) := by
  have hS := S_pos
  obtain ⟨_, ⟨bs0, hbs0, hph⟩, le, hle, _, _, hd⟩ := C73_conditions h
  obtain ⟨emax, ff, B, s1, s2, s3, nd, hs'⟩ := hd r rfl
  rw [hH, ok_inj] at hle
  subst hle
  have hf : 0 ≤ fundOf s := by unfold fundOf; split <;> omega
  have hrun : Perp.bankruptcy env.lim s.market s.liqee s.liqor s.oracle s.price s.insPrice ff env.now emax (pnlForHealth { s with liqeeFlag := ⟨true⟩ } H) mt (fundOf s) = .ok B := nd.run
  have hff : ff = S + s.fee := nd.factor
  subst hff
  have A := bankruptcy_amounts hf hmt hpf hip hrun
  obtain ⟨c1, _, c3, _, c5, c6, c7, c8, c9, c10⟩ := Perp.C50_bankruptcy hf hrun
  obtain ⟨_, i1, i2, i3, i4, i5⟩ := negSettle_same nd.settle
  obtain ⟨_, j1, j2, j3, j4, j5⟩ := negInsure_same nd.insure
  have hcache : s'.cache = s3.cache := by rw [hs']
  have hrep := nd.report
  have hlq : s'.liqee = B.liqee := by rw [hs', nd.state]
  rw [hlq]
  subst hrep
  dsimp only
  -- the position
  obtain ⟨ps, _, po, _, plz, pl, pb, pa, pq, pm, poo, pof⟩ := perpInfoOf_ok (x := (s.market, s.liqee, s.oracle)) hr.info
  dsimp only at ps po plz pl pb pa pq pm poo pof
  have hmem : pi ∈ s.cache.perps := List.mem_of_find?_eq_some hr.found
  have hno : s.liqee.asks = 0 ∧ s.liqee.bids = 0 := by
    have := hph.perpOrders pi hmem
    rw [poo] at this
    simpa using this
  have hnf : s.liqee.takerBase = 0 ∧ s.liqee.takerQuote = 0 := by
    have := hph.perpFills pi hmem
    rw [pof] at this
    simpa using this
  have hb0 : s.liqee.base = 0 := by
    have := hph.perpBase pi hmem
    rw [pl, hnf.1] at this
    omega
  have hq0 : pi.quote = s.liqee.quote := by rw [pq, hb0, hnf.2]; simp
  have ho0 : Perp.owed s.market s.liqee = 0 := by unfold Perp.owed; rw [hb0]; simp
  have hP : pnl s.market s.liqee s.oracle = s.liqee.quote := by unfold pnl; rw [ho0, hb0]; simp
  rw [hP] at A
  have hnegq := A.negative
  have htot := A.total
  -- the position afterwards
  obtain ⟨q1, ⟨z1, z2, z3, z4, z5⟩, _, _⟩ := c1
  rw [ho0] at q1
  have hmk : ∃ a b, B.market = { s.market with longFunding := a, shortFunding := b } := by
    by_cases hz : B.socialized = 0
    · exact ⟨s.market.longFunding, s.market.shortFunding, by rw [c9 hz]⟩
    · obtain ⟨_, x, hx⟩ := c10 hz
      exact socialize_rest hx
  obtain ⟨la, lb, hmk⟩ := hmk
  -- the settle token
  obtain ⟨i, hi⟩ : ∃ i : Nat, s.cache.tokens[i]? = some t := List.mem_iff_getElem?.mp hr.mem
  have hidx : s.cache.tokenIdx s.market.settleTokenIndex = some i := by
    unfold Cache.tokenIdx
    rw [List.findIdx?_eq_some_iff_getElem]
    have hi' := hi
    rw [List.getElem?_eq_some_iff] at hi'
    obtain ⟨hl, ht⟩ := hi'
    refine ⟨hl, by rw [ht, hr.settle]; simp, ?_⟩
    intro j hj
    simp only [beq_iff_eq]
    intro hc
    have hjl : j < s.cache.tokens.length := by omega
    have hn := List.nodup_iff_injective_get.mp hr.distinct
    have := @hn ⟨j, by simpa using hjl⟩ ⟨i, by simpa using hl⟩ (by simp [hc, ht, hr.settle])
    simp at this
    omega
  have hA : 0 ≤ awp t := by unfold awp; exact floor_nonneg (Int.mul_nonneg hr.order.1 hr.order.2.2)
  have hAL : awp t ≤ lwp t := by unfold awp lwp; exact floor_mono (Int.mul_le_mul_of_nonneg_right hr.order.2.1 hr.order.2.2)
  -- the cache afterwards
  have hcs : s2.cache.perps = s.cache.perps ∧ s2.cache.serums = s.cache.serums ∧
      ∃ t', s2.cache.tokens = s.cache.tokens.set i t' ∧ ∃ a b, t' = { t with initScaledAssetWeight := a, initScaledLiabWeight := b, balanceSpot := t.balanceSpot + -B.settlement } := by
    rw [j2]
    by_cases hx : 0 < B.settlement
    · obtain ⟨_, _, _, w, _, _, _, had⟩ := i4 hx
      obtain ⟨j, tt, tt', f1, f2, f3, f4, f5, f6⟩ := adjust_ok had
      have f1 : s.cache.tokenIdx s.market.settleTokenIndex = some j := f1
      rw [hidx, Option.some.injEq] at f1
      subst f1
      have f2 : s.cache.tokens[i]? = some tt := f2
      rw [hi, Option.some.injEq] at f2
      subst f2
      exact ⟨f4, f5, tt', f3, w.1, w.2, f6⟩
    · have hz : B.settlement = 0 := by omega
      rw [i5 hx, hz]
      exact ⟨rfl, rfl, t, (setself hi).symm, t.initScaledAssetWeight, t.initScaledLiabWeight, by simp⟩
  obtain ⟨cp, cs, t', ct, htd⟩ := hcs
  have hrec := nd.cache
  unfold Cache.recomputePerp at hrec
  have hmi : B.market.idx = s.market.idx := by rw [hmk]
  rw [hmi, cp] at hrec
  cases hk : s.cache.perps.findIdx? (fun i => i.perpMarketIndex == s.market.idx) with
  | none => rw [hk] at hrec; simp at hrec
  | some k =>
  rw [hk] at hrec
  dsimp only at hrec
  simp only [bind_ok] at hrec
  obtain ⟨old, ho, pi2, hpi2, hc'⟩ := hrec
  have hkk := find_idx hr.found hk
  have ho := Health.at_ok.mp ho
  rw [hkk, Option.some.injEq] at ho
  subst ho
  rw [ok_inj] at hc'
  obtain ⟨qs, _, qo, _, qlz, ql, qb, qa, qq, _, _, _⟩ := perpInfoOf_ok (x := (B.market, B.liqee, pi.basePrices.oracle)) hpi2
  dsimp only at qs qo qlz ql qb qa qq
  have hfin := health_perp hfd0 hr.distinct (fun x hx => hr.markets x hx (hph.serums x hx)) (t' := t') (pi' := { pi2 with basePrices := pi.basePrices }) (d := -B.settlement) (c' := s'.cache) hi hkk
    (by rw [ps, hr.settle]) (by dsimp only; rw [qs, hmk, ps]) htd
    (by rw [hcache, ← hc', ct]) (by rw [hcache, ← hc']) (by rw [hcache, ← hc', cs]) hH hH'
  have hval : ∀ p : PerpInfo, p.bidsBaseLots = 0 → p.asksBaseLots = 0 → p.baseLots = 0 → p.quote ≤ 0 → Formula.perpValue p .liqEnd = p.quote := by
    intro p a1 a2 a3 a4
    rw [perpValue_plain a1 a2]
    unfold plainPnl
    rw [a3]
    simp only [Int.zero_mul, Int.le_refl, if_true, Int.zero_ediv, Int.add_zero]
    unfold counted
    by_cases hq : p.quote = 0
    · rw [hq]; simp
    · rw [if_neg (by omega), Int.mul_ediv_cancel_left _ (by decide)]
  have v1 := hval pi (by rw [pb, hno.2]) (by rw [pa, hno.1]) (by rw [pl, hb0, hnf.1]; rfl) (by omega)
  have hq2 : pi2.quote = B.liqee.quote := by
    rw [qq]
    have t1 : B.liqee.takerQuote = 0 := by omega
    have t2 : B.liqee.base = 0 := by omega
    rw [t1, t2]; simp
  have v2 := hval { pi2 with basePrices := pi.basePrices } (by dsimp only; rw [qb]; omega) (by dsimp only; rw [qa]; omega) (by dsimp only; rw [ql]; omega) (by dsimp only; rw [hq2]; omega)
  dsimp only at v2
  rw [v1, v2, hq2, hq0] at hfin
  clear v1 v2 qq ql qlz qo qs qa qb hval htd
  generalize hb : Formula.balance s.cache .liqEnd t = b0 at hfin
  have hE : b0 + -B.settlement + (B.liqee.quote - s.liqee.quote) = b0 + (B.insuranceLiab + B.socialized) := by omega
  rw [hE] at hfin
  have l0 := A.liab0
  have s0 := A.soc0
  -- what brings health to zero
  have hg : ∀ g, pnlForHealth { s with liqeeFlag := ⟨true⟩ } H = .ok g → spotGiven H b0 (awp t) (lwp t) = .ok g := by
    intro g hg
    simp only [pnlForHealth, bind_ok, mul_ok, Prod.exists] at hg
    obtain ⟨bs, hbs, j, tt, hl, b, hbb, _, ⟨rfl, _⟩, _, ⟨rfl, _⟩, hg⟩ := hg
    obtain ⟨l1, l2⟩ := lookup_ok hl
    have l1 : s.cache.tokenIdx s.market.settleTokenIndex = some j := l1
    rw [hidx, Option.some.injEq] at l1
    subst l1
    have hbal := (Formula.balances_of hr.distinct hbs).2 i _ hi
    rw [Health.at_ok.mp hbb, Option.some.injEq] at hbal
    have e1 : s.price * s.bank.initAssetWeight / S = awp t := by unfold awp; rw [hr.weights.1, hr.price, Int.mul_comm]
    have e2 : s.price * s.bank.initLiabWeight / S = lwp t := by unfold lwp; rw [hr.weights.2, hr.price, Int.mul_comm]
    rw [e1, e2] at hg
    rw [← hb]
    have : b = Formula.balance s.cache .liqEnd t := hbal
    rw [← this]; exact hg
  obtain ⟨avail, _, st1, st2, st3⟩ := A.settled
  have mono := hAt_mono (H0 := H) (b0 := b0) hA hAL (show b0 ≤ b0 + (B.insuranceLiab + B.socialized) by omega)
  have self : hAt t H b0 b0 = H := by unfold hAt; omega
  refine ⟨by omega, ?_, ?_, ?_⟩
  · intro hz
    rw [hz, Int.add_zero] at hfin
    omega
  · intro hpos
    obtain ⟨_, g, g1, g2⟩ := st2 (by omega)
    have k := given_hAt hA hAL (hg g g1)
    have hneg : H < 0 := by
      by_contra hc
      have := k.1 (by omega)
      omega
    obtain ⟨k1, k2, _⟩ := k.2 hneg
    have := hAt_mono (H0 := H) (b0 := b0) hA hAL (show b0 + (B.insuranceLiab + B.socialized) ≤ b0 + g by omega)
    exact ⟨hneg, by omega⟩
  · intro hlt hfund
    by_cases hz : B.liqee.quote = 0
    · exact Or.inl hz
    · right
      have a1 : B.settlement = max (min emax avail) 0 := by clear st2 st3 hg; omega
      have a2 : B.settlement < -s.liqee.quote := by clear st2 st3 hg; omega
      obtain ⟨g, g1, g2⟩ := st3 a1 a2 hfund
      clear st2 st3
      have k := given_hAt hA hAL (hg g g1)
      have hsum : B.insuranceLiab + B.socialized = max g 0 := by omega
      have hLe : lwp t = t.initLiabWeight * t.prices.oracle / S := rfl
      rw [← hLe]
      by_cases hn : H < 0
      · obtain ⟨k1, _, k3⟩ := k.2 hn
        rw [hfin, hsum, Int.max_eq_left k1]
        exact k3
      · have := k.1 (by omega)
        have : 0 ≤ H' * S := Int.mul_nonneg (by omega) hS.le
        omega

end Liquidation
end Mango
