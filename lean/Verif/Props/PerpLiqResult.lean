import Verif.Props.PerpLiq
/-!
# C63: perp liquidation, part 4: the theorems
-/
namespace Mango
namespace Liquidation
open Fx Health Bank

theorem updateSettleLimit_same {p p' : Perp.Pos} {m : Perp.Market} {now : Int} (h : p.updateSettleLimit m now = .ok p') :
    ∃ w x, p' = { p with window := w, settledInWindow := x } := by
  simp only [Perp.Pos.updateSettleLimit, bind_ok] at h
  obtain ⟨a, _, b, _, h⟩ := h
  by_cases h1 : now ≥ b ∨ now < a
  · rw [if_pos h1] at h
    by_cases h2 : m.settlePnlLimitWindowSizeTs = 0
    · rw [if_pos h2] at h; simp at h
    · rw [if_neg h2] at h
      by_cases h3 : now / m.settlePnlLimitWindowSizeTs > 4294967295
      · rw [if_pos h3] at h; simp at h
      · rw [if_neg h3, ok_inj] at h
        exact ⟨_, _, h.symm⟩
  · rw [if_neg h1, ok_inj] at h
    exact ⟨_, _, h.symm⟩

/-- fees are not negative, lot size and price neither (perp_create_market.rs, perp_edit_market.rs; oracle prices) -/
structure PerpSane (s : PerpLiq) (price : Int) : Prop where
  platform : 0 ≤ s.fees.platform
  lot : 0 ≤ s.market.baseLotSize
  price : 0 ≤ price

/-- amounts of a run that liquidates, in terms of the state before -/
theorem perpLiq_some {env : PerpLiqEnv} {s s' : PerpLiq} {M P : Int} {r : PerpReport} (hP : 0 ≤ P) (h : perpLiqBaseOrPositivePnl env s M P = .ok (s', some r)) :
    ∃ (le fe fr u tok limit lo : Int) (pi : PerpInfo) (t : TokenInfo) (i : Nat) (bs : List Int) (plan : Plan) (s0 s1 s2 : PerpLiq) (w x : Int),
      s.cache.health env.fd .liqEnd = .ok le ∧ s.liqee.unsettledFunding s.market = .ok fe ∧ s.liqor.unsettledFunding s.market = .ok fr ∧
      s.cache.perps.find? (fun i => i.perpMarketIndex == s.market.idx) = some pi ∧ pi.uhupnl .liqEnd = .ok u ∧
      s.cache.balances .liqEnd = .ok bs ∧ s.cache.tokenIdx s.market.settleTokenIndex = some i ∧ s.cache.tokens[i]? = some t ∧ bs[i]? = some tok ∧
      s0 = { s with
        liqeeFlag := ⟨true⟩
        liqee := { s.liqee with quote := s.liqee.quote - fe, oneshot := s.liqee.oneshot - fe, longSettled := s.market.longFunding, shortSettled := s.market.shortFunding, window := w, settledInWindow := x }
        liqor := { s.liqor with quote := s.liqor.quote - fr, oneshot := s.liqor.oneshot - fr, longSettled := s.market.longFunding, shortSettled := s.market.shortFunding } } ∧
      s0.liqee.settleLimit env.lim s.market = .ok (lo, limit) ∧
      0 < gainPerLot s.market s.fees pi.basePrices.oracle s.liqee.base ∧ (if 0 < s.liqee.base then 0 ≤ M else M ≤ 0) ∧
      Steps t s.liqee.base (max M (I64MIN + 1)) (gainPerLot s.market s.fees pi.basePrices.oracle s.liqee.base) (S - s.fees.positivePnl) s.market.initOverallAssetWeight (P * S) ⟨0, 0, u, tok, le⟩ plan ∧
      Within s.liqee.base (max M (I64MIN + 1)) (P * S) u (gainPerLot s.market s.fees pi.basePrices.oracle s.liqee.base) plan ∧
      r.base = (if 0 < s.liqee.base then -1 else 1) * plan.base ∧ r.pnl = plan.pnl ∧
      TradeDone s0 s1 (factorLiqor s.fees s.liqee.base) (factorAll s.fees s.liqee.base) (s.market.baseLotSize * pi.basePrices.oracle) r.base r.quoteLiqee r.quoteLiqor r.platformFee ∧
      TakeoverDone env s1 s2 limit (S - s.fees.positivePnl) r.pnl r.token r.limitRecurring r.limitOneshot ∧
      s2.cache.recomputePerp s2.market s2.liqee = .ok s'.cache ∧ s' = { s2 with cache := s'.cache, liqeeFlag := s'.liqeeFlag } := by
  obtain ⟨_, _, le, hle, _, _, h⟩ := C63_conditions h
  obtain ⟨e, e', q, fe, fr, g1, g2, rfl, hup, rfl, s3, ad, hs'⟩ := h r rfl
  obtain ⟨w, x, rfl⟩ := updateSettleLimit_same hup
  obtain ⟨bs, i, t, tok, pi, limit, u, lo, plan, s1, s2, k1, k2, k3, k4, k5, k6, k7, k8, k9, k10, k11, k12, k13, k14, k15, k16⟩ := ad.ex
  dsimp only at *
  have w0 : Within s.liqee.base (max M (I64MIN + 1)) (P * S) u (gainPerLot s.market s.fees pi.basePrices.oracle s.liqee.base) ⟨0, 0, u, tok, le⟩ :=
    ⟨le_refl _, abs_nonneg _, abs_nonneg _, le_refl _, Int.mul_nonneg hP S_pos.le, by dsimp only; omega, by intro hc; simp at hc⟩
  have hM : (if 0 < s.liqee.base then 0 ≤ M else M ≤ 0) := by
    have : I64MIN + 1 < 0 := by decide
    by_cases hB : 0 < s.liqee.base
    · rw [if_pos hB] at k9 ⊢; omega
    · rw [if_neg hB] at k9 ⊢; omega
  refine ⟨le, fe, fr, u, tok, limit, lo, pi, t, i, bs, plan, _, s1, s2, w, x, hle, g1, g2, k5, k7, k1, k2, k3, k4, rfl, k6, k8, hM, k10, k10.within k8 w0, k11, k12, k13, k14, ?_, ?_⟩
  · rw [hs']; exact k15
  · rw [hs', k16]

/-- **C63, the trade** The liqee's base position only moves toward zero: by at most what it is and at most what the liqor asked for (a wrong sign of the request is rejected). The liqor takes
exactly the opposite. Both trade at the oracle price of the health computation: for a long position the liqee receives `1 - fees` of it and the liqor pays `1 - its fee`; for a short position the
liqee pays `1 + fees` and the liqor receives `1 + its fee`; always rounded down. What is left between the two goes to the market's fees and is never negative: base lots and quote are conserved
(funding is settled on both positions first). -/
theorem C63_trade {env : PerpLiqEnv} {s s' : PerpLiq} {M P : Int} {r : PerpReport} (hP : 0 ≤ P) (h : perpLiqBaseOrPositivePnl env s M P = .ok (s', some r))
    {pi : PerpInfo} (hpi : s.cache.perps.find? (fun i => i.perpMarketIndex == s.market.idx) = some pi) (hs : PerpSane s pi.basePrices.oracle) :
    (0 < s.liqee.base → 0 ≤ M ∧ 0 ≤ -r.base ∧ -r.base ≤ s.liqee.base ∧ -r.base ≤ M) ∧
    (s.liqee.base ≤ 0 → M ≤ 0 ∧ 0 ≤ r.base ∧ r.base ≤ -s.liqee.base ∧ r.base ≤ -M) ∧
    s'.liqee.base = s.liqee.base + r.base ∧ s'.liqor.base = s.liqor.base - r.base ∧
    s'.market.openInterest = s.market.openInterest + (|s'.liqee.base| - |s.liqee.base|) + (|s'.liqor.base| - |s.liqor.base|) ∧
    (0 < s.liqee.base →
      r.quoteLiqee = -r.base * (s.market.baseLotSize * pi.basePrices.oracle) * (S - s.fees.base - s.fees.platform) / S ∧
      r.quoteLiqor = r.base * (s.market.baseLotSize * pi.basePrices.oracle) * (S - s.fees.base) / S) ∧
    (s.liqee.base ≤ 0 →
      r.quoteLiqee = -r.base * (s.market.baseLotSize * pi.basePrices.oracle) * (S + s.fees.base + s.fees.platform) / S ∧
      r.quoteLiqor = r.base * (s.market.baseLotSize * pi.basePrices.oracle) * (S + s.fees.base) / S) ∧
    0 ≤ r.platformFee ∧ r.quoteLiqee + r.quoteLiqor + r.platformFee = 0 ∧
    ∃ fe fr, s.liqee.unsettledFunding s.market = .ok fe ∧ s.liqor.unsettledFunding s.market = .ok fr ∧
      s'.liqee.quote = s.liqee.quote - fe + r.quoteLiqee - r.pnl ∧ s'.liqor.quote = s.liqor.quote - fr + r.quoteLiqor + r.pnl ∧
      s'.market.feesAccrued = s.market.feesAccrued + r.platformFee ∧ s'.accruedLiqFees = s.accruedLiqFees + r.platformFee := by
  have hS := S_pos
  obtain ⟨le, fe, fr, u, tok, limit, lo, pi', t, i, bs, plan, s0, s1, s2, w, x, hle, g1, g2, k5, k7, k1, k2, k3, k4, hs0, k6, k8, k9, k10, kw, k11, k12, td, tk, k15, k16⟩ := perpLiq_some hP h
  rw [hpi, Option.some.injEq] at k5
  subst k5
  have hab : |s.liqee.base| = if 0 < s.liqee.base then s.liqee.base else -s.liqee.base := by
    split
    · exact abs_of_pos (by assumption)
    · exact abs_of_nonpos (by omega)
  have hI : I64MIN + 1 < 0 := by decide
  have w1 := kw.base0
  have w2 := kw.base1
  have w3 := kw.base2
  have w4 := kw.pnl0
  obtain ⟨p1, p2, p3⟩ := hs
  have hpp : 0 ≤ s.market.baseLotSize * pi.basePrices.oracle := Int.mul_nonneg p2 p3
  -- positions and market
  obtain ⟨rr, ee⟩ := td.liqee
  obtain ⟨rr', eq⟩ := td.liqor
  have em := td.market
  have qz : r.base = 0 → r.quoteLiqee = 0 ∧ r.quoteLiqor = 0 := by
    intro hz
    have a := td.qe_eq
    have b := td.qr_eq
    rw [hz] at a b
    simp at a b
    exact ⟨a, b⟩
  have qe' : (if r.base = 0 then 0 else r.quoteLiqee) = r.quoteLiqee := by
    split
    · rw [(qz (by assumption)).1]
    · rfl
  have qr' : (if r.base = 0 then 0 else r.quoteLiqor) = r.quoteLiqor := by
    split
    · rw [(qz (by assumption)).2]
    · rfl
  rw [qe'] at ee
  rw [qr'] at eq
  have l2 : s2.liqee.base = s.liqee.base + r.base ∧ s2.liqee.quote = s.liqee.quote - fe + r.quoteLiqee - r.pnl := by
    by_cases hp : 0 < r.pnl
    · have a := (tk.liqee hp).pos
      rw [a, ee, hs0]
      exact ⟨rfl, rfl⟩
    · obtain ⟨a, _⟩ := tk.none (by omega)
      rw [a, ee, hs0]
      dsimp only
      exact ⟨rfl, by omega⟩
  have r2 : s2.liqor.base = s.liqor.base - r.base ∧ s2.liqor.quote = s.liqor.quote - fr + r.quoteLiqor + r.pnl := by
    by_cases hp : 0 < r.pnl
    · rw [tk.liqor hp, eq, hs0]
      exact ⟨rfl, rfl⟩
    · obtain ⟨a, _⟩ := tk.none (by omega)
      rw [a, eq, hs0]
      dsimp only
      exact ⟨rfl, by omega⟩
  have e1 : s'.liqee = s2.liqee := by rw [k16]
  have e2 : s'.liqor = s2.liqor := by rw [k16]
  have e3 : s'.market = s2.market := by rw [k16]
  have e4 : s'.accruedLiqFees = s2.accruedLiqFees := by rw [k16]
  rw [e1, e2, e3, e4, tk.rest.1, tk.rest.2.2.1, em, td.rest.2.1, l2.1, l2.2, r2.1, r2.2, hs0]
  dsimp only
  -- the fee
  have hfee : 0 ≤ -r.quoteLiqor - r.quoteLiqee := by
    rw [td.qe_eq, td.qr_eq]
    have m1 := mulFloor_bounds (-r.base * (s.market.baseLotSize * pi.basePrices.oracle) * factorAll s.fees s.liqee.base)
    have m2 := mulFloor_bounds (r.base * (s.market.baseLotSize * pi.basePrices.oracle) * factorLiqor s.fees s.liqee.base)
    generalize s.market.baseLotSize * pi.basePrices.oracle = Q at *
    have k : -r.base * Q * factorAll s.fees s.liqee.base + r.base * Q * factorLiqor s.fees s.liqee.base ≤ 0 := by
      have e : -r.base * Q * factorAll s.fees s.liqee.base + r.base * Q * factorLiqor s.fees s.liqee.base = -(r.base * (factorAll s.fees s.liqee.base - factorLiqor s.fees s.liqee.base) * Q) := by ring
      rw [e]
      have : 0 ≤ r.base * (factorAll s.fees s.liqee.base - factorLiqor s.fees s.liqee.base) := by
        rw [k11]
        unfold factorAll factorLiqor
        by_cases hB : 0 < s.liqee.base
        · rw [if_pos hB, if_pos hB, if_pos hB]
          have e : -1 * plan.base * (S - s.fees.base - s.fees.platform - (S - s.fees.base)) = plan.base * s.fees.platform := by ring
          rw [e]; exact Int.mul_nonneg w1 p1
        · rw [if_neg hB, if_neg hB, if_neg hB]
          have e : 1 * plan.base * (S + s.fees.base + s.fees.platform - (S + s.fees.base)) = plan.base * s.fees.platform := by ring
          rw [e]; exact Int.mul_nonneg w1 p1
      have := Int.mul_nonneg this hpp
      omega
    generalize -r.base * Q * factorAll s.fees s.liqee.base = X at *
    generalize r.base * Q * factorLiqor s.fees s.liqee.base = Y at *
    have : 0 ≤ (-(Y / S) - X / S) * S := by
      have e : (-(Y / S) - X / S) * S = -(Y / S * S) - X / S * S := by ring
      omega
    exact Int.le_of_mul_le_mul_right (by simpa using this) hS
  have hf := td.fee_eq
  refine ⟨?_, ?_, rfl, rfl, rfl, ?_, ?_, by omega, by omega, fe, fr, g1, g2, rfl, rfl, rfl, rfl⟩
  · intro hB
    rw [if_pos hB] at k9 k11 hab
    have hm : |max M (I64MIN + 1)| = M := by
      have : max M (I64MIN + 1) = M := by omega
      rw [this]; exact abs_of_nonneg k9
    omega
  · intro hB
    rw [if_neg (by omega)] at k9 k11 hab
    have hm : |max M (I64MIN + 1)| = -max M (I64MIN + 1) := abs_of_nonpos (by omega)
    omega
  · intro hB
    have a := td.qe_eq
    have b := td.qr_eq
    unfold factorAll at a
    unfold factorLiqor at b
    rw [if_pos hB] at a b
    exact ⟨a, b⟩
  · intro hB
    have a := td.qe_eq
    have b := td.qr_eq
    unfold factorAll at a
    unfold factorLiqor at b
    rw [if_neg (by omega)] at a b
    exact ⟨a, b⟩

/-- **C63, the pnl takeover** The liqor takes over at most the requested pnl, and pnl only as long as the liqee's health pnl (unweighted; before the instruction, plus what the base reduction
gained per lot) is positive. The liqor pays `1 - positive_pnl_liquidation_fee` for it, rounded down. With the pnl goes a share of the liqee's settle limit: at least 1, not more than the pnl
rounded up, recurring and one-shot part each not more than what the liqee has (or 1). The tokens move as one deposit and one withdrawal of the same amount in the settle bank (`A`: its
banks, `ps`: positions in it), so no tokens enter or leave it. Without pnl takeover, no tokens and limits move. -/
theorem C63_takeover {env : PerpLiqEnv} {s s' : PerpLiq} {M P : Int} {r : PerpReport} (hP : 0 ≤ P) (h : perpLiqBaseOrPositivePnl env s M P = .ok (s', some r)) :
    0 ≤ r.pnl ∧ r.pnl ≤ P * S ∧
    (r.pnl = 0 → r.token = 0 ∧ r.limitRecurring = 0 ∧ r.limitOneshot = 0 ∧ s'.bank = s.bank ∧ s'.liqeeTok = s.liqeeTok ∧ s'.liqorTok = s.liqorTok) ∧
    (0 < r.pnl →
      (∃ pi u, s.cache.perps.find? (fun i => i.perpMarketIndex == s.market.idx) = some pi ∧ pi.uhupnl .liqEnd = .ok u ∧
        r.pnl ≤ u + gainPerLot s.market s.fees pi.basePrices.oracle s.liqee.base * |r.base|) ∧
      r.token = r.pnl * (S - s.fees.positivePnl) / S ∧
      1 ≤ r.limitRecurring ∧ 0 ≤ r.limitOneshot ∧ (r.limitRecurring + r.limitOneshot) * S < r.pnl + S ∧
      (∃ (fe : Int) (e : Perp.Pos) (lo limit o : Int), s.liqee.unsettledFunding s.market = .ok fe ∧ e.base = s.liqee.base ∧ e.quote = s.liqee.quote - fe ∧ e.oneshot = s.liqee.oneshot - fe ∧ e.recurring = s.liqee.recurring ∧
        e.settleLimit env.lim s.market = .ok (lo, limit) ∧ o = max (-((-e.oneshot) / S)) 0 ∧ r.limitRecurring ≤ max 1 (limit - o) ∧ r.limitOneshot ≤ o) ∧
      ∀ {A : List Bank} {k : Nat} (_ : A[k]? = some s.bank) {ps : List TokenPosition} {i j : Nat} (_ : i ≠ j) (_ : ps[i]? = some s.liqeeTok) (_ : ps[j]? = some s.liqorTok) (v : Int),
        runOps ⟨A, ps, v⟩ [.pos (.deposit r.token) k i false env.now, .pos (.withdrawWithoutFee r.token) k j false env.now] =
          .ok ⟨A.set k s'.bank, (ps.set i s'.liqeeTok).set j s'.liqorTok, v⟩) := by
  obtain ⟨le, fe, fr, u, tok, limit, lo, pi, t, i, bs, plan, s0, s1, s2, w, x, hle, g1, g2, k5, k7, k1, k2, k3, k4, hs0, k6, k8, k9, k10, kw, k11, k12, td, tk, k15, k16⟩ := perpLiq_some hP h
  have w4 := kw.pnl0
  have w5 := kw.pnl1
  have eb : s'.bank = s2.bank := by rw [k16]
  have et : s'.liqeeTok = s2.liqeeTok := by rw [k16]
  have er : s'.liqorTok = s2.liqorTok := by rw [k16]
  have sb : s1.bank = s.bank := by rw [td.rest.2.2.1, hs0]
  have st : s1.liqeeTok = s.liqeeTok := by rw [td.rest.2.2.2.1, hs0]
  have sr : s1.liqorTok = s.liqorTok := by rw [td.rest.2.2.2.2.1, hs0]
  refine ⟨by omega, by omega, ?_, ?_⟩
  · intro hz
    obtain ⟨a, b, c, d⟩ := tk.none (by omega)
    rw [eb, et, er, a, sb, st, sr]
    exact ⟨b, c, d, rfl, rfl, rfl⟩
  · intro hp
    obtain ⟨l1, l2, l3, l4, l5⟩ := tk.limits hp
    obtain ⟨rr, ee⟩ := td.liqee
    have eo : s1.liqee.oneshot = s.liqee.oneshot - fe := by rw [ee, hs0]
    rw [eo] at l4 l5
    refine ⟨⟨pi, u, k5, k7, ?_⟩, tk.paid hp, l1, l2, l3, ⟨fe, s0.liqee, lo, limit, _, g1, by rw [hs0], by rw [hs0], by rw [hs0], by rw [hs0], k6, rfl, by rw [hs0]; exact l4, by rw [hs0]; exact l5⟩, ?_⟩
    · have hu := kw.uh
      have := kw.pos (by omega)
      have hb : |r.base| = plan.base := by
        have := kw.base0
        rw [k11]
        split
        · rw [show -1 * plan.base = -plan.base by ring, abs_neg, abs_of_nonneg this]
        · rw [show 1 * plan.base = plan.base by ring, abs_of_nonneg this]
      rw [hb]
      omega
    · intro A k hA ps a b hab ha hb v
      obtain ⟨bk, a1, a2, ww, d1, d2, _, _⟩ := tk.bank hp
      rw [sb, st] at d1
      rw [sr] at d2
      have hk : k < A.length := by rw [List.getElem?_eq_some_iff] at hA; exact hA.1
      have st1 := step_pos (s := ⟨A, ps, v⟩) (op := .deposit r.token) (k := k) (i := a) (now := env.now) hA ha d1
      have st2 := step_pos (s := ⟨A.set k bk, ps.set a s2.liqeeTok, v + (PosOp.deposit r.token).inflow⟩) (op := .withdrawWithoutFee r.token) (k := k) (i := b) (now := env.now)
        (by dsimp only; rw [List.getElem?_set_self hk]) (by dsimp only; rw [List.getElem?_set_ne hab]; exact hb) d2
      rw [runOps, st1]
      dsimp only [bind, Except.bind]
      rw [runOps, st2]
      dsimp only [bind, Except.bind]
      rw [runOps, eb, et, er]
      simp only [List.set_set, PosOp.inflow]
      congr 2
      omega

end Liquidation
end Mango
