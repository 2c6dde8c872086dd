import Verif.Props.TokenLiqHealth
import Mathlib.Tactic.Positivity
/-!
# C56: token liquidation, part 3: it stops at health zero, and it improves health
-/
namespace Mango
namespace Liquidation
open Fx Health Bank

/-- the cache shows what the banks and oracles say, banks are valid, asset weights are not above liability weights -/
structure Reflects (s : TokLiq) : Prop where
  distinct : (s.cache.tokens.map (·.tokenIndex)).Nodup
  markets : ∀ x ∈ s.cache.serums, x.hasZeroFunds = true → x.reservedBase = 0 ∧ x.reservedQuote = 0 ∧ 0 ≤ x.reservedQuoteAsBaseHighestBid
  liab : ∀ t ∈ s.cache.tokens, t.tokenIndex = s.liab.index → t.initLiabWeight = s.liab.bank.initLiabWeight ∧ t.prices.oracle = s.liab.price
  asset : ∀ t ∈ s.cache.tokens, t.tokenIndex = s.asset.index → t.initAssetWeight = s.asset.bank.initAssetWeight
  weights : ∀ t ∈ s.cache.tokens, 0 ≤ t.initAssetWeight ∧ t.initAssetWeight ≤ t.initLiabWeight
  assetPos : s.asset.bank.Pos
  liabPos : s.liab.bank.Pos
  assetRates : s.asset.bank.RatesOk
  liabRates : s.liab.bank.RatesOk

theorem adjust_ok {c c' : Cache} {ti : Nat} {w : I80F48 × I80F48} {d : I80F48} (h : c.adjustTokenBalance ti w d = .ok c') :
    ∃ (i : Nat) (t t' : TokenInfo), c.tokenIdx ti = some i ∧ c.tokens[i]? = some t ∧ c'.tokens = c.tokens.set i t' ∧ c'.perps = c.perps ∧ c'.serums = c.serums ∧
      t' = { t with initScaledAssetWeight := w.1, initScaledLiabWeight := w.2, balanceSpot := t.balanceSpot + d } := by
  unfold Cache.adjustTokenBalance at h
  split at h
  · simp at h
  · rename_i i hi
    simp only [bind_ok, neg_ok, sub_ok, ok_inj] at h
    obtain ⟨t, h1, _, ⟨rfl, _⟩, _, ⟨rfl, _⟩, rfl⟩ := h
    refine ⟨i, t, _, hi, at_ok h1, rfl, rfl, rfl, ?_⟩
    congr 1
    omega

theorem tokenIdx_set {c c' : Cache} {i : Nat} {t t' : TokenInfo} (h : c.tokens[i]? = some t) (hs : c'.tokens = c.tokens.set i t') (ht : t'.tokenIndex = t.tokenIndex) :
    c'.tokens.map (·.tokenIndex) = c.tokens.map (·.tokenIndex) := by
  rw [hs, List.map_set, ht]
  apply List.ext_getElem?
  intro k
  rw [List.getElem?_set]
  split
  · rename_i e
    subst e
    rw [List.getElem?_map, h]
    split
    · rfl
    · rename_i hk
      rw [List.length_map] at hk
      rw [List.getElem?_eq_none (by omega)] at h
      simp at h
  · rfl

/-- health is a sum over the tokens if no funds are in spot orders -/
theorem health_tokens {fd : FDiv} (hfd0 : ∀ p x, fd 0 p = .ok x → x = 0) {c : Cache} (hd : (c.tokens.map (·.tokenIndex)).Nodup)
    (hz : ∀ x ∈ c.serums, x.reservedBase = 0 ∧ x.reservedQuote = 0 ∧ 0 ≤ x.reservedQuoteAsBaseHighestBid) {h : HT} {v : I80F48} (hv : c.health fd h = .ok v) :
    v = sumOf (fun t => Formula.tokenValue t h (Formula.balance c h t)) c.tokens := by
  rw [C55_health_formula hd hv]
  unfold Formula.health
  have : sumOf (Formula.marketValue (fun x y => val (fd x y)) c h) c.serums = 0 := by
    apply sumOf_zero
    intro x hx
    obtain ⟨z1, z2, z3⟩ := hz x hx
    unfold Formula.marketValue
    split
    · rfl
    · rename_i b q hq
      have : Formula.asBase (fun x y => val (fd x y)) x h b q = 0 := by
        unfold Formula.asBase
        rw [z1, z2]
        simp only [Int.zero_mul, Int.zero_ediv, Int.zero_add]
        have : val (fd 0 (Formula.liabPrice b.prices h)) = 0 := by
          cases he : fd 0 (Formula.liabPrice b.prices h) with
          | ok y => rw [val_ok rfl]; exact hfd0 _ _ he
          | error e => rfl
        rw [this]
        split
        · rfl
        · omega
      rw [if_pos (Or.inl this)]
  omega

/-- the value of a token's balance for liquidation-end health -/
theorem tokenValue_liqEnd (t : TokenInfo) (b : Int) :
    Formula.tokenValue t .liqEnd b = tv (t.initAssetWeight * t.prices.oracle / S) (t.initLiabWeight * t.prices.oracle / S) b := rfl

/-- what the two balance changes do to health -/
theorem health_change {fd : FDiv} (hfd0 : ∀ p x, fd 0 p = .ok x → x = 0) {c c1 c2 : Cache} (hd : (c.tokens.map (·.tokenIndex)).Nodup)
    (hz : ∀ x ∈ c.serums, x.reservedBase = 0 ∧ x.reservedQuote = 0 ∧ 0 ≤ x.reservedQuoteAsBaseHighestBid) {l a : Nat} (hne : a ≠ l)
    {wl wa : I80F48 × I80F48} {dl da H H' : I80F48} (h1 : c.adjustTokenBalance l wl dl = .ok c1) (h2 : c1.adjustTokenBalance a wa da = .ok c2)
    (hH : c.health fd .liqEnd = .ok H) (hH' : c2.health fd .liqEnd = .ok H') {il ia : Nat} {tl ta : TokenInfo} (il0 : c.tokenIdx l = some il) (tl0 : c.tokens[il]? = some tl)
    (ia0 : c.tokenIdx a = some ia) (ta0 : c.tokens[ia]? = some ta) :
    H' = H - Formula.tokenValue tl .liqEnd (Formula.balance c .liqEnd tl) + Formula.tokenValue tl .liqEnd (Formula.balance c .liqEnd tl + dl)
      - Formula.tokenValue ta .liqEnd (Formula.balance c .liqEnd ta) + Formula.tokenValue ta .liqEnd (Formula.balance c .liqEnd ta + da) := by
  obtain ⟨i, t, t', e1, e2, e3, e4, e5, e6⟩ := adjust_ok h1
  obtain ⟨j, u, u', f1, f2, f3, f4, f5, f6⟩ := adjust_ok h2
  rw [il0, Option.some.injEq] at e1
  subst e1
  rw [tl0, Option.some.injEq] at e2
  subst e2
  have ti : ∀ {cc : Cache} {k : Nat} {ti : Nat} {tt : TokenInfo}, cc.tokenIdx ti = some k → cc.tokens[k]? = some tt → tt.tokenIndex = ti := by
    intro cc k ti tt h1 h2
    unfold Cache.tokenIdx at h1
    rw [List.findIdx?_eq_some_iff_getElem] at h1
    obtain ⟨hk, h1, _⟩ := h1
    rw [List.getElem?_eq_getElem hk, Option.some.injEq] at h2
    subst h2
    simpa using h1
  have hil : il ≠ ia := by
    intro he
    subst he
    rw [tl0, Option.some.injEq] at ta0
    subst ta0
    exact hne ((ti ia0 tl0).symm.trans (ti il0 tl0))
  have m1 := tokenIdx_set tl0 e3 (by rw [e6])
  have hd1 : (c1.tokens.map (·.tokenIndex)).Nodup := by rw [m1]; exact hd
  have hta1 : c1.tokens[ia]? = some ta := by rw [e3, List.getElem?_set_ne hil]; exact ta0
  have hj : j = ia := by
    have := (findToken_iff hd1 hta1 a).mpr (ti ia0 ta0).symm
    have f1' : findToken c1.tokens a = some j := f1
    rw [f1'] at this
    simpa using this
  subst hj
  rw [hta1, Option.some.injEq] at f2
  subst f2
  have m2 := tokenIdx_set hta1 f3 (by rw [f6])
  have hd2 : (c2.tokens.map (·.tokenIndex)).Nodup := by rw [m2]; exact hd1
  have k1 := health_tokens hfd0 hd hz hH
  have k2 := health_tokens hfd0 hd2 (by rw [f5, e5]; exact hz) hH'
  have hb : ∀ t, Formula.balance c2 .liqEnd t = Formula.balance c .liqEnd t := by
    intro t
    unfold Formula.balance
    rw [f4, e4]
  simp only [hb] at k2
  rw [f3, sumOf_set _ hta1, e3, sumOf_set _ tl0] at k2
  have b1 : Formula.balance c .liqEnd t' = Formula.balance c .liqEnd tl + dl := by
    subst e6
    unfold Formula.balance
    dsimp only
    omega
  have b2 : Formula.balance c .liqEnd u' = Formula.balance c .liqEnd ta + da := by
    subst f6
    unfold Formula.balance
    dsimp only
    omega
  rw [b1, b2] at k2
  have v1 : ∀ b, Formula.tokenValue t' .liqEnd b = Formula.tokenValue tl .liqEnd b := by subst e6; intro b; rfl
  have v2 : ∀ b, Formula.tokenValue u' .liqEnd b = Formula.tokenValue ta .liqEnd b := by subst f6; intro b; rfl
  rw [v1, v2] at k2
  omega

/-- everything both bounds need -/
structure Facts (s : TokLiq) (r : TokReport) (H H' : Int) (tl ta : TokenInfo) (bl ba na nl dl da lopa fft base : Int) : Prop where
  change : H' = H - tv (tl.initAssetWeight * s.liab.price / S) (tl.initLiabWeight * s.liab.price / S) bl +
      tv (tl.initAssetWeight * s.liab.price / S) (tl.initLiabWeight * s.liab.price / S) (bl + dl)
      - tv (ta.initAssetWeight * s.asset.price / S) (ta.initLiabWeight * s.asset.price / S) ba +
      tv (ta.initAssetWeight * s.asset.price / S) (ta.initLiabWeight * s.asset.price / S) (ba + da)
  blNeg : bl < 0
  baPos : 0 < ba
  repay : r.liabTransfer ≤ dl ∧ dl * S ≤ r.liabTransfer * S + S + (s.liab.bank.depositIndex + s.liab.bank.borrowIndex)
  pay : r.assetFromLiqee * S - S - (s.asset.bank.depositIndex + s.asset.bank.borrowIndex) ≤ (-da) * S ∧ -da ≤ r.assetFromLiqee + S
  weights : 0 ≤ tl.initAssetWeight ∧ tl.initAssetWeight ≤ tl.initLiabWeight ∧ 0 ≤ ta.initAssetWeight ∧ ta.initAssetWeight ≤ ta.initLiabWeight
  bankWeights : tl.initLiabWeight = s.liab.bank.initLiabWeight ∧ ta.initAssetWeight = s.asset.bank.initAssetWeight
  fft_eq : fft = (S + s.liab.fee + s.liab.platformFee) * (S + s.asset.fee + s.asset.platformFee) / S
  lopa_eq : lopa = s.liab.price * fft / S
  base_eq : base = Int.tdiv (r.liabTransfer * s.liab.price / S * S) s.asset.price
  from_eq : r.assetFromLiqee = base * fft / S
  lt_le : r.liabTransfer ≤ -bl
  lt0 : 0 ≤ r.liabTransfer
  den : s.liab.price * s.liab.bank.initLiabWeight / S - lopa * s.asset.bank.initAssetWeight / S ≠ 0
  lt_needed : 0 < r.liabTransfer → r.liabTransfer ≤ Int.tdiv (-H * S) (s.liab.price * s.liab.bank.initLiabWeight / S - lopa * s.asset.bank.initAssetWeight / S)

theorem facts {env : TokLiqEnv} (hfd0 : ∀ p x, env.fd 0 p = .ok x → x = 0) {s s' : TokLiq} {maxLiab : I80F48} {r : TokReport} (hs : Sane s) (hr : Reflects s)
    (h : tokenLiqWithToken env s maxLiab = .ok (s', some r)) {H H' : I80F48} (hH : s.cache.health env.fd .liqEnd = .ok H) (hH' : s'.cache.health env.fd .liqEnd = .ok H') :
    ∃ (il ia : Nat) (tl ta : TokenInfo) (bl ba na nl dl da lopa fft base : Int), s.cache.tokenIdx s.liab.index = some il ∧ s.cache.tokenIdx s.asset.index = some ia ∧
      s.cache.tokens[il]? = some tl ∧ s.cache.tokens[ia]? = some ta ∧ bl = Formula.balance s.cache .liqEnd tl ∧ ba = Formula.balance s.cache .liqEnd ta ∧
      s.liqeeAsset.native s.asset.bank = .ok na ∧ (r.assetFromLiqee - min na ba) * s.asset.price ≤ r.liabTransfer ∧
      Facts s r H H' tl ta bl ba na nl dl da lopa fft base := by
  have hS := S_pos
  obtain ⟨hne, _, hp1, _⟩ := C56_conditions h
  obtain ⟨na0, nl0, bs0, il0, ia0, bl0, ba0, q1, q2, q3, q4, q5, q6, q7, q8, q9, q10, q11, q12, q13, q14, q15, q16, q17⟩ := C56_amounts hs h
  obtain ⟨le, hle, ha⟩ := liq_some h
  rw [hH, ok_inj] at hle
  subst hle
  obtain ⟨f, na, nl, ml, ma, hf, hL, hA, hR, hm⟩ := action_ok ha
  obtain ⟨bs, il, ia, bl, ba, g1, g2, g3, g4, g5, g6, g7, g8, g9⟩ := hL.balances
  obtain ⟨f1, f2, f3⟩ := feeFactors_ok hf
  obtain ⟨il', tl, ia', ta, u1, u2, u3, u4, u5, hd, hlt⟩ := hA.tok
  obtain ⟨hp, base, hb, _, hto, hfrom, hfee⟩ := assetAmounts_ok hR
  obtain ⟨ab, act, act', d1, d2⟩ := hm.asset
  obtain ⟨lb, act2, w2, d3, d4⟩ := hm.liab
  obtain ⟨na1, nl1, wl, wa, c, hh, n1, n2, j1, j2, j3, j4⟩ := hm.cache
  have hnlN := hL.liabNeg
  have hnaP := hL.assetPos
  have hml := hL.mlPos
  have hAn := hL.asset
  have hLn := hL.liab
  dsimp only at *
  rw [hH', ok_inj] at j3
  subst j3
  rw [u1, Option.some.injEq] at g2
  subst g2
  rw [u3, Option.some.injEq] at g3
  subst g3
  obtain ⟨bl1, bl2⟩ := Formula.balances_of hr.distinct g1
  have e1 := bl2 _ _ u2
  rw [g4, Option.some.injEq] at e1
  have e2 := bl2 _ _ u4
  rw [g5, Option.some.injEq] at e2
  rw [u1, Option.some.injEq] at q4
  subst q4
  rw [u3, Option.some.injEq] at q5
  subst q5
  rw [q3, ok_inj] at g1
  subst g1
  rw [g4, Option.some.injEq] at q6
  subst q6
  rw [g5, Option.some.injEq] at q7
  subst q7
  rw [q1, ok_inj] at hAn
  subst hAn
  rw [q2, ok_inj] at hLn
  subst hLn
  have ch := health_change hfd0 hr.distinct (fun x hx => hr.markets x hx (hp1.serums x hx)) hne j1 j2 hH hH' u1 u2 u3 u4
  have tidx : ∀ {k : Nat} {ti : Nat} {tt : TokenInfo}, s.cache.tokenIdx ti = some k → s.cache.tokens[k]? = some tt → tt.tokenIndex = ti := by
    intro k ti tt h1 h2
    exact ((findToken_iff hr.distinct h2 ti).mp h1).symm
  have ml1 : tl ∈ s.cache.tokens := List.mem_of_getElem? u2
  have ma1 : ta ∈ s.cache.tokens := List.mem_of_getElem? u4
  obtain ⟨w1, w2'⟩ := hr.liab tl ml1 (tidx u1 u2)
  have w3 := hr.asset ta ma1 (tidx u3 u4)
  obtain ⟨w4, w5⟩ := hr.weights tl ml1
  obtain ⟨w6, w7⟩ := hr.weights ta ma1
  simp only [tokenValue_liqEnd, w2', u5, ← e1, ← e2] at ch
  -- indexes are unchanged
  have ef1 := depositWithDusting_effect hr.liabPos d3
  have lbPos : lb.Pos := by unfold Bank.Pos; rw [ef1.depositIndex, ef1.borrowIndex]; exact hr.liabPos
  have hr1 : 0 ≤ lb.loanOriginationFeeRate := (ef1.rates hr.liabRates).2.2
  have hrun : PosOp.run (.withdrawWithFee r.liabTransfer) lb s.liqorLiab env.now = .ok (s'.liab.bank, s'.liqorLiab, w2.positionIsActive) := by
    simp only [PosOp.run, d4]
    rfl
  have ef2 := PosOp.effect lbPos hr1 hrun
  have rn := repay_native hr.liabPos d3 (bx := s'.liab.bank) (by rw [ef2.depositIndex, ef1.depositIndex]) (by rw [ef2.borrowIndex, ef1.borrowIndex]) q2 n2 hnlN q10
  have aP0 : ({ s.asset.bank with collectedFeesNative := s.asset.bank.collectedFeesNative + r.fee } : Bank).Pos := hr.assetPos
  have ef3 := depositWrapper_effect aP0 d1
  have abPos : ab.Pos := by unfold Bank.Pos; rw [ef3.depositIndex, ef3.borrowIndex]; exact hr.assetPos
  have hr2 : 0 ≤ ab.loanOriginationFeeRate := (ef3.rates hr.assetRates).2.2
  have ef4 := PosOp.effect (op := .withdrawWithoutFeeWithDusting r.assetFromLiqee) (p := s.liqeeAsset) abPos hr2 d2
  have nab : s.liqeeAsset.native ab = .ok na0 := by
    rw [← q1]
    unfold TokenPosition.native
    rw [ef3.depositIndex, ef3.borrowIndex]
  have pn := pay_native abPos d2 (bx := s'.asset.bank) ef4.depositIndex ef4.borrowIndex nab n1 hnaP
  rw [ef3.depositIndex, ef3.borrowIndex] at pn
  dsimp only at pn
  refine ⟨il', ia', tl, ta, bl, ba, na0, nl0, nl1 - nl0, na1 - na0, f.lopa, f.total, base, u1, u3, u2, u4, e1, e2, q1, q17, ?_⟩
  have hn1 : -(na1 - na0) = na0 - na1 := by omega
  refine ⟨ch, g6, g7, ⟨by omega, ?_⟩, ⟨?_, ?_⟩, ⟨w4, w5, w6, w7⟩, ⟨w1, w3⟩, f2, f3, hb, hfrom, q11, q8, ?_, ?_⟩
  · have : (nl1 - nl0) * S = nl1 * S - nl0 * S := by ring
    omega
  · rw [hn1]; exact pn.1
  · rw [hn1]; exact pn.2
  · intro hz
    apply hd
    unfold healthPerLiab
    rw [w2']
    exact hz
  · intro hpos
    unfold healthPerLiab at hlt
    rw [w2'] at hlt
    dsimp only at hlt
    omega

/-- the price of one unit of debt with all fees: oracle price times (1 + fees of the liab token) times (1 + fees of the asset token) -/
def debtPrice (s : TokLiq) : Int := s.liab.price * ((S + s.liab.fee + s.liab.platformFee) * (S + s.asset.fee + s.asset.platformFee) / S) / S

/-- liquidation-end health gained per unit of debt: its weighted price minus the weighted price paid for it -/
def gainPerDebt (s : TokLiq) : Int := s.liab.price * s.liab.bank.initLiabWeight / S - debtPrice s * s.asset.bank.initAssetWeight / S

/-- the debt is not more than needed -/
theorem needed {s : TokLiq} {r : TokReport} {H H' : Int} {tl ta : TokenInfo} {bl ba na nl dl da lopa fft base : Int}
    (F : Facts s r H H' tl ta bl ba na nl dl da lopa fft base) (hH0 : H ≤ 0) : r.liabTransfer * gainPerDebt s ≤ -H * S ∧ (0 < r.liabTransfer → 0 < gainPerDebt s) := by
  have hS := S_pos
  have e : gainPerDebt s = s.liab.price * s.liab.bank.initLiabWeight / S - lopa * s.asset.bank.initAssetWeight / S := by
    unfold gainPerDebt debtPrice
    rw [F.lopa_eq, F.fft_eq]
  have hd := F.den
  have hn := F.lt_needed
  rw [← e] at hd hn
  have hx : 0 ≤ -H * S := Int.mul_nonneg (by omega) hS.le
  rcases Int.lt_or_gt_of_ne hd with h | h
  · have hz : r.liabTransfer = 0 := by
      by_cases hp : 0 < r.liabTransfer
      · have a := hn hp
        have b := tdiv_bounds (a := -H * S) (b := -gainPerDebt s) hx (by omega)
        have : Int.tdiv (-H * S) (gainPerDebt s) = -Int.tdiv (-H * S) (-gainPerDebt s) := by rw [Int.tdiv_neg]; omega
        omega
      · have := F.lt0; omega
    rw [hz]
    simp only [Int.zero_mul]
    exact ⟨hx, fun h => by omega⟩
  · have b := tdiv_bounds (a := -H * S) (b := gainPerDebt s) hx h
    refine ⟨?_, fun _ => h⟩
    by_cases hp : 0 < r.liabTransfer
    · have := Int.mul_le_mul_of_nonneg_right (hn hp) h.le
      omega
    · have : r.liabTransfer = 0 := by have := F.lt0; omega
      rw [this]
      simpa using hx

/-- **C56, not too much** Liquidation stops at liquidation-end health zero: an account with non-positive health has afterwards at most a health that is due to rounding: one unit of
the last place (2^-48) of each of the two token indexes at the weighted prices, of the payment, and of the weighted price. Nobody can liquidate more than that. -/
theorem C56_no_overliquidation {env : TokLiqEnv} (hfd0 : ∀ p x, env.fd 0 p = .ok x → x = 0) {s s' : TokLiq} {maxLiab : I80F48} {r : TokReport} (hs : Sane s) (hr : Reflects s)
    (h : tokenLiqWithToken env s maxLiab = .ok (s', some r)) {H H' : I80F48} (hH : s.cache.health env.fd .liqEnd = .ok H) (hH' : s'.cache.health env.fd .liqEnd = .ok H')
    (hH0 : H ≤ 0) {WL WA fft IL IA iaw : Int} (eWL : WL = s.liab.price * s.liab.bank.initLiabWeight / S) (eWA : WA = s.asset.price * s.asset.bank.initAssetWeight / S)
    (efft : fft = (S + s.liab.fee + s.liab.platformFee) * (S + s.asset.fee + s.asset.platformFee) / S) (eIL : IL = s.liab.bank.depositIndex + s.liab.bank.borrowIndex)
    (eIA : IA = s.asset.bank.depositIndex + s.asset.bank.borrowIndex) (eiaw : iaw = s.asset.bank.initAssetWeight) :
    H' * (S * S * S) ≤ S * ((S + IL) * WL + (S + IA) * WA + 2 * (S * S)) + iaw * ((S + s.asset.price) * fft + S * s.asset.price) + r.assetFromLiqee * (S * S) := by
  have hS := S_pos
  obtain ⟨il, ia, tl, ta, bl, ba, na, nl, dl, da, lopa, fft', base, _, _, _, _, _, _, _, hma, F⟩ := facts hfd0 hs hr h hH hH'
  have hF : fft' = fft := by rw [efft]; exact F.fft_eq
  subst hF
  obtain ⟨s1, s2, s3, s4, s5, s6⟩ := hs
  obtain ⟨w1, w2, w3, w4⟩ := F.weights
  obtain ⟨w5, w6⟩ := F.bankWeights
  have hfft0 : 0 ≤ fft' := by rw [efft]; exact floor_nonneg (Int.mul_nonneg (by omega) (by omega))
  have hap : s.asset.price ≠ 0 := by
    obtain ⟨le, _, ha⟩ := liq_some h
    obtain ⟨f, _, _, _, _, _, _, _, hR, _⟩ := action_ok ha
    exact (assetAmounts_ok hR).1
  have hap : 0 < s.asset.price := by omega
  have hneed := (needed F hH0).1
  unfold gainPerDebt debtPrice at hneed
  rw [← efft, ← F.lopa_eq, ← eWL] at hneed
  have hfl0 : 0 ≤ r.assetFromLiqee := by
    obtain ⟨_, _, _, _, _, _, _, _, _, _, _, _, _, _, _, _, _, _, a, b, _⟩ := C56_amounts ⟨s1, s2, s3, s4, s5, s6⟩ h
    omega
  have hlt0 := F.lt0
  have hcl : tl.initLiabWeight * s.liab.price / S = WL := by rw [eWL, w5, Int.mul_comm]
  have hca : ta.initAssetWeight * s.asset.price / S = WA := by rw [eWA, w6, Int.mul_comm]
  have hWL : 0 ≤ WL := by rw [← hcl]; exact floor_nonneg (Int.mul_nonneg (by omega) s6)
  have hWA : 0 ≤ WA := by rw [← hca]; exact floor_nonneg (Int.mul_nonneg w3 s5)
  have hAL1 : tl.initAssetWeight * s.liab.price / S ≤ WL := by rw [← hcl]; exact floor_mono (Int.mul_le_mul_of_nonneg_right w2 s6)
  have hAL2 : WA ≤ ta.initLiabWeight * s.asset.price / S := by rw [← hca]; exact floor_mono (Int.mul_le_mul_of_nonneg_right w4 s5)
  have ch := F.change
  rw [hcl, hca] at ch
  have a1 := tv_neg (A := tl.initAssetWeight * s.liab.price / S) (L := WL) F.blNeg
  have a2 := (tv_le (A := tl.initAssetWeight * s.liab.price / S) (L := WL) (b := bl + dl) hAL1).2
  have a3 := tv_pos (A := WA) (L := ta.initLiabWeight * s.asset.price / S) F.baPos.le
  have a4 := (tv_le (A := WA) (L := ta.initLiabWeight * s.asset.price / S) (b := ba + da) hAL2).1
  generalize tv (tl.initAssetWeight * s.liab.price / S) WL bl = t1 at *
  generalize tv (tl.initAssetWeight * s.liab.price / S) WL (bl + dl) = t2 at *
  generalize tv WA (ta.initLiabWeight * s.asset.price / S) ba = t3 at *
  generalize tv WA (ta.initLiabWeight * s.asset.price / S) (ba + da) = t4 at *
  have gain : S * (H' - H) ≤ dl * WL - (-da) * WA + 2 * S := by
    have e1 : S * (H' - H) = (t2 * S - t1 * S) + (t4 * S - t3 * S) := by rw [ch]; ring
    have e2 : (bl + dl) * WL = bl * WL + dl * WL := by ring
    have e3 : (ba + da) * WA = ba * WA + da * WA := by ring
    have e4 : -da * WA = -(da * WA) := by ring
    omega
  have xb := mulFloor_bounds (lopa * iaw)
  have lb := mulFloor_bounds (s.liab.price * fft')
  rw [← F.lopa_eq] at lb
  have wb := mulFloor_bounds (s.asset.price * s.asset.bank.initAssetWeight)
  rw [← eWA, ← eiaw] at wb
  have vb := mulFloor_bounds (r.liabTransfer * s.liab.price)
  have hv0 : 0 ≤ r.liabTransfer * s.liab.price := Int.mul_nonneg hlt0 s6
  have bb := tdiv_bounds (a := r.liabTransfer * s.liab.price / S * S) (b := s.asset.price) (Int.mul_nonneg (floor_nonneg hv0) hS.le) hap
  rw [← F.base_eq] at bb
  have fb := mulFloor_bounds (base * fft')
  rw [← F.from_eq] at fb
  have rp := F.repay
  have py := F.pay
  rw [← eIL] at rp
  rw [← eIA] at py
  rw [← eiaw] at hneed
  have hiaw : 0 ≤ iaw := by rw [eiaw, ← w6]; exact w3
  have comm : iaw * s.asset.price = s.asset.price * iaw := Int.mul_comm _ _
  exact over_arith (X := lopa * iaw / S) (lopa := lopa) (lp := s.liab.price) (base := base) (v := r.liabTransfer * s.liab.price / S) S hS hWL hWA hiaw hlt0 hfl0 hfft0 hap gain rp.2 py.1 hneed
    xb.1 lb.1 (by omega) (by omega) (by omega) (by omega)

/-- **C56, improvement** Liquidation takes from the liqee only what it may: liquidation-end health changes at least by the debt times the health gained per unit of it, up to rounding: one native
unit of the asset token at its weighted price (dusted rest), and 2^-48 times the debt. A positive amount of debt is only taken over if that gain is positive. -/
theorem C56_improves {env : TokLiqEnv} (hfd0 : ∀ p x, env.fd 0 p = .ok x → x = 0) {s s' : TokLiq} {maxLiab : I80F48} {r : TokReport} (hs : Sane s) (hr : Reflects s)
    (h : tokenLiqWithToken env s maxLiab = .ok (s', some r)) {H H' : I80F48} (hH : s.cache.health env.fd .liqEnd = .ok H) (hH' : s'.cache.health env.fd .liqEnd = .ok H')
    (hH0 : H ≤ 0) {ilwa : Int} (hilwa : ∀ t ∈ s.cache.tokens, t.tokenIndex = s.asset.index → t.initLiabWeight = ilwa) :
    (0 < r.liabTransfer → 0 < gainPerDebt s) ∧
    S * (r.liabTransfer * gainPerDebt s) - r.liabTransfer * (S + s.asset.bank.initAssetWeight + ilwa) - S * (S * (ilwa * s.asset.price / S) + 2 * S) ≤ S * S * (H' - H) := by
  have hS := S_pos
  obtain ⟨il, ia, tl, ta, bl, ba, na, nl, dl, da, lopa, fft, base, z1, z2, z3, z4, _, _, _, hma, F⟩ := facts hfd0 hs hr h hH hH'
  refine ⟨(needed F hH0).2, ?_⟩
  obtain ⟨s1, s2, s3, s4, s5, s6⟩ := hs
  obtain ⟨w1, w2, w3, w4⟩ := F.weights
  obtain ⟨w5, w6⟩ := F.bankWeights
  have hil : ta.initLiabWeight = ilwa := hilwa ta (List.mem_of_getElem? z4) ((findToken_iff hr.distinct z4 _).mp z2).symm
  have hap : s.asset.price ≠ 0 := by
    obtain ⟨le, _, ha⟩ := liq_some h
    obtain ⟨f, _, _, _, _, _, _, _, hR, _⟩ := action_ok ha
    exact (assetAmounts_ok hR).1
  have hap : 0 < s.asset.price := by omega
  obtain ⟨_, _, _, _, _, _, _, _, _, _, _, _, _, _, _, _, _, _, p1, p2, _, p3, _⟩ := C56_amounts ⟨s1, s2, s3, s4, s5, s6⟩ h
  have hfl0 : 0 ≤ r.assetFromLiqee := by omega
  rw [← F.fft_eq] at p3
  have hlt0 := F.lt0
  generalize eWL : s.liab.price * s.liab.bank.initLiabWeight / S = WL at *
  generalize eWA : s.asset.price * s.asset.bank.initAssetWeight / S = WA at *
  have hcl : tl.initLiabWeight * s.liab.price / S = WL := by rw [← eWL, w5, Int.mul_comm]
  have hca : ta.initAssetWeight * s.asset.price / S = WA := by rw [← eWA, w6, Int.mul_comm]
  have hWL : 0 ≤ WL := by rw [← hcl]; exact floor_nonneg (Int.mul_nonneg (by omega) s6)
  have hWA : 0 ≤ WA := by rw [← hca]; exact floor_nonneg (Int.mul_nonneg w3 s5)
  have hAL1 : tl.initAssetWeight * s.liab.price / S ≤ WL := by rw [← hcl]; exact floor_mono (Int.mul_le_mul_of_nonneg_right w2 s6)
  have hA1 : 0 ≤ tl.initAssetWeight * s.liab.price / S := floor_nonneg (Int.mul_nonneg w1 s6)
  have hAL2 : WA ≤ ilwa * s.asset.price / S := by rw [← hca, ← hil]; exact floor_mono (Int.mul_le_mul_of_nonneg_right w4 s5)
  have ch := F.change
  rw [hcl, hca, hil] at ch
  generalize eWLA : ilwa * s.asset.price / S = WLA at *
  have hL : r.liabTransfer * WL - S ≤ (tv (tl.initAssetWeight * s.liab.price / S) WL (bl + dl) - tv (tl.initAssetWeight * s.liab.price / S) WL bl) * S := by
    have b0 := (tv_le (A := tl.initAssetWeight * s.liab.price / S) (L := WL) (b := bl) hAL1).2
    have e0 : ∀ x y : Int, (x - y) * S = x * S - y * S := fun x y => by ring
    rw [e0]
    by_cases hb : bl + dl < 0
    · have b1 := tv_neg (A := tl.initAssetWeight * s.liab.price / S) (L := WL) hb
      have b2 : r.liabTransfer * WL ≤ dl * WL := Int.mul_le_mul_of_nonneg_right F.repay.1 hWL
      have e2 : (bl + dl) * WL = bl * WL + dl * WL := by ring
      omega
    · have b1 := tv_nonneg (A := tl.initAssetWeight * s.liab.price / S) (L := WL) hA1 (show 0 ≤ bl + dl by omega)
      have b2 : r.liabTransfer * WL ≤ -bl * WL := Int.mul_le_mul_of_nonneg_right F.lt_le hWL
      have e2 : -bl * WL = -(bl * WL) := by ring
      have b3 := Int.mul_nonneg b1 hS.le
      omega
  have hA : -((-da) * WA) - max (-da - ba) 0 * (WLA - WA) - S ≤ (tv WA WLA (ba + da) - tv WA WLA ba) * S := by
    have b0 := (tv_le (A := WA) (L := WLA) (b := ba) hAL2).1
    have e0 : ∀ x y : Int, (x - y) * S = x * S - y * S := fun x y => by ring
    rw [e0]
    by_cases hb : ba + da < 0
    · have b1 := tv_neg (A := WA) (L := WLA) hb
      have e1 : max (-da - ba) 0 = -(ba + da) := by omega
      rw [e1]
      have e2 : -(ba + da) * (WLA - WA) = -((ba + da) * WLA) + (ba * WA + da * WA) := by ring
      have e3 : -da * WA = -(da * WA) := by ring
      omega
    · have b1 := tv_pos (A := WA) (L := WLA) (show 0 ≤ ba + da by omega)
      have e1 : max (-da - ba) 0 = 0 := by omega
      rw [e1]
      simp only [Int.zero_mul]
      have e2 : (ba + da) * WA = ba * WA + da * WA := by ring
      have e3 : -da * WA = -(da * WA) := by ring
      omega
  generalize tv (tl.initAssetWeight * s.liab.price / S) WL bl = t1 at *
  generalize tv (tl.initAssetWeight * s.liab.price / S) WL (bl + dl) = t2 at *
  generalize tv WA WLA ba = t3 at *
  generalize tv WA WLA (ba + da) = t4 at *
  have gain : r.liabTransfer * WL - (-da) * WA - max (-da - ba) 0 * (WLA - WA) - 2 * S ≤ S * (H' - H) := by
    have e1 : S * (H' - H) = (t2 - t1) * S + (t4 - t3) * S := by rw [ch]; ring
    omega
  have xb := mulFloor_bounds (lopa * s.asset.bank.initAssetWeight)
  have lb := mulFloor_bounds (s.liab.price * fft)
  rw [← F.lopa_eq] at lb
  have wb := mulFloor_bounds (s.asset.price * s.asset.bank.initAssetWeight)
  rw [eWA] at wb
  have wlb := mulFloor_bounds (ilwa * s.asset.price)
  rw [eWLA] at wlb
  have eg : gainPerDebt s = WL - lopa * s.asset.bank.initAssetWeight / S := by
    unfold gainPerDebt debtPrice
    rw [← F.fft_eq, ← F.lopa_eq, eWL]
  rw [eg]
  have hiaw : 0 ≤ s.asset.bank.initAssetWeight := by rw [← w6]; exact w3
  have comm : s.asset.bank.initAssetWeight * s.asset.price = s.asset.price * s.asset.bank.initAssetWeight := Int.mul_comm _ _
  have py := F.pay.2
  have hover : max (-da - ba) 0 ≤ max (r.assetFromLiqee - min na ba) 0 + S := by omega
  exact under_arith (X := lopa * s.asset.bank.initAssetWeight / S) (lopa := lopa) (lp := s.liab.price) (fft := fft) S hS hWA hAL2 hiaw (by omega) hlt0 hfl0 hap gain py
    hover hma (by omega) (by omega) (by omega) (by omega) p3

/-- sizes no real bank reaches: prices of a native unit below 65536 native quote, indexes below 512, fees together below 300%, weights at most 1 and 4, payment below 2^46 native units -/
structure Sizes (s : TokLiq) (r : TokReport) : Prop where
  liabPrice : s.liab.price ≤ 65536 * S
  assetPrice : s.asset.price ≤ 65536 * S
  liabIndex : s.liab.bank.depositIndex + s.liab.bank.borrowIndex ≤ 1024 * S
  assetIndex : s.asset.bank.depositIndex + s.asset.bank.borrowIndex ≤ 1024 * S
  assetWeight : s.asset.bank.initAssetWeight ≤ S
  liabWeight : s.liab.bank.initLiabWeight ≤ 4 * S
  fees : (S + s.liab.fee + s.liab.platformFee) * (S + s.asset.fee + s.asset.platformFee) / S ≤ 4 * S
  paid : r.assetFromLiqee ≤ 2 ^ 46 * S

/-- **C56, not too much, in numbers** For banks of realistic size, liquidation leaves the account with liquidation-end health below one native unit of quote (0.000001 USDC). -/
theorem C56_stops_at_zero {env : TokLiqEnv} (hfd0 : ∀ p x, env.fd 0 p = .ok x → x = 0) {s s' : TokLiq} {maxLiab : I80F48} {r : TokReport} (hs : Sane s) (hr : Reflects s)
    (h : tokenLiqWithToken env s maxLiab = .ok (s', some r)) {H H' : I80F48} (hH : s.cache.health env.fd .liqEnd = .ok H) (hH' : s'.cache.health env.fd .liqEnd = .ok H')
    (hH0 : H ≤ 0) (z : Sizes s r) : H' < S := by
  have hS := S_pos
  have b := C56_no_overliquidation hfd0 hs hr h hH hH' hH0 rfl rfl rfl rfl rfl rfl
  obtain ⟨il, ia, tl, ta, bl, ba, na, nl, dl, da, lopa, fft, base, _, _, _, _, _, _, _, _, F⟩ := facts hfd0 hs hr h hH hH'
  obtain ⟨z1, z2, z3, z4, z5, z6, z7, z8⟩ := z
  obtain ⟨w1, w2, w3, w4⟩ := F.weights
  obtain ⟨w5, w6⟩ := F.bankWeights
  have hfft0 : 0 ≤ (S + s.liab.fee + s.liab.platformFee) * (S + s.asset.fee + s.asset.platformFee) / S := by
    obtain ⟨s1, s2, s3, s4, s5, s6⟩ := hs
    exact floor_nonneg (Int.mul_nonneg (by omega) (by omega))
  have hp1 := hs.liabPrice
  have hp2 := hs.assetPrice
  generalize (S + s.liab.fee + s.liab.platformFee) * (S + s.asset.fee + s.asset.platformFee) / S = ff at *
  rw [w5] at w2
  rw [w6] at w3
  have c1 : s.liab.price * s.liab.bank.initLiabWeight / S ≤ 262144 * S := by
    have : s.liab.price * s.liab.bank.initLiabWeight ≤ (65536 * S) * (4 * S) := Int.mul_le_mul z1 z6 (by omega) (by omega)
    have m := mulFloor_bounds (s.liab.price * s.liab.bank.initLiabWeight)
    have : s.liab.price * s.liab.bank.initLiabWeight / S * S ≤ 262144 * S * S := by
      have : (65536 * S) * (4 * S) = 262144 * S * S := by ring
      omega
    exact Int.le_of_mul_le_mul_right this hS
  have c2 : s.asset.price * s.asset.bank.initAssetWeight / S ≤ 65536 * S := by
    have : s.asset.price * s.asset.bank.initAssetWeight ≤ (65536 * S) * S := Int.mul_le_mul z2 z5 w3 (by omega)
    have m := mulFloor_bounds (s.asset.price * s.asset.bank.initAssetWeight)
    have : s.asset.price * s.asset.bank.initAssetWeight / S * S ≤ 65536 * S * S := by omega
    exact Int.le_of_mul_le_mul_right this hS
  have c1' : 0 ≤ s.liab.price * s.liab.bank.initLiabWeight / S := floor_nonneg (Int.mul_nonneg hp1 (by omega))
  have c2' : 0 ≤ s.asset.price * s.asset.bank.initAssetWeight / S := floor_nonneg (Int.mul_nonneg hp2 w3)
  have i1 := hr.liabPos.1
  have i2 := hr.liabPos.2
  have i3 := hr.assetPos.1
  have i4 := hr.assetPos.2
  generalize s.liab.price * s.liab.bank.initLiabWeight / S = WL at *
  generalize s.asset.price * s.asset.bank.initAssetWeight / S = WA at *
  generalize s.liab.bank.depositIndex + s.liab.bank.borrowIndex = IL at *
  generalize s.asset.bank.depositIndex + s.asset.bank.borrowIndex = IA at *
  have d1 : (S + IL) * WL ≤ (1025 * S) * (262144 * S) := Int.mul_le_mul (by omega) c1 c1' (by omega)
  have d2 : (S + IA) * WA ≤ (1025 * S) * (65536 * S) := Int.mul_le_mul (by omega) c2 c2' (by omega)
  have d3 : (S + s.asset.price) * ff ≤ (65537 * S) * (4 * S) := Int.mul_le_mul (by omega) z7 hfft0 (by omega)
  have d3' : 0 ≤ (S + s.asset.price) * ff := Int.mul_nonneg (by omega) hfft0
  have d4 : S * s.asset.price ≤ S * (65536 * S) := Int.mul_le_mul_of_nonneg_left z2 hS.le
  have d4' : 0 ≤ S * s.asset.price := Int.mul_nonneg hS.le hp2
  have d5 : s.asset.bank.initAssetWeight * ((S + s.asset.price) * ff + S * s.asset.price) ≤ S * ((65537 * S) * (4 * S) + S * (65536 * S)) :=
    Int.mul_le_mul z5 (by omega) (by omega) hS.le
  have d6 : r.assetFromLiqee * (S * S) ≤ 2 ^ 46 * S * (S * S) := Int.mul_le_mul_of_nonneg_right z8 (by positivity)
  have d7 : S * ((S + IL) * WL + (S + IA) * WA + 2 * (S * S)) ≤ S * ((1025 * S) * (262144 * S) + (1025 * S) * (65536 * S) + 2 * (S * S)) :=
    Int.mul_le_mul_of_nonneg_left (by omega) hS.le
  have e : S * ((1025 * S) * (262144 * S) + (1025 * S) * (65536 * S) + 2 * (S * S)) + S * ((65537 * S) * (4 * S) + S * (65536 * S)) + 2 ^ 46 * S * (S * S) < S * (S * S * S) := by
    decide +kernel
  have : H' * (S * S * S) < S * (S * S * S) := by omega
  exact Int.lt_of_mul_lt_mul_right this (by positivity)

end Liquidation
end Mango
