import Verif.Liq.Token
import Verif.Props.Bankruptcy
/-!
# C56: token liquidation, part 1: conditions, amounts, bookkeeping
-/
namespace Mango
namespace Liquidation
open Fx Health Bank

/-! ## Unpacking -/

theorem lookup_ok {c : Cache} {ti i : Nat} {t : TokenInfo} (h : lookup c ti = .ok (i, t)) : c.tokenIdx ti = some i ∧ c.tokens[i]? = some t := by
  unfold lookup at h
  split at h
  · rename_i j hj
    simp only [bind_ok, ok_inj, Prod.mk.injEq] at h
    obtain ⟨t', h1, rfl, rfl⟩ := h
    exact ⟨hj, at_ok h1⟩
  · simp at h

theorem feeFactors_ok {s : TokLiq} {f : Factors} (h : feeFactors s = .ok f) :
    f.liqor = (S + s.liab.fee) * (S + s.asset.fee) / S ∧ f.total = (S + s.liab.fee + s.liab.platformFee) * (S + s.asset.fee + s.asset.platformFee) / S ∧
    f.lopa = s.liab.price * f.total / S := by
  simp only [feeFactors, bind_ok, add_ok, mul_ok, ok_inj] at h
  obtain ⟨_, ⟨rfl, _⟩, _, ⟨rfl, _⟩, _, ⟨rfl, _⟩, _, ⟨rfl, _⟩, _, ⟨rfl, _⟩, _, ⟨rfl, _⟩, _, ⟨rfl, _⟩, rfl⟩ := h
  exact ⟨rfl, rfl, rfl⟩

/-- what must hold of the liqee's two positions; `bl`, `ba` are the balances counting perp pnl -/
structure Limits (s : TokLiq) (maxLiab na nl ml ma : Int) : Prop where
  asset : s.liqeeAsset.native s.asset.bank = .ok na
  liab : s.liqeeLiab.native s.liab.bank = .ok nl
  assetPos : 0 < na
  liabNeg : nl < 0
  allowed : s.asset.allowAsset = true
  maxPos : 0 < maxLiab
  balances : ∃ bs il ia bl ba, s.cache.balances .liqEnd = .ok bs ∧ s.cache.tokenIdx s.liab.index = some il ∧ s.cache.tokenIdx s.asset.index = some ia ∧
    bs[il]? = some bl ∧ bs[ia]? = some ba ∧ bl < 0 ∧ 0 < ba ∧ ml = min (min maxLiab (-nl)) (-bl) ∧ ma = min na ba
  mlPos : 0 < ml
  maPos : 0 < ma

theorem liqLimits_ok {s : TokLiq} {maxLiab na nl ml ma : I80F48} (h : liqLimits s maxLiab = .ok (na, nl, ml, ma)) : Limits s maxLiab na nl ml ma := by
  simp only [liqLimits, bind_ok, require_ok, neg_ok, ok_inj, Prod.mk.injEq] at h
  obtain ⟨na', h1, _, h2, _, h3, nl', h4, _, h5, bs, h6, ⟨il, tl⟩, h7, bl, h8, _, ⟨rfl, _⟩, _, ⟨rfl, _⟩, ⟨ia, ta⟩, h9, ba, h10, _, h11, _, h12, rfl, rfl, rfl, rfl⟩ := h
  dsimp only at h8 h10
  obtain ⟨e1, _⟩ := lookup_ok h7
  obtain ⟨e2, _⟩ := lookup_ok h9
  have h8 := at_ok h8
  have h10 := at_ok h10
  refine ⟨h1, h4, h2, h5, h3, by omega, ⟨bs, il, ia, bl, ba, h6, e1, e2, h8, h10, by omega, by omega, by omega, by omega⟩, h11, h12⟩

/-- `price of the debt removed from health` minus `weighted price of what is paid for it` -/
def healthPerLiab (s : TokLiq) (f : Factors) (liabPrice : Int) : Int :=
  liabPrice * s.liab.bank.initLiabWeight / S - f.lopa * s.asset.bank.initAssetWeight / S

structure LiabAmount (s : TokLiq) (f : Factors) (health ml ma lt : Int) : Prop where
  tok : ∃ il tl ia ta, s.cache.tokenIdx s.liab.index = some il ∧ s.cache.tokens[il]? = some tl ∧ s.cache.tokenIdx s.asset.index = some ia ∧ s.cache.tokens[ia]? = some ta ∧
    ta.prices.oracle = s.asset.price ∧ healthPerLiab s f tl.prices.oracle ≠ 0 ∧
    lt = max (min (min (Int.tdiv (-health * S) (healthPerLiab s f tl.prices.oracle)) (Int.tdiv (ma * s.asset.price / S * S) f.lopa)) ml) 0
  lopa : f.lopa ≠ 0

theorem liabAmount_ok {s : TokLiq} {f : Factors} {health ml ma lt : I80F48} (h : liabAmount s f health ml ma = .ok lt) : LiabAmount s f health ml ma lt := by
  simp only [liabAmount, bind_ok, require_ok, neg_ok, mul_ok, sub_ok, div_ok, ok_inj] at h
  obtain ⟨⟨il, tl⟩, h1, ⟨ia, ta⟩, h2, _, h3, _, ⟨rfl, _⟩, _, ⟨rfl, _⟩, _, ⟨rfl, _⟩, _, ⟨rfl, _⟩, _, ⟨hd, rfl, _⟩, _, ⟨rfl, _⟩, _, ⟨hl, rfl, _⟩, rfl⟩ := h
  obtain ⟨a1, a2⟩ := lookup_ok h1
  obtain ⟨b1, b2⟩ := lookup_ok h2
  exact ⟨⟨il, tl, ia, ta, a1, a2, b1, b2, h3, hd, rfl⟩, hl⟩

theorem assetAmounts_ok {s : TokLiq} {f : Factors} {lt : I80F48} {r : TokReport} (h : assetAmounts s f lt = .ok r) :
    s.asset.price ≠ 0 ∧ ∃ base, base = Int.tdiv (lt * s.liab.price / S * S) s.asset.price ∧ r.liabTransfer = lt ∧ r.assetToLiqor = base * f.liqor / S ∧
      r.assetFromLiqee = base * f.total / S ∧ r.fee = r.assetFromLiqee - r.assetToLiqor := by
  simp only [assetAmounts, bind_ok, mul_ok, sub_ok, div_ok, ok_inj] at h
  obtain ⟨_, ⟨rfl, _⟩, _, ⟨hp, rfl, _⟩, _, ⟨rfl, _⟩, _, ⟨rfl, _⟩, _, ⟨rfl, _⟩, rfl⟩ := h
  exact ⟨hp, _, rfl, rfl, rfl, rfl, rfl⟩

/-- the balance changes -/
structure Moved (env : TokLiqEnv) (s s' : TokLiq) (r : TokReport) (na nl : Int) : Prop where
  /-- the fee stays with the asset bank; the liqor's deposit and the liqee's withdrawal -/
  asset : ∃ ab act act', ({ s.asset.bank with collectedFeesNative := s.asset.bank.collectedFeesNative + r.fee } : Bank).deposit s.liqorAsset r.assetToLiqor env.now =
      .ok (ab, s'.liqorAsset, act) ∧ ab.withdrawWithoutFeeWithDusting s.liqeeAsset r.assetFromLiqee env.now = .ok (s'.asset.bank, s'.liqeeAsset, act')
  /-- the liqee's repayment and the liqor's withdrawal -/
  liab : ∃ lb act w, s.liab.bank.depositWithDusting s.liqeeLiab r.liabTransfer env.now = .ok (lb, s'.liqeeLiab, act) ∧
      lb.withdrawWithFee s.liqorLiab r.liabTransfer env.now = .ok (s'.liab.bank, s'.liqorLiab, w)
  feeRange : inRange (s.asset.bank.collectedFeesNative + r.fee)
  cache : ∃ na1 nl1 wl wa c h, s'.liqeeAsset.native s'.asset.bank = .ok na1 ∧ s'.liqeeLiab.native s'.liab.bank = .ok nl1 ∧
      s.cache.adjustTokenBalance s.liab.index wl (nl1 - nl) = .ok c ∧ c.adjustTokenBalance s.asset.index wa (na1 - na) = .ok s'.cache ∧
      s'.cache.health env.fd .liqEnd = .ok h ∧ s'.liqeeFlag = (s.liqeeFlag.maybeRecover h).1
  same : s'.asset = { s.asset with bank := s'.asset.bank } ∧ s'.liab = { s.liab with bank := s'.liab.bank } ∧ s'.liqorFlag = s.liqorFlag

theorem action_ok {env : TokLiqEnv} {s s' : TokLiq} {health maxLiab : I80F48} {r : TokReport} (h : liquidationAction env s health maxLiab = .ok (s', r)) :
    ∃ f na nl ml ma, feeFactors s = .ok f ∧ Limits s maxLiab na nl ml ma ∧ LiabAmount s f health ml ma r.liabTransfer ∧ assetAmounts s f r.liabTransfer = .ok r ∧
      Moved env s s' r na nl := by
  simp only [liquidationAction, bind_ok, add_ok, sub_ok] at h
  obtain ⟨f, hf, ⟨na, nl, ml, ma⟩, h1, lt, h2, rep, h3, _, ⟨rfl, hr⟩, ⟨lb, lp, act⟩, h4, ⟨lb', lq, w⟩, h5, nl1, h6, ⟨ab, aq, act2⟩, h7, ⟨ab', ap, act3⟩, h8, na1, h9,
    _, ⟨rfl, _⟩, wl, hwl, c, hc, _, ⟨rfl, _⟩, wa, hwa, c', hc', hh, h10, h11⟩ := h
  simp only [ok_inj, Prod.mk.injEq] at h11
  obtain ⟨rfl, rfl⟩ := h11
  dsimp only at *
  have hlt : rep.liabTransfer = lt := by
    obtain ⟨_, _, _, e, _⟩ := assetAmounts_ok h3
    exact e
  rw [hlt]
  refine ⟨f, na, nl, ml, ma, hf, liqLimits_ok h1, liabAmount_ok h2, h3, ?_⟩
  exact ⟨⟨ab, act2, act3, h7, h8⟩, ⟨lb, act, w, by rw [hlt]; exact h4, by rw [hlt]; exact h5⟩, hr, ⟨na1, nl1, wl, wa, c, hh, h9, h6, hc, hc', h10, rfl⟩, rfl, rfl, rfl⟩

/-- liqee without open or unsettled orders -/
structure AfterPhase1 (c : Cache) : Prop where
  serums : ∀ s ∈ c.serums, s.hasZeroFunds = true
  perpOrders : ∀ p ∈ c.perps, p.hasOpenOrders = false

/-- **C56, conditions** Token liquidation is only possible for a liqor that is not being liquidated, against an account without open or unsettled orders which is
liquidatable: already in liquidation and not yet recovered (liquidation-end health at most -1), or with negative maintenance health. If the account is not
liquidatable, nothing but its flag can change. If something is liquidated, the liqee has a positive balance of the asset token and owes the liab token (both as a position
and counting perp pnl), liquidation of the asset is not disabled, and the liqor ends with non-negative init health (checked later in a health region). -/
theorem C56_conditions {env : TokLiqEnv} {s s' : TokLiq} {maxLiab : I80F48} {o : Option TokReport} (h : tokenLiqWithToken env s maxLiab = .ok (s', o)) :
    s.asset.index ≠ s.liab.index ∧ s.liqorFlag.being = false ∧ AfterPhase1 s.cache ∧
    ∃ le, s.cache.health env.fd .liqEnd = .ok le ∧
      (o = none → s' = { s with liqeeFlag := ⟨false⟩ } ∧ (if s.liqeeFlag.being = true then -S < le else ∃ m, s.cache.health env.fd .maint = .ok m ∧ 0 ≤ m)) ∧
      (o ≠ none → (if s.liqeeFlag.being = true then le ≤ -S else ∃ m, s.cache.health env.fd .maint = .ok m ∧ m < 0) ∧ s.asset.allowAsset = true ∧
        (∃ na nl bs il ia bl ba, s.liqeeAsset.native s.asset.bank = .ok na ∧ 0 < na ∧ s.liqeeLiab.native s.liab.bank = .ok nl ∧ nl < 0 ∧
          s.cache.balances .liqEnd = .ok bs ∧ s.cache.tokenIdx s.liab.index = some il ∧ s.cache.tokenIdx s.asset.index = some ia ∧
          bs[il]? = some bl ∧ bs[ia]? = some ba ∧ bl < 0 ∧ 0 < ba) ∧
        (∀ x, env.liqorHealth s' = some x → ∃ v, x = .ok v ∧ 0 ≤ v) ∧
        ∃ le', s'.cache.health env.fd .liqEnd = .ok le' ∧ s'.liqeeFlag.being = decide (le' ≤ -S)) := by
  simp only [tokenLiqWithToken, Cache.requireAfterPhase1, bind_ok, require_ok] at h
  obtain ⟨_, h1, _, h2, le, hle, _, ⟨_, h3, h4⟩, ⟨flag, cl⟩, h5, h⟩ := h
  dsimp only at h
  have hONE : ONE = S := rfl
  have hcl : (cl ≠ .liquidatable → flag = ⟨false⟩ ∧ (if s.liqeeFlag.being = true then -S < le else ∃ m, s.cache.health env.fd .maint = .ok m ∧ 0 ≤ m)) ∧
      (cl = .liquidatable → flag = ⟨true⟩ ∧ (if s.liqeeFlag.being = true then le ≤ -S else ∃ m, s.cache.health env.fd .maint = .ok m ∧ m < 0)) := by
    unfold Account.Liq.checkLiquidatable at h5
    by_cases hb : s.liqeeFlag.being = true
    · rw [if_pos hb] at h5
      simp only [hb, if_true]
      unfold Account.Liq.maybeRecover at h5
      by_cases hx : le > -ONE
      · simp only [hb, hx, and_self, if_true, bind_ok, ok_inj, exists_eq_left', Prod.mk.injEq] at h5
        obtain ⟨rfl, rfl⟩ := h5
        exact ⟨fun _ => ⟨rfl, by omega⟩, fun hc => by simp at hc⟩
      · simp only [hb, hx, and_false, if_false, bind_ok, ok_inj, exists_eq_left', Prod.mk.injEq, Bool.false_eq_true] at h5
        obtain ⟨rfl, rfl⟩ := h5
        exact ⟨fun hc => by simp at hc, fun _ => ⟨by cases hs : s.liqeeFlag; rw [hs] at hb; dsimp only at hb; rw [hb], by omega⟩⟩
    · rw [if_neg hb] at h5
      rw [if_neg hb, if_neg hb]
      simp only [bind_ok] at h5
      obtain ⟨m, hm, h5⟩ := h5
      by_cases hx : m ≥ 0
      · rw [if_pos hx] at h5
        simp only [ok_inj, Prod.mk.injEq] at h5
        obtain ⟨rfl, rfl⟩ := h5
        refine ⟨fun _ => ⟨?_, m, hm, hx⟩, fun hc => by simp at hc⟩
        cases hs : s.liqeeFlag; rw [hs] at hb; dsimp only at hb; simp at hb; rw [hb]
      · rw [if_neg hx] at h5
        simp only [ok_inj, Prod.mk.injEq] at h5
        obtain ⟨rfl, rfl⟩ := h5
        exact ⟨fun hc => by simp at hc, fun _ => ⟨rfl, m, hm, by omega⟩⟩
  refine ⟨h1, h2, ⟨h3, h4⟩, le, hle, ?_⟩
  by_cases hr : cl ≠ .liquidatable
  · rw [if_pos hr] at h
    simp only [ok_inj, Prod.mk.injEq] at h
    obtain ⟨rfl, rfl⟩ := h
    obtain ⟨rfl, hc⟩ := hcl.1 hr
    exact ⟨fun _ => ⟨rfl, hc⟩, fun hn => absurd rfl hn⟩
  · rw [if_neg hr] at h
    simp only [bind_ok, ok_inj, Prod.mk.injEq] at h
    obtain ⟨⟨s2, rep⟩, ha, _, hq, rfl, rfl⟩ := h
    dsimp only at *
    obtain ⟨rfl, hc⟩ := hcl.2 (by simpa using hr)
    refine ⟨fun hn => by simp at hn, fun _ => ⟨hc, ?_⟩⟩
    obtain ⟨f, na, nl, ml, ma, _, hL, _, _, hm⟩ := action_ok ha
    obtain ⟨bs, il, ia, bl, ba, g1, g2, g3, g4, g5, g6, g7, _, _⟩ := hL.balances
    refine ⟨hL.allowed, ⟨na, nl, bs, il, ia, bl, ba, hL.asset, hL.assetPos, hL.liab, hL.liabNeg, g1, g2, g3, g4, g5, g6, g7⟩, ?_, ?_⟩
    · intro x hx
      rw [hx] at hq
      simp only [bind_ok, require_ok] at hq
      exact hq
    · obtain ⟨na1, nl1, wl, wa, c, hh, _, _, _, _, h10, h11⟩ := hm.cache
      refine ⟨hh, h10, ?_⟩
      rw [h11]
      unfold Account.Liq.maybeRecover
      by_cases hx : hh > -ONE
      · rw [if_pos ⟨rfl, hx⟩]
        have : ¬ hh ≤ -S := by omega
        simp [this]
      · rw [if_neg (by rintro ⟨_, h⟩; exact hx h)]
        have : hh ≤ -S := by omega
        simp [this]

/-- the run of the instruction that liquidates -/
theorem liq_some {env : TokLiqEnv} {s s' : TokLiq} {maxLiab : I80F48} {r : TokReport} (h : tokenLiqWithToken env s maxLiab = .ok (s', some r)) :
    ∃ le, s.cache.health env.fd .liqEnd = .ok le ∧ liquidationAction env { s with liqeeFlag := ⟨true⟩ } le maxLiab = .ok (s', r) := by
  obtain ⟨_, _, _, le, hle, _, hs⟩ := C56_conditions h
  simp only [tokenLiqWithToken, Cache.requireAfterPhase1, bind_ok, require_ok] at h
  obtain ⟨_, h1, _, h2, le', hle', _, ⟨_, h3, h4⟩, ⟨flag, cl⟩, h5, h⟩ := h
  rw [hle, ok_inj] at hle'
  subst hle'
  refine ⟨le, hle, ?_⟩
  dsimp only at h
  by_cases hr : cl ≠ .liquidatable
  · rw [if_pos hr] at h
    simp at h
  · rw [if_neg hr] at h
    simp only [bind_ok, ok_inj, Prod.mk.injEq, Option.some.injEq] at h
    obtain ⟨⟨s2, rep⟩, ha, _, hq, rfl, rfl⟩ := h
    dsimp only at *
    have : flag = ⟨true⟩ := by
      unfold Account.Liq.checkLiquidatable at h5
      have hr : cl = .liquidatable := by simpa using hr
      subst hr
      by_cases hb : s.liqeeFlag.being = true
      · rw [if_pos hb] at h5
        simp only [bind_ok, ok_inj, exists_eq_left'] at h5
        unfold Account.Liq.maybeRecover at h5
        by_cases hx : le > -ONE
        · simp [hb, hx] at h5
        · simp only [hb, hx, and_false, if_false, ok_inj, Prod.mk.injEq, Bool.false_eq_true] at h5
          rw [← h5.1]
          cases hs : s.liqeeFlag; rw [hs] at hb; dsimp only at hb; rw [hb]
      · rw [if_neg hb] at h5
        simp only [bind_ok] at h5
        obtain ⟨m, hm, h5⟩ := h5
        by_cases hx : m ≥ 0
        · rw [if_pos hx] at h5; simp at h5
        · rw [if_neg hx] at h5
          simp only [ok_inj, Prod.mk.injEq] at h5
          exact h5.1.symm
    rw [this] at ha
    exact ha

/-- fees and prices are not negative (fees: bank.rs:406, 423) -/
structure Sane (s : TokLiq) : Prop where
  assetFee : 0 ≤ s.asset.fee
  liabFee : 0 ≤ s.liab.fee
  assetPlatform : 0 ≤ s.asset.platformFee
  liabPlatform : 0 ≤ s.liab.platformFee
  assetPrice : 0 ≤ s.asset.price
  liabPrice : 0 ≤ s.liab.price

/-- **C56, amounts** At most the requested amount of debt is taken over, at most what the liqee owes, and at most what makes the balance counting perp pnl zero. The liqee pays for
it at most the oracle price times (1 + fees of the liab token) times (1 + fees of the asset token), rounded down at every step; the liqor receives at most that without the platform fees, and
never more than the liqee pays. The payment is at most the liqee's positive balance (as a position and counting perp pnl), except for the rounding of the price with fees: a payment exceeding
the balance exceeds it by a value of less than 2^-48 native quote per native unit of debt. -/
theorem C56_amounts {env : TokLiqEnv} {s s' : TokLiq} {maxLiab : I80F48} {r : TokReport} (hs : Sane s) (h : tokenLiqWithToken env s maxLiab = .ok (s', some r)) :
    ∃ na nl bs il ia bl ba, s.liqeeAsset.native s.asset.bank = .ok na ∧ s.liqeeLiab.native s.liab.bank = .ok nl ∧ s.cache.balances .liqEnd = .ok bs ∧
      s.cache.tokenIdx s.liab.index = some il ∧ s.cache.tokenIdx s.asset.index = some ia ∧ bs[il]? = some bl ∧ bs[ia]? = some ba ∧
      0 ≤ r.liabTransfer ∧ r.liabTransfer ≤ maxLiab ∧ r.liabTransfer ≤ -nl ∧ r.liabTransfer ≤ -bl ∧
      0 ≤ r.assetToLiqor ∧ r.assetToLiqor ≤ r.assetFromLiqee ∧ r.fee = r.assetFromLiqee - r.assetToLiqor ∧
      r.assetFromLiqee * s.asset.price * S ≤
        r.liabTransfer * s.liab.price * ((S + s.liab.fee + s.liab.platformFee) * (S + s.asset.fee + s.asset.platformFee) / S) ∧
      r.assetToLiqor * s.asset.price * S ≤ r.liabTransfer * s.liab.price * ((S + s.liab.fee) * (S + s.asset.fee) / S) ∧
      (r.assetFromLiqee - min na ba) * s.asset.price ≤ r.liabTransfer := by
  have hS := S_pos
  obtain ⟨le, _, ha⟩ := liq_some h
  obtain ⟨f, na, nl, ml, ma, hf, hL, hA, hR, hm⟩ := action_ok ha
  obtain ⟨bs, il, ia, bl, ba, g1, g2, g3, g4, g5, g6, g7, g8, g9⟩ := hL.balances
  obtain ⟨f1, f2, f3⟩ := feeFactors_ok hf
  obtain ⟨il', tl, ia', ta, _, _, _, _, _, hd, hlt⟩ := hA.tok
  obtain ⟨hp, base, hb, _, hto, hfrom, hfee⟩ := assetAmounts_ok hR
  dsimp only at *
  have hlopa := hA.lopa
  obtain ⟨s1, s2, s3, s4, s5, s6⟩ := hs
  generalize hl : r.liabTransfer = lt at *
  have hml := hL.mlPos
  have hma := hL.maPos
  have hlt0 : 0 ≤ lt := by omega
  have hltm : lt ≤ ml := by omega
  have hap : 0 < s.asset.price := by omega
  have hfl : 0 ≤ f.liqor := by rw [f1]; exact floor_nonneg (Int.mul_nonneg (by omega) (by omega))
  have hft : f.liqor ≤ f.total := by
    rw [f1, f2]
    apply floor_mono
    exact Int.mul_le_mul (by omega) (by omega) (by omega) (by omega)
  have hlopa0 : 0 < f.lopa := by
    have : 0 ≤ f.lopa := by rw [f3]; exact floor_nonneg (Int.mul_nonneg s6 (by omega))
    omega
  have hv0 : 0 ≤ lt * s.liab.price := Int.mul_nonneg hlt0 s6
  have hv := mulFloor_bounds (lt * s.liab.price)
  have hbb := tdiv_bounds (a := lt * s.liab.price / S * S) (b := s.asset.price) (Int.mul_nonneg (floor_nonneg hv0) hS.le) hap
  rw [← hb] at hbb
  have hbase : base * s.asset.price ≤ lt * s.liab.price := by omega
  have hto' := mulFloor_bounds (base * f.liqor)
  have hfrom' := mulFloor_bounds (base * f.total)
  rw [← hto] at hto'
  rw [← hfrom] at hfrom'
  have hbound : ∀ (x F : Int), 0 ≤ F → x * S ≤ base * F → x * s.asset.price * S ≤ lt * s.liab.price * F := by
    intro x F hF hx
    have a1 : x * S * s.asset.price ≤ base * F * s.asset.price := Int.mul_le_mul_of_nonneg_right hx hap.le
    have a2 : base * s.asset.price * F ≤ lt * s.liab.price * F := Int.mul_le_mul_of_nonneg_right hbase hF
    have e1 : x * s.asset.price * S = x * S * s.asset.price := by ring
    have e2 : base * F * s.asset.price = base * s.asset.price * F := by ring
    omega
  have hpaid := hbound r.assetFromLiqee f.total (by omega) hfrom'.1
  have hgot := hbound r.assetToLiqor f.liqor hfl hto'.1
  have hposs : lt * f.lopa ≤ ma * s.asset.price := by
    have hx : 0 ≤ ma * s.asset.price := Int.mul_nonneg hma.le hap.le
    have t := tdiv_bounds (a := ma * s.asset.price / S * S) (b := f.lopa) (Int.mul_nonneg (floor_nonneg hx) hS.le) hlopa0
    have m := mulFloor_bounds (ma * s.asset.price)
    by_cases hz : lt = 0
    · rw [hz]; simp; exact hx
    · have hle : lt ≤ Int.tdiv (ma * s.asset.price / S * S) f.lopa := by omega
      have := Int.mul_le_mul_of_nonneg_right hle hlopa0.le
      omega
  have hl3 := mulFloor_bounds (s.liab.price * f.total)
  rw [← f3] at hl3
  refine ⟨na, nl, bs, il, ia, bl, ba, hL.asset, hL.liab, g1, g2, g3, g4, g5, hlt0, by omega, by omega, by omega, ?_, ?_, hfee, by rw [← f2]; exact hpaid, by rw [← f1]; exact hgot, ?_⟩
  · rw [hto]; exact floor_nonneg (Int.mul_nonneg hbb.2.2 hfl)
  · rw [hto, hfrom]; exact floor_mono (Int.mul_le_mul_of_nonneg_left hft hbb.2.2)
  · rw [← g9]
    have a1 : lt * (s.liab.price * f.total) ≤ lt * (f.lopa * S + S) := Int.mul_le_mul_of_nonneg_left (by omega) hlt0
    have e1 : lt * (s.liab.price * f.total) = lt * s.liab.price * f.total := by ring
    have e2 : lt * (f.lopa * S + S) = (lt * f.lopa) * S + lt * S := by ring
    have e3 : r.assetFromLiqee * s.asset.price * S = (r.assetFromLiqee * s.asset.price) * S := rfl
    have a2 : (lt * f.lopa) * S ≤ (ma * s.asset.price) * S := Int.mul_le_mul_of_nonneg_right hposs hS.le
    have a3 : (r.assetFromLiqee * s.asset.price) * S ≤ (ma * s.asset.price + lt) * S := by
      have : (ma * s.asset.price + lt) * S = (ma * s.asset.price) * S + lt * S := by ring
      omega
    have a4 := Int.le_of_mul_le_mul_right a3 hS
    have e4 : (r.assetFromLiqee - ma) * s.asset.price = r.assetFromLiqee * s.asset.price - ma * s.asset.price := by ring
    omega

/-- **C56, ledger** On the liab token the instruction is exactly a repayment by the liqee and a withdrawal of the same amount by the liqor. On the asset token it is a
withdrawal by the liqee, a deposit by the liqor, and the difference collected as fee. No tokens enter or leave either bank, so every theorem about token histories
(C02, C47, ...) applies. `k`, `m`: the banks used; `i`, `j`: liqee and liqor. -/
theorem C56_ledger {env : TokLiqEnv} {s s' : TokLiq} {maxLiab : I80F48} {r : TokReport} (h : tokenLiqWithToken env s maxLiab = .ok (s', some r))
    {A L : List Bank} {k m : Nat} (hA : A[k]? = some s.asset.bank) (hL : L[m]? = some s.liab.bank) {ps qs : List TokenPosition} {i j : Nat} (hij : i ≠ j)
    (hpi : ps[i]? = some s.liqeeAsset) (hpj : ps[j]? = some s.liqorAsset) (hqi : qs[i]? = some s.liqeeLiab) (hqj : qs[j]? = some s.liqorLiab) (v w : Int) :
    runOps ⟨A, ps, v⟩ [.collect k r.fee, .pos (.deposit r.assetToLiqor) k j false env.now, .pos (.withdrawWithoutFeeWithDusting r.assetFromLiqee) k i false env.now] =
      .ok ⟨A.set k s'.asset.bank, (ps.set j s'.liqorAsset).set i s'.liqeeAsset, v⟩ ∧
    runOps ⟨L, qs, w⟩ [.pos (.depositWithDusting r.liabTransfer) m i false env.now, .pos (.withdrawWithFee r.liabTransfer) m j false env.now] =
      .ok ⟨L.set m s'.liab.bank, (qs.set i s'.liqeeLiab).set j s'.liqorLiab, w⟩ := by
  obtain ⟨le, _, ha⟩ := liq_some h
  obtain ⟨f, na, nl, ml, ma, hf, _, _, hR, hm⟩ := action_ok ha
  obtain ⟨_, base, _, _, _, _, hfee⟩ := assetAmounts_ok hR
  obtain ⟨ab, act, act', d1, d2⟩ := hm.asset
  obtain ⟨lb, act2, w2, d3, d4⟩ := hm.liab
  have hfr := hm.feeRange
  dsimp only at *
  have hk : k < A.length := by rw [List.getElem?_eq_some_iff] at hA; exact hA.1
  have hmm : m < L.length := by rw [List.getElem?_eq_some_iff] at hL; exact hL.1
  constructor
  · have hadd : Fx.add s.asset.bank.collectedFeesNative r.fee = .ok (s.asset.bank.collectedFeesNative + r.fee) := add_ok.mpr ⟨rfl, hfr⟩
    have st0 : step ⟨A, ps, v⟩ (.collect k r.fee) =
        .ok ⟨A.set k { s.asset.bank with collectedFeesNative := s.asset.bank.collectedFeesNative + r.fee }, ps, v + r.fee⟩ := by
      simp only [step, getBank, hA]
      dsimp only [bind, Except.bind]
      rw [hadd]
    have st1 := step_pos (s := ⟨A.set k { s.asset.bank with collectedFeesNative := s.asset.bank.collectedFeesNative + r.fee }, ps, v + r.fee⟩)
      (op := .deposit r.assetToLiqor) (k := k) (i := j) (now := env.now) (by dsimp only; rw [List.getElem?_set_self hk]) hpj d1
    have st2 := step_pos (s := ⟨(A.set k { s.asset.bank with collectedFeesNative := s.asset.bank.collectedFeesNative + r.fee }).set k ab, ps.set j s'.liqorAsset,
        v + r.fee + (PosOp.deposit r.assetToLiqor).inflow⟩)
      (op := .withdrawWithoutFeeWithDusting r.assetFromLiqee) (k := k) (i := i) (now := env.now)
      (by dsimp only; rw [List.getElem?_set_self (by rw [List.length_set]; exact hk)])
      (by dsimp only; rw [List.getElem?_set_ne (Ne.symm hij)]; exact hpi) d2
    rw [runOps, st0]
    dsimp only [bind, Except.bind]
    rw [runOps, st1]
    dsimp only [bind, Except.bind]
    rw [runOps, st2]
    dsimp only [bind, Except.bind]
    rw [runOps]
    simp only [List.set_set, PosOp.inflow]
    congr 2
    omega
  · have st1 := step_pos (s := ⟨L, qs, w⟩) (op := .depositWithDusting r.liabTransfer) (k := m) (i := i) (now := env.now) hL hqi d3
    have hrun : PosOp.run (.withdrawWithFee r.liabTransfer) lb s.liqorLiab env.now = .ok (s'.liab.bank, s'.liqorLiab, w2.positionIsActive) := by
      simp only [PosOp.run, d4]
      rfl
    have st2 := step_pos (s := ⟨L.set m lb, qs.set i s'.liqeeLiab, w + (PosOp.depositWithDusting r.liabTransfer).inflow⟩) (k := m) (i := j) (now := env.now)
      (by dsimp only; rw [List.getElem?_set_self hmm]) (by dsimp only; rw [List.getElem?_set_ne hij]; exact hqj) hrun
    rw [runOps, st1]
    dsimp only [bind, Except.bind]
    rw [runOps, st2]
    dsimp only [bind, Except.bind]
    rw [runOps]
    simp only [List.set_set, PosOp.inflow]
    congr 2
    omega

end Liquidation
end Mango
