import Verif.Props.PerpLiqOver
import Verif.Props.SettleLimit
/-!
# C63: perp liquidation, part 3: conditions, the trade, the pnl takeover, bookkeeping
-/
namespace Mango
namespace Liquidation
open Fx Health Bank

/-! ## Unpacking -/

theorem checkLiquidatable_ok {f flag : Account.Liq} {cl : Account.CheckLiquidatable} {mres : Res I80F48} {le : I80F48} (h5 : f.checkLiquidatable mres (.ok le) = .ok (flag, cl)) :
    (cl ≠ .liquidatable → flag = ⟨false⟩ ∧ (if f.being = true then -S < le else ∃ m, mres = .ok m ∧ 0 ≤ m)) ∧
    (cl = .liquidatable → flag = ⟨true⟩ ∧ (if f.being = true then le ≤ -S else ∃ m, mres = .ok m ∧ m < 0)) := by
  have hONE : ONE = S := rfl
  unfold Account.Liq.checkLiquidatable at h5
  by_cases hb : f.being = true
  · rw [if_pos hb] at h5
    simp only [hb, if_true]
    unfold Account.Liq.maybeRecover at h5
    by_cases hx : le > -ONE
    · simp only [hb, hx, and_self, if_true, bind_ok, ok_inj, exists_eq_left', Prod.mk.injEq] at h5
      obtain ⟨rfl, rfl⟩ := h5
      exact ⟨fun _ => ⟨rfl, by omega⟩, fun hc => by simp at hc⟩
    · simp only [hb, hx, and_false, if_false, bind_ok, ok_inj, exists_eq_left', Prod.mk.injEq, Bool.false_eq_true] at h5
      obtain ⟨rfl, rfl⟩ := h5
      exact ⟨fun hc => by simp at hc, fun _ => ⟨by cases hs : f; rw [hs] at hb; dsimp only at hb; rw [hb], by omega⟩⟩
  · rw [if_neg hb] at h5
    rw [if_neg hb, if_neg hb]
    simp only [bind_ok] at h5
    obtain ⟨m, hm, h5⟩ := h5
    by_cases hx : m ≥ 0
    · rw [if_pos hx] at h5
      simp only [ok_inj, Prod.mk.injEq] at h5
      obtain ⟨rfl, rfl⟩ := h5
      refine ⟨fun _ => ⟨?_, m, hm, hx⟩, fun hc => by simp at hc⟩
      cases hs : f; rw [hs] at hb; dsimp only at hb; simp at hb; rw [hb]
    · rw [if_neg hx] at h5
      simp only [ok_inj, Prod.mk.injEq] at h5
      obtain ⟨rfl, rfl⟩ := h5
      exact ⟨fun hc => by simp at hc, fun _ => ⟨rfl, m, hm, by omega⟩⟩

/-- fee factors by the side of the liqee's position -/
def factorLiqor (f : PerpFees) (B : Int) : Int := if 0 < B then S - f.base else S + f.base
def factorAll (f : PerpFees) (B : Int) : Int := if 0 < B then S - f.base - f.platform else S + f.base + f.platform
/-- gain of unweighted health pnl per lot: what the lot brings minus what it counted for -/
def gainPerLot (m : Perp.Market) (f : PerpFees) (price B : Int) : Int :=
  if 0 < B then m.baseLotSize * price * (factorAll f B - m.initBaseAssetWeight) / S else m.baseLotSize * price * (m.initBaseLiabWeight - factorAll f B) / S

theorem sidesOf_ok {m : Perp.Market} {f : PerpFees} {price : Int} {B M : Int} {sd : Sides} (h : sidesOf m f (m.baseLotSize * price) B M = .ok sd) :
    sd.direction = (if 0 < B then -1 else 1) ∧ sd.feeLiqor = factorLiqor f B ∧ sd.feeAll = factorAll f B ∧ sd.uhupnlPerLot = gainPerLot m f price B ∧ 0 < gainPerLot m f price B ∧
    (if 0 < B then 0 ≤ M else M ≤ 0) := by
  have hONE : ONE = S := rfl
  simp only [sidesOf, bind_ok] at h
  obtain ⟨s, h1, _, h2, h3⟩ := h
  rw [ok_inj] at h3
  subst h3
  rw [require_ok] at h2
  unfold factorLiqor factorAll gainPerLot
  unfold factorAll
  by_cases hB : B > 0
  · have hB' : 0 < B := hB
    simp only [if_pos hB, if_pos hB', bind_ok, require_ok, sub_ok, neg_ok, add_ok, mul_ok, ok_inj] at h1 ⊢
    obtain ⟨_, hM, _, ⟨rfl, _⟩, _, ⟨rfl, _⟩, _, ⟨rfl, _⟩, _, ⟨rfl, _⟩, _, ⟨rfl, _⟩, rfl⟩ := h1
    dsimp only at *
    rw [hONE] at *
    have e : -m.initBaseAssetWeight + (S - f.base - f.platform) = S - f.base - f.platform - m.initBaseAssetWeight := by omega
    rw [e] at h2 ⊢
    exact ⟨rfl, rfl, rfl, rfl, h2, hM⟩
  · have hB' : ¬ 0 < B := hB
    simp only [if_neg hB, if_neg hB', bind_ok, require_ok, sub_ok, neg_ok, add_ok, mul_ok, ok_inj] at h1 ⊢
    obtain ⟨_, hM, _, ⟨rfl, _⟩, _, ⟨rfl, _⟩, _, ⟨rfl, _⟩, _, ⟨rfl, _⟩, rfl⟩ := h1
    exact ⟨rfl, rfl, rfl, rfl, h2, hM⟩

/-- the trade -/
structure TradeDone (s s1 : PerpLiq) (fl fa P base qe qr fee : Int) : Prop where
  qe_eq : qe = -base * P * fa / S
  qr_eq : qr = base * P * fl / S
  fee_eq : fee = max (-qr - qe) 0
  liqee : ∃ r, s1.liqee = { s.liqee with base := s.liqee.base + base, quote := s.liqee.quote + (if base = 0 then 0 else qe), recurring := r }
  liqor : ∃ r, s1.liqor = { s.liqor with base := s.liqor.base - base, quote := s.liqor.quote + (if base = 0 then 0 else qr), recurring := r }
  market : s1.market = { s.market with
    openInterest := s.market.openInterest + (|s.liqee.base + base| - |s.liqee.base|) + (|s.liqor.base - base| - |s.liqor.base|)
    feesAccrued := s.market.feesAccrued + fee }
  rest : s1.fees = s.fees ∧ s1.accruedLiqFees = s.accruedLiqFees + fee ∧ s1.bank = s.bank ∧ s1.liqeeTok = s.liqeeTok ∧ s1.liqorTok = s.liqorTok ∧ s1.liqeeFlag = s.liqeeFlag ∧ s1.liqorFlag = s.liqorFlag ∧
    s1.cache = s.cache

theorem liqTrade_ok {s s1 : PerpLiq} {sd : Sides} {P : I80F48} {base : Int} {qe qr fee : I80F48} (h : liqTrade s sd P base = .ok (s1, qe, qr, fee)) :
    TradeDone s s1 sd.feeLiqor sd.feeAll P base qe qr fee := by
  simp only [liqTrade, bind_ok, neg_ok, mul_ok, sub_ok, add_ok] at h
  obtain ⟨_, ⟨rfl, _⟩, _, ⟨rfl, _⟩, _, ⟨rfl, _⟩, _, ⟨rfl, _⟩, _, ⟨rfl, _⟩, ⟨m, e, r⟩, h1, _, ⟨rfl, _⟩, _, ⟨rfl, _⟩, _, ⟨rfl, _⟩, _, ⟨rfl, _⟩, h2⟩ := h
  simp only [ok_inj, Prod.mk.injEq] at h2
  obtain ⟨rfl, rfl, rfl, rfl⟩ := h2
  have eq0 : -Fx.ofInt base * P / S = -base * P := by
    have : -Fx.ofInt base * P = -base * P * S := by unfold Fx.ofInt; ring
    rw [this, Int.mul_ediv_cancel _ (by decide)]
  simp only [eq0] at *
  have eq1 : -(-base * P) = base * P := by ring
  simp only [eq1] at h1 ⊢
  clear eq0
  by_cases hb : base ≠ 0
  · rw [if_pos hb] at h1
    simp only [bind_ok, ck64_ok, ok_inj, Prod.mk.injEq] at h1
    obtain ⟨⟨e', m1⟩, h3, _, ⟨rfl, _⟩, ⟨r', m2⟩, h4, rfl, rfl, rfl⟩ := h1
    dsimp only at h4 ⊢
    have t1 := Perp.recordTrade_ok h3
    have t2 := Perp.recordTrade_ok h4
    obtain ⟨⟨x1, e1⟩, g1⟩ := t1
    obtain ⟨⟨x2, e2⟩, g2⟩ := t2
    refine ⟨rfl, rfl, rfl, ⟨x1, ?_⟩, ⟨x2, ?_⟩, ?_, rfl, rfl, rfl, rfl, rfl, rfl, rfl, rfl⟩
    · dsimp only; rw [e1, if_neg hb]
    · dsimp only; rw [e2, if_neg hb, show s.liqor.base - base = s.liqor.base + -base by omega]
    · dsimp only
      rw [g2, g1]
      have : s.liqor.base + -base = s.liqor.base - base := by omega
      rw [this]
  · rw [if_neg hb] at h1
    have hb : base = 0 := by omega
    subst hb
    simp only [ok_inj, Prod.mk.injEq] at h1
    obtain ⟨rfl, rfl, rfl⟩ := h1
    refine ⟨rfl, rfl, rfl, ⟨s.liqee.recurring, ?_⟩, ⟨s.liqor.recurring, ?_⟩, ?_, rfl, rfl, rfl, rfl, rfl, rfl, rfl, rfl⟩
    · simp
    · simp
    · simp

/-- the pnl takeover -/
structure TakeoverDone (env : PerpLiqEnv) (s s2 : PerpLiq) (limit gain pnl token lr lo : Int) : Prop where
  none : pnl ≤ 0 → s2 = s ∧ token = 0 ∧ lr = 0 ∧ lo = 0
  liqee : 0 < pnl → Perp.Settled s.liqee pnl s2.liqee
  liqor : 0 < pnl → s2.liqor = { s.liqor with quote := s.liqor.quote + pnl, recurring := s.liqor.recurring + lr, oneshot := s.liqor.oneshot + lo * S }
  paid : 0 < pnl → token = pnl * gain / S
  limits : 0 < pnl → 1 ≤ lr ∧ 0 ≤ lo ∧ (lr + lo) * S < pnl + S ∧
    lr ≤ max 1 (limit - max (-((-s.liqee.oneshot) / S)) 0) ∧ lo ≤ max (-((-s.liqee.oneshot) / S)) 0
  bank : 0 < pnl → ∃ b a1 a2 w, s.bank.deposit s.liqeeTok token env.now = .ok (b, s2.liqeeTok, a1) ∧ b.withdrawWithoutFee s.liqorTok token env.now = .ok (s2.bank, s2.liqorTok, a2) ∧
    env.scaled s2.bank = .ok w ∧ s.cache.adjustTokenBalance s.market.settleTokenIndex w token = .ok s2.cache
  rest : s2.market = s.market ∧ s2.fees = s.fees ∧ s2.accruedLiqFees = s.accruedLiqFees ∧ s2.liqeeFlag = s.liqeeFlag ∧ s2.liqorFlag = s.liqorFlag

theorem limitTransfer_ok {m : Perp.Market} {e : Perp.Pos} {limit : Int} {price pnl : I80F48} {lr lo : Int} (hp : 0 < pnl) (h : limitTransfer m e limit price pnl = .ok (lr, lo)) :
    1 ≤ lr ∧ 0 ≤ lo ∧ (lr + lo) * S < pnl + S ∧ lr ≤ max 1 (limit - max (-((-e.oneshot) / S)) 0) ∧ lo ≤ max (-((-e.oneshot) / S)) 0 := by
  have hS := S_pos
  simp only [limitTransfer, Perp.toI64, bind_ok, ceil_ok, floor_ok, ck_ok, ck64_ok, ok_inj, Prod.mk.injEq] at h
  obtain ⟨_, ⟨rfl, _⟩, up, hup, _, ⟨rfl, _⟩, _, ⟨rfl, _⟩, _, ⟨rfl, _⟩, _, ⟨rfl, _⟩, _, ⟨rfl, _⟩, _, ⟨rfl, _⟩, _, ⟨rfl, _⟩, _, ⟨rfl, _⟩, _, ⟨rfl, _⟩, rfl, rfl⟩ := h
  simp only [Fx.toInt, Int.mul_ediv_cancel _ (show S ≠ 0 by decide)]
  generalize hO : max (-((-e.oneshot) / S)) 0 = o
  generalize hT : max (max (-((-up) / S)) 1) (pnl / S) = T
  have ho : 0 ≤ o := by omega
  have hT1 : 1 ≤ T := by omega
  have hset : 0 ≤ pnl / S := floor_nonneg hp.le
  have hsT : pnl / S ≤ T := by omega
  have share : ∀ x : Int, 0 ≤ x → Int.tdiv (x * (pnl / S)) T ≤ x := by
    intro x hx
    have tb := tdiv_bounds (a := x * (pnl / S)) (b := T) (Int.mul_nonneg hx hset) (by omega)
    have k : x * (pnl / S) ≤ x * T := Int.mul_le_mul_of_nonneg_left hsT hx
    exact Int.le_of_mul_le_mul_right (show _ * T ≤ x * T by omega) (by omega)
  have s1 := share (max (limit - o) 0) (by omega)
  have s2 := share o ho
  generalize Int.tdiv (max (limit - o) 0 * (pnl / S)) T = r at *
  generalize Int.tdiv (o * (pnl / S)) T = q at *
  have c := ceil_lt (q := pnl) (n := -((-pnl) / S)) rfl
  generalize -((-pnl) / S) = mx at *
  have hmx : 1 ≤ mx := by
    by_contra hc
    have : mx * S ≤ 0 := Int.mul_nonpos_of_nonpos_of_nonneg (by omega) hS.le
    omega
  refine ⟨by omega, by omega, ?_, by omega, by omega⟩
  have hle : (max (min r mx) 1 + max (min q (mx - max (min r mx) 1)) 0) * S ≤ mx * S := Int.mul_le_mul_of_nonneg_right (by omega) hS.le
  have e : (mx - 1) * S = mx * S - S := by ring
  omega

theorem liqTakeover_ok {env : PerpLiqEnv} {s s2 : PerpLiq} {limit : Int} {price gain pnl token : I80F48} {lr lo : Int}
    (h : liqTakeover env s limit price gain pnl = .ok (s2, token, lr, lo)) : TakeoverDone env s s2 limit gain pnl token lr lo := by
  unfold liqTakeover at h
  by_cases hp : pnl > 0
  · rw [if_pos hp] at h
    simp only [bind_ok, mul_ok, ok_inj, Prod.mk.injEq, Prod.exists] at h
    obtain ⟨lr', lo', h1, tok, ⟨rfl, _⟩, r, h2, e, h3, b, et, a1, h4, b', rt, a2, h5, w0, w1, h6, c, h7, rfl, rfl, rfl, rfl⟩ := h
    simp only [Perp.Pos.recordLiquidationPnlTakeover, Perp.Pos.changeQuote, bind_ok, add_ok, ck64_ok, ok_inj] at h2
    obtain ⟨_, ⟨_, ⟨rfl, _⟩, rfl⟩, _, ⟨rfl, _⟩, _, ⟨rfl, _⟩, rfl⟩ := h2
    refine ⟨fun hc => by omega, fun _ => Perp.recordSettle_ok h3, fun _ => rfl, fun _ => rfl, fun _ => limitTransfer_ok hp h1, fun _ => ?_, rfl, rfl, rfl, rfl, rfl⟩
    exact ⟨b, a1, a2, (w0, w1), h4, h5, h6, h7⟩
  · rw [if_neg hp] at h
    simp only [ok_inj, Prod.mk.injEq] at h
    obtain ⟨rfl, rfl, rfl, rfl⟩ := h
    exact ⟨fun _ => ⟨rfl, rfl, rfl, rfl⟩, fun hc => absurd hc hp, fun hc => absurd hc hp, fun hc => absurd hc hp, fun hc => absurd hc hp, fun hc => absurd hc hp, rfl, rfl, rfl, rfl, rfl⟩

theorem perpLookup_ok {c : Cache} {mi : Nat} {p : PerpInfo} (h : perpLookup c mi = .ok p) : c.perps.find? (fun i => i.perpMarketIndex == mi) = some p := by
  unfold perpLookup at h
  split at h
  · rename_i q hq
    rw [ok_inj] at h
    subst h
    exact hq
  · simp at h

/-- the liquidation itself, from the state with funding settled -/
structure ActionDone (env : PerpLiqEnv) (s s' : PerpLiq) (H M P : Int) (r : PerpReport) : Prop where
  ex : ∃ (bs : List Int) (i : Nat) (t : TokenInfo) (tok : Int) (pi : PerpInfo) (limit u lo : Int) (plan : Plan) (s1 s2 : PerpLiq),
    s.cache.balances .liqEnd = .ok bs ∧ s.cache.tokenIdx s.market.settleTokenIndex = some i ∧ s.cache.tokens[i]? = some t ∧ bs[i]? = some tok ∧
    s.cache.perps.find? (fun i => i.perpMarketIndex == s.market.idx) = some pi ∧ s.liqee.settleLimit env.lim s.market = .ok (lo, limit) ∧ pi.uhupnl .liqEnd = .ok u ∧
    0 < gainPerLot s.market s.fees pi.basePrices.oracle s.liqee.base ∧ (if 0 < s.liqee.base then 0 ≤ M else M ≤ 0) ∧
    Steps t s.liqee.base M (gainPerLot s.market s.fees pi.basePrices.oracle s.liqee.base) (S - s.fees.positivePnl) s.market.initOverallAssetWeight (P * S) ⟨0, 0, u, tok, H⟩ plan ∧
    r.base = (if 0 < s.liqee.base then -1 else 1) * plan.base ∧ r.pnl = plan.pnl ∧
    TradeDone s s1 (factorLiqor s.fees s.liqee.base) (factorAll s.fees s.liqee.base) (s.market.baseLotSize * pi.basePrices.oracle) r.base r.quoteLiqee r.quoteLiqor r.platformFee ∧
    TakeoverDone env s1 s2 limit (S - s.fees.positivePnl) r.pnl r.token r.limitRecurring r.limitOneshot ∧
    s2.cache.recomputePerp s2.market s2.liqee = .ok s'.cache ∧ s' = { s2 with cache := s'.cache }

theorem perpAction_ok {env : PerpLiqEnv} {s s' : PerpLiq} {H : I80F48} {M P : Int} {r : PerpReport} (h : perpLiquidationAction env s H M P = .ok (s', r)) : ActionDone env s s' H M P r := by
  have hONE : ONE = S := rfl
  simp only [perpLiquidationAction, bind_ok, mul_ok, sub_ok, require_ok, ck64_ok, ok_inj, Prod.mk.injEq, Prod.exists] at h
  obtain ⟨bs, hbs, i, t, hl, tok, htok, pi, hpi, ppl, ⟨hpp, _⟩, llo, limit, hlim, sd, hsd, gain, ⟨rfl, _⟩, u, hu, plan, hplan, ab, _, _, _, base, ⟨rfl, _⟩, s1, qe, qr, fee, htr,
    s2, token, lr, lo, hto, c, hc, rfl, rfl⟩ := h
  have epp : ppl = s.market.baseLotSize * pi.basePrices.oracle := by
    rw [hpp]
    have : Fx.ofInt s.market.baseLotSize * pi.basePrices.oracle = s.market.baseLotSize * pi.basePrices.oracle * S := by unfold Fx.ofInt; ring
    rw [this, Int.mul_ediv_cancel _ (by decide)]
  subst epp
  obtain ⟨l1, l2⟩ := lookup_ok hl
  obtain ⟨d1, d2, d3, d4, d5, d6⟩ := sidesOf_ok hsd
  have st := planOf_ok hplan
  rw [d4] at st
  have td := liqTrade_ok htr
  rw [d2, d3] at td
  have tk := liqTakeover_ok hto
  rw [hONE] at *
  exact ⟨bs, i, t, tok, pi, limit, u, llo, plan, s1, s2, hbs, l1, l2, Health.at_ok.mp htok, perpLookup_ok hpi, hlim, hu, d5, d6, st, by rw [d1], rfl, td, tk, hc, rfl⟩

/-- **C63, conditions** Perp liquidation is only possible for a liqor that is not being liquidated, against an account without open or unsettled orders, without fills waiting in the market, which is
liquidatable: already in liquidation and not yet recovered (liquidation-end health at most -1), or with negative maintenance health. If the account is not liquidatable, nothing but its flag can
change. Otherwise its liquidation-end health does not fall, the account leaves liquidation exactly if it ends above -1, and the liqor ends with non-negative init health (checked later in a
health region). -/
theorem C63_conditions {env : PerpLiqEnv} {s s' : PerpLiq} {M P : Int} {o : Option PerpReport} (h : perpLiqBaseOrPositivePnl env s M P = .ok (s', o)) :
    s.liqorFlag.being = false ∧ AfterPhase1 s.cache ∧
    ∃ le, s.cache.health env.fd .liqEnd = .ok le ∧
      (o = none → s' = { s with liqeeFlag := ⟨false⟩ } ∧ (if s.liqeeFlag.being = true then -S < le else ∃ m, s.cache.health env.fd .maint = .ok m ∧ 0 ≤ m)) ∧
      (o ≠ none → (if s.liqeeFlag.being = true then le ≤ -S else ∃ m, s.cache.health env.fd .maint = .ok m ∧ m < 0) ∧ s.liqee.takerBase = 0 ∧ s.liqee.takerQuote = 0 ∧
        (∀ x, env.liqorHealth s' = some x → ∃ v, x = .ok v ∧ 0 ≤ v) ∧
        ∃ le', s'.cache.health env.fd .liqEnd = .ok le' ∧ le ≤ le' ∧ s'.liqeeFlag.being = decide (le' ≤ -S)) ∧
      (∀ r, o = some r → ∃ e e' q fe fr, s.liqee.unsettledFunding s.market = .ok fe ∧ s.liqor.unsettledFunding s.market = .ok fr ∧
        e = { s.liqee with quote := s.liqee.quote - fe, oneshot := s.liqee.oneshot - fe, longSettled := s.market.longFunding, shortSettled := s.market.shortFunding } ∧
        e.updateSettleLimit s.market env.now = .ok e' ∧
        q = { s.liqor with quote := s.liqor.quote - fr, oneshot := s.liqor.oneshot - fr, longSettled := s.market.longFunding, shortSettled := s.market.shortFunding } ∧
        ∃ s2, ActionDone env { s with liqeeFlag := ⟨true⟩, liqee := e', liqor := q } s2 le (max M (I64MIN + 1)) P r ∧ s' = { s2 with liqeeFlag := s'.liqeeFlag }) := by
  have hONE : ONE = S := rfl
  simp only [perpLiqBaseOrPositivePnl, Cache.requireAfterPhase1, bind_ok, require_ok] at h
  obtain ⟨_, h1, le, hle, _, ⟨_, h3, h4⟩, ⟨flag, cl⟩, h5, h⟩ := h
  dsimp only at h
  have hcl := checkLiquidatable_ok h5
  refine ⟨h1, ⟨h3, h4⟩, le, hle, ?_⟩
  by_cases hr : cl ≠ .liquidatable
  · rw [if_pos hr] at h
    simp only [ok_inj, Prod.mk.injEq] at h
    obtain ⟨rfl, rfl⟩ := h
    obtain ⟨rfl, hc⟩ := hcl.1 hr
    exact ⟨fun _ => ⟨rfl, hc⟩, fun hn => absurd rfl hn, fun r hn => by simp at hn⟩
  · rw [if_neg hr] at h
    obtain ⟨rfl, hc⟩ := hcl.2 (by simpa using hr)
    simp only [bind_ok, require_ok, ok_inj, Prod.mk.injEq, Prod.exists] at h
    obtain ⟨_, hf, e, hfe, q, hfq, e', hup, s2, rep, ha, le', hle', _, hge, _, hq, rfl, rfl⟩ := h
    have ad := perpAction_ok ha
    have hf0 : s.liqee.takerBase = 0 ∧ s.liqee.takerQuote = 0 := by
      unfold Perp.Pos.hasOpenTakerFills at hf
      simpa using hf
    obtain ⟨fe, g1, rfl⟩ := Perp.settleFunding_ok hfe
    obtain ⟨fr, g2, rfl⟩ := Perp.settleFunding_ok hfq
    refine ⟨fun hn => by simp at hn, fun _ => ⟨hc, hf0.1, hf0.2, ?_, le', hle', hge, ?_⟩, fun r hr => ?_⟩
    · intro x hx
      rw [hx] at hq
      simp only [bind_ok, require_ok] at hq
      exact hq
    · have hb : s2.liqeeFlag = ⟨true⟩ := by
        obtain ⟨bs, i, t, tok, pi, limit, u, lo, plan, s1, s3, _, _, _, _, _, _, _, _, _, _, _, _, td, tk, _, he⟩ := ad.ex
        rw [he]
        dsimp only
        rw [tk.rest.2.2.2.1, td.rest.2.2.2.2.2.1]
      dsimp only
      rw [hb]
      unfold Account.Liq.maybeRecover
      by_cases hx : le' > -ONE
      · rw [if_pos ⟨rfl, hx⟩]
        have : ¬ le' ≤ -S := by omega
        simp [this]
      · rw [if_neg (by rintro ⟨_, h⟩; exact hx h)]
        have : le' ≤ -S := by omega
        simp [this]
    · simp only [Option.some.injEq] at hr
      subst hr
      exact ⟨_, e', _, fe, fr, g1, g2, rfl, hup, rfl, s2, ad, rfl⟩

end Liquidation
end Mango
