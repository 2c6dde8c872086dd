import Verif.Props.SettlementHealth
import Verif.Props.SettleLimit
/-!
# C72: exactly how much is settled

`C72_settle_pnl` bounds the amount; here it is the smallest of the profit, the loss, the two accounts' settle limits and what the payer's
settle health allows, and the last is as large as it can be.
-/
namespace Mango
namespace Settlement
open Fx Health Bank Liquidation

/-- **C72 (amount).** The amount settled is the smallest of `a`'s profit and settle limit, `b`'s loss and settle limit, and the most that
`b`'s settle health allows; the fee is the one C30 describes for this amount, `a`'s profit and position value at the oracle price, and `a`'s health. -/
theorem C72_amount_exact {e : Env} {s s' : Sys} (hs : s.Ok) {mi ia ib ir : Nat} {amt fee : I80F48} (hf : 0 ≤ (s.markets mi).settlePnlLimitFactor)
    (hl0 : ∀ v, 0 ≤ v → 0 ≤ e.lim v ∧ e.lim v ≤ I64MAX) (h : settlePnl e s mi ia ib ir = .ok (s', amt, fee)) :
    ∃ a b p q p0 p1 q0 q1 ca cb bMax liqEnd maint pLo pHi qLo qHi, s.accts[ia]? = some a ∧ s.accts[ib]? = some b ∧
      s.perpAt ia mi = some p ∧ s.perpAt ib mi = some q ∧ a.cache e s = .ok ca ∧ b.cache e s = .ok cb ∧
      p.pos.settleFunding (s.markets mi) = .ok p0 ∧ p0.updateSettleLimit (s.markets mi) e.now = .ok p1 ∧ p1.availableSettleLimit e.lim (s.markets mi) = .ok (pLo, pHi) ∧
      q.pos.settleFunding (s.markets mi) = .ok q0 ∧ q0.updateSettleLimit (s.markets mi) e.now = .ok q1 ∧ q1.availableSettleLimit e.lim (s.markets mi) = .ok (qLo, qHi) ∧
      cb.perpMaxSettle e.fd (s.markets mi).settleTokenIndex = .ok bMax ∧ ca.health e.fd .liqEnd = .ok liqEnd ∧ ca.health e.fd .maint = .ok maint ∧
      amt = min (min (min (pnl (s.markets mi) p.pos (e.oracle mi)) (Fx.ofInt pHi)) (min (-pnl (s.markets mi) q.pos (e.oracle mi)) (-Fx.ofInt qLo))) bMax ∧
      (s.markets mi).computeSettleFee amt (pnl (s.markets mi) p.pos (e.oracle mi) * (s.banks (s.markets mi).settleTokenIndex).oracle / S)
        (|p.pos.base * (s.markets mi).baseLotSize * S| * e.oracle mi / S) liqEnd maint = .ok fee := by
  obtain ⟨s1, a, b, ja, ka, jb, kb, pa, pb, ta, tb, ca, cb, bMax, liqEnd, maint, pa', pb', n, f, b1, b2, ta', tb', ra, rb, P, _⟩ := settlePnl_ok h
  obtain ⟨a0, a1, b0, b1', aPnl, bPnl, aLo, aHi, bLo, bHi, x1, x2, x3, x4, x5, x6, x7, x8, _, x10, x11, _⟩ := Perp.C29_settle_pnl hf hl0 P.settle
  have hA := hs a (List.mem_of_getElem? P.acctA)
  have hB := hs b (List.mem_of_getElem? P.acctB)
  have e1 := unsettled_pnl (Perp.settleFunding_paid x1) x2
  have e2 := unsettled_pnl (Perp.settleFunding_paid x5) x6
  have hpa : s.perpAt ia mi = some pa := by
    unfold Sys.perpAt; rw [P.acctA, ← P.perpA.2]; exact perpOf_at hA P.perpA.1
  have hpb : s.perpAt ib mi = some pb := by
    unfold Sys.perpAt; rw [P.acctB, ← P.perpB.2]; exact perpOf_at hB P.perpB.1
  refine ⟨a, b, pa, pb, a0, a1, b0, b1', ca, cb, bMax, liqEnd, maint, aLo, aHi, bLo, bHi, P.acctA, P.acctB, hpa, hpb, P.cacheA, P.cacheB, x1, x3, x4, x5, x7, x8, P.max, P.health1, P.health2, ?_, ?_⟩
  · rw [x10, e1, e2]
  · have hset := P.settle
    unfold Perp.settlePnl at hset
    simp only [bind_ok, require_ok, ok_inj, Prod.mk.injEq] at hset
    obtain ⟨y1, w1, y2, w2, y3, w3, y4, w4, _, _, _, _, y5, w5, y6, w6, y7, w7, y8, w8, _, _, _, _, _, _, y9, w9, _, _, y10, w10, y11, w11, y12, w12, y13, w13, y14, w14, y15, w15, y16, w16, y17, w17, _, _, rfl, rfl⟩ := hset
    rw [x1, ok_inj] at w1
    subst w1
    rw [x2, ok_inj] at w3
    subst w3
    rw [← e1]
    simp only [mul_ok] at w15 w16
    have hb : y13 = pa.pos.base * (s.markets mi).baseLotSize * S := by
      have hp := ((Perp.settleFunding_paid x1).window w5).settle w10
      simp only [Perp.Pos.baseNative, bind_ok, ck64_ok, ok_inj] at w13
      obtain ⟨z, ⟨rfl, _⟩, rfl⟩ := w13
      rw [hp.size.1]; rfl
    have h14 := Perp.fxabs_ok w14
    rw [← hb, ← h14, ← w15.1, ← w16.1]
    exact w17

/-- **C72 (the limit is tight).** If the settle health `v` of the payer is positive, settling anything more than the limit would bring it to zero or below;
if it is not positive the limit is zero. -/
theorem C72_limit_tight {fd : FDiv} {c : Cache} {ti k : Nat} {t v : I80F48} {tk : TokenInfo} {bs : List I80F48} (hk : c.tokenIdx ti = some k) (ht : c.tokens[k]? = some tk)
    (hpr : PricesOk tk .maint) (hbs : c.balancesI .maint true = .ok bs) {b : I80F48} (hb : bs[k]? = some b)
    (hv : c.healthI fd .maint true = .ok v) (hmax : c.perpMaxSettle fd ti = .ok t) :
    (v ≤ 0 → t = 0) ∧ (0 < v → 0 ≤ t ∧ ∀ x, t < x → v - Formula.tokenValue tk .maint b + Formula.tokenValue tk .maint (b - x) ≤ 0) := by
  simp only [Cache.healthI, bind_ok] at hv
  obtain ⟨bs', hbs', hsum⟩ := hv
  rw [hbs, ok_inj] at hbs'
  subst hbs'
  simp only [Cache.perpMaxSettle, bind_ok] at hmax
  obtain ⟨bs0, hbs0, v0, hv0, hmax⟩ := hmax
  rw [hbs, ok_inj] at hbs0
  subst hbs0
  rw [hsum, ok_inj] at hv0
  subst hv0
  rw [hk] at hmax
  simp only [bind_ok, Health.at_ok, TokenInfo.assetWeightedPrice, TokenInfo.liabWeightedPrice, mul_ok] at hmax
  obtain ⟨tk1, htk1, bal, hbal, aw, ⟨haw, _⟩, lw, ⟨hlw, _⟩, hmax⟩ := hmax
  rw [ht, Option.some.injEq] at htk1
  subst htk1
  rw [hb, Option.some.injEq] at hbal
  subst hbal
  have haw' : aw = Formula.assetWeight tk .maint * Formula.assetPrice tk.prices .maint / S := haw
  have hlw' : lw = Formula.liabWeight tk .maint * Formula.liabPrice tk.prices .maint / S := hlw
  have haw0 : 0 ≤ aw := by rw [haw']; exact Int.ediv_nonneg hpr.1 S_pos.le
  have hal : aw ≤ lw := by rw [haw', hlw']; exact Int.ediv_le_ediv S_pos hpr.2
  obtain ⟨T1, T2⟩ := C39_taken haw0 hal hmax
  refine ⟨T1, fun h0 => ?_⟩
  obtain ⟨T3, _, T4⟩ := T2 h0
  refine ⟨T3, fun x hx => ?_⟩
  have hm := PerpForce.tokenValue_mono hpr.tokenOk (show b - x ≤ b - (t + 1) by omega)
  have tv1 : Formula.tokenValue tk .maint b = priced aw lw b / S := by rw [tokenValue_tv, tv_priced, haw', hlw']; rfl
  have tv2 : Formula.tokenValue tk .maint (b - (t + 1)) = priced aw lw (b - (t + 1)) / S := by rw [tokenValue_tv, tv_priced, haw', hlw']; rfl
  rw [tv2] at hm
  rw [tv1]
  have f1 := mulFloor_bounds (priced aw lw b)
  have f2 := mulFloor_bounds (priced aw lw (b - (t + 1)))
  generalize priced aw lw (b - (t + 1)) = P1 at *
  generalize priced aw lw b = P0 at *
  have hS := S_pos
  have : (v - P0 / S + P1 / S) * S < 1 * S := by
    rw [Int.add_mul, Int.sub_mul]
    omega
  have := lt_of_mul_lt_mul_right this hS.le
  omega

/-- **C72 (amount of fees).** Settling fees settles exactly the smallest of the account's loss, its settle limit for losses, the market's accrued
fees and the request, and nothing if one of these is not positive. -/
theorem C72_fee_amount_exact {e : Env} {s s' : Sys} (hs : s.Ok) {mi i : Nat} {maxAmount amt : Int} (hf : 0 ≤ (s.markets mi).settlePnlLimitFactor)
    (hl0 : ∀ v, 0 ≤ v → 0 ≤ e.lim v ∧ e.lim v ≤ I64MAX) (h : settleFees e s mi i maxAmount = .ok (s', amt)) :
    ∃ p p0 lo hi, s.perpAt i mi = some p ∧ p.pos.settleFunding (s.markets mi) = .ok p0 ∧ p0.availableSettleLimit e.lim (s.markets mi) = .ok (lo, hi) ∧
      amt = max 0 (min (min (min (-pnl (s.markets mi) p.pos (e.oracle mi)) (-Fx.ofInt lo)) (s.markets mi).feesAccrued) (Fx.ofInt maxAmount)) := by
  unfold settleFees at h
  simp only [bind_ok, require_ok, Prod.exists] at h
  obtain ⟨_, hm0, a, h1, j, p, h2, p', m', x, h3, h⟩ := h
  have hx : amt = x := by
    by_cases h0 : x = 0
    · rw [if_pos h0, ok_inj, Prod.mk.injEq] at h
      omega
    · rw [if_neg h0] at h
      simp only [bind_ok, ok_inj, Prod.exists, Prod.mk.injEq] at h
      obtain ⟨_, _, _, _, _, _, _, _, _, _, _, _, _, _, _, _, _, _, _, _, _, _, e1⟩ := h
      exact e1.symm
  obtain ⟨p0, u, lo, hi, x1, x2, x3, _, x5, _⟩ := Perp.C29_settle_fees hf hl0 h3
  have hA := hs a (List.mem_of_getElem? (acct_ok h1))
  have e1 := unsettled_pnl (Perp.settleFunding_paid x1) x2
  have hp : s.perpAt i mi = some p := by
    obtain ⟨q1, q2⟩ := perp_ok h2
    unfold Sys.perpAt; rw [acct_ok h1, ← q2]; exact perpOf_at hA q1
  exact ⟨p, p0, lo, hi, hp, x1, x3, by rw [hx, x5, e1]⟩

end Settlement
end Mango
