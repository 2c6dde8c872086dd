import Verif.Props.PerpLiqResult
import Verif.Props.HealthState
/-!
# C63: perp liquidation, part 5: it stops at health zero
-/
namespace Mango
namespace Liquidation
open Fx Health Bank

/-- the cache of the liqee shows its perp position (so it is when the cache was made from the accounts), spot markets without funds have none, and weights are in order -/
structure PerpReflects (s : PerpLiq) (pi : PerpInfo) : Prop where
  distinct : (s.cache.tokens.map (·.tokenIndex)).Nodup
  markets : ∀ x ∈ s.cache.serums, x.hasZeroFunds = true → x.reservedBase = 0 ∧ x.reservedQuote = 0 ∧ 0 ≤ x.reservedQuoteAsBaseHighestBid
  info : perpInfoOf s.market s.liqee pi.basePrices.oracle = .ok pi
  lots : 0 < s.market.baseLotSize
  weights : ∀ t ∈ s.cache.tokens, 0 ≤ t.initAssetWeight ∧ t.initAssetWeight ≤ t.initLiabWeight ∧ 0 ≤ t.prices.oracle
  overall : 0 ≤ s.market.initOverallAssetWeight ∧ s.market.initOverallAssetWeight ≤ S
  fee : 0 ≤ s.fees.positivePnl

/-- health pnl of a position without orders, before the overall weight -/
def plainPnl (quote lots lotSize wa wl price : Int) : Int := quote + (if 0 ≤ lots * lotSize then lots * lotSize * wa * price / S else lots * lotSize * wl * price / S)

theorem perpValue_plain {p : PerpInfo} (hb : p.bidsBaseLots = 0) (ha : p.asksBaseLots = 0) :
    Formula.perpValue p .liqEnd = counted p.initOverallAssetWeight (plainPnl p.quote p.baseLots p.baseLotSize p.initBaseAssetWeight p.initBaseLiabWeight p.basePrices.oracle) / S := by
  have e : ∀ pr, Formula.ifExecuted p .liqEnd 0 pr =
      (if 0 ≤ p.baseLots * p.baseLotSize then p.baseLots * p.baseLotSize * p.initBaseAssetWeight * p.basePrices.oracle / S
        else p.baseLots * p.baseLotSize * p.initBaseLiabWeight * p.basePrices.oracle / S) := by
    intro pr
    unfold Formula.ifExecuted
    simp only [Int.add_zero, Int.zero_mul, Int.sub_zero, Formula.assetPrice, Formula.liabPrice]
    rfl
  unfold Formula.perpValue
  rw [hb, ha]
  dsimp only
  rw [show (-0 : Int) = 0 from rfl, e, e]
  simp only [min_self]
  unfold counted plainPnl
  generalize p.quote + _ = u
  split
  · rfl
  · rw [Int.mul_ediv_cancel_left _ (by decide)]

theorem uhupnl_plain {p : PerpInfo} {u : Int} (hb : p.bidsBaseLots = 0) (ha : p.asksBaseLots = 0) (h : p.uhupnl .liqEnd = .ok u) :
    u = plainPnl p.quote p.baseLots p.baseLotSize p.initBaseAssetWeight p.initBaseLiabWeight p.basePrices.oracle := by
  simp only [PerpInfo.uhupnl, bind_ok, ck64_ok, add_ok] at h
  obtain ⟨b, h1, _, ⟨rfl, _⟩, a, h2, rfl, _⟩ := h
  rw [hb] at h1
  rw [ha] at h2
  rw [Formula.ifExecuted_of h1, Formula.ifExecuted_of h2]
  unfold Formula.ifExecuted plainPnl
  simp only [Int.add_zero, Int.zero_mul, Int.sub_zero, Formula.assetPrice, Formula.liabPrice, Int.neg_zero, min_self]
  rfl

theorem sum_split {l : List PerpInfo} {k : Nat} {pi pi' : PerpInfo} (hk : l[k]? = some pi) (T : Nat) (hs : pi'.settleTokenIndex = pi.settleTokenIndex) :
    sumOf (fun p => if p.settleTokenIndex = T then Formula.perpValue p .liqEnd else 0) (l.set k pi') =
      sumOf (fun p => if p.settleTokenIndex = T then Formula.perpValue p .liqEnd else 0) l +
      (if pi.settleTokenIndex = T then Formula.perpValue pi' .liqEnd - Formula.perpValue pi .liqEnd else 0) := by
  rw [sumOf_set _ hk, hs]
  split <;> omega

/-- health after the settle token balance and one perp position changed -/
theorem health_perp {fd : Health.FDiv} (hfd0 : ∀ p x, fd 0 p = .ok x → x = 0) {c c' : Cache} (hd : (c.tokens.map (·.tokenIndex)).Nodup)
    (hz : ∀ x ∈ c.serums, x.reservedBase = 0 ∧ x.reservedQuote = 0 ∧ 0 ≤ x.reservedQuoteAsBaseHighestBid) {i k : Nat} {t t' : TokenInfo} {pi pi' : PerpInfo} {d H H' : Int}
    (ht : c.tokens[i]? = some t) (hk : c.perps[k]? = some pi) (hs : pi.settleTokenIndex = t.tokenIndex) (hs' : pi'.settleTokenIndex = pi.settleTokenIndex)
    (ht' : ∃ a b, t' = { t with initScaledAssetWeight := a, initScaledLiabWeight := b, balanceSpot := t.balanceSpot + d })
    (e1 : c'.tokens = c.tokens.set i t') (e2 : c'.perps = c.perps.set k pi') (e3 : c'.serums = c.serums)
    (hH : c.health fd .liqEnd = .ok H) (hH' : c'.health fd .liqEnd = .ok H') :
    H' = hAt t H (Formula.balance c .liqEnd t) (Formula.balance c .liqEnd t + d + (Formula.perpValue pi' .liqEnd - Formula.perpValue pi .liqEnd)) := by
  obtain ⟨wa, wl, rfl⟩ := ht'
  have m1 := tokenIdx_set ht e1 rfl
  have k1 := health_tokens hfd0 hd hz hH
  have k2 := health_tokens hfd0 (by rw [m1]; exact hd) (by rw [e3]; exact hz) hH'
  have hb : ∀ x, Formula.balance c' .liqEnd x = Formula.balance c .liqEnd x + (if t.tokenIndex = x.tokenIndex then Formula.perpValue pi' .liqEnd - Formula.perpValue pi .liqEnd else 0) := by
    intro x
    unfold Formula.balance
    rw [e2, sum_split hk _ hs', hs]
    omega
  simp only [hb] at k2
  rw [e1, sumOf_set _ ht] at k2
  dsimp only at k2
  have hb' : Formula.balance c .liqEnd { t with initScaledAssetWeight := wa, initScaledLiabWeight := wl, balanceSpot := t.balanceSpot + d } = Formula.balance c .liqEnd t + d := by
    unfold Formula.balance
    dsimp only
    omega
  rw [hb', if_pos rfl] at k2
  -- the other tokens
  have key : sumOf (fun x => Formula.tokenValue x .liqEnd (Formula.balance c .liqEnd x + (if t.tokenIndex = x.tokenIndex then Formula.perpValue pi' .liqEnd - Formula.perpValue pi .liqEnd else 0))) c.tokens =
      sumOf (fun x => Formula.tokenValue x .liqEnd (Formula.balance c .liqEnd x)) c.tokens - Formula.tokenValue t .liqEnd (Formula.balance c .liqEnd t) +
      Formula.tokenValue t .liqEnd (Formula.balance c .liqEnd t + (Formula.perpValue pi' .liqEnd - Formula.perpValue pi .liqEnd)) := by
    generalize Formula.perpValue pi' .liqEnd - Formula.perpValue pi .liqEnd = q
    generalize hF : (fun x => Formula.tokenValue x .liqEnd (Formula.balance c .liqEnd x + (if t.tokenIndex = x.tokenIndex then q else 0))) = F
    generalize hG : (fun x => Formula.tokenValue x .liqEnd (Formula.balance c .liqEnd x)) = G
    have hoth : ∀ x ∈ c.tokens, x.tokenIndex ≠ t.tokenIndex → F x = G x := by
      intro x _ hx
      rw [← hF, ← hG]
      dsimp only
      rw [if_neg (fun h => hx h.symm), Int.add_zero]
    have hFt : F t = Formula.tokenValue t .liqEnd (Formula.balance c .liqEnd t + q) := by rw [← hF]; dsimp only; rw [if_pos rfl]
    have hGt : G t = Formula.tokenValue t .liqEnd (Formula.balance c .liqEnd t) := by rw [← hG]
    rw [← hFt, ← hGt]
    clear hFt hGt hF hG k1 k2 hb hb' m1 hs hs' hk hH hH' e1 e2 e3 hz
    generalize c.tokens = l at *
    clear c c'
    induction l generalizing i with
    | nil => simp at ht
    | cons y l ih =>
      rw [List.map_cons, List.nodup_cons] at hd
      simp only [sumOf_cons]
      cases i with
      | zero =>
        simp only [List.getElem?_cons_zero, Option.some.injEq] at ht
        subst ht
        have : sumOf F l = sumOf G l := by
          apply sumOf_congr
          intro x hx
          exact hoth x (List.mem_cons_of_mem _ hx) (fun he => hd.1 (by rw [← he]; exact List.mem_map_of_mem hx))
        omega
      | succ i =>
        simp only [List.getElem?_cons_succ] at ht
        have := ih hd.2 ht (fun x hx => hoth x (List.mem_cons_of_mem _ hx))
        have hy : F y = G y := hoth y (List.mem_cons_self ..) (fun he => hd.1 (by rw [he]; exact List.mem_map_of_mem (List.mem_of_getElem? ht)))
        omega
  rw [key] at k2
  have v : ∀ b, Formula.tokenValue { t with initScaledAssetWeight := wa, initScaledLiabWeight := wl, balanceSpot := t.balanceSpot + d } .liqEnd b = Formula.tokenValue t .liqEnd b := fun _ => rfl
  rw [v] at k2
  unfold hAt
  rw [tokenValue_liqEnd, tokenValue_liqEnd, tokenValue_liqEnd] at k2
  unfold awp lwp
  omega

/-- the position's health pnl after the trade is at most what the plan says, up to rounding -/
theorem plainPnl_trade {q B n L p wa wl fa pnl u0 per qe base : Int} (hL : 0 < L) (hn : 0 ≤ n)
    (hu : u0 = plainPnl q B L wa wl p)
    (hlong : 0 < B → base = -n ∧ n ≤ B ∧ per = L * p * (fa - wa) / S)
    (hshort : B ≤ 0 → base = n ∧ n ≤ -B ∧ per = L * p * (wl - fa) / S)
    (hq : qe = -base * (L * p) * fa / S) :
    plainPnl (q + qe - pnl) (B + base) L wa wl p ≤ u0 + per * n - pnl + n + 1 := by
  have hS := S_pos
  unfold plainPnl at *
  have m0 := mulFloor_bounds (-base * (L * p) * fa)
  rw [← hq] at m0
  have hfin : ∀ X, X * S ≤ (per * n + n + 1) * S → X ≤ per * n + n + 1 := fun X h => Int.le_of_mul_le_mul_right h hS
  have ex : (per * n + n + 1) * S = per * S * n + S * n + S := by ring
  by_cases hB : 0 < B
  · obtain ⟨hb, hnB, hp⟩ := hlong hB
    have m1 := mulFloor_bounds (L * p * (fa - wa))
    rw [← hp] at m1
    have s1 : 0 ≤ B * L := Int.mul_nonneg hB.le hL.le
    have s2 : 0 ≤ (B + base) * L := Int.mul_nonneg (by omega) hL.le
    rw [if_pos s1] at hu
    rw [if_pos s2]
    have m2 := mulFloor_bounds (B * L * wa * p)
    have m3 := mulFloor_bounds ((B + base) * L * wa * p)
    have m4 : L * p * (fa - wa) * n ≤ (per * S + S) * n := Int.mul_le_mul_of_nonneg_right (by omega) hn
    have e1 : (per * S + S) * n = per * S * n + S * n := by ring
    have e2 : L * p * (fa - wa) * n = -base * (L * p) * fa + (B + base) * L * wa * p - B * L * wa * p := by rw [hb]; ring
    have := hfin (qe + (B + base) * L * wa * p / S - B * L * wa * p / S) (by
      have : (qe + (B + base) * L * wa * p / S - B * L * wa * p / S) * S = qe * S + (B + base) * L * wa * p / S * S - B * L * wa * p / S * S := by ring
      omega)
    omega
  · obtain ⟨hb, hnB, hp⟩ := hshort (by omega)
    have m1 := mulFloor_bounds (L * p * (wl - fa))
    rw [← hp] at m1
    have g : ∀ x : Int, x ≤ 0 → (if 0 ≤ x * L then x * L * wa * p / S else x * L * wl * p / S) = x * L * wl * p / S := by
      intro x hx
      by_cases h0 : x = 0
      · rw [h0]; simp
      · rw [if_neg (by have := Int.mul_neg_of_neg_of_pos (show x < 0 by omega) hL; omega)]
    rw [g B (by omega)] at hu
    rw [g (B + base) (by omega)]
    have m2 := mulFloor_bounds (B * L * wl * p)
    have m3 := mulFloor_bounds ((B + base) * L * wl * p)
    have m4 : L * p * (wl - fa) * n ≤ (per * S + S) * n := Int.mul_le_mul_of_nonneg_right (by omega) hn
    have e1 : (per * S + S) * n = per * S * n + S * n := by ring
    have e2 : L * p * (wl - fa) * n = -base * (L * p) * fa + (B + base) * L * wl * p - B * L * wl * p := by rw [hb]; ring
    have := hfin (qe + (B + base) * L * wl * p / S - B * L * wl * p / S) (by
      have : (qe + (B + base) * L * wl * p / S - B * L * wl * p / S) * S = qe * S + (B + base) * L * wl * p / S * S - B * L * wl * p / S * S := by ring
      omega)
    omega

/-- the position's health pnl after the trade is at least what the plan says, up to rounding -/
theorem plainPnl_trade_ge {q B n L p wa wl fa pnl u0 per qe base : Int} (hL : 0 < L) (hn : 0 ≤ n)
    (hu : u0 = plainPnl q B L wa wl p)
    (hlong : 0 < B → base = -n ∧ n ≤ B ∧ per = L * p * (fa - wa) / S)
    (hshort : B ≤ 0 → base = n ∧ n ≤ -B ∧ per = L * p * (wl - fa) / S)
    (hq : qe = -base * (L * p) * fa / S) :
    u0 + per * n - pnl - 1 ≤ plainPnl (q + qe - pnl) (B + base) L wa wl p := by
  have hS := S_pos
  unfold plainPnl at *
  have m0 := mulFloor_bounds (-base * (L * p) * fa)
  rw [← hq] at m0
  have hfin : ∀ X, (per * n - 2) * S < X * S → per * n - 2 < X := fun X h => Int.lt_of_mul_lt_mul_right h hS.le
  have ex : (per * n - 2) * S = per * S * n - 2 * S := by ring
  by_cases hB : 0 < B
  · obtain ⟨hb, hnB, hp⟩ := hlong hB
    have m1 := mulFloor_bounds (L * p * (fa - wa))
    rw [← hp] at m1
    have s1 : 0 ≤ B * L := Int.mul_nonneg hB.le hL.le
    have s2 : 0 ≤ (B + base) * L := Int.mul_nonneg (by omega) hL.le
    rw [if_pos s1] at hu
    rw [if_pos s2]
    have m2 := mulFloor_bounds (B * L * wa * p)
    have m3 := mulFloor_bounds ((B + base) * L * wa * p)
    have m4 : per * S * n ≤ L * p * (fa - wa) * n := Int.mul_le_mul_of_nonneg_right (by omega) hn
    have e2 : L * p * (fa - wa) * n = -base * (L * p) * fa + (B + base) * L * wa * p - B * L * wa * p := by rw [hb]; ring
    have := hfin (qe + (B + base) * L * wa * p / S - B * L * wa * p / S) (by
      have : (qe + (B + base) * L * wa * p / S - B * L * wa * p / S) * S = qe * S + (B + base) * L * wa * p / S * S - B * L * wa * p / S * S := by ring
      omega)
    omega
  · obtain ⟨hb, hnB, hp⟩ := hshort (by omega)
    have m1 := mulFloor_bounds (L * p * (wl - fa))
    rw [← hp] at m1
    have g : ∀ x : Int, x ≤ 0 → (if 0 ≤ x * L then x * L * wa * p / S else x * L * wl * p / S) = x * L * wl * p / S := by
      intro x hx
      by_cases h0 : x = 0
      · rw [h0]; simp
      · rw [if_neg (by have := Int.mul_neg_of_neg_of_pos (show x < 0 by omega) hL; omega)]
    rw [g B (by omega)] at hu
    rw [g (B + base) (by omega)]
    have m2 := mulFloor_bounds (B * L * wl * p)
    have m3 := mulFloor_bounds ((B + base) * L * wl * p)
    have m4 : per * S * n ≤ L * p * (wl - fa) * n := Int.mul_le_mul_of_nonneg_right (by omega) hn
    have e2 : L * p * (wl - fa) * n = -base * (L * p) * fa + (B + base) * L * wl * p - B * L * wl * p := by rw [hb]; ring
    have := hfin (qe + (B + base) * L * wl * p / S - B * L * wl * p / S) (by
      have : (qe + (B + base) * L * wl * p / S - B * L * wl * p / S) * S = qe * S + (B + base) * L * wl * p / S * S - B * L * wl * p / S * S := by ring
      omega)
    omega

theorem find_idx {l : List PerpInfo} {mi k : Nat} {pi : PerpInfo} (h1 : l.find? (fun i => i.perpMarketIndex == mi) = some pi) (h2 : l.findIdx? (fun i => i.perpMarketIndex == mi) = some k) :
    l[k]? = some pi := by
  induction l generalizing k with
  | nil => simp at h1
  | cons y l ih =>
    rw [List.find?_cons] at h1
    rw [List.findIdx?_cons] at h2
    cases hc : (y.perpMarketIndex == mi) with
    | true =>
      rw [hc] at h1 h2
      simp at h1 h2
      rw [← h2, h1]; rfl
    | false =>
      rw [hc] at h1 h2
      simp only [Bool.false_eq_true, if_false, Option.map_eq_some_iff] at h1 h2
      obtain ⟨j, hj, rfl⟩ := h2
      rw [List.getElem?_cons_succ]
      exact ih h1 hj

/-- what the instruction did to the liqee's health: the plan it followed, and the settle token balance and health pnl (`u0` before, `u2` after) it arrived at -/
theorem perp_after {env : PerpLiqEnv} (hfd0 : ∀ p x, env.fd 0 p = .ok x → x = 0) {s s' : PerpLiq} {M P : Int} {r : PerpReport} (hP : 0 ≤ P)
    (h : perpLiqBaseOrPositivePnl env s M P = .ok (s', some r))
    {pi : PerpInfo} (hpi : s.cache.perps.find? (fun i => i.perpMarketIndex == s.market.idx) = some pi) (hr : PerpReflects s pi)
    {t : TokenInfo} (ht : t ∈ s.cache.tokens) (hti : t.tokenIndex = s.market.settleTokenIndex)
    {u : Int} (hu : u = gainPerLot s.market s.fees pi.basePrices.oracle s.liqee.base)
    {H H' : Int} (hH : s.cache.health env.fd .liqEnd = .ok H) (hH' : s'.cache.health env.fd .liqEnd = .ok H') :
    0 < u ∧ 0 ≤ awp t ∧ awp t ≤ lwp t ∧ ∃ (tok u0 u2 : Int) (plan : Plan),
      Steps t s.liqee.base (max M (I64MIN + 1)) u (S - s.fees.positivePnl) s.market.initOverallAssetWeight (P * S) ⟨0, 0, u0, tok, H⟩ plan ∧
      Within s.liqee.base (max M (I64MIN + 1)) (P * S) u0 u plan ∧ |r.base| = plan.base ∧ r.pnl = plan.pnl ∧
      r.token * S ≤ plan.pnl * (S - s.fees.positivePnl) ∧ plan.pnl * (S - s.fees.positivePnl) < r.token * S + S ∧
      u2 ≤ plan.uhupnl + (plan.base + 1) ∧ plan.uhupnl - 1 ≤ u2 ∧
      H' = hAt t H tok (tok + r.token + (counted s.market.initOverallAssetWeight u2 / S - counted s.market.initOverallAssetWeight u0 / S)) := by
  have hS := S_pos
  obtain ⟨_, hph, le0, hle0, _, hcond, _⟩ := C63_conditions h
  obtain ⟨_, ht1, ht2, _⟩ := hcond (by simp)
  obtain ⟨le, fe, fr, u0, tok, limit, lo, pi', t', i, bs, plan, s0, s1, s2, w, x, hle, g1, g2, k5, k7, k1, k2, k3, k4, hs0, k6, k8, k9, k10, kw, k11, k12, td, tk, k15, k16⟩ := perpLiq_some hP h
  rw [hpi, Option.some.injEq] at k5
  subst k5
  rw [hH, ok_inj] at hle
  subst hle
  obtain ⟨hd, hmk, hinf, hlots, hwts, ⟨how0, how1⟩, hfee⟩ := hr
  have ti : t'.tokenIndex = s.market.settleTokenIndex := by
    unfold Cache.tokenIdx at k2
    rw [List.findIdx?_eq_some_iff_getElem] at k2
    obtain ⟨hk, h1, _⟩ := k2
    rw [List.getElem?_eq_getElem hk, Option.some.injEq] at k3
    subst k3
    simpa using h1
  have htt : t' = t := by
    have hm : t' ∈ s.cache.tokens := List.mem_of_getElem? k3
    exact List.inj_on_of_nodup_map hd hm ht (by rw [ti, hti])
  subst htt
  obtain ⟨wt1, wt2, wt3⟩ := hwts _ ht
  have hA : 0 ≤ awp t' := by unfold awp; exact floor_nonneg (Int.mul_nonneg wt1 wt3)
  have hAL : awp t' ≤ lwp t' := by unfold awp lwp; exact floor_mono (Int.mul_le_mul_of_nonneg_right wt2 wt3)
  rw [← hu] at k8 k10 kw
  have hbal := (Formula.balances_of hd k1).2 i _ k3
  rw [k4, Option.some.injEq] at hbal
  -- the position before
  have pf := perpInfoOf_ok (x := (s.market, s.liqee, pi.basePrices.oracle)) hinf
  obtain ⟨ps, ⟨_, pw1, _, pw2, _, pw3⟩, _, pst, plz, pl, pb, pa, pq, pm, po, _⟩ := pf
  dsimp only at ps pw1 pw2 pw3 pst plz pl pb pa pq pm po
  have hmem : pi ∈ s.cache.perps := List.mem_of_find?_eq_some hpi
  have hno : s.liqee.asks = 0 ∧ s.liqee.bids = 0 := by
    have := hph.perpOrders pi hmem
    rw [po] at this
    simpa using this
  rw [hno.2] at pb
  rw [hno.1] at pa
  have hu0 := uhupnl_plain pb pa k7
  have hpv := perpValue_plain pb pa
  rw [← hu0] at hpv
  have hfund : pi.quote = s.liqee.quote - fe := by
    rw [pq, ht2, Perp.unsettledFunding_ok g1]
    by_cases c1 : s.liqee.base > 0
    · rw [if_pos c1, if_pos c1]; simp
    · rw [if_neg c1, if_neg c1]
      by_cases c2 : s.liqee.base < 0
      · rw [if_pos c2]; simp
      · have : s.liqee.base = 0 := by omega
        rw [if_neg c2, this]; simp
  -- the position after
  unfold Cache.recomputePerp at k15
  have hidx : s2.market.idx = s.market.idx := by rw [tk.rest.1, td.market, hs0]
  have hc2p : s2.cache.perps = s.cache.perps ∧ s2.cache.serums = s.cache.serums ∧
      ∃ t'', s2.cache.tokens = s.cache.tokens.set i t'' ∧ ∃ a b, t'' = { t' with initScaledAssetWeight := a, initScaledLiabWeight := b, balanceSpot := t'.balanceSpot + r.token } := by
    have hc1 : s1.cache = s.cache := by rw [td.rest.2.2.2.2.2.2.2, hs0]
    by_cases hp : 0 < r.pnl
    · obtain ⟨_, _, _, ww, _, _, _, had⟩ := tk.bank hp
      rw [hc1, show s1.market.settleTokenIndex = s.market.settleTokenIndex by rw [td.market, hs0]] at had
      obtain ⟨j, tt, tt', f1, f2, f3, f4, f5, f6⟩ := adjust_ok had
      rw [k2, Option.some.injEq] at f1
      subst f1
      rw [k3, Option.some.injEq] at f2
      subst f2
      exact ⟨f4, f5, tt', f3, ww.1, ww.2, f6⟩
    · obtain ⟨a, b, _⟩ := tk.none (by omega)
      rw [a, hc1, b]
      refine ⟨rfl, rfl, t', ?_, t'.initScaledAssetWeight, t'.initScaledLiabWeight, by simp⟩
      apply List.ext_getElem?
      intro z
      rw [List.getElem?_set]
      split
      · rename_i he
        subst he
        rw [k3, if_pos (by rw [List.getElem?_eq_some_iff] at k3; exact k3.1)]
      · rfl
  obtain ⟨cp, cs, t'', ct, htd⟩ := hc2p
  rw [hidx, cp] at k15
  cases hk : s.cache.perps.findIdx? (fun i => i.perpMarketIndex == s.market.idx) with
  | none => rw [hk] at k15; simp at k15
  | some k =>
  rw [hk] at k15
  dsimp only at k15
  simp only [bind_ok] at k15
  obtain ⟨old, ho, pi2, hpi2, hc'⟩ := k15
  have hkk := find_idx hpi hk
  have ho := Health.at_ok.mp ho
  rw [hkk, Option.some.injEq] at ho
  subst ho
  rw [ok_inj] at hc'
  obtain ⟨qs, ⟨_, qw1, _, qw2, _, qw3⟩, qo, _, qlz, ql, qb, qa, qq, _, _, _⟩ := perpInfoOf_ok (x := (s2.market, s2.liqee, pi.basePrices.oracle)) hpi2
  dsimp only at qs qw1 qw2 qw3 qo qlz ql qb qa qq
  have hm2 : s2.market.settleTokenIndex = s.market.settleTokenIndex ∧ s2.market.initBaseAssetWeight = s.market.initBaseAssetWeight ∧ s2.market.initBaseLiabWeight = s.market.initBaseLiabWeight ∧
      s2.market.initOverallAssetWeight = s.market.initOverallAssetWeight ∧ s2.market.baseLotSize = s.market.baseLotSize ∧ s2.market.longFunding = s.market.longFunding ∧ s2.market.shortFunding = s.market.shortFunding := by
    rw [tk.rest.1, td.market, hs0]; simp
  obtain ⟨n1, n2, n3, n4, n5, n6, n7⟩ := hm2
  obtain ⟨rr, ee⟩ := td.liqee
  have qz : r.base = 0 → r.quoteLiqee = 0 := by
    intro hz
    have a := td.qe_eq
    rw [hz] at a
    simpa using a
  have qe' : (if r.base = 0 then 0 else r.quoteLiqee) = r.quoteLiqee := by
    split
    · rw [qz (by assumption)]
    · rfl
  rw [qe'] at ee
  have hl2 : s2.liqee.base = s.liqee.base + r.base ∧ s2.liqee.quote = s.liqee.quote - fe + r.quoteLiqee - r.pnl ∧ s2.liqee.takerBase = 0 ∧ s2.liqee.takerQuote = 0 ∧ s2.liqee.bids = 0 ∧ s2.liqee.asks = 0 ∧
      s2.liqee.longSettled = s.market.longFunding ∧ s2.liqee.shortSettled = s.market.shortFunding := by
    by_cases hp : 0 < r.pnl
    · rw [(tk.liqee hp).pos, ee, hs0]
      exact ⟨rfl, rfl, ht1, ht2, hno.2, hno.1, rfl, rfl⟩
    · obtain ⟨a, _⟩ := tk.none (by omega)
      have := kw.pnl0
      rw [a, ee, hs0]
      exact ⟨rfl, by dsimp only; omega, ht1, ht2, hno.2, hno.1, rfl, rfl⟩
  obtain ⟨b1, b2, b3, b4, b5, b6, b7, b8⟩ := hl2
  have hq2 : pi2.quote = s.liqee.quote - fe + r.quoteLiqee - r.pnl := by
    rw [qq, b2, b4, b7, b8, n6, n7]
    simp
  have hv2 := perpValue_plain (p := { pi2 with basePrices := pi.basePrices }) (by dsimp only; rw [qb, b5]) (by dsimp only; rw [qa, b6])
  generalize hV2 : Formula.perpValue { pi2 with basePrices := pi.basePrices } .liqEnd = V2 at hv2
  dsimp only at hv2
  rw [qw3, n4, hq2, ql, b1, b3, qlz, n5, qw1, n2, qw2, n3, Int.add_zero] at hv2
  rw [pw3] at hpv
  rw [hfund, pl, ht1, Int.add_zero, plz, pw1, pw2] at hu0
  -- how much the pnl changed
  have hnn : |r.base| = plan.base := by
    have := kw.base0
    rw [k11]
    split
    · rw [show -1 * plan.base = -plan.base by ring, abs_neg, abs_of_nonneg this]
    · rw [show 1 * plan.base = plan.base by ring, abs_of_nonneg this]
  have hb1 := kw.base1
  have hpl := plainPnl_trade (pnl := r.pnl) (fa := factorAll s.fees s.liqee.base) (per := u) (qe := r.quoteLiqee) (base := r.base) (n := plan.base) hlots kw.base0 hu0
    (by
      intro hB
      rw [if_pos hB] at k11
      rw [abs_of_pos hB] at hb1
      refine ⟨by omega, hb1, ?_⟩
      rw [hu]; unfold gainPerLot; rw [if_pos hB])
    (by
      intro hB
      rw [if_neg (by omega)] at k11
      rw [abs_of_nonpos hB] at hb1
      refine ⟨by omega, hb1, ?_⟩
      rw [hu]; unfold gainPerLot; rw [if_neg (by omega)])
    td.qe_eq
  have hpl' := plainPnl_trade_ge (pnl := r.pnl) (fa := factorAll s.fees s.liqee.base) (per := u) (qe := r.quoteLiqee) (base := r.base) (n := plan.base) hlots kw.base0 hu0
    (by
      intro hB
      rw [if_pos hB] at k11
      rw [abs_of_pos hB] at hb1
      refine ⟨by omega, hb1, ?_⟩
      rw [hu]; unfold gainPerLot; rw [if_pos hB])
    (by
      intro hB
      rw [if_neg (by omega)] at k11
      rw [abs_of_nonpos hB] at hb1
      refine ⟨by omega, hb1, ?_⟩
      rw [hu]; unfold gainPerLot; rw [if_neg (by omega)])
    td.qe_eq
  have huh := kw.uh
  generalize hP2 : plainPnl (s.liqee.quote - fe + r.quoteLiqee - r.pnl) (s.liqee.base + r.base) s.market.baseLotSize s.market.initBaseAssetWeight s.market.initBaseLiabWeight pi.basePrices.oracle = u2 at *
  have hle2 : u2 ≤ plan.uhupnl + (plan.base + 1) := by omega
  have hge2 : plan.uhupnl - 1 ≤ u2 := by omega
  -- the tokens paid
  have htok : r.token * S ≤ plan.pnl * (S - s.fees.positivePnl) ∧ plan.pnl * (S - s.fees.positivePnl) < r.token * S + S := by
    by_cases hp : 0 < r.pnl
    · rw [tk.paid hp, k12]
      have := mulFloor_bounds (plan.pnl * (S - s.fees.positivePnl))
      omega
    · obtain ⟨_, a, _⟩ := tk.none (by omega)
      have := kw.pnl0
      rw [a, show plan.pnl = 0 by omega]
      simp [hS]
  -- health
  have hfin := health_perp hfd0 hd (fun x hx => hmk x hx (hph.serums x hx)) (t' := t'') (pi' := { pi2 with basePrices := pi.basePrices }) (d := r.token) (c' := s'.cache) k3 hkk (by rw [ps, ti]) (by dsimp only; rw [qs, n1, ps]) htd
    (by rw [← hc', ct]) (by rw [← hc']) (by rw [← hc', cs]) hH hH'
  rw [← hbal] at hfin
  rw [hV2, hv2, hpv] at hfin
  exact ⟨k8, hA, hAL, tok, u0, u2, plan, k10, kw, hnn, k12, htok.1, htok.2, hle2, hge2, hfin⟩

/-- **C63, not more than needed** A liquidation that starts with liquidation-end health not above zero ends with health at most the value of what one more lot gains (at the settle token's liability
weight), apart from rounding: `2 lots + gain / 2^48 + 7` smallest units of settle token and 2 of health. So apart from the granularity of a lot the liqor cannot take more from the liqee than what brings
health back to zero, whatever limits it passes.

It needs the pnl liquidation fee not to be so high that settling does not pay (`init_overall_asset_weight ≤ 1 - positive_pnl_liquidation_fee`), or that no pnl is to be taken over: see
`C63_overliquidation` for what happens else. And one lot gains less than 2^46 health units (70 million USD). -/
theorem C63_not_more_than_needed {env : PerpLiqEnv} (hfd0 : ∀ p x, env.fd 0 p = .ok x → x = 0) {s s' : PerpLiq} {M P : Int} {r : PerpReport} (hP : 0 ≤ P)
    (h : perpLiqBaseOrPositivePnl env s M P = .ok (s', some r))
    {pi : PerpInfo} (hpi : s.cache.perps.find? (fun i => i.perpMarketIndex == s.market.idx) = some pi) (hr : PerpReflects s pi)
    {t : TokenInfo} (ht : t ∈ s.cache.tokens) (hti : t.tokenIndex = s.market.settleTokenIndex)
    (hcfg : s.market.initOverallAssetWeight ≤ S - s.fees.positivePnl ∨ P = 0)
    {u L : Int} (hu : u = gainPerLot s.market s.fees pi.basePrices.oracle s.liqee.base) (hL : L = t.initLiabWeight * t.prices.oracle / S)
    (hsize : (u + 4 * S) * L ≤ S * S * (S / 4))
    {H H' : Int} (hH : s.cache.health env.fd .liqEnd = .ok H) (hH0 : H ≤ 0) (hH' : s'.cache.health env.fd .liqEnd = .ok H') :
    H' * S ≤ (u + (2 * |r.base| + u / S + 7)) * L + 2 * S := by
  have hS := S_pos
  have how0 := hr.overall.1
  have how1 := hr.overall.2
  have hfee := hr.fee
  obtain ⟨k8, hA, hAL, tok, u0, u2, plan, k10, kw, hnn, k12, htok, _, hle2, _, hfin⟩ := perp_after hfd0 hP h hpi hr ht hti hu hH hH'
  have hLe : L = lwp t := hL
  rw [hLe] at hsize ⊢
  -- the plan
  obtain ⟨ov, cov⟩ := Steps.over hA hAL k8 (by omega) how0 how1 (by omega) (by
    rcases hcfg with hc | hc
    · exact Or.inl hc
    · right; rw [hc, Int.zero_mul]) hsize k10
  have hcmono : counted s.market.initOverallAssetWeight u2 ≤ counted s.market.initOverallAssetWeight plan.uhupnl + S * (plan.base + 1) := by
    have c1 := counted_le (w := s.market.initOverallAssetWeight) (x := plan.uhupnl) (d := plan.base + 1) how1 (by have := kw.base0; omega) how0
    have c2 : counted s.market.initOverallAssetWeight u2 ≤ counted s.market.initOverallAssetWeight (plan.uhupnl + (plan.base + 1)) := by
      generalize plan.uhupnl + (plan.base + 1) = z at *
      unfold counted
      split <;> split
      · exact Int.mul_le_mul_of_nonneg_left hle2 how0
      · omega
      · have a1 : S * u2 ≤ 0 := Int.mul_nonpos_of_nonneg_of_nonpos hS.le (by omega)
        have a2 : 0 ≤ s.market.initOverallAssetWeight * z := Int.mul_nonneg how0 (by omega)
        omega
      · exact Int.mul_le_mul_of_nonneg_left hle2 hS.le
    omega
  generalize hD : counted s.market.initOverallAssetWeight u2 / S - counted s.market.initOverallAssetWeight u0 / S = D at hfin
  have m1 := mulFloor_bounds (counted s.market.initOverallAssetWeight u2)
  have m2 := mulFloor_bounds (counted s.market.initOverallAssetWeight u0)
  unfold Covers at cov
  have m3 := mulFloor_bounds u
  have hbound : tok + r.token + D ≤ plan.settleToken - u + (u + (2 * plan.base + u / S + 7)) := by
    have : (tok + r.token + D) * S < (plan.settleToken - u + (u + (2 * plan.base + u / S + 7)) + 1) * S := by
      have a1 : (tok + r.token + D) * S = tok * S + r.token * S + (counted s.market.initOverallAssetWeight u2 / S * S - counted s.market.initOverallAssetWeight u0 / S * S) := by rw [← hD]; ring
      have a2 : (plan.settleToken - u + (u + (2 * plan.base + u / S + 7)) + 1) * S = plan.settleToken * S + 2 * (S * plan.base) + u / S * S + 8 * S := by ring
      have a3 : S * (plan.base + 1) = S * plan.base + S := by ring
      have a4 : S * (plan.base + 4) = S * plan.base + 4 * S := by ring
      rw [a1, a2]
      rw [a3] at hcmono
      rw [a4] at cov
      omega
    have := Int.lt_of_mul_lt_mul_right this hS.le
    omega
  have hE : 0 ≤ u + (2 * plan.base + u / S + 7) := by
    have := kw.base0
    have : 0 ≤ u / S := floor_nonneg k8.le
    omega
  have mono := hAt_mono (H0 := H) (b0 := tok) hA hAL hbound
  have lip := tv_lip (b := plan.settleToken - u) hA hAL hE
  have hneg := ov.neg
  have hlip2 : hAt t H tok (plan.settleToken - u + (u + (2 * plan.base + u / S + 7))) * S ≤ hAt t H tok (plan.settleToken - u) * S + (u + (2 * plan.base + u / S + 7)) * lwp t + S := by
    unfold hAt
    have a1 : ∀ y, (H - tv (awp t) (lwp t) tok + y) * S = (H - tv (awp t) (lwp t) tok) * S + y * S := fun y => by ring
    rw [a1, a1]
    omega
  rw [hnn, hfin]
  have c1 := Int.mul_le_mul_of_nonneg_right mono hS.le
  have c2 := Int.mul_le_mul_of_nonneg_right hneg hS.le
  omega

end Liquidation
end Mango
