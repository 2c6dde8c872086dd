import Verif.Props.StablePrice
import Verif.Props.Oracle
import Verif.Props.HealthCheck
import Verif.Props.Buyback
import Verif.Props.Settle
/-! # C30, C34, C35, C36, C43, C44: exact results

Companions of the safety theorems of these properties: the settle fee is the configured one, a buyback exchanges as much
as it can, the liquidation and health checks accept everything they should, the stable price moves as far as it may, and
a good price is used. -/
namespace Mango

/-! ## C30 -/
namespace Perp
open Book Fx

/-- The part of the settled amount paid for settling an account of low health: nothing at non-negative liquidation-end
health, the configured fraction at negative maintenance health, and in between the fraction times the share
`-liqEnd / (maint - liqEnd)`, rounded down. -/
def LowHealthFee (low settlement fraction liqEnd maint : Int) : Prop :=
  (0 ≤ liqEnd → low = 0) ∧
  (liqEnd < 0 → maint < 0 → low = settlement * fraction / S) ∧
  (liqEnd < 0 → 0 ≤ maint → ∃ share, share * (maint - liqEnd) ≤ -liqEnd * S ∧
    -liqEnd * S < share * (maint - liqEnd) + (maint - liqEnd) ∧ low = settlement * fraction / S * share / S)

/-- C30: the fee is exactly: nothing if the profit is at most one percent of the position; else, limited by the settled
amount, the flat fee for settlements of at least the threshold, and for smaller ones the low-health fee up to twice the
flat fee. -/
theorem C30_exact {m : Market} {settlement pnlValue posValue liqEnd maint fee : I80F48}
    (h : m.computeSettleFee settlement pnlValue posValue liqEnd maint = .ok fee) :
    (100 * pnlValue ≤ posValue → fee = 0) ∧
    (posValue < 100 * pnlValue → m.settleFeeAmountThreshold ≤ settlement → fee = min m.settleFeeFlat settlement) ∧
    (posValue < 100 * pnlValue → settlement < m.settleFeeAmountThreshold →
      ∃ low, LowHealthFee low settlement m.settleFeeFractionLowHealth liqEnd maint ∧
        fee = min (min low (2 * m.settleFeeFlat)) settlement) := by
  unfold Market.computeSettleFee at h
  simp only [bind_ok, mul_ok] at h
  obtain ⟨hh, ⟨rfl, _⟩, h⟩ := h
  have e100 : Fx.ofInt 100 * pnlValue / S = 100 * pnlValue := by
    unfold Fx.ofInt; rw [show (100 * S) * pnlValue = (100 * pnlValue) * S by ring]; exact Int.mul_ediv_cancel _ (by have := S_pos; omega)
  rw [e100] at h
  by_cases hgt : 100 * pnlValue > posValue
  · rw [if_pos hgt] at h
    simp only [bind_ok, require_ok, ok_inj] at h
    obtain ⟨_, hml, low, hlow, fee0, hfee, _, hge, rfl⟩ := h
    refine ⟨fun h => by omega, fun _ ht => ?_, fun _ ht => ⟨low, ⟨fun h0 => ?_, fun h0 h1 => ?_, fun h0 h1 => ?_⟩, ?_⟩⟩
    · rw [if_pos ht, ok_inj] at hfee
      rw [hfee]
    · rw [if_neg (by omega), ok_inj] at hlow
      exact hlow.symm
    · rw [if_pos h0, if_pos h1, mul_ok] at hlow
      exact hlow.1
    · rw [if_pos h0, if_neg (by omega)] at hlow
      simp only [bind_ok, mul_ok, neg_ok, sub_ok, div_ok] at hlow
      obtain ⟨a, ⟨rfl, _⟩, n, ⟨rfl, _⟩, d, ⟨rfl, _⟩, q, ⟨_, rfl, _⟩, rfl, _⟩ := hlow
      have t := tdiv_bounds (a := -liqEnd * S) (b := maint - liqEnd) (Int.mul_nonneg (by omega) S_pos.le) (by omega)
      exact ⟨_, t.1, t.2.1, rfl⟩
    · rw [if_neg (by omega)] at hfee
      simp only [bind_ok, mul_ok, ok_inj] at hfee
      obtain ⟨two, ⟨rfl, _⟩, rfl⟩ := hfee
      have e2 : m.settleFeeFlat * Fx.ofInt 2 / S = 2 * m.settleFeeFlat := by rw [mul_comm, mul_ofInt]
      rw [e2]
  · rw [if_neg hgt, ok_inj] at h
    subst h
    exact ⟨fun _ => rfl, fun h => by omega, fun h => by omega⟩

/-- A settlement of 50 for a profit of 60 on a position of 1000, below the threshold: an account half way between the two
healths pays half of a fraction of 1/10, that is 5/2, which is below twice the flat fee of 2. -/
example : (({ settleFeeFlat := 2 * S, settleFeeAmountThreshold := 100 * S, settleFeeFractionLowHealth := S / 8 } : Market).computeSettleFee
      (64 * S) (70 * S) (1000 * S) (-5 * S) (5 * S)) = .ok (4 * S) ∧
    (({ settleFeeFlat := 2 * S, settleFeeAmountThreshold := 10 * S, settleFeeFractionLowHealth := S / 8 } : Market).computeSettleFee
      (64 * S) (70 * S) (1000 * S) (-5 * S) (5 * S)) = .ok (2 * S) := by
  constructor <;> decide +kernel

end Perp

/-! ## C34 -/
namespace Buyback
open Fx

/-- C34: a buyback exchanges as much as it may: unless the account gives all its MNGO, the value exchanged is the
smallest of the requested amount, the accrued fees and the value of the DAO's fee tokens, up to the value of one bit of
MNGO and one bit of rounding.  It does nothing only if one of these, or the account's MNGO, is zero. -/
theorem C34_as_much_as_possible {b b' : BB} {maxUsd : Int} {daoFees feesPrice accountMngo mngoPrice bonus : I80F48} {x : Exchange}
    (hc : 0 ≤ b.current) (hp : 0 ≤ b.previous) (hsum : b.current + b.previous ≤ U64MAX)
    (hPp : 0 < mngoPrice * bonus / S) :
    (buyback b maxUsd daoFees feesPrice accountMngo mngoPrice bonus = .ok (some (x, b')) →
      x.mngo = accountMngo ∨
      min (Fx.ofInt (min maxUsd (b.current + b.previous))) (daoFees * feesPrice / S) * S <
        (x.usd + 1) * S + mngoPrice * bonus / S) ∧
    (buyback b maxUsd daoFees feesPrice accountMngo mngoPrice bonus = .ok none →
      accountMngo ≤ 0 ∨ min maxUsd (b.current + b.previous) ≤ 0 ∨ daoFees * feesPrice / S ≤ 0) := by
  have hS := S_pos
  have hacc : accrued b = b.current + b.previous := by unfold accrued; omega
  constructor
  · intro h
    simp only [buyback, bind_ok, mul_ok, ite_ok, div_ok, require_ok, ceil_ok] at h
    obtain ⟨dao, ⟨rfl, _⟩, ⟨_, h⟩ | ⟨c1, ⟨_, h⟩ | ⟨c2, h⟩⟩⟩ := h
    · simp at h
    · simp at h
    obtain ⟨price, ⟨hpr, _⟩, m, ⟨hp0, hm, _⟩, y, ⟨hy, _⟩, fees, ⟨_, hf, _⟩, _, hr, c, ⟨hcc, _⟩, b1, hb1, h⟩ := h
    simp only [Except.ok.injEq, Option.some.injEq, Prod.mk.injEq] at h
    obtain ⟨rfl, rfl⟩ := h
    dsimp only
    subst hpr
    rw [hacc] at *
    generalize mngoPrice * bonus / S = P at *
    generalize min (ofInt (min maxUsd (b.current + b.previous))) (daoFees * feesPrice / S) = u at *
    have tb := tdiv_bounds (a := u * S) (b := P) (Int.mul_nonneg (by omega) (by omega)) hPp
    rw [← hm] at tb
    by_cases hmin : accountMngo ≤ m
    · left; omega
    · right
      rw [show min m accountMngo = m by omega] at hy
      have yb := mulFloor_bounds (m * P)
      rw [← hy] at yb
      have hyu : y ≤ u := Int.le_of_mul_le_mul_right (a := S) (by omega) hS
      rw [show min u y = y by omega]
      have e : (y + 1) * S = y * S + S := by ring
      omega
  · intro h
    simp only [buyback, bind_ok, mul_ok, ite_ok, div_ok, require_ok, ceil_ok] at h
    obtain ⟨dao, ⟨rfl, _⟩, ⟨c1, h⟩ | ⟨c1, ⟨c2, h⟩ | ⟨c2, h⟩⟩⟩ := h
    · rw [hacc] at c1
      right
      by_cases h1 : min maxUsd (b.current + b.previous) ≤ 0
      · exact Or.inl h1
      · right
        have : 0 < ofInt (min maxUsd (b.current + b.previous)) := by unfold ofInt; exact Int.mul_pos (by omega) hS
        omega
    · exact Or.inl c2
    · obtain ⟨price, ⟨hpr, _⟩, m, ⟨hp0, hm, _⟩, y, ⟨hy, _⟩, fees, ⟨_, hf, _⟩, _, hr, c, ⟨hcc, _⟩, b1, hb1, h⟩ := h
      simp at h

example : ∃ x b', buyback { current := 50, previous := 20 } 60 (1000 * S) S (100 * S) (S / 2) (S * 5 / 4) = .ok (some (x, b')) ∧
    x.usd = 60 * S ∧ b'.current = 10 := ⟨_, _, rfl, by decide +kernel, by decide +kernel⟩

end Buyback

/-! ## C35, C36 -/
namespace Account
open Fx Health

/-- C35: the liquidation check, in both directions: an account can be liquidated exactly if it is not being liquidated and
its maintenance health is negative, or it is and its liquidation-end health has not come back above -1; an account being
liquidated whose liquidation-end health has come back stops being so, and a healthy one stays untouched. -/
theorem C35_check_exact (a : Liq) (maint liqEnd : I80F48) :
    a.checkLiquidatable (.ok maint) (.ok liqEnd) =
      .ok (if a.being = true then (if liqEnd ≤ -ONE then (⟨true⟩, .liquidatable) else (⟨false⟩, .becameNotLiquidatable))
        else (if maint < 0 then (⟨true⟩, .liquidatable) else (⟨false⟩, .notLiquidatable))) := by
  obtain ⟨b⟩ := a
  cases b
  · by_cases h : maint < 0
    · have h' : ¬ maint ≥ 0 := by omega
      simp [Liq.checkLiquidatable, bind, Except.bind, h, h']
    · have h' : maint ≥ 0 := by omega
      simp [Liq.checkLiquidatable, bind, Except.bind, h, h']
  · by_cases h : liqEnd ≤ -ONE
    · have h' : ¬ liqEnd > -ONE := by omega
      simp [Liq.checkLiquidatable, Liq.maybeRecover, bind, Except.bind, h, h']
    · have h' : liqEnd > -ONE := by omega
      simp [Liq.checkLiquidatable, Liq.maybeRecover, bind, Except.bind, h, h']

/-- C35: what owners may do: an account passes the check before an action exactly if it is not being liquidated, or its
initial or its liquidation-end health is above -1; it is then no longer being liquidated. -/
theorem C35_may_act (a : Liq) (pre liqEnd : I80F48) :
    a.checkPre pre (.ok liqEnd) =
      if a.being = true ∧ pre ≤ -ONE ∧ liqEnd ≤ -ONE then .error .beingLiquidated else .ok ⟨false⟩ := by
  obtain ⟨b⟩ := a
  cases b
  · simp [Liq.checkPre, Liq.maybeRecover, bind, Except.bind, require]
  · by_cases h : pre ≤ -ONE
    · have h' : ¬ pre > -ONE := by omega
      by_cases g : liqEnd ≤ -ONE
      · have g' : ¬ liqEnd > -ONE := by omega
        simp [Liq.checkPre, Liq.maybeRecover, bind, Except.bind, require, h, h', g, g']
      · have g' : liqEnd > -ONE := by omega
        simp [Liq.checkPre, Liq.maybeRecover, bind, Except.bind, require, h, h', g, g']
    · have h' : pre > -ONE := by omega
      simp [Liq.checkPre, Liq.maybeRecover, bind, Except.bind, require, h, h']

theorem ceil_total {a : I80F48} (h1 : I128MIN ≤ a) (h2 : a ≤ I128MAX - S) : Fx.ceil a = .ok (ceilUnit a * S) := by
  have m := mulFloor_bounds (-a)
  rw [ceil_ok]
  unfold ceilUnit
  refine ⟨rfl, ?_⟩
  unfold inRange
  have e : -(-a / S) * S = -(-a / S * S) := by ring
  have hm : I128MIN = -I128MAX - 1 := by decide
  omega

/-- C36: the check after an action, in both directions, for representable healths: it passes exactly if the initial health
is not negative afterwards, or did not fall; below -1000 a fall within the same whole unit counts as none. -/
theorem C36_exact {pre post : I80F48} (h1 : I128MIN ≤ pre) (h2 : pre ≤ I128MAX - S) (h3 : I128MIN ≤ post) :
    checkPost pre post = .ok () ↔
      0 ≤ post ∨ (ofInt (-1000) ≤ post ∧ pre ≤ post) ∨ (post < ofInt (-1000) ∧ ceilUnit pre ≤ ceilUnit post) := by
  have hS := S_pos
  have hk : ofInt (-1000) < 0 := by decide
  unfold checkPost
  by_cases hp : post < ofInt (-1000)
  · rw [if_pos hp, ceil_total h3 (by have : (0:Int) ≤ I128MAX - S := by decide
                                     omega), ceil_total h1 h2]
    simp only [bind_ok, ok_inj, require_ok, decide_eq_true_eq]
    constructor
    · rintro ⟨ok, ⟨a, rfl, b, rfl, rfl⟩, h⟩
      rcases h with h | h
      · omega
      · right; right
        refine ⟨hp, ?_⟩
        rw [decide_eq_true_eq] at h
        exact Int.le_of_mul_le_mul_right h hS
    · intro h
      refine ⟨_, ⟨_, rfl, _, rfl, rfl⟩, Or.inr ?_⟩
      rw [decide_eq_true_eq]
      have : ceilUnit pre ≤ ceilUnit post := by omega
      exact Int.mul_le_mul_of_nonneg_right this hS.le
  · rw [if_neg hp]
    simp only [bind_ok, ok_inj, require_ok]
    constructor
    · rintro ⟨ok, rfl, h⟩
      rw [decide_eq_true_eq] at h
      omega
    · intro h
      refine ⟨_, rfl, ?_⟩
      rw [decide_eq_true_eq]
      omega

example : checkPost (-5000 * S) (-4999 * S) = .ok () ∧ checkPost (3 * S) 0 = .ok () := by decide

end Account

/-! ## C43 -/
namespace Stable

/-- `x` limited to the interval from `lo` to `hi` -/
def limited (x lo hi : ℚ) : ℚ := max lo (min hi x)

theorem clampR_eq {x lo hi : ℚ} (h : lo ≤ hi) : clampR x lo hi = .ok (limited x lo hi) := by
  unfold clampR limited
  rw [if_pos h]
  congr 1
  by_cases h1 : x < lo
  · rw [if_pos h1, min_eq_right (by linarith), max_eq_left h1.le]
  · rw [if_neg h1]
    by_cases h2 : hi < x
    · rw [if_pos h2, min_eq_left h2.le, max_eq_right h]
    · rw [if_neg h2, min_eq_right (not_lt.mp h2), max_eq_right (not_lt.mp h1)]

theorem growthClamped_id {t p l : ℚ} (hp : 0 ≤ p) (hl : 0 ≤ l) :
    growthClamped id t p l = .ok (limited t (p * (1 - l)) (p * (1 + l))) := by
  unfold growthClamped
  simp only [id]
  exact clampR_eq (by nlinarith)

/-- cyclic distance forward from `a` to `b` among 24 slots -/
def ahead (a b : Nat) : Nat := (b + 24 - a) % 24

theorem overwritten_iff {full : Bool} {last idx i : Nat} (hl : last < 24) (hi : idx < 24) (hk : i < 24) (hne : idx ≠ last) :
    overwritten full last idx i = true ↔ full = true ∨ ahead last i < ahead last idx := by
  unfold overwritten ahead
  cases full
  · simp only [Bool.false_or, Bool.false_eq_true, false_or]
    by_cases h : idx > last
    · rw [if_pos h, decide_eq_true_eq]; omega
    · rw [if_neg h, decide_eq_true_eq]; omega
  · simp

/-- **C43, exactly** (in exact arithmetic, no reset pending, a positive stable price, ten seconds passed).  The stable
price moves to the oracle price, limited to a relative change of `growth limit × (ratio of stable and delayed price)² ×
elapsed time` (at most ten minutes).  The delayed prices change only when a new slot of the ring of 24 is entered: then
the average oracle price since the last change, limited to the configured relative change from the last delayed price,
goes to every slot from the one left up to the one entered (to all if a whole round has passed); and the average starts
anew. -/
theorem C43_exact {m : Model} (w : Wf id m) {now : Nat} {price : ℚ} (hp : 0 ≤ price) (hreset : m.reset = false)
    (hn : m.last + 10 ≤ now) (hn2 : now < 2 ^ 32) (hpos : 0 < m.stable) :
    ∃ m', update id m now price = .ok m' ∧
      (let el : Nat := now - m.last
       let idx := now / m.interval % 24
       let d := m'.delay.getD idx 0
       let limit := m.stableGrowth * (min m.stable d / max m.stable d) ^ 2 * (min el 600 : Nat)
       let prev := m.delay.getD (ahead 1 m.lastIdx) 0
       let avg := (m.accPrice + price * (min el 600 : Nat)) / ((m.accTime + el : Nat) : ℚ)
       m'.stable = limited price (m.stable * (1 - limit)) (m.stable * (1 + limit)) ∧
       m'.last = now ∧ m'.lastIdx = idx ∧
       (idx = m.lastIdx → m'.delay = m.delay ∧ m'.accTime = m.accTime + el ∧
          m'.accPrice = m.accPrice + price * (min el 600 : Nat)) ∧
       (idx ≠ m.lastIdx → m'.accTime = 0 ∧ m'.accPrice = 0 ∧
          ∀ i, i < 24 → m'.delay.getD i 0 =
            if 24 * m.interval < el ∨ ahead m.lastIdx i < ahead m.lastIdx idx then
              limited avg (prev * (1 - m.delayGrowth)) (prev * (1 + m.delayGrowth))
            else m.delay.getD i 0)) := by
  have hmod : (now - m.last) % 2 ^ 32 = now - m.last := Nat.mod_eq_of_lt (by omega)
  have hacc : m.accTime + (now - m.last) < 2 ^ 32 := by have := w.time; omega
  have hidx : now / m.interval % 24 < 24 := Nat.mod_lt _ (by norm_num)
  have hprev : (if m.lastIdx = 0 then 23 else m.lastIdx - 1) = ahead 1 m.lastIdx := by
    have := w.idx
    unfold ahead
    by_cases h : m.lastIdx = 0
    · rw [if_pos h, h]
    · rw [if_neg h]; omega
  have hgl : ∀ d : ℚ, 0 ≤ d → growthLimit id m.stable d m.stableGrowth (now - m.last) =
      .ok (m.stableGrowth * (min m.stable d / max m.stable d) ^ 2 * (min (now - m.last) 600 : Nat)) := by
    intro d hd
    unfold growthLimit
    by_cases h : d ≥ m.stable
    · rw [if_pos h, if_neg (by intro h0; rw [h0] at h; linarith)]
      simp only [id, bind, Except.bind]
      rw [min_eq_left h, max_eq_right h]
      congr 1
      ring
    · rw [if_neg h]
      simp only [id, bind, Except.bind]
      have hlt : d ≤ m.stable := (not_le.mp h).le
      rw [min_eq_right hlt, max_eq_left hlt]
      congr 1
      ring
  have hlim0 : ∀ d : ℚ, 0 ≤ d → 0 ≤ m.stableGrowth * (min m.stable d / max m.stable d) ^ 2 * (min (now - m.last) 600 : Nat) := by
    intro d hd
    have := w.sg.1
    positivity
  have hunf : update id m now price = (do
      let m1 ← updateDelay id m (now - m.last) now price
      let limit ← growthLimit id m1.stable (m1.delay.getD m1.lastIdx 0) m1.stableGrowth (now - m.last)
      let s ← growthClamped id price m1.stable limit
      .ok { m1 with stable := s }) := by
    unfold update
    simp only [hreset, Bool.false_eq_true, false_and, if_false]
    rw [if_neg (by omega)]
  have hr : require (m.accTime + (now - m.last) < 2 ^ 32) Err.panic = .ok () := by rw [require_ok]; exact hacc
  have hdel : ∀ i, i < 24 → 0 ≤ m.delay.getD i 0 := by
    intro i hi
    have h1 : i < m.delay.length := by rw [w.len]; exact hi
    rw [List.getD_eq_getElem _ _ h1]
    exact (w.delay _ (List.getElem_mem _)).1
  rw [hunf]
  unfold updateDelay delayIdx
  simp only [hmod, if_neg w.int, hr, bind, Except.bind, id]
  by_cases hi : now / m.interval % 24 = m.lastIdx
  · rw [if_pos hi]
    have hd := hdel _ w.idx
    simp only [hgl _ hd, growthClamped_id hpos.le (hlim0 _ hd)]
    refine ⟨_, rfl, ?_⟩
    dsimp only
    rw [hi]
    exact ⟨rfl, rfl, rfl, fun _ => ⟨rfl, rfl, rfl⟩, fun h => absurd rfl h⟩
  · rw [if_neg hi]
    have hr2 : require (m.accTime + (now - m.last) ≠ 0) Err.panic = .ok () := by rw [require_ok]; omega
    rw [hprev]
    have hpv := hdel (ahead 1 m.lastIdx) (by unfold ahead; omega)
    simp only [hr2, growthClamped_id hpv w.dg]
    generalize hy : limited ((m.accPrice + price * ((min (now - m.last) 600 : Nat) : ℚ)) / ((m.accTime + (now - m.last) : Nat) : ℚ))
        (m.delay.getD (ahead 1 m.lastIdx) 0 * (1 - m.delayGrowth)) (m.delay.getD (ahead 1 m.lastIdx) 0 * (1 + m.delayGrowth)) = y
    have hget : ∀ i, i < 24 → (m.delay.mapIdx fun i x => if overwritten (decide (now - m.last > 24 * m.interval)) m.lastIdx (now / m.interval % 24) i = true then y else x).getD i 0 =
        if 24 * m.interval < now - m.last ∨ ahead m.lastIdx i < ahead m.lastIdx (now / m.interval % 24) then y else m.delay.getD i 0 := by
      intro i hi24
      have h1 : i < m.delay.length := by rw [w.len]; exact hi24
      rw [List.getD_eq_getElem _ _ (by simpa using h1), List.getElem_mapIdx, List.getD_eq_getElem _ _ h1]
      have := overwritten_iff (full := decide (now - m.last > 24 * m.interval)) w.idx hidx hi24 hi
      rw [decide_eq_true_eq] at this
      by_cases hc : 24 * m.interval < now - m.last ∨ ahead m.lastIdx i < ahead m.lastIdx (now / m.interval % 24)
      · rw [if_pos hc, if_pos (this.mpr hc)]
      · rw [if_neg hc, if_neg (fun h => hc (this.mp h))]
    have hy0 : 0 ≤ y := by
      rw [← hy]
      unfold limited
      have h1 : 0 ≤ (m.accPrice + price * ((min (now - m.last) 600 : Nat) : ℚ)) / ((m.accTime + (now - m.last) : Nat) : ℚ) := by
        have := w.acc
        positivity
      have h2 : 0 ≤ m.delay.getD (ahead 1 m.lastIdx) 0 * (1 + m.delayGrowth) := by
        have := w.dg
        positivity
      exact le_max_of_le_right (le_min h2 h1)
    have hd : 0 ≤ (m.delay.mapIdx fun i x => if overwritten (decide (now - m.last > 24 * m.interval)) m.lastIdx (now / m.interval % 24) i = true then y else x).getD (now / m.interval % 24) 0 := by
      rw [hget _ hidx]
      split
      · exact hy0
      · exact hdel _ hidx
    simp only [hgl _ hd, growthClamped_id hpos.le (hlim0 _ hd)]
    refine ⟨_, rfl, ?_⟩
    dsimp only
    exact ⟨rfl, rfl, rfl, fun h => absurd h hi, fun _ => ⟨rfl, rfl, hget⟩⟩

/-- One second more than an hour after start at price 100, the oracle says 130: the stable price moves by 18 percent
(600 seconds at 3 basis points), the delayed price by 6 percent at most. -/
example : ((update id (init (6/100) (3/10000) 100 0) 3601 130).map (fun m => (m.stable, m.delay.getD 0 0, m.delay.getD 1 0))) =
    .ok (118, 94, 100) ∧ Wf id (init (6/100) (3/10000) 100 0) := by
  refine ⟨by decide +kernel, ?_⟩
  constructor <;> decide +kernel

end Stable

/-! ## C44 -/
namespace Oracle
open Fx

/-- the numbers of a report and of the clock convert without overflow -/
def Representable (c : Cfg) (now : Option (Int × Int)) (st : OState) : Prop :=
  inRange (c.confFilter * st.price / S) ∧ c.maxStaleness * 450 ≤ U64MAX ∧
  ∀ ts slot, now = some (ts, slot) → slot ≤ U64MAX ∧ 0 ≤ ts * 1000 ∧ ts * 1000 ≤ U64MAX ∧
    ∀ t, st.time = some t → 0 ≤ t * 1000 ∧ t * 1000 ≤ U64MAX

theorem check_complete {st : OState} {c : Cfg} {now : Option (Int × Int)} (hr : Representable c now st)
    (hf : Fresh c now st) (hc : Confident c st) : check st c now = .ok () := by
  obtain ⟨hr1, hr2, hr3⟩ := hr
  have hconf : checkConfidence st c = .ok () := checkConfidence_sound.1.mpr ⟨hc, hr1⟩
  unfold check
  cases now with
  | none => simp only [bind, Except.bind]; exact hconf
  | some p =>
    obtain ⟨ts, slot⟩ := p
    have hst : checkStaleness st c ts slot = .ok () := by
      unfold checkStaleness
      by_cases h1 : c.maxStaleness < 0
      · rw [if_pos h1]
      rw [if_neg h1]
      obtain ⟨f1, f2⟩ := hf ts slot rfl (by omega)
      obtain ⟨g1, g2, g3, g4⟩ := hr3 ts slot rfl
      rw [if_neg (by omega)]
      cases ht : st.time with
      | none => rfl
      | some t =>
        have := f2 t ht
        obtain ⟨k1, k2⟩ := g4 t ht
        simp only [bind_ok, cku64_ok, ite_ok]
        exact ⟨_, ⟨rfl, by omega, by omega⟩, _, ⟨rfl, by omega, by omega⟩, _, ⟨rfl, by omega, by omega⟩, Or.inr ⟨by omega, trivial⟩⟩
    simp only [hst, bind, Except.bind]
    exact hconf

/-- C44: a readable, fresh and confident price of the bank's own oracle is used; so is one of its fallback oracle when the
primary is readable but not fresh or not confident. -/
theorem C44_good_price_used {inv : Nat → Res I80F48} {b : BankO} {i : Infos} {now : Option (Int × Int)} {st : OState}
    (hk : i.oracle.key = b.oracle) (hst : stateOf inv i i.oracle b.decimals = .ok st) (hr : Representable b.cfg now st) :
    (Fresh b.cfg now st → Confident b.cfg st → bankPrice inv b i now = .ok st.price) ∧
    (¬ (Fresh b.cfg now st ∧ Confident b.cfg st) → ∀ f fs, i.fallback = some f → f.key = b.fallback →
      stateOf inv i f b.decimals = .ok fs → Representable b.cfg now fs → Fresh b.cfg now fs → Confident b.cfg fs →
      bankPrice inv b i now = .ok fs.price) := by
  refine ⟨fun hf hc => C44_good_primary hk hst (check_complete hr hf hc), ?_⟩
  intro hbad f fs hfb hfk hfs hfr hff hfc
  have hfcheck := check_complete hfr hff hfc
  have herr : isOracleError (check st b.cfg now) = true := by
    obtain ⟨hr1, hr2, hr3⟩ := hr
    unfold check
    have hcf : checkConfidence st b.cfg = .ok () ∨ checkConfidence st b.cfg = .error .oracleConfidence := by
      unfold checkConfidence
      rw [mul_ok.mpr ⟨rfl, hr1⟩]
      simp only [bind, Except.bind]
      by_cases h : st.deviation > b.cfg.confFilter * st.price / S
      · rw [if_pos h]; exact Or.inr rfl
      · rw [if_neg h]; exact Or.inl rfl
    cases now with
    | none =>
      simp only [bind, Except.bind]
      rcases hcf with h | h
      · exact absurd ⟨fun ts slot h => by simp at h, (checkConfidence_sound.1.mp h).1⟩ hbad
      · rw [h]; rfl
    | some p =>
      obtain ⟨ts, slot⟩ := p
      obtain ⟨g1, g2, g3, g4⟩ := hr3 ts slot rfl
      have hsl : checkStaleness st b.cfg ts slot = .ok () ∨ checkStaleness st b.cfg ts slot = .error .oracleStale := by
        unfold checkStaleness
        by_cases h1 : b.cfg.maxStaleness < 0
        · rw [if_pos h1]; exact Or.inl rfl
        rw [if_neg h1]
        by_cases h2 : min (st.slot + b.cfg.maxStaleness) U64MAX < slot
        · rw [if_pos h2]; exact Or.inr rfl
        rw [if_neg h2]
        cases ht : st.time with
        | none => exact Or.inl rfl
        | some t =>
          obtain ⟨k1, k2⟩ := g4 t ht
          dsimp only
          rw [cku64_ok.mpr ⟨rfl, by omega, by omega⟩, cku64_ok.mpr ⟨rfl, by omega, by omega⟩, cku64_ok.mpr ⟨rfl, by omega, by omega⟩]
          simp only [bind, Except.bind]
          by_cases h : t * 1000 < max (ts * 1000 - b.cfg.maxStaleness * 450) 0
          · rw [if_pos h]; exact Or.inr rfl
          · rw [if_neg h]; exact Or.inl rfl
      dsimp only
      rcases hsl with h | h
      · rw [h]
        simp only [bind, Except.bind]
        rcases hcf with h' | h'
        · have hs := (checkStaleness_sound (st := st) (c := b.cfg) (ts := ts) g1).1 h
          refine absurd ⟨?_, (checkConfidence_sound.1.mp h').1⟩ hbad
          intro ts' slot' he h0
          simp only [Option.some.injEq, Prod.mk.injEq] at he
          obtain ⟨rfl, rfl⟩ := he
          exact hs h0
        · rw [h']; rfl
      · rw [h]; rfl
  unfold bankPrice
  simp only [bind_ok, require_ok]
  refine ⟨(), hk.symm, st, hst, ?_⟩
  simp only [hfb, herr, if_true]
  simp only [bind_ok, require_ok]
  exact ⟨(), hfk.symm, fs, hfs, (), hfcheck, rfl⟩

example : Representable exBank.cfg (some (5000, 1001)) ⟨S, 0, 1000, some 5000⟩ ∧
    Fresh exBank.cfg (some (5000, 1001)) ⟨S, 0, 1000, some 5000⟩ ∧ Confident exBank.cfg ⟨S, 0, 1000, some 5000⟩ := by
  refine ⟨⟨by unfold inRange; decide, by decide, ?_⟩, ?_, by unfold Confident; decide⟩
  · intro ts slot h
    simp only [Option.some.injEq, Prod.mk.injEq] at h
    obtain ⟨rfl, rfl⟩ := h
    refine ⟨by decide, by decide, by decide, fun t ht => ?_⟩
    simp only [Option.some.injEq] at ht
    subst ht
    decide
  · intro ts slot h _
    simp only [Option.some.injEq, Prod.mk.injEq] at h
    obtain ⟨rfl, rfl⟩ := h
    refine ⟨by decide, fun t ht => ?_⟩
    simp only [Option.some.injEq] at ht
    subst ht
    decide

end Oracle
end Mango
