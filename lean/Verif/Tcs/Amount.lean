import Verif.Tcs.Model
import Mathlib.Tactic.Linarith
import Mathlib.Tactic.Ring
/-! The amounts of a conditional swap's trade. -/
namespace Mango.Swap
open Bank Fx

/-- What the amounts of a trade at a positive price must satisfy. `price` are I80F48 bits, so `buy * price / S` is the exact value of
the bought amount. -/
structure Fair (maxBuy maxSell : Int) (price : I80F48) (buy sell : Int) : Prop where
  buy_nonneg : 0 ≤ buy
  buy_le : buy ≤ maxBuy
  sell_nonneg : 0 ≤ sell
  sell_le : sell ≤ maxSell
  /-- never pays more than the price, and less than one native token less -/
  sell_floor : sell = buy * price / S
  /-- never something for nothing -/
  both : 0 < buy ↔ 0 < sell
  /-- no other amounts within the limits sell more -/
  best_sell : ∀ b, 0 ≤ b → b ≤ maxBuy → b * price / S ≤ maxSell → b * price / S ≤ sell

theorem inRange_of {x : Int} (h0 : 0 ≤ x) (h1 : x ≤ U64MAX * S + S) : inRange x := by
  unfold inRange I128MIN I128MAX
  unfold U64MAX S at h1
  omega

theorem toInt_mul (n : Int) : Fx.toInt (n * S) = n := by
  unfold Fx.toInt; exact Int.mul_ediv_cancel n (by decide)

theorem rbind_ok {α β : Type} {x : Res α} {f : α → Res β} {a : α} (h : x = .ok a) : (x >>= f) = f a := by
  rw [h]; rfl

theorem mulInt_floor (n p : Int) : n * S * p / S = n * p := by
  rw [show n * S * p = n * p * S by ring]; exact Int.mul_ediv_cancel _ (by decide)

/-- The price above one: as many as `maxSell` pays for. -/
theorem inner_high {maxBuy maxSell p : Int} (hb0 : 0 ≤ maxBuy) (hb : maxBuy ≤ U64MAX) (hs0 : 0 ≤ maxSell)
    (hs : maxSell ≤ U64MAX) (hp : S < p) (hpm : p ≤ I128MAX) :
    ∃ buy sell, tradeAmountInner maxBuy maxSell p = .ok (buy, sell) ∧ Fair maxBuy maxSell p buy sell := by
  have hS := S_pos
  have hp0 : 0 < p := by omega
  generalize hX : (maxSell + 1) * S - 1 = X
  have hX0 : 0 ≤ X := by rw [← hX]; nlinarith
  have hXle : X ≤ U64MAX * S + S := by rw [← hX]; nlinarith
  -- the quotient
  have t := tdiv_bounds (a := X * S) (b := p) (Int.mul_nonneg hX0 hS.le) hp0
  generalize hq : Int.tdiv (X * S) p = q at t
  have hqX : q ≤ X := by
    by_contra h
    have : (X + 1) * p ≤ q * p := Int.mul_le_mul_of_nonneg_right (by omega) hp0.le
    nlinarith
  have mq := mulFloor_bounds q
  have hn0 : 0 ≤ q / S := floor_nonneg t.2.2
  generalize hn : q / S = n at mq hn0
  have hnU : n ≤ U64MAX + 1 := by
    have : n * S ≤ (U64MAX + 1) * S := by linarith
    exact Int.le_of_mul_le_mul_right this hS
  -- n is the largest amount with n * p ≤ X
  have hnp : n * p ≤ X := by
    have h1 : n * S * p ≤ q * p := Int.mul_le_mul_of_nonneg_right mq.1 hp0.le
    have : n * p * S ≤ X * S := by linarith [show n * S * p = n * p * S by ring]
    exact Int.le_of_mul_le_mul_right this hS
  have hnmax : ∀ m, m * p ≤ X → m ≤ n := by
    intro m hm
    by_contra hc
    have h1 : m * S * p ≤ X * S := by
      rw [show m * S * p = m * p * S by ring]; exact Int.mul_le_mul_of_nonneg_right hm hS.le
    have h2 : (q + 1) * p ≤ m * S * p := by
      apply Int.mul_le_mul_of_nonneg_right _ hp0.le
      have : (n + 1) * S ≤ m * S := Int.mul_le_mul_of_nonneg_right (by omega) hS.le
      linarith
    linarith
  have hnU' : n ≤ U64MAX := by
    by_contra hc
    have h1 : (U64MAX + 1) * p ≤ n * p := Int.mul_le_mul_of_nonneg_right (by omega) hp0.le
    have h2 : (U64MAX + 1) * (S + 1) ≤ (U64MAX + 1) * p := Int.mul_le_mul_of_nonneg_left (by omega) (by unfold U64MAX; omega)
    unfold U64MAX at *
    linarith
  generalize hbuy : min maxBuy n = buy
  have hbuy0 : 0 ≤ buy := by omega
  have hbp : buy * p ≤ X := by
    have : buy * p ≤ n * p := Int.mul_le_mul_of_nonneg_right (by omega) hp0.le
    linarith
  have hbp0 : 0 ≤ buy * p := Int.mul_nonneg hbuy0 hp0.le
  have mb := mulFloor_bounds (buy * p)
  have hsell0 : 0 ≤ buy * p / S := floor_nonneg hbp0
  have hsell : buy * p / S ≤ maxSell := by
    have : buy * p / S < maxSell + 1 := by
      rw [floor_le_iff]; omega
    omega
  have hboth : 0 < buy ↔ 0 < buy * p / S := by
    constructor
    · intro h
      have : 1 ≤ buy * p / S := by
        rw [le_floor_iff]
        have : 1 * p ≤ buy * p := Int.mul_le_mul_of_nonneg_right (by omega) hp0.le
        omega
      omega
    · intro h
      by_contra hc
      have : buy = 0 := by omega
      rw [this] at h
      simp at h
  refine ⟨buy, buy * p / S, ?_, hbuy0, by omega, hsell0, hsell, rfl, hboth, ?_⟩
  · unfold tradeAmountInner
    rw [if_pos (show p > Fx.ONE from hp)]
    have e1 : Fx.add (Fx.ofInt maxSell) Fx.ONE = .ok (X + 1) := by
      rw [add_ok]
      have : Fx.ofInt maxSell + Fx.ONE = X + 1 := by unfold Fx.ofInt Fx.ONE; rw [← hX]; ring
      rw [this]
      exact ⟨rfl, inRange_of (by omega) (by rw [← hX]; nlinarith)⟩
    have e2 : Fx.sub (X + 1) Fx.DELTA = .ok X := by
      rw [sub_ok]
      have : X + 1 - Fx.DELTA = X := by unfold Fx.DELTA; omega
      rw [this]
      exact ⟨rfl, inRange_of hX0 hXle⟩
    have e3 : Fx.div X p = .ok q := by
      rw [div_ok, hq]
      exact ⟨by omega, rfl, inRange_of t.2.2 (by omega)⟩
    have e4 : Fx.floor q = .ok (n * S) := by
      rw [floor_ok, hn]
      exact ⟨rfl, inRange_of (Int.mul_nonneg hn0 hS.le) (by omega)⟩
    have e5 : cku64 (Fx.toInt (n * S)) = .ok n := by
      rw [toInt_mul, cku64_ok]; exact ⟨rfl, hn0, hnU'⟩
    rw [rbind_ok e1, rbind_ok e2, rbind_ok e3, rbind_ok e4, rbind_ok e5]
    dsimp only
    rw [hbuy]
    have e6 : Fx.mul (Fx.ofInt buy) p = .ok (buy * p) := by
      rw [mul_ok]; unfold Fx.ofInt; rw [mulInt_floor]
      exact ⟨rfl, inRange_of hbp0 (by omega)⟩
    have e7 : Fx.floor (buy * p) = .ok (buy * p / S * S) := by
      rw [floor_ok]; exact ⟨rfl, inRange_of (Int.mul_nonneg hsell0 hS.le) (by omega)⟩
    have e8 : cku64 (Fx.toInt (buy * p / S * S)) = .ok (buy * p / S) := by
      rw [toInt_mul, cku64_ok]; exact ⟨rfl, hsell0, by omega⟩
    rw [rbind_ok e6, rbind_ok e7, rbind_ok e8]
    rw [show min maxSell (buy * p / S) = buy * p / S by omega]
    have e9 : require (buy > 0 ↔ buy * p / S > 0) Err.panic = .ok () := by rw [require_ok]; exact hboth
    rw [rbind_ok e9]
  · intro m hm0 hm1 hm2
    have h1 : m * p ≤ X := by
      have : m * p < (maxSell + 1) * S := by rw [← floor_le_iff]; omega
      omega
    have h2 := hnmax m h1
    exact floor_mono (Int.mul_le_mul_of_nonneg_right (by omega) hp0.le)

/-- The price at most one: sell as much as possible, buy the least that costs it. -/
theorem inner_low {maxBuy maxSell p : Int} (hb0 : 0 ≤ maxBuy) (hb : maxBuy ≤ U64MAX) (hs0 : 0 ≤ maxSell)
    (hs : maxSell ≤ U64MAX) (hp0 : 0 < p) (hp : p ≤ S) :
    ∃ buy sell, tradeAmountInner maxBuy maxSell p = .ok (buy, sell) ∧ Fair maxBuy maxSell p buy sell := by
  have hS := S_pos
  have hbp0 : 0 ≤ maxBuy * p := Int.mul_nonneg hb0 hp0.le
  have hbpS : maxBuy * p ≤ maxBuy * S := Int.mul_le_mul_of_nonneg_left hp hb0
  have hbS : maxBuy * S ≤ U64MAX * S := Int.mul_le_mul_of_nonneg_right hb hS.le
  have m1 := mulFloor_bounds (maxBuy * p)
  have hx0 : 0 ≤ maxBuy * p / S := floor_nonneg hbp0
  generalize hx : min (maxBuy * p / S) maxSell = x
  have hxe : min (maxBuy * p / S * S) (maxSell * S) = x * S := by
    rw [← hx]
    rcases le_total (maxBuy * p / S) maxSell with h | h
    · rw [min_eq_left h, min_eq_left (Int.mul_le_mul_of_nonneg_right h hS.le)]
    · rw [min_eq_right h, min_eq_right (Int.mul_le_mul_of_nonneg_right h hS.le)]
  have hx0' : 0 ≤ x := by omega
  have hxb : x * S ≤ maxBuy * p := by
    have : x * S ≤ maxBuy * p / S * S := Int.mul_le_mul_of_nonneg_right (by omega) hS.le
    omega
  have t := tdiv_bounds (a := x * S * S) (b := p) (Int.mul_nonneg (Int.mul_nonneg hx0' hS.le) hS.le) hp0
  generalize hq : Int.tdiv (x * S * S) p = q at t
  have hqb : q ≤ maxBuy * S := by
    have h1 : q * p ≤ maxBuy * S * p := by
      have : x * S * S ≤ maxBuy * p * S := Int.mul_le_mul_of_nonneg_right hxb hS.le
      linarith [show maxBuy * p * S = maxBuy * S * p by ring]
    exact Int.le_of_mul_le_mul_right h1 hp0
  have mc := mulFloor_bounds (-q)
  generalize hc : -(-q / S) = c
  have hc1 : q ≤ c * S := by rw [← hc]; linarith
  have hc2 : c * S < q + S := by rw [← hc]; linarith
  have hcs : -q / S * S = -(c * S) := by rw [← hc]; ring
  have hc0 : 0 ≤ c := by
    by_contra h
    have : c * S ≤ (-1) * S := Int.mul_le_mul_of_nonneg_right (by omega) hS.le
    omega
  have hcb : c ≤ maxBuy := by
    by_contra h
    have : (maxBuy + 1) * S ≤ c * S := Int.mul_le_mul_of_nonneg_right (by omega) hS.le
    linarith
  have hcp1 : c * p < (x + 1) * S := by
    have h1 : c * S * p < (q + S) * p := Int.mul_lt_mul_of_pos_right hc2 hp0
    have h2 : S * p ≤ S * S := Int.mul_le_mul_of_nonneg_left hp hS.le
    have h3 : c * p * S < (x + 1) * S * S := by linarith [show c * S * p = c * p * S by ring]
    exact lt_of_mul_lt_mul_right h3 hS.le
  have hcp2 : x * S ≤ c * p := by
    have h1 : q * p ≤ c * S * p := Int.mul_le_mul_of_nonneg_right hc1 hp0.le
    have h2 : (x * S - 1) * S < c * p * S := by linarith [show c * S * p = c * p * S by ring]
    have := lt_of_mul_lt_mul_right h2 hS.le
    omega
  have hcp0 : 0 ≤ c * p := Int.mul_nonneg hc0 hp0.le
  have hcx : c * p / S = x := by
    have h1 : c * p / S < x + 1 := floor_le_iff.mpr hcp1
    have h2 : x ≤ c * p / S := le_floor_iff.mpr hcp2
    omega
  have hboth : 0 < c ↔ 0 < x := by
    constructor
    · intro h
      by_contra hx'
      have : x = 0 := by omega
      rw [this] at hq
      simp at hq
      have : 1 * S ≤ c * S := Int.mul_le_mul_of_nonneg_right (by omega) hS.le
      omega
    · intro h
      by_contra hc'
      have : c = 0 := by omega
      rw [this] at hcp2
      have : 1 * S ≤ x * S := Int.mul_le_mul_of_nonneg_right (by omega) hS.le
      simp only [Int.zero_mul] at hcp2
      omega
  refine ⟨c, x, ?_, hc0, hcb, hx0', by omega, hcx.symm, hboth, ?_⟩
  · unfold tradeAmountInner
    rw [if_neg (show ¬ p > Fx.ONE by unfold Fx.ONE; omega)]
    have e1 : Fx.mul (Fx.ofInt maxBuy) p = .ok (maxBuy * p) := by
      rw [mul_ok]; unfold Fx.ofInt; rw [mulInt_floor]
      exact ⟨rfl, inRange_of hbp0 (by omega)⟩
    have e2 : Fx.floor (maxBuy * p) = .ok (maxBuy * p / S * S) := by
      rw [floor_ok]; exact ⟨rfl, inRange_of (Int.mul_nonneg hx0 hS.le) (by omega)⟩
    have e3 : Fx.div (min (maxBuy * p / S * S) (Fx.ofInt maxSell)) p = .ok q := by
      unfold Fx.ofInt
      rw [hxe, div_ok, hq]
      exact ⟨by omega, rfl, inRange_of t.2.2 (by omega)⟩
    have e4 : Fx.ceil q = .ok (c * S) := by
      rw [ceil_ok]
      have : -(-q / S) * S = c * S := by rw [hc]
      rw [this]
      exact ⟨rfl, inRange_of (Int.mul_nonneg hc0 hS.le) (by omega)⟩
    have e5 : cku64 (Fx.toInt (c * S)) = .ok c := by
      rw [toInt_mul, cku64_ok]; exact ⟨rfl, hc0, by omega⟩
    rw [rbind_ok e1, rbind_ok e2, rbind_ok e3, rbind_ok e4, rbind_ok e5]
    dsimp only
    rw [show min maxBuy c = c by omega]
    have e6 : Fx.mul (Fx.ofInt c) p = .ok (c * p) := by
      rw [mul_ok]; unfold Fx.ofInt; rw [mulInt_floor]
      refine ⟨rfl, inRange_of hcp0 ?_⟩
      have : c * p ≤ maxBuy * p := Int.mul_le_mul_of_nonneg_right hcb hp0.le
      omega
    have hxS : x * S ≤ maxBuy * p := hxb
    have e7 : Fx.floor (c * p) = .ok (x * S) := by
      rw [floor_ok, hcx]; exact ⟨rfl, inRange_of (Int.mul_nonneg hx0' hS.le) (by omega)⟩
    have e8 : cku64 (Fx.toInt (x * S)) = .ok x := by
      rw [toInt_mul, cku64_ok]; exact ⟨rfl, hx0', by omega⟩
    rw [rbind_ok e6, rbind_ok e7, rbind_ok e8]
    rw [show min maxSell x = x by omega]
    have e9 : require (c > 0 ↔ x > 0) Err.panic = .ok () := by rw [require_ok]; exact hboth
    rw [rbind_ok e9]
  · intro m hm0 hm1 hm2
    have h1 : m * p / S ≤ maxBuy * p / S := floor_mono (Int.mul_le_mul_of_nonneg_right hm1 hp0.le)
    omega

theorem inner_total {maxBuy maxSell p : Int} (hb0 : 0 ≤ maxBuy) (hb : maxBuy ≤ U64MAX) (hs0 : 0 ≤ maxSell)
    (hs : maxSell ≤ U64MAX) (hp0 : 0 < p) (hp : p ≤ I128MAX) :
    ∃ buy sell, tradeAmountInner maxBuy maxSell p = .ok (buy, sell) ∧ Fair maxBuy maxSell p buy sell := by
  by_cases h : p ≤ S
  · exact inner_low hb0 hb hs0 hs hp0 h
  · exact inner_high hb0 hb hs0 hs (by omega) hp

/-- With a price of zero or below the trade panics unless nothing can be traded. -/
theorem inner_price_pos {maxBuy maxSell p buy sell : Int} (hs0 : 0 ≤ maxSell) (hb0 : 0 ≤ maxBuy)
    (h : tradeAmountInner maxBuy maxSell p = .ok (buy, sell)) : 0 < p ∨ (p < 0 ∧ buy = 0 ∧ sell = 0) := by
  have hS := S_pos
  by_contra hc
  push Not at hc
  obtain ⟨hp, hc⟩ := hc
  unfold tradeAmountInner at h
  rw [if_neg (show ¬ p > Fx.ONE by unfold Fx.ONE; omega)] at h
  simp only [bind_ok, div_ok, mul_ok, floor_ok, cku64_ok, require_ok, ok_inj, Prod.mk.injEq] at h
  obtain ⟨n, ⟨x, ⟨rfl, _⟩, y, ⟨rfl, _⟩, q, ⟨hpne, hq, _⟩, c, hcl, rfl, hn0, hn1⟩, s, ⟨rfl, _⟩, s2, ⟨rfl, _⟩, s3, ⟨rfl, hs1, _⟩, _, hb, h2, h3⟩ := h
  have hneg : p < 0 := by omega
  have h1 := hc hneg
  have hbuy0 : 0 ≤ min maxBuy (Fx.toInt c) := by omega
  generalize min maxBuy (Fx.toInt c) = b at *
  unfold Fx.ofInt at hs1 h3
  rw [mulInt_floor, toInt_mul] at hs1 h3
  subst h2
  by_cases hb1 : 0 < b
  · have : b * p < 0 := Int.mul_neg_of_pos_of_neg hb1 hneg
    have := floor_neg this
    omega
  · have hb0' : b = 0 := by omega
    subst hb0'
    simp only [Int.zero_mul, Int.zero_ediv] at h3
    exact h1 rfl (by omega)

end Mango.Swap
