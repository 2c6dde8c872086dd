import Verif.Bots.Rebalance
import Verif.Props.Depth
import Verif.Props.Slots
import Verif.Props.MatchEx
import Verif.Props.StablePrice
import Mathlib.Tactic.Linarith
import Mathlib.Tactic.Positivity
import Mathlib.Tactic.FieldSimp
/-!
# C94: the liquidator's rebalancer
-/
namespace Mango
namespace Rebalance
open Fx Book

/-! ## Specification -/

/-- lots of the position's own open orders on a side -/
def ownOpen (p : Perp.Pos) : Side → Int
  | .bid => p.bids
  | .ask => p.asks

/-- the oracle price moved against the bot by a fraction -/
def moved (side : Side) (price fraction : ℚ) : ℚ :=
  match side with
  | .bid => price * (1 + fraction)
  | .ask => price * (1 - fraction)

/-- a fixed point number's value -/
def val (x : I80F48) : ℚ := (x : ℚ) / S

theorem abs_ok' {a y : I80F48} : Fx.abs a = .ok y ↔ y = (if a < 0 then -a else a) ∧ inRange (if a < 0 then -a else a) := ck_ok

theorem S_posQ : (0 : ℚ) < S := by unfold S; norm_num

/-! ## Perp positions -/

theorem toLot {m : Perp.Market} (hb : 0 < m.baseLotSize) (hq : 0 < m.quoteLotSize) {x : I80F48} (hx : 0 ≤ x) {n : Int} (h : m.nativePriceToLot x = .ok n) :
    (n : ℚ) ≤ val x * m.baseLotSize / m.quoteLotSize ∧ val x * m.baseLotSize / m.quoteLotSize < n + 1 := by
  unfold Perp.Market.nativePriceToLot at h
  simp only [bind_ok, mul_ok, div_ok, Perp.toI64, ck64_ok, Fx.toInt, Fx.ofInt] at h
  obtain ⟨a, ⟨rfl, _⟩, b, ⟨_, rfl, _⟩, rfl, _⟩ := h
  have hS := S_pos
  have e1 : x * (m.baseLotSize * S) / S = x * m.baseLotSize := by
    rw [← Int.mul_assoc]; exact Int.mul_ediv_cancel _ (by omega)
  have x0 : 0 ≤ x * m.baseLotSize := Int.mul_nonneg hx hb.le
  rw [e1, Int.tdiv_eq_ediv_of_nonneg (Int.mul_nonneg x0 hS.le), Int.mul_ediv_mul_of_pos_left _ _ hS, Int.ediv_ediv_of_nonneg hq.le]
  have hd : (0 : Int) < m.quoteLotSize * S := Int.mul_pos hq hS
  have l1 := Int.ediv_mul_le (x * m.baseLotSize) hd.ne'
  have l2 := Int.lt_ediv_add_one_mul_self (x * m.baseLotSize) hd
  generalize x * m.baseLotSize / (m.quoteLotSize * S) = n at *
  have q1 : (n : ℚ) * (m.quoteLotSize * S) ≤ x * m.baseLotSize := by exact_mod_cast l1
  have q2 : (x : ℚ) * m.baseLotSize < (n + 1) * (m.quoteLotSize * S) := by exact_mod_cast l2
  have hd' : (0 : ℚ) < m.quoteLotSize * S := by exact_mod_cast hd
  have hqq : (m.quoteLotSize : ℚ) ≠ 0 := by exact_mod_cast hq.ne'
  have e : val x * m.baseLotSize / m.quoteLotSize = x * m.baseLotSize / (m.quoteLotSize * S) := by
    unfold val; have := S_posQ.ne'; field_simp
  rw [e]
  exact ⟨(le_div_iff₀ hd').2 q1, (div_lt_iff₀ hd').2 q2⟩

theorem order_spec {fee oracle : I80F48} (ho : 0 ≤ oracle) (hf : 0 ≤ fee) (hf1 : fee ≤ S) {p : Perp.Pos} {eff : Int} {sd : Side} {x : I80F48} {oo : Int}
    (h : orderOf fee oracle p eff = .ok (sd, x, oo)) :
    (sd = if eff > 0 then .ask else .bid) ∧ oo = ownOpen p sd ∧ 0 ≤ x ∧ val x ≤ moved sd (val oracle) (val fee) ∧ moved sd (val oracle) (val fee) < val x + 1 / S := by
  have hS := S_posQ
  have key : ∀ w : Int, 0 ≤ w → 0 ≤ oracle * w / S ∧ val (oracle * w / S) ≤ val oracle * val w ∧ val oracle * val w < val (oracle * w / S) + 1 / S := by
    intro w hw
    have h0 : 0 ≤ oracle * w / S := Int.ediv_nonneg (Int.mul_nonneg ho hw) (by decide)
    have l1 := Int.ediv_mul_le (oracle * w) (b := S) (by decide)
    have l2 := Int.lt_ediv_add_one_mul_self (oracle * w) S_pos
    generalize oracle * w / S = y at *
    have q1 : (y : ℚ) * S ≤ oracle * w := by exact_mod_cast l1
    have q2 : (oracle : ℚ) * w < (y + 1) * S := by exact_mod_cast l2
    refine ⟨h0, ?_, ?_⟩
    · unfold val
      rw [div_mul_div_comm, div_le_div_iff₀ hS (by positivity)]
      nlinarith
    · unfold val
      rw [div_mul_div_comm, ← add_div, div_lt_div_iff₀ (by positivity) hS]
      nlinarith
  unfold orderOf at h
  by_cases he : eff > 0
  · rw [if_pos he] at h
    simp only [bind_ok, sub_ok, mul_ok, ok_inj, Prod.mk.injEq] at h
    obtain ⟨f, ⟨rfl, _⟩, y, ⟨rfl, _⟩, rfl, rfl, rfl⟩ := h
    obtain ⟨k1, k2, k3⟩ := key (ONE - fee) (by unfold ONE; omega)
    have ev : val (ONE - fee) = 1 - val fee := by
      unfold val ONE; push_cast; rw [sub_div, div_self hS.ne']
    rw [ev] at k2 k3
    exact ⟨by rw [if_pos he], rfl, k1, k2, k3⟩
  · rw [if_neg he] at h
    simp only [bind_ok, add_ok, mul_ok, ok_inj, Prod.mk.injEq] at h
    obtain ⟨f, ⟨rfl, _⟩, y, ⟨rfl, _⟩, rfl, rfl, rfl⟩ := h
    obtain ⟨k1, k2, k3⟩ := key (ONE + fee) (by unfold ONE; have := S_pos; omega)
    have ev : val (ONE + fee) = 1 + val fee := by
      unfold val ONE; push_cast; rw [add_div, div_self hS.ne']
    rw [ev] at k2 k3
    exact ⟨by rw [if_neg he], rfl, k1, k2, k3⟩

/-- C94: an order for a perp position is on the side that reduces it, for exactly the lots that are not already covered by the bot's own orders on that side, at the oracle price moved by the liquidation fee (rounded down
to a price lot), and only if the book offers something at that price -/
theorem C94_perp_reduce {m : Perp.Market} {fee oracle : I80F48} {p : Perp.Pos} {bk : Perp.OBook} {sp : Side → SpecSide} (hL : Perp.LiveBook bk sp) {now : Nat} {top : Bool → Res (List Nat)}
    (hb : 0 < m.baseLotSize) (hq : 0 < m.quoteLotSize) (ho : 0 ≤ oracle) (hf : 0 ≤ fee) (hf1 : fee ≤ S) {side : Side} {price lots : Int}
    (h : perpAct m fee oracle p bk.get now top = .ok (.reduce side price lots)) :
    p.base + p.takerBase ≠ 0 ∧ (side = .ask ↔ 0 < p.base + p.takerBase) ∧ 0 < lots ∧ lots + ownOpen p side = |p.base + p.takerBase| ∧
    (price : ℚ) ≤ moved side (val oracle) (val fee) * m.baseLotSize / m.quoteLotSize ∧
    moved side (val oracle) (val fee) * m.baseLotSize / m.quoteLotSize < price + 1 + m.baseLotSize / (m.quoteLotSize * S) ∧
    ∃ oracleLots, m.nativePriceToLot oracle = .ok oracleLots ∧ 0 < Perp.depth side.invert price (Perp.offersOf (sp side.invert) side.invert now oracleLots) := by
  unfold perpAct at h
  simp only [bind_ok, ck64_ok] at h
  obtain ⟨eff, ⟨rfl, _⟩, h⟩ := h
  by_cases h0 : p.base + p.takerBase ≠ 0
  · rw [if_pos h0] at h
    simp only [bind_ok, ck64_ok, Perp.abs64] at h
    obtain ⟨ol, hol, ⟨sd, x, oo⟩, hord, pr, hpr, a, ⟨rfl, _⟩, l, ⟨rfl, _⟩, h⟩ := h
    by_cases h1 : (if p.base + p.takerBase < 0 then -(p.base + p.takerBase) else p.base + p.takerBase) - oo ≤ 0
    · rw [if_pos h1] at h; cases h
    · rw [if_neg h1] at h
      simp only [bind_ok] at h
      obtain ⟨q, hqty, h⟩ := h
      by_cases h2 : q ≤ 0
      · rw [if_pos h2] at h; cases h
      · rw [if_neg h2, ok_inj] at h
        cases h
        obtain ⟨s1, s2, s3, s4, s5⟩ := order_spec ho hf hf1 hord
        obtain ⟨p1, p2⟩ := toLot hb hq s3 hpr
        have hbq : (0 : ℚ) < m.baseLotSize := by exact_mod_cast hb
        have hqq : (0 : ℚ) < m.quoteLotSize := by exact_mod_cast hq
        refine ⟨h0, ?_, by omega, ?_, ?_, ?_, ol, hol, ?_⟩
        · rw [s1]
          split
          · exact ⟨(fun _ => by assumption), (fun _ => rfl)⟩
          · exact ⟨(fun h => by cases h), (fun h => absurd h (by assumption))⟩
        · rw [← s2]
          split
          · rw [abs_of_neg (by assumption)]; omega
          · rw [abs_of_nonneg (by omega)]; omega
        · refine le_trans p1 (div_le_div_of_nonneg_right (mul_le_mul_of_nonneg_right s4 hbq.le) hqq.le)
        · have a1 : moved side (val oracle) (val fee) * m.baseLotSize / m.quoteLotSize < (val x + 1 / S) * m.baseLotSize / m.quoteLotSize :=
            div_lt_div_of_pos_right (mul_lt_mul_of_pos_right s5 hbq) hqq
          have a2 : (val x + 1 / S) * m.baseLotSize / m.quoteLotSize = val x * m.baseLotSize / m.quoteLotSize + m.baseLotSize / (m.quoteLotSize * S) := by
            have := S_posQ.ne'; field_simp
          rw [a2] at a1
          linarith
        · rw [← Perp.C76_quantity hL hqty]; omega
  · rw [if_neg h0] at h
    split at h
    · simp only [bind_ok] at h
      obtain ⟨cs, _, h⟩ := h
      cases cs <;> cases h
    · split at h <;> cases h

/-- C94: what else is done: pnl is settled only for a position without base lots, with the bot's account as the profitable one exactly if its pnl is positive, and with the counterparty that has the largest opposite pnl; a
position is closed only if nothing is left of it -/
theorem C94_perp_rest {m : Perp.Market} {fee oracle : I80F48} {p : Perp.Pos} {book : Side → BookSide} {now : Nat} {top : Bool → Res (List Nat)} {a : PerpAct}
    (h : perpAct m fee oracle p book now top = .ok a) :
    (∀ b c, a = .settle b c → p.base = 0 ∧ p.takerBase = 0 ∧ p.quote ≠ 0 ∧ (b = true ↔ 0 < p.quote) ∧ ∃ cs, top b = .ok (c :: cs)) ∧
    (a = .deactivate ↔ p.base = 0 ∧ p.takerBase = 0 ∧ p.quote = 0) ∧
    (a = .nothing → p.base + p.takerBase = 0 → (p.base = 0 ∧ top (decide (0 < p.quote)) = .ok []) ∨ p.base ≠ 0) := by
  unfold perpAct at h
  simp only [bind_ok, ck64_ok] at h
  obtain ⟨eff, ⟨rfl, _⟩, h⟩ := h
  by_cases h0 : p.base + p.takerBase ≠ 0
  · have hc : ∀ b c, a ≠ .settle b c ∧ a ≠ .deactivate := by
      rw [if_pos h0] at h
      simp only [bind_ok, ck64_ok] at h
      obtain ⟨ol, hol, ⟨sd, x, oo⟩, hord, pr, hpr, ab, _, l, ⟨rfl, _⟩, h⟩ := h
      intro b c
      by_cases h1 : ab - oo ≤ 0
      · rw [if_pos h1, ok_inj] at h; subst h; exact ⟨(by intro h; cases h), (by intro h; cases h)⟩
      · rw [if_neg h1] at h
        simp only [bind_ok] at h
        obtain ⟨q, hqty, h⟩ := h
        by_cases h2 : q ≤ 0
        · rw [if_pos h2, ok_inj] at h; subst h; exact ⟨(by intro h; cases h), (by intro h; cases h)⟩
        · rw [if_neg h2, ok_inj] at h; subst h; exact ⟨(by intro h; cases h), (by intro h; cases h)⟩
    refine ⟨fun b c e => absurd e (hc b c).1, ⟨fun e => absurd e (hc true 0).2, fun e => absurd (by omega) h0⟩, fun _ e => absurd e h0⟩
  · rw [if_neg h0] at h
    have hz : p.base + p.takerBase = 0 := by omega
    by_cases h1 : p.base = 0 ∧ p.quote ≠ 0
    · rw [if_pos h1] at h
      simp only [bind_ok] at h
      obtain ⟨cs, hcs, h⟩ := h
      cases cs with
      | nil =>
        cases h
        refine ⟨(fun b c e => by cases e), ⟨fun e => (by cases e), fun e => absurd e.2.2 h1.2⟩, fun _ _ => Or.inl ⟨h1.1, hcs⟩⟩
      | cons c cs =>
        cases h
        refine ⟨?_, ⟨fun e => (by cases e), fun e => absurd e.2.2 h1.2⟩, (fun e => by cases e)⟩
        intro b c' e
        cases e
        exact ⟨h1.1, by omega, h1.2, by simp, cs, hcs⟩
    · rw [if_neg h1] at h
      by_cases h2 : p.base = 0 ∧ p.quote = 0
      · rw [if_pos h2] at h
        cases h
        exact ⟨(fun b c e => by cases e), ⟨fun _ => ⟨h2.1, by omega, h2.2⟩, fun _ => rfl⟩, (fun e => by cases e)⟩
      · rw [if_neg h2] at h
        cases h
        refine ⟨(fun b c e => by cases e), ⟨fun e => (by cases e), fun e => absurd ⟨e.1, e.2.2⟩ h2⟩, fun _ _ => Or.inr ?_⟩
        intro hb0
        by_cases hq0 : p.quote = 0
        · exact h2 ⟨hb0, hq0⟩
        · exact h1 ⟨hb0, hq0⟩

/-! ## Token balances -/

theorem floorMul {a b : Int} (ha : 0 ≤ a) (hb : 0 ≤ b) : 0 ≤ a * b / S ∧ val (a * b / S) ≤ val a * val b ∧ val a * val b < val (a * b / S) + 1 / S := by
  have hS := S_posQ
  have h0 : 0 ≤ a * b / S := Int.ediv_nonneg (Int.mul_nonneg ha hb) (by decide)
  have l1 := Int.ediv_mul_le (a * b) (b := S) (by decide)
  have l2 := Int.lt_ediv_add_one_mul_self (a * b) S_pos
  generalize a * b / S = y at *
  have q1 : (y : ℚ) * S ≤ a * b := by exact_mod_cast l1
  have q2 : (a : ℚ) * b < (y + 1) * S := by exact_mod_cast l2
  refine ⟨h0, ?_, ?_⟩
  · unfold val
    rw [div_mul_div_comm, div_le_div_iff₀ hS (by positivity)]
    nlinarith
  · unfold val
    rw [div_mul_div_comm, ← add_div, div_lt_div_iff₀ (by positivity) hS]
    nlinarith

theorem floorVal (x : Int) : ((x / S : Int) : ℚ) ≤ val x ∧ val x < ((x / S : Int) : ℚ) + 1 := by
  have l1 := Int.ediv_mul_le x (b := S) (by decide)
  have l2 := Int.lt_ediv_add_one_mul_self x S_pos
  generalize x / S = y at *
  have q1 : (y : ℚ) * S ≤ x := by exact_mod_cast l1
  have q2 : (x : ℚ) < (y + 1) * S := by exact_mod_cast l2
  unfold val
  exact ⟨(le_div_iff₀ S_posQ).2 q1, (div_lt_iff₀ S_posQ).2 q2⟩

theorem val_mono {a b : Int} (h : a ≤ b) : val a ≤ val b := by
  unfold val
  have h' : (a : ℚ) ≤ b := by exact_mod_cast h
  exact div_le_div_of_nonneg_right h' S_posQ.le

theorem val_nonneg {a : Int} (h : 0 ≤ a) : 0 ≤ val a := by
  have := val_mono h
  simpa [val] using this

/-- C94: the dust threshold of a token is worth two quote units -/
theorem C94_dust {price dust : I80F48} (hp : 0 < price) (h : dustSwap price = .ok dust) : 0 ≤ dust ∧ val dust ≤ 2 / val price ∧ 2 / val price < val dust + 1 / S := by
  unfold dustSwap at h
  rw [div_ok] at h
  obtain ⟨-, rfl, -⟩ := h
  have hS := S_posQ
  have hpq : (0 : ℚ) < price := by exact_mod_cast hp
  have n0 : 0 ≤ ofInt 2 * S := by decide
  rw [Int.tdiv_eq_ediv_of_nonneg n0]
  have h0 : 0 ≤ ofInt 2 * S / price := Int.ediv_nonneg n0 (by exact Int.le_of_lt hp)
  have l1 := Int.ediv_mul_le (ofInt 2 * S) (b := price) (by intro e; rw [e] at hp; exact absurd hp (by decide))
  have l2 := Int.lt_ediv_add_one_mul_self (ofInt 2 * S) hp
  generalize ofInt 2 * S / price = y at *
  have q1 : (y : ℚ) * price ≤ 2 * S * S := by unfold ofInt at l1; exact_mod_cast l1
  have q2 : (2 : ℚ) * S * S < (y + 1) * price := by unfold ofInt at l2; exact_mod_cast l2
  refine ⟨h0, ?_, ?_⟩
  · unfold val
    rw [div_div_eq_mul_div, div_le_div_iff₀ hS hpq]
    nlinarith
  · unfold val
    rw [div_div_eq_mul_div, ← add_div, div_lt_div_iff₀ hpq hS]
    nlinarith

theorem buy_spec {amount price dust excess : I80F48} (hp : 0 ≤ price) (he : 0 ≤ excess) {n : Int} (h : buyInput amount price dust excess = .ok n) :
    |val amount| * val price * val excess < n + 1 + (val excess + 1) / S ∧
    (n : ℚ) ≤ (|val amount| + 1 + max (val dust - 1) 0) * val price * val excess := by
  have hS := S_posQ
  unfold buyInput at h
  simp only [bind_ok, abs_ok', ceil_ok, sub_ok, add_ok, mul_ok, Perp.toU64, cku64_ok, Fx.toInt] at h
  obtain ⟨a, ⟨rfl, _⟩, c, ⟨rfl, _⟩, d, ⟨rfl, _⟩, b, ⟨rfl, _⟩, x, ⟨rfl, _⟩, y, ⟨rfl, _⟩, rfl, _⟩ := h
  have ea : val (if amount < 0 then -amount else amount) = |val amount| := by
    unfold val
    have : (if amount < 0 then -amount else amount) = |amount| := by
      split
      · rw [abs_of_neg (by assumption)]
      · rw [abs_of_nonneg (by omega)]
    rw [this, abs_div, abs_of_pos hS]
    push_cast; rfl
  rw [← ea]
  have a0 : 0 ≤ (if amount < 0 then -amount else amount) := by split <;> omega
  generalize (if amount < 0 then -amount else amount) = a at *
  -- the amount aimed at
  have c1 : a ≤ -(-a / S) * S := by have := mulFloor_bounds (-a); simp only [Int.neg_mul]; omega
  have c2 : -(-a / S) * S < a + S := by have := mulFloor_bounds (-a); simp only [Int.neg_mul]; omega
  generalize -(-a / S) * S = c at *
  have m0 : 0 ≤ max (dust - ONE) 0 := le_max_right _ _
  have mv : val (max (dust - ONE) 0) = max (val dust - 1) 0 := by
    have e1 : val dust - 1 = val (dust - ONE) := by unfold val ONE; push_cast; rw [sub_div, div_self hS.ne']
    rw [e1]
    rcases Int.le_total (dust - ONE) 0 with h | h
    · rw [max_eq_right h, max_eq_right]
      · simp [val]
      · have := val_mono h; simpa [val] using this
    · rw [max_eq_left h, max_eq_left]
      exact val_nonneg h
  rw [← mv]
  generalize max (dust - ONE) 0 = e at *
  have b0 : 0 ≤ c + e := by omega
  have b1 : val a ≤ val (c + e) := val_mono (by omega)
  have b2 : val (c + e) ≤ val a + 1 + val e := by
    have h' : val (c + e) ≤ val (a + S + e) := val_mono (by omega)
    have : val (a + S + e) = val a + 1 + val e := by unfold val; push_cast; rw [add_div, add_div, div_self hS.ne']
    rwa [this] at h'
  generalize c + e = b at *
  obtain ⟨x0, x1, x2⟩ := floorMul b0 hp
  obtain ⟨y0, y1, y2⟩ := floorMul x0 he
  obtain ⟨z1, z2⟩ := floorVal (b * price / S * excess / S)
  have P0 := val_nonneg hp
  have E0 := val_nonneg he
  have A0 := val_nonneg a0
  have B0 := val_nonneg b0
  constructor
  · have h1 : val a * val price * val excess ≤ val b * val price * val excess :=
      mul_le_mul_of_nonneg_right (mul_le_mul_of_nonneg_right b1 P0) E0
    have h2 : val b * val price * val excess ≤ (val (b * price / S) + 1 / S) * val excess := mul_le_mul_of_nonneg_right x2.le E0
    have h3 : (val (b * price / S) + 1 / S) * val excess = val (b * price / S) * val excess + val excess / S := by ring
    have h4 : (val excess + 1) / S = val excess / S + 1 / S := add_div _ _ _
    linarith
  · have h1 : val b * val price * val excess ≤ (val a + 1 + val e) * val price * val excess :=
      mul_le_mul_of_nonneg_right (mul_le_mul_of_nonneg_right b2 P0) E0
    have h2 : val (b * price / S) * val excess ≤ val b * val price * val excess := mul_le_mul_of_nonneg_right x1 E0
    linarith

theorem sell_spec {amount : I80F48} (ha : 0 ≤ amount) {n : Int} (h : sellInput amount = .ok n) :
    0 ≤ n ∧ (n : ℚ) ≤ 99 / 100 * val amount ∧ 99 / 100 * val amount < n + 1 + (val amount + 1) / S := by
  have hS := S_posQ
  unfold sellInput at h
  simp only [bind_ok, mul_ok, Perp.toU64, cku64_ok, Fx.toInt] at h
  obtain ⟨x, ⟨rfl, _⟩, rfl, hr⟩ := h
  have hc : (0 : Int) ≤ C099 := by decide
  have c1 : val C099 ≤ 99 / 100 := by unfold val C099 S; norm_num
  have c2 : 99 / 100 < val C099 + 1 / S := by unfold val C099 S; norm_num
  obtain ⟨x0, x1, x2⟩ := floorMul ha hc
  obtain ⟨z1, z2⟩ := floorVal (amount * C099 / S)
  have A0 := val_nonneg ha
  refine ⟨hr.1, ?_, ?_⟩
  · nlinarith
  · have h1 : 99 / 100 * val amount ≤ (val C099 + 1 / S) * val amount := mul_le_mul_of_nonneg_right c2.le A0
    have h2 : (val C099 + 1 / S) * val amount = val amount * val C099 + val amount / S := by ring
    have h3 : (val amount + 1) / S = val amount / S + 1 / S := add_div _ _ _
    linarith

/-- C94: what swaps do to a token balance: nothing for the quote token and for tokens to skip. A borrow is bought back: for the borrow's value times the configured excess, up to rounding, and at most for one token unit and one
dust threshold more. Of a balance above the dust threshold 99% are sold, and otherwise nothing. What is then known to be a dust balance is withdrawn completely, if that is allowed and the position is not in use -/
theorem C94_swap {rnd : ℚ → ℚ} {c : Cfg} {quote : Nat} {t : Tok} (hl : c.useLimit = false) (hp : 0 < t.price) (he : 0 ≤ c.excess) {acts : List TokenAct} (h : tokenActs rnd c quote t = .ok acts) :
    (t.index = quote ∨ t.index ∈ c.skip → acts = []) ∧
    (¬(t.index = quote ∨ t.index ∈ c.skip) → ∃ (dust : I80F48) (swap : List TokenAct), dustSwap t.price = .ok dust ∧
      (t.amount < 0 → ∃ n, swap = [.buy n] ∧ |val t.amount| * val t.price * val c.excess < n + 1 + (val c.excess + 1) / S ∧
        (n : ℚ) ≤ (|val t.amount| + 1 + max (val dust - 1) 0) * val t.price * val c.excess) ∧
      (0 ≤ t.amount → t.amount ≤ dust → swap = []) ∧
      (dust < t.amount → ∃ n, swap = [.sell n] ∧ 0 ≤ n ∧ (n : ℚ) ≤ 99 / 100 * val t.amount ∧ 99 / 100 * val t.amount < n + 1 + (val t.amount + 1) / S) ∧
      acts = swap ++ (if 0 < t.fresh.getD t.amount ∧ t.fresh.getD t.amount ≤ dust ∧ t.inUse = false ∧ c.allowWithdraws = true then [.withdrawAll] else [])) := by
  unfold tokenActs at h
  by_cases hs : t.index = quote ∨ t.index ∈ c.skip
  · rw [if_pos hs, ok_inj] at h
    exact ⟨fun _ => h.symm, fun hn => absurd hs hn⟩
  · rw [if_neg hs, hl] at h
    refine ⟨fun hn => absurd hn hs, fun _ => ?_⟩
    simp only [bind_ok, Bool.false_eq_true, if_false] at h
    obtain ⟨dust, hd, ⟨sw, amt⟩, hu, h⟩ := h
    rw [ok_inj] at h
    obtain ⟨d0, -, -⟩ := C94_dust hp hd
    have d0' : (0 : Int) ≤ dust := d0
    refine ⟨dust, sw, hd, ?_⟩
    unfold unwindSwap at hu
    by_cases h1 : t.amount < 0
    · rw [if_pos h1] at hu
      simp only [bind_ok, ok_inj, Prod.mk.injEq] at hu
      obtain ⟨n, hn, rfl, rfl⟩ := hu
      refine ⟨fun _ => ⟨n, rfl, buy_spec hp.le he hn⟩, fun h2 => absurd h1 (not_lt.2 h2), fun h2 => ?_, h.symm⟩
      exact absurd h1 (by have h3 : dust < t.amount := h2; omega)
    · rw [if_neg h1] at hu
      by_cases h2 : t.amount > dust
      · rw [if_pos h2] at hu
        simp only [bind_ok, ok_inj, Prod.mk.injEq] at hu
        obtain ⟨n, hn, rfl, rfl⟩ := hu
        exact ⟨fun h3 => absurd h3 h1, fun _ h3 => absurd h2 (not_lt.2 h3), fun _ => ⟨n, rfl, sell_spec (not_lt.1 h1) hn⟩, h.symm⟩
      · rw [if_neg h2] at hu
        simp only [ok_inj, Prod.mk.injEq] at hu
        obtain ⟨rfl, rfl⟩ := hu
        exact ⟨fun h3 => absurd h3 h1, fun _ _ => rfl, fun h3 => absurd h3 h2, h.symm⟩

theorem margin_spec {rnd : ℚ → ℚ} {ε : ℚ} (R : Stable.IsRnd rnd ε) (he : ε ≤ 1 / 1000) {q : Int} (h0 : 0 ≤ q) (h1 : q ≤ U64MAX) : q ≤ margin rnd q ∧ (margin rnd q : ℚ) ≤ 102 / 100 * q := by
  have q0 : (0 : ℚ) ≤ q := by exact_mod_cast h0
  have eps := R.eps
  have a1 := (abs_le.1 (R.err (q : ℚ))).1
  have a2 := (abs_le.1 (R.err (q : ℚ))).2
  rw [abs_of_nonneg q0] at a1 a2
  have b1 := (abs_le.1 (R.err (101 / 100 : ℚ))).1
  have b2 := (abs_le.1 (R.err (101 / 100 : ℚ))).2
  rw [abs_of_nonneg (by norm_num : (0 : ℚ) ≤ 101 / 100)] at b1 b2
  have u0 : 0 ≤ rnd (q : ℚ) := Stable.rnd_nonneg R q0
  have v0 : 0 ≤ rnd (101 / 100 : ℚ) := Stable.rnd_nonneg R (by norm_num)
  have u1 : 999 / 1000 * (q : ℚ) ≤ rnd (q : ℚ) := by nlinarith
  have u2 : rnd (q : ℚ) ≤ 1001 / 1000 * (q : ℚ) := by nlinarith
  have v1 : 1008 / 1000 ≤ rnd (101 / 100 : ℚ) := by linarith
  have v2 : rnd (101 / 100 : ℚ) ≤ 1012 / 1000 := by linarith
  have w0 : 0 ≤ rnd (q : ℚ) * rnd (101 / 100) := mul_nonneg u0 v0
  have w1 : 999 / 1000 * (q : ℚ) * (1008 / 1000) ≤ rnd (q : ℚ) * rnd (101 / 100) := mul_le_mul u1 v1 (by norm_num) u0
  have w2 : rnd (q : ℚ) * rnd (101 / 100) ≤ 1001 / 1000 * (q : ℚ) * (1012 / 1000) := mul_le_mul u2 v2 v0 (by linarith)
  have c1 := (abs_le.1 (R.err (rnd (q : ℚ) * rnd (101 / 100)))).1
  have c2 := (abs_le.1 (R.err (rnd (q : ℚ) * rnd (101 / 100)))).2
  rw [abs_of_nonneg w0] at c1 c2
  unfold margin
  generalize rnd (q : ℚ) * rnd (101 / 100) = w at *
  have r1 : (q : ℚ) ≤ rnd w := by nlinarith
  have r2 : rnd w ≤ 102 / 100 * q := by nlinarith
  have f1 : q ≤ ⌊rnd w⌋ := Int.le_floor.2 r1
  have f2 : (⌊rnd w⌋ : ℚ) ≤ rnd w := Int.floor_le _
  have f3 : min (max ⌊rnd w⌋ 0) U64MAX ≤ ⌊rnd w⌋ := by
    rw [max_eq_left (by omega)]; exact min_le_left _ _
  have f4 : ((min (max ⌊rnd w⌋ 0) U64MAX : Int) : ℚ) ≤ (⌊rnd w⌋ : Int) := by exact_mod_cast f3
  exact ⟨le_min (le_trans f1 (le_max_left _ _)) h1, by linarith⟩

/-- the worst price the bot accepts in a limit order, in price lots: the oracle price, moved against it by the configured distance -/
def worst (bid : Bool) (price : I80F48) (dist coinLot pcLot : Int) : ℚ :=
  val price * (if bid then 1 + (dist : ℚ) / 10000 else 1 - (dist : ℚ) / 10000) * coinLot / pcLot

theorem price_spec {bid : Bool} {dist coinLot pcLot : Int} {price d s f x y : I80F48} {n : Int} (hp : 0 ≤ price) (hd : 0 ≤ dist) (hd1 : dist ≤ 10000) (hc : 0 < coinLot) (hpc : 0 < pcLot)
    (h1 : Fx.mulInt (ofInt dist) (if bid then 1 else -1) = .ok d) (h2 : Fx.add (ofInt 10000) d = .ok s) (h3 : Fx.div s (ofInt 10000) = .ok f) (h4 : Fx.mul price f = .ok x)
    (h5 : Fx.mul x (ofInt coinLot) = .ok y) (h6 : Perp.toU64 y = .ok n) :
    0 ≤ n / pcLot ∧ ((n / pcLot : Int) : ℚ) ≤ worst bid price dist coinLot pcLot ∧
    worst bid price dist coinLot pcLot < ((n / pcLot : Int) : ℚ) + 1 + (val price + 1) * coinLot / (pcLot * S) := by
  have hS := S_posQ
  have hSi := S_pos
  simp only [mulInt_ok, add_ok, div_ok, mul_ok, Perp.toU64, cku64_ok, Fx.toInt, ofInt] at h1 h2 h3 h4 h5 h6
  obtain ⟨rfl, -⟩ := h1
  obtain ⟨rfl, -⟩ := h2
  obtain ⟨-, rfl, -⟩ := h3
  obtain ⟨rfl, -⟩ := h4
  obtain ⟨rfl, -⟩ := h5
  obtain ⟨rfl, hn, -⟩ := h6
  -- the fraction
  generalize hw : (if bid then (1 : Int) else -1) = w at *
  have hw' : ((if bid then 1 + (dist : ℚ) / 10000 else 1 - (dist : ℚ) / 10000)) = ((10000 + dist * w : Int) : ℚ) / 10000 := by
    push_cast
    rw [← hw]
    cases bid <;> simp <;> ring
  have hg : 0 ≤ 10000 + dist * w := by
    rw [← hw]
    cases bid <;> simp <;> omega
  have e0 : 10000 * S + dist * S * w = (10000 + dist * w) * S := by ring
  unfold worst
  rw [hw']
  rw [e0] at *
  generalize 10000 + dist * w = g at *
  have t0 : Int.tdiv (g * S * S) (10000 * S) = g * S / 10000 := by
    rw [Int.tdiv_eq_ediv_of_nonneg (Int.mul_nonneg (Int.mul_nonneg hg hSi.le) hSi.le), Int.mul_ediv_mul_of_pos_left _ _ hSi]
  rw [t0] at *
  have f0 : 0 ≤ g * S / 10000 := Int.ediv_nonneg (Int.mul_nonneg hg hSi.le) (by decide)
  have f1 : val (g * S / 10000) ≤ (g : ℚ) / 10000 := by
    have l1 : g * S / 10000 * 10000 ≤ g * S := Int.ediv_mul_le (g * S) (by decide)
    have q1 : ((g * S / 10000 : Int) : ℚ) * 10000 ≤ g * S := by exact_mod_cast l1
    unfold val
    rw [div_le_div_iff₀ hS (by norm_num)]
    exact q1
  have f2 : (g : ℚ) / 10000 < val (g * S / 10000) + 1 / S := by
    have l2 := Int.lt_ediv_add_one_mul_self (g * S) (show (0 : Int) < 10000 by decide)
    have q2 : (g : ℚ) * S < ((g * S / 10000 : Int) + 1) * 10000 := by exact_mod_cast l2
    unfold val
    rw [← add_div, div_lt_div_iff₀ (by norm_num) hS]
    exact q2
  generalize g * S / 10000 = f at *
  obtain ⟨x0, x1, x2⟩ := floorMul hp f0
  generalize price * f / S = x at *
  have e1 : x * (coinLot * S) / S = x * coinLot := by
    rw [← Int.mul_assoc]; exact Int.mul_ediv_cancel _ (by omega)
  rw [e1] at *
  have e2 : x * coinLot / S / pcLot = x * coinLot / (S * pcLot) := by rw [Int.ediv_ediv_of_nonneg hSi.le]
  rw [e2]
  have xc : 0 ≤ x * coinLot := Int.mul_nonneg x0 hc.le
  have hD : 0 < S * pcLot := Int.mul_pos hSi hpc
  have l1 := Int.ediv_mul_le (x * coinLot) hD.ne'
  have l2 := Int.lt_ediv_add_one_mul_self (x * coinLot) hD
  have l0 : 0 ≤ x * coinLot / (S * pcLot) := Int.ediv_nonneg xc hD.le
  generalize x * coinLot / (S * pcLot) = n at *
  have q1 : (n : ℚ) * (S * pcLot) ≤ x * coinLot := by exact_mod_cast l1
  have q2 : (x : ℚ) * coinLot < (n + 1) * (S * pcLot) := by exact_mod_cast l2
  have cq : (0 : ℚ) < coinLot := by exact_mod_cast hc
  have pq : (0 : ℚ) < pcLot := by exact_mod_cast hpc
  have P0 := val_nonneg hp
  have r1 : (n : ℚ) * pcLot ≤ val x * coinLot := by
    unfold val
    rw [div_mul_eq_mul_div, le_div_iff₀ hS]; linarith
  have r2 : val x * coinLot < (n + 1) * pcLot := by
    unfold val
    rw [div_mul_eq_mul_div, div_lt_iff₀ hS]; linarith
  have k1 : val price * val f ≤ val price * ((g : ℚ) / 10000) := mul_le_mul_of_nonneg_left f1 P0
  have k2 : val price * ((g : ℚ) / 10000) ≤ val price * (val f + 1 / S) := mul_le_mul_of_nonneg_left f2.le P0
  have k3 : val price * (val f + 1 / S) = val price * val f + val price / S := by ring
  have k4 : (val price + 1) / S = val price / S + 1 / S := add_div _ _ _
  refine ⟨l0, ?_, ?_⟩
  · rw [le_div_iff₀ pq]
    have : val x * coinLot ≤ val price * ((g : ℚ) / 10000) * coinLot := mul_le_mul_of_nonneg_right (by linarith) cq.le
    linarith
  · rw [div_lt_iff₀ pq]
    have a1 : val price * ((g : ℚ) / 10000) * coinLot ≤ (val x + (val price + 1) / S) * coinLot := mul_le_mul_of_nonneg_right (by linarith) cq.le
    have a2 : (val x + (val price + 1) / S) * coinLot = val x * coinLot + (val price + 1) / S * coinLot := by ring
    have a3 : ((n : ℚ) + 1 + (val price + 1) * coinLot / (pcLot * S)) * pcLot = (n + 1) * pcLot + (val price + 1) / S * coinLot := by
      field_simp
    rw [a3]
    linarith

/-- C94: what limit orders do to a token balance: nothing for the quote token, for tokens to skip and below one lot of a deposit. A borrow is bought back with a bid and a deposit sold with an ask, for the whole lots in it, and
for one lot if it is a borrow smaller than that; at the oracle price moved by the configured distance, rounded down to a price lot; the quote limit covers the order. A deposit below a lot is withdrawn, if that is allowed and the
position is not in use -/
theorem C94_limit {rnd : ℚ → ℚ} {ε : ℚ} (R : Stable.IsRnd rnd ε) (hε : ε ≤ 1 / 1000) {c : Cfg} {quote : Nat} {t : Tok} (hl : c.useLimit = true) {coinLot pcLot : Int} (hm : t.market = some (coinLot, pcLot))
    (hc : 0 < coinLot) (hpc : 0 < pcLot) (hp : 0 ≤ t.price) (hd : 0 ≤ c.dist) (hd1 : c.dist ≤ 10000) {acts : List TokenAct} (h : tokenActs rnd c quote t = .ok acts) :
    (t.index = quote ∨ t.index ∈ c.skip → acts = []) ∧
    (¬(t.index = quote ∨ t.index ∈ c.skip) → ∃ ord : List TokenAct,
      (0 ≤ t.amount → val t.amount < coinLot → ord = []) ∧
      (t.amount < 0 ∨ coinLot ≤ val t.amount → ∃ limit lots maxQuote : Int, ord = [.limit (decide (t.amount < 0)) limit lots maxQuote] ∧
        0 < lots ∧ (lots * coinLot ≤ |val t.amount| ∨ (lots = 1 ∧ t.amount < 0)) ∧ |val t.amount| < (lots + 1) * coinLot ∧
        limit ≤ worst (decide (t.amount < 0)) t.price c.dist coinLot pcLot ∧
        worst (decide (t.amount < 0)) t.price c.dist coinLot pcLot < limit + 1 + (val t.price + 1) * coinLot / (pcLot * S) ∧
        limit * lots * pcLot ≤ maxQuote ∧ (maxQuote : ℚ) ≤ 102 / 100 * (limit * lots * pcLot)) ∧
      acts = ord ++ (if 0 < t.amount ∧ t.amount ≤ ofInt (coinLot - 1) ∧ t.inUse = false ∧ c.allowWithdraws = true then [.withdrawAll] else [])) := by
  have hS := S_posQ
  have hSi := S_pos
  unfold tokenActs at h
  by_cases hs : t.index = quote ∨ t.index ∈ c.skip
  · rw [if_pos hs, ok_inj] at h
    exact ⟨fun _ => h.symm, fun hn => absurd hs hn⟩
  rw [if_neg hs, hl, hm] at h
  refine ⟨fun hn => absurd hn hs, fun _ => ?_⟩
  simp only [bind_ok, cku64_ok, if_true] at h
  obtain ⟨dl, ⟨rfl, _⟩, ord, ho, h⟩ := h
  rw [ok_inj] at h
  refine ⟨ord, ?_⟩
  have hcS : (0 : Int) < coinLot * S := Int.mul_pos hc hSi
  have cS : (0 : ℚ) < coinLot * S := by exact_mod_cast hcS
  have ea : ∀ n : Int, ((n : ℚ) * coinLot ≤ |val t.amount| ↔ n * (coinLot * S) ≤ |t.amount|) ∧ (|val t.amount| < (n : ℚ) * coinLot ↔ |t.amount| < n * (coinLot * S)) := by
    intro n
    have e1 : |val t.amount| = ((|t.amount| : Int) : ℚ) / S := by
      unfold val
      rw [abs_div, abs_of_pos hS]; push_cast; rfl
    rw [e1]
    constructor
    · rw [le_div_iff₀ hS, mul_assoc]; exact_mod_cast Iff.rfl
    · rw [div_lt_iff₀ hS, mul_assoc]; exact_mod_cast Iff.rfl
  unfold limitOrder at ho
  by_cases hz : 0 ≤ t.amount ∧ t.amount < ofInt (coinLot - 1)
  · rw [if_pos hz, ok_inj] at ho
    refine ⟨fun _ _ => ho.symm, fun hor => ?_, h.symm⟩
    exfalso
    rcases hor with hor | hor
    · exact absurd hor (not_lt.2 hz.1)
    · have h1 := (ea 1).1.1 (by rw [abs_of_nonneg (val_nonneg hz.1)]; push_cast; linarith)
      rw [abs_of_nonneg (show (0 : Int) ≤ t.amount from hz.1)] at h1
      have h2 : t.amount < (coinLot - 1) * S := hz.2
      have h3 : (coinLot - 1) * S = coinLot * S - S := by ring
      omega
  · rw [if_neg hz] at ho
    simp only [bind_ok, require_ok, abs_ok', Perp.toU64, cku64_ok, div_ok, Fx.toInt] at ho
    obtain ⟨d, h1, s, h2, f, h3, x, h4, y, h5, n, h6, _, hne, a, ⟨rfl, _⟩, b, ⟨_, rfl, _⟩, l, ⟨rfl, hl0⟩, ho⟩ := ho
    have habs : (if t.amount < 0 then -t.amount else t.amount) = |t.amount| := by
      split
      · rw [abs_of_neg (by assumption)]
      · rw [abs_of_nonneg (by omega)]
    rw [habs] at ho
    have a0 : 0 ≤ |t.amount| := abs_nonneg _
    have el : Int.tdiv (|t.amount| * S) (ofInt coinLot) / S = |t.amount| / (coinLot * S) := by
      unfold ofInt
      rw [Int.tdiv_eq_ediv_of_nonneg (Int.mul_nonneg a0 hSi.le), Int.mul_ediv_mul_of_pos_left _ _ hSi, Int.ediv_ediv_of_nonneg hc.le]
    rw [el] at ho
    have l1 := Int.ediv_mul_le |t.amount| hcS.ne'
    have l2 := Int.lt_ediv_add_one_mul_self |t.amount| hcS
    have l0 : 0 ≤ |t.amount| / (coinLot * S) := Int.ediv_nonneg a0 hcS.le
    generalize |t.amount| / (coinLot * S) = l at *
    have h6' : Perp.toU64 y = .ok n := by simp only [Perp.toU64, cku64_ok, Fx.toInt]; exact h6
    have h3' : Fx.div s (ofInt 10000) = .ok f := by rw [div_ok]; exact h3
    obtain ⟨p0, p1, p2⟩ := price_spec hp hd hd1 hc hpc h1 h2 h3' h4 h5 h6'
    by_cases hlz : (if l = 0 ∧ t.amount < 0 then 1 else l) = 0
    · rw [if_pos hlz, ok_inj] at ho
      refine ⟨fun _ _ => ho.symm, fun hor => ?_, h.symm⟩
      exfalso
      by_cases hb : t.amount < 0
      · by_cases hl1 : l = 0
        · rw [if_pos ⟨hl1, hb⟩] at hlz; omega
        · rw [if_neg (fun h => hl1 h.1)] at hlz; exact hl1 hlz
      · rw [if_neg (fun h => hb h.2)] at hlz
        subst hlz
        rcases hor with hor | hor
        · exact hb hor
        · have h1 := (ea 1).1.1 (by rw [abs_of_nonneg (val_nonneg (not_lt.1 hb))]; push_cast; linarith)
          omega
    · rw [if_neg hlz] at ho
      simp only [bind_ok, cku64_ok, ok_inj] at ho
      obtain ⟨q1, ⟨rfl, _⟩, q2, ⟨rfl, hq0, hq1⟩, rfl⟩ := ho
      obtain ⟨m1, m2⟩ := margin_spec R hε hq0 hq1
      have hpos : 0 < (if l = 0 ∧ t.amount < 0 then 1 else l) := by
        split
        · omega
        · rename_i hh
          rw [if_neg hh] at hlz
          omega
      refine ⟨fun h7 h8 => ?_, fun _ => ?_, h.symm⟩
      · exfalso
        have h9 := (ea 1).2.1 (by rw [abs_of_nonneg (val_nonneg h7)]; push_cast; linarith)
        rw [if_neg (fun hh => absurd hh.2 (not_lt.2 h7))] at hlz
        have : 1 * (coinLot * S) ≤ l * (coinLot * S) := Int.mul_le_mul_of_nonneg_right (by omega) hcS.le
        omega
      · refine ⟨n / pcLot, (if l = 0 ∧ t.amount < 0 then 1 else l), _, rfl, hpos, ?_, ?_, p1, p2, m1, by push_cast at m2 ⊢; exact m2⟩
        · by_cases hh : l = 0 ∧ t.amount < 0
          · rw [if_pos hh]; exact Or.inr ⟨rfl, hh.2⟩
          · rw [if_neg hh]; exact Or.inl ((ea l).1.2 l1)
        · have : |val t.amount| < ((l + 1 : Int) : ℚ) * coinLot := (ea (l + 1)).2.2 l2
          refine lt_of_lt_of_le this (mul_le_mul_of_nonneg_right ?_ (by exact_mod_cast hc.le))
          have : l + 1 ≤ (if l = 0 ∧ t.amount < 0 then 1 else l) + 1 := by split <;> omega
          exact_mod_cast this

/-! ## Swap routes -/

/-- the value of what a swap pays out minus the value of what it takes, at oracle prices (in units of 2^-48) -/
def worth (r : Route) : Int := r.outPrice * r.outAmount - r.inPrice * r.inAmount

theorem gain_worth {r : Route} {g : I80F48} (h : r.gain = .ok g) : g = worth r := by
  simp only [Route.gain, bind_ok, mul_ok, sub_ok] at h
  obtain ⟨a, ⟨rfl, _⟩, b, ⟨rfl, _⟩, rfl, _⟩ := h
  have hS := S_pos
  unfold worth ofInt
  rw [← Int.mul_assoc, ← Int.mul_assoc, Int.mul_ediv_cancel _ hS.ne', Int.mul_ediv_cancel _ hS.ne']

theorem gains_spec {l : List Route} {g : List (Route × I80F48)} (h : gains l = .ok g) : g.map (·.1) = l ∧ ∀ x ∈ g, x.1.gain = .ok x.2 := by
  induction l generalizing g with
  | nil => cases h; simp
  | cons r rs ih =>
    simp only [gains, bind_ok, ok_inj] at h
    obtain ⟨v, hv, l, hl, rfl⟩ := h
    obtain ⟨i1, i2⟩ := ih hl
    refine ⟨by simp [i1], ?_⟩
    intro x hx
    rcases List.mem_cons.1 hx with rfl | hx
    · exact hv
    · exact i2 x hx

theorem firstFit_ok {fits : Route → Res Bool} {l : List (Route × I80F48)} (hs : l.Pairwise (fun a b => b.2 ≤ a.2)) {r : Route} (h : firstFit fits (l.map (·.1)) = .ok r) :
    ∃ g, (r, g) ∈ l ∧ fits r = .ok true ∧ ∀ x ∈ l, g < x.2 → fits x.1 = .ok false := by
  induction l with
  | nil => cases h
  | cons a l ih =>
    simp only [List.map_cons, firstFit, bind_ok] at h
    obtain ⟨ok, hok, h⟩ := h
    obtain ⟨p1, p2⟩ := List.pairwise_cons.1 hs
    cases ok with
    | true =>
      rw [if_pos rfl, ok_inj] at h
      subst h
      refine ⟨a.2, by simp, hok, ?_⟩
      intro x hx hlt
      rcases List.mem_cons.1 hx with rfl | hx
      · exact absurd hlt (lt_irrefl _)
      · exact absurd hlt (not_lt.2 (p1 x hx))
    | false =>
      rw [if_neg (by decide)] at h
      obtain ⟨g, h1, h2, h3⟩ := ih p2 h
      refine ⟨g, by simp [h1], h2, ?_⟩
      intro x hx hlt
      rcases List.mem_cons.1 hx with rfl | hx
      · exact hok
      · exact h3 x hx hlt

theorem firstFit_err {fits : Route → Res Bool} {l : List Route} {e : Err} (h : firstFit fits l = .error e) : (∀ r ∈ l, fits r = .ok false) ∨ ∃ r ∈ l, fits r = .error e := by
  induction l with
  | nil => left; simp
  | cons a l ih =>
    simp only [firstFit] at h
    cases hf : fits a with
    | error e' =>
      rw [hf] at h
      cases h
      exact Or.inr ⟨a, by simp, hf⟩
    | ok b =>
      rw [hf] at h
      cases b with
      | true => simp only [bind, Except.bind, if_true] at h; cases h
      | false =>
        have h : firstFit fits l = .error e := h
        rcases ih h with h1 | ⟨r, h1, h2⟩
        · left
          intro r hr
          rcases List.mem_cons.1 hr with rfl | hr
          · exact hf
          · exact h1 r hr
        · exact Or.inr ⟨r, by simp [h1], h2⟩

/-- C94: the route taken fits into a transaction, and every route that gains more at oracle prices does not -/
theorem C94_route {fits : Route → Res Bool} {routes : List Route} {r : Route} (h : bestRoute fits routes = .ok r) :
    r ∈ routes ∧ fits r = .ok true ∧ ∀ r' ∈ routes, worth r < worth r' → fits r' = .ok false := by
  unfold bestRoute at h
  simp only [bind_ok] at h
  obtain ⟨l, hl, h⟩ := h
  obtain ⟨g1, g2⟩ := gains_spec hl
  have tot : Std.Total (fun a b : Route × I80F48 => b.2 ≤ a.2) := ⟨fun a b => (Int.le_total b.2 a.2)⟩
  have trn : IsTrans (Route × I80F48) (fun a b => b.2 ≤ a.2) := ⟨fun a b c h1 h2 => Int.le_trans h2 h1⟩
  have srt := List.pairwise_insertionSort (fun a b : Route × I80F48 => b.2 ≤ a.2) l
  obtain ⟨g, h1, h2, h3⟩ := firstFit_ok srt h
  have m1 : (r, g) ∈ l := (List.mem_insertionSort _).1 h1
  refine ⟨?_, h2, ?_⟩
  · rw [← g1]; exact List.mem_map.2 ⟨_, m1, rfl⟩
  · intro r' hr' hlt
    rw [← g1] at hr'
    obtain ⟨x, hx, rfl⟩ := List.mem_map.1 hr'
    rw [← gain_worth (g2 _ m1), ← gain_worth (g2 x hx)] at hlt
    exact h3 x ((List.mem_insertionSort _).2 hx) hlt

/-- C94: if no route is taken, none fits, or a route's gain overflows, or preparing some route failed -/
theorem C94_no_route {fits : Route → Res Bool} {routes : List Route} {e : Err} (h : bestRoute fits routes = .error e) :
    (∀ r ∈ routes, fits r = .ok false) ∨ (∃ r ∈ routes, fits r = .error e) ∨ gains routes = .error e := by
  unfold bestRoute at h
  cases hl : gains routes with
  | error e' => rw [hl] at h; cases h; exact Or.inr (Or.inr rfl)
  | ok l =>
    rw [hl] at h
    have h : firstFit fits ((l.insertionSort (fun a b => b.2 ≤ a.2)).map (·.1)) = .error e := h
    obtain ⟨g1, _⟩ := gains_spec hl
    have mem : ∀ r, r ∈ (l.insertionSort (fun a b => b.2 ≤ a.2)).map (·.1) ↔ r ∈ routes := by
      intro r
      rw [← g1]
      simp only [List.mem_map, List.mem_insertionSort]
    rcases firstFit_err h with h1 | ⟨r, h1, h2⟩
    · exact Or.inl (fun r hr => h1 r ((mem r).2 hr))
    · exact Or.inr (Or.inl ⟨r, (mem r).1 h1, h2⟩)

/-- C94: a route that cannot be prepared makes the bot drop the others as well, although they would fit -/
theorem C94_route_dropped : ∃ (fits : Route → Res Bool) (good bad : Route), fits good = .ok true ∧ bestRoute fits [good] = .ok good ∧ bestRoute fits [good, bad] = .error .someError :=
  ⟨fun r => if r.id = 1 then .ok true else .error .someError, ⟨1, 100, 101, S, S⟩, ⟨2, 100, 102, S, S⟩, by decide +kernel, by decide +kernel, by decide +kernel⟩

/-! ## Spot open orders accounts -/

/-- C94: the transaction that closes and then settles an open orders account never succeeds: after the first instruction the account has no open orders account for the market, so the second is refused -/
theorem C94_close_then_settle {mk : Slots.Markets} {a : Slots.Acc} (hr : Slots.Reach mk a) {m : Nat} (hm : m ≠ Slots.FREE) (settle : Slots.Acc → Res Slots.Acc) (a' : Slots.Acc) :
    closeAndSettle mk settle a m ≠ .ok a' := by
  intro h
  unfold closeAndSettle at h
  simp only [bind_ok] at h
  obtain ⟨b, hb, u, hu, _⟩ := h
  have hI := Slots.C32_unique hr
  unfold Slots.closeSerum at hb
  split at hb
  · simp only [bind_ok] at hb
    obtain ⟨t1, _, t2, _, hb⟩ := hb
    split at hb
    · cases hb
    · rename_i raw hraw
      split at hb
      · cases hb
      · rename_i p hp
        cases hb
        obtain ⟨hlt, hpm, _⟩ := List.findIdx?_eq_some_iff_getElem.1 hraw
        have hpp : a.serums[raw] = p := by
          have := List.getElem?_eq_getElem hlt
          rw [hp] at this
          exact (Option.some.inj this).symm
        have hpm' : p.market = m := by rw [← hpp]; simpa using hpm
        unfold settleCheck at hu
        split at hu
        · rename_i hany
          obtain ⟨q, hq, hqm⟩ := List.any_eq_true.1 hany
          have hqm : q.market = m := by simpa using hqm
          obtain ⟨j, hj⟩ := List.mem_iff_getElem?.1 hq
          have hj' : (a.serums.set raw { p with market := Slots.FREE })[j]? = some q := hj
          by_cases hjr : raw = j
          · subst hjr
            rw [List.getElem?_set_self hlt] at hj'
            have := Option.some.inj hj'
            rw [← this] at hqm
            exact hm hqm.symm
          · rw [List.getElem?_set_ne hjr] at hj'
            exact hjr (hI.2.1 raw j p q hp hj' (by rw [hpm']; exact hm) (by rw [hpm', hqm]))
        · cases hu
  · cases hb

/-- C94: while the bot has an open orders account without reserved funds, no token is rebalanced -/
theorem C94_blocked {rnd : ℚ → ℚ} {mk : Slots.Markets} {a : Slots.Acc} (hr : Slots.Reach mk a) (settle : Slots.Acc → Res Slots.Acc) {c : Cfg} {quote : Nat} {oos : List (Nat × Int × Int)}
    (hoo : ∀ x ∈ oos, x.1 ≠ Slots.FREE) {m : Nat} (hm : (m, 0, 0) ∈ oos) (ts : List Tok) (acts : List (Nat × List TokenAct)) :
    rebalanceTokens rnd mk settle c quote a oos ts ≠ .ok acts := by
  intro h
  unfold rebalanceTokens at h
  simp only [bind_ok] at h
  obtain ⟨b, hb, -⟩ := h
  induction oos with
  | nil => cases hm
  | cons x l ih =>
    obtain ⟨n, rb, rq⟩ := x
    simp only [closeAll] at hb
    by_cases hz : rb ≠ 0 ∨ rq ≠ 0
    · rw [if_pos hz] at hb
      rcases List.mem_cons.1 hm with e | hm'
      · cases e
        rcases hz with hz | hz <;> exact hz rfl
      · exact ih (fun x hx => hoo x (by simp [hx])) hm' hb
    · rw [if_neg hz] at hb
      simp only [bind_ok] at hb
      obtain ⟨a', ha', _⟩ := hb
      exact C94_close_then_settle hr (hoo (n, rb, rq) (by simp)) settle a' ha'

/-! ## Concrete cases -/

/-- a long position of 5 lots with 2 lots of own asks, against a book whose best bid is 100: the other 3 lots are sold at 1% below the oracle price; a short position finds no asks -/
example : perpAct { baseLotSize := 10, quoteLotSize := 1 } (S / 100) (10 * S) { base := 5, asks := 2 } Perp.exSt.book.get 0 (fun _ => .ok []) = .ok (.reduce .ask 99 3) := by decide +kernel
example : perpAct { baseLotSize := 10, quoteLotSize := 1 } (S / 100) (10 * S) { base := -5, bids := 2 } Perp.exSt.book.get 0 (fun _ => .ok []) = .ok .nothing := by decide +kernel
example : perpAct { baseLotSize := 10, quoteLotSize := 1 } (S / 100) (10 * S) { quote := -7 } Perp.exSt.book.get 0 (fun b => .ok (if b then [1] else [2, 3])) = .ok (.settle false 2) := by decide +kernel

/-- swaps: a borrow of 1000 tokens worth 0.01 each is bought back with an excess of 5%, the 150 tokens too many are withdrawn; a deposit is sold but for 1% -/
example : tokenActs id ⟨false, true, S + S / 20, 100, []⟩ 0 ⟨1, false, S / 100, none, -(1000 * S + 5), some (150 * S)⟩ = .ok [.buy 12, .withdrawAll] := by decide +kernel
example : tokenActs id ⟨false, true, S + S / 20, 100, []⟩ 0 ⟨1, false, S / 100, none, 1000 * S + 5, none⟩ = .ok [.sell 989] := by decide +kernel

theorem margin_id : margin id 3000 = 3030 ∧ margin id 300 = 303 ∧ margin id 2900 = 2929 := by
  have e : ∀ n : ℚ, id (id n * id (101 / 100)) = n * (101 / 100) := fun _ => rfl
  unfold margin
  refine ⟨?_, ?_, ?_⟩
  · rw [e]; norm_num [U64MAX]
  · rw [e]; norm_num [U64MAX]
  · rw [e]
    have : ⌊((2900 : Int) : ℚ) * (101 / 100)⌋ = 2929 := by rw [Int.floor_eq_iff]; norm_num
    rw [this]; decide

/-- limit orders at 1% from the oracle price, one lot is 100 tokens: for 10 lots of a borrow of 1050, for a whole lot of a borrow of 50, for 10 lots of a deposit of 1050; a deposit of 50 is withdrawn -/
example : tokenActs id ⟨true, true, S, 100, []⟩ 0 ⟨1, false, 3 * S, some (100, 10), -(1050 * S), none⟩ = .ok [.limit true 30 10 (margin id 3000)] := by rfl
example : tokenActs id ⟨true, true, S, 100, []⟩ 0 ⟨1, false, 3 * S, some (100, 10), -(50 * S), none⟩ = .ok [.limit true 30 1 (margin id 300)] := by rfl
example : tokenActs id ⟨true, true, S, 100, []⟩ 0 ⟨1, false, 3 * S, some (100, 10), 1050 * S, none⟩ = .ok [.limit false 29 10 (margin id 2900)] := by rfl
example : tokenActs id ⟨true, true, S, 100, []⟩ 0 ⟨1, false, 3 * S, some (100, 10), 50 * S, none⟩ = .ok [.withdrawAll] := by rfl

/-- routes: the best does not fit, the second best is taken -/
example : bestRoute (fun r => .ok (decide (r.id ≠ 2))) [⟨1, 100, 101, S, S⟩, ⟨2, 100, 103, S, S⟩, ⟨3, 100, 102, S, S⟩] = .ok ⟨3, 100, 102, S, S⟩ := by decide +kernel

/-- the two instructions of the transaction succeed one by one: the account has an open orders account for market 3, and it can be closed -/
example : (Slots.closeSerum Slots.exMk Slots.exAcc 3).toOption.isSome = true ∧ settleCheck Slots.exAcc 3 = .ok () ∧ Slots.exAcc.serums.map (·.market) = [3, 65535] := by decide +kernel

end Rebalance
end Mango
