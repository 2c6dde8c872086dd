import Verif.Misc.Div30
import Mathlib.Algebra.Order.Field.Rat
import Mathlib.Algebra.Order.Field.Basic
import Mathlib.Algebra.Order.Field.Power
import Mathlib.Tactic.Linarith
import Mathlib.Tactic.FieldSimp
import Mathlib.Tactic.Ring
import Mathlib.Tactic.NormNum
/-!
# Accuracy of the reduced-precision division (C42)
-/
namespace Mango
namespace Div30
open Fx

/-- the number an I80F48 stands for -/
def val (x : I80F48) : ℚ := (x : ℚ) / 2 ^ 48

theorem size_le_127 {n : Nat} (h : n < 2 ^ 127) : Nat.size n ≤ 127 := Nat.size_le.mpr h

theorem natdiv_bounds (n k : Nat) : ((n / 2 ^ k : Nat) : ℚ) * (2:ℚ) ^ (k:ℤ) ≤ n ∧ (n : ℚ) + 1 ≤ (((n / 2 ^ k : Nat) : ℚ) + 1) * (2:ℚ) ^ (k:ℤ) := by
  have h1 := Nat.div_mul_le_self n (2 ^ k)
  have h2 := Nat.lt_div_mul_add (a := n) (b := 2 ^ k) (by positivity)
  have h3 : n + 1 ≤ (n / 2 ^ k + 1) * 2 ^ k := by rw [Nat.add_mul, Nat.one_mul]; omega
  rw [zpow_natCast]
  constructor
  · exact_mod_cast h1
  · exact_mod_cast h3

theorem normA_spec {n : Nat} (h : n < 2 ^ 127) : ((normA n).2 : ℚ) * (2:ℚ) ^ (-(normA n).1) ≤ n ∧ (n : ℚ) < (((normA n).2 : ℚ) + 1) * (2:ℚ) ^ (-(normA n).1) ∧
    (n ≠ 0 → 2 ^ 63 ≤ (normA n).2) ∧ (normA n).2 < 2 ^ 64 ∧ -63 ≤ (normA n).1 := by
  have hs := size_le_127 h
  have hlt := Nat.lt_size_self n
  unfold normA lz128
  by_cases hc : 128 - n.size ≥ 64
  · rw [if_pos hc]
    dsimp only
    have he : 128 - n.size - 64 = 64 - n.size := by omega
    rw [he]
    have hp : n * 2 ^ (64 - n.size) < 2 ^ 64 := by
      have : (2:Nat) ^ 64 = 2 ^ n.size * 2 ^ (64 - n.size) := by rw [← pow_add]; congr 1; omega
      rw [this]
      exact Nat.mul_lt_mul_of_pos_right hlt (by positivity)
    rw [Nat.mod_eq_of_lt hp]
    refine ⟨?_, ?_, ?_, hp, by omega⟩
    · rw [zpow_neg, zpow_natCast]; push_cast
      rw [mul_assoc, mul_inv_cancel₀ (show ((2:ℚ) ^ (64 - n.size)) ≠ 0 by positivity), mul_one]
    · rw [zpow_neg, zpow_natCast]; push_cast
      rw [add_mul, mul_assoc, mul_inv_cancel₀ (show ((2:ℚ) ^ (64 - n.size)) ≠ 0 by positivity), mul_one]
      have : (0:ℚ) < 1 * (2 ^ (64 - n.size))⁻¹ := by positivity
      linarith
    · intro hn
      have h1 : 2 ^ (n.size - 1) ≤ n := Nat.lt_size.mp (by have := Nat.size_pos.mpr (Nat.pos_of_ne_zero hn); omega)
      have h2 : (2:Nat) ^ 63 = 2 ^ (n.size - 1) * 2 ^ (64 - n.size) := by
        rw [← pow_add]; congr 1; have := Nat.size_pos.mpr (Nat.pos_of_ne_zero hn); omega
      rw [h2]
      exact Nat.mul_le_mul_right _ h1
  · rw [if_neg hc]
    dsimp only
    have he : 64 - (128 - n.size) = n.size - 64 := by omega
    rw [he]
    have h2 : (2:Nat) ^ n.size = 2 ^ 64 * 2 ^ (n.size - 64) := by rw [← pow_add]; congr 1; omega
    have hp : n / 2 ^ (n.size - 64) < 2 ^ 64 := by
      rw [Nat.div_lt_iff_lt_mul (by positivity), ← h2]; exact hlt
    rw [Nat.mod_eq_of_lt hp, neg_neg]
    have hb := natdiv_bounds n (n.size - 64)
    refine ⟨hb.1, by linarith [hb.2], ?_, hp, by omega⟩
    intro hn
    have h1 : 2 ^ (n.size - 1) ≤ n := Nat.lt_size.mp (by omega)
    rw [Nat.le_div_iff_mul_le (by positivity), ← pow_add]
    have : 63 + (n.size - 64) = n.size - 1 := by omega
    rw [this]; exact h1

theorem normB_spec {n : Nat} (h : n < 2 ^ 127) (hn : n ≠ 0) : ((normB n).2 : ℚ) * (2:ℚ) ^ (-(normB n).1) ≤ n ∧
    (n : ℚ) * 2 ^ 31 ≤ ((normB n).2 : ℚ) * (2:ℚ) ^ (-(normB n).1) * (2 ^ 31 + 1) ∧
    0 < (normB n).2 ∧ (normB n).2 < 2 ^ 32 ∧ (normB n).1 ≤ 0 := by
  have hs := size_le_127 h
  have hlt := Nat.lt_size_self n
  unfold normB lz128
  by_cases hc : 128 - n.size ≥ 96
  · rw [if_pos hc]
    dsimp only
    have hp : n < 2 ^ 32 := Nat.size_le.mp (by omega)
    rw [Nat.mod_eq_of_lt (by omega)]
    have : (0:ℚ) ≤ n := by positivity
    refine ⟨by simp, ?_, by omega, hp, by omega⟩
    simp only [neg_zero, zpow_zero, mul_one]
    linarith
  · rw [if_neg hc]
    dsimp only
    have he : 96 - (128 - n.size) = n.size - 32 := by omega
    rw [he]
    have h2 : (2:Nat) ^ n.size = 2 ^ 32 * 2 ^ (n.size - 32) := by rw [← pow_add]; congr 1; omega
    have hp : n / 2 ^ (n.size - 32) < 2 ^ 32 := by
      rw [Nat.div_lt_iff_lt_mul (by positivity), ← h2]; exact hlt
    have hlow : 2 ^ 31 ≤ n / 2 ^ (n.size - 32) := by
      have h1 : 2 ^ (n.size - 1) ≤ n := Nat.lt_size.mp (by omega)
      rw [Nat.le_div_iff_mul_le (by positivity), ← pow_add]
      have : 31 + (n.size - 32) = n.size - 1 := by omega
      rw [this]; exact h1
    rw [Nat.mod_eq_of_lt (Nat.lt_trans hp (by decide)), neg_neg]
    have hb := natdiv_bounds n (n.size - 32)
    refine ⟨hb.1, ?_, by omega, hp, by omega⟩
    generalize n / 2 ^ (n.size - 32) = br at *
    have hq : ((2:ℚ) ^ 31) ≤ br := by exact_mod_cast hlow
    have hpos : (0:ℚ) < (2:ℚ) ^ ((n.size - 32 : Nat) : ℤ) := by positivity
    generalize (2:ℚ) ^ ((n.size - 32 : Nat) : ℤ) = K at *
    have : K * (2:ℚ) ^ 31 ≤ K * br := mul_le_mul_of_nonneg_left hq (le_of_lt hpos)
    nlinarith [hb.2]

/-- what the shift-back step computes: none exactly when the shifted quotient does not fit in 127 bits, otherwise its integer part -/
theorem finish_spec {ash bsh : Int} {ar br : Nat} (har : ar < 2 ^ 64) (hsb : 48 + bsh - ash ≤ 127) :
    (finish ash bsh ar br = none ↔ (2:ℚ) ^ 127 ≤ ((ar / br : Nat) : ℚ) * (2:ℚ) ^ (48 + bsh - ash)) ∧
    (∀ r, finish ash bsh ar br = some r → r < 2 ^ 127 ∧ (r : ℚ) ≤ ((ar / br : Nat) : ℚ) * (2:ℚ) ^ (48 + bsh - ash) ∧
      ((ar / br : Nat) : ℚ) * (2:ℚ) ^ (48 + bsh - ash) < (r : ℚ) + 1 ∧ (0 ≤ 48 + bsh - ash → (r : ℚ) = ((ar / br : Nat) : ℚ) * (2:ℚ) ^ (48 + bsh - ash))) := by
  unfold finish
  dsimp only
  have hrr : ar / br < 2 ^ 64 := Nat.lt_of_le_of_lt (Nat.div_le_self _ _) har
  generalize ar / br = rr at *
  generalize 48 + bsh - ash = s at *
  have hs64 : rr.size ≤ 64 := Nat.size_le.mpr hrr
  have hlt := Nat.lt_size_self rr
  unfold lz64
  by_cases hov : 63 + ((64 - rr.size : Nat) : Int) < s
  · rw [if_pos hov]
    refine ⟨⟨fun _ => ?_, fun _ => rfl⟩, by simp⟩
    by_cases hz : rr.size = 0
    · omega
    · have h1 : 2 ^ (rr.size - 1) ≤ rr := Nat.lt_size.mp (by omega)
      have h2 : ((2:ℚ) ^ (rr.size - 1)) ≤ rr := by exact_mod_cast h1
      have h3 : (2:ℚ) ^ (127:ℤ) ≤ (2:ℚ) ^ (((rr.size - 1 : Nat) : ℤ) + s) := zpow_le_zpow_right₀ (by norm_num) (by omega)
      rw [zpow_add₀ (by norm_num), zpow_natCast] at h3
      have h4 : (0:ℚ) < (2:ℚ) ^ s := by positivity
      have h5 := mul_le_mul_of_nonneg_right h2 (le_of_lt h4)
      have h6 : (2:ℚ) ^ (127:ℤ) = (2:ℚ) ^ 127 := by norm_cast
      linarith
  · rw [if_neg hov]
    by_cases hs0 : s ≥ 0
    · rw [if_pos hs0]
      obtain ⟨k, rfl⟩ := Int.eq_ofNat_of_zero_le hs0
      have hk : (k:Int).toNat = k := by simp
      rw [hk]
      have hb : rr * 2 ^ k < 2 ^ 127 := by
        have h1 : rr * 2 ^ k < 2 ^ rr.size * 2 ^ k := Nat.mul_lt_mul_of_pos_right hlt (by positivity)
        rw [← pow_add] at h1
        have h2 : (2:Nat) ^ (rr.size + k) ≤ 2 ^ 127 := Nat.pow_le_pow_right (by norm_num) (by omega)
        omega
      rw [Nat.mod_eq_of_lt (Nat.lt_trans hb (by norm_num)), zpow_natCast]
      have hq : (rr : ℚ) * 2 ^ k < 2 ^ 127 := by exact_mod_cast hb
      refine ⟨⟨by simp, fun h => by linarith⟩, ?_⟩
      intro r hr
      simp only [Option.some.injEq] at hr
      subst hr
      refine ⟨hb, by push_cast; rfl, by push_cast; linarith, fun _ => by push_cast; rfl⟩
    · rw [if_neg hs0]
      obtain ⟨k, hk⟩ := Int.eq_ofNat_of_zero_le (show 0 ≤ -s by omega)
      have hs : s = -(k:Int) := by omega
      subst hs
      have hkk : (-(-(k:Int))).toNat = k := by simp
      rw [hkk]
      have hb := natdiv_bounds rr k
      have hd : rr / 2 ^ k ≤ rr := Nat.div_le_self _ _
      have hpos : (0:ℚ) < (2:ℚ) ^ (k:ℤ) := by positivity
      have e1 : (rr : ℚ) * (2:ℚ) ^ (-(k:ℤ)) = rr / (2:ℚ) ^ (k:ℤ) := by rw [zpow_neg]; rfl
      rw [e1]
      refine ⟨⟨by simp, fun h => ?_⟩, ?_⟩
      · exfalso
        rw [le_div_iff₀ hpos] at h
        have h1 : (1:ℚ) ≤ (2:ℚ) ^ (k:ℤ) := by rw [zpow_natCast]; exact one_le_pow₀ (by norm_num)
        have h2 : (rr:ℚ) < 2 ^ 64 := by exact_mod_cast hrr
        nlinarith
      · intro r hr
        simp only [Option.some.injEq] at hr
        subst hr
        refine ⟨by omega, ?_, ?_, fun h => by omega⟩
        · rw [le_div_iff₀ hpos]; exact hb.1
        · rw [div_lt_iff₀ hpos]; linarith [hb.2]

/-- the core on natural numbers -/
theorem core {an bn : Nat} (ha : an < 2 ^ 127) (hb : bn < 2 ^ 127) (hb0 : bn ≠ 0) :
    (finish (normA an).1 (normB bn).1 (normA an).2 (normB bn).2 = none → (2:ℚ) ^ 127 * 2 ^ 31 ≤ (an : ℚ) * 2 ^ 48 / bn * (2 ^ 31 + 1)) ∧
    (∀ r, finish (normA an).1 (normB bn).1 (normA an).2 (normB bn).2 = some r → r < 2 ^ 127 ∧
      (r : ℚ) * 2 ^ 31 ≤ (an : ℚ) * 2 ^ 48 / bn * (2 ^ 31 + 1) ∧ (an : ℚ) * 2 ^ 48 / bn * 2 ^ 31 ≤ ((r : ℚ) + 1) * (2 ^ 31 + 1) ∧
      (an ≠ 0 → 2 ^ 32 ≤ r → (an : ℚ) * 2 ^ 48 / bn * 2 ^ 30 ≤ (r : ℚ) * (2 ^ 30 + 1))) := by
  obtain ⟨a1, a2, a3, a4, a5⟩ := normA_spec ha
  obtain ⟨b1, b2, b3, b4, b5⟩ := normB_spec hb hb0
  obtain ⟨f1, f2⟩ := finish_spec (ash := (normA an).1) (bsh := (normB bn).1) (ar := (normA an).2) (br := (normB bn).2) a4 (by omega)
  generalize (normA an).1 = ash at *
  generalize (normA an).2 = ar at *
  generalize (normB bn).1 = bsh at *
  generalize (normB bn).2 = br at *
  have hbn : (0:ℚ) < bn := by exact_mod_cast Nat.pos_of_ne_zero hb0
  have hbr : (0:ℚ) < br := by exact_mod_cast b3
  have hA : (0:ℚ) < (2:ℚ) ^ (-ash) := by positivity
  have hB : (0:ℚ) < (2:ℚ) ^ (-bsh) := by positivity
  have hsplit : (2:ℚ) ^ (48 + bsh - ash) * (2:ℚ) ^ (-bsh) = 2 ^ 48 * (2:ℚ) ^ (-ash) := by
    rw [← zpow_add₀ (by norm_num), show (48 + bsh - ash + -bsh) = 48 + -ash by ring, zpow_add₀ (by norm_num)]
    norm_cast
  have hT : (0:ℚ) < (2:ℚ) ^ (48 + bsh - ash) := by positivity
  generalize (2:ℚ) ^ (48 + bsh - ash) = T at *
  generalize (2:ℚ) ^ (-ash) = A at *
  generalize (2:ℚ) ^ (-bsh) = B at *
  -- the integer quotient
  have d1 : ((ar / br : Nat) : ℚ) * br ≤ ar := by exact_mod_cast Nat.div_mul_le_self ar br
  have d2 : (ar : ℚ) + 1 ≤ (((ar / br : Nat) : ℚ) + 1) * br := by
    have := Nat.lt_div_mul_add (a := ar) (b := br) b3
    have h3 : ar + 1 ≤ (ar / br + 1) * br := by rw [Nat.add_mul, Nat.one_mul]; omega
    exact_mod_cast h3
  have d3 : an ≠ 0 → (2:ℚ) ^ 31 ≤ ((ar / br : Nat) : ℚ) := by
    intro h
    have h1 := a3 h
    have : 2 ^ 31 ≤ ar / br := by
      rw [Nat.le_div_iff_mul_le b3]
      calc 2 ^ 31 * br ≤ 2 ^ 31 * 2 ^ 32 := Nat.mul_le_mul_left _ (by omega)
        _ = 2 ^ 63 := by norm_num
        _ ≤ ar := h1
    exact_mod_cast this
  have d0 : (0:ℚ) ≤ ((ar / br : Nat) : ℚ) := by positivity
  generalize ((ar / br : Nat) : ℚ) = rr at *
  have hup : rr * T * 2 ^ 31 ≤ (an : ℚ) * 2 ^ 48 / bn * (2 ^ 31 + 1) := by
    rw [div_mul_eq_mul_div, le_div_iff₀ hbn]
    have s1 : rr * T * (bn * 2 ^ 31) ≤ rr * T * (br * B * (2 ^ 31 + 1)) := mul_le_mul_of_nonneg_left b2 (by positivity)
    have s2 : rr * T * (br * B * (2 ^ 31 + 1)) = (rr * br) * (T * B) * (2 ^ 31 + 1) := by ring
    rw [hsplit] at s2
    have s3 : rr * br * (2 ^ 48 * A) ≤ ar * (2 ^ 48 * A) := mul_le_mul_of_nonneg_right d1 (by positivity)
    have s4 : (ar : ℚ) * A * 2 ^ 48 ≤ an * 2 ^ 48 := mul_le_mul_of_nonneg_right a1 (by norm_num)
    linarith
  have hlo : (an : ℚ) * 2 ^ 48 / bn ≤ (rr + 1) * T := by
    rw [div_le_iff₀ hbn]
    have s1 : (rr + 1) * T * (br * B) ≤ (rr + 1) * T * bn := mul_le_mul_of_nonneg_left b1 (by positivity)
    have s2 : (rr + 1) * T * (br * B) = ((rr + 1) * br) * (T * B) := by ring
    rw [hsplit] at s2
    have s3 : ((ar:ℚ) + 1) * (2 ^ 48 * A) ≤ (rr + 1) * br * (2 ^ 48 * A) := mul_le_mul_of_nonneg_right d2 (by positivity)
    have s4 : (an : ℚ) * 2 ^ 48 < ((ar : ℚ) + 1) * A * 2 ^ 48 := mul_lt_mul_of_pos_right a2 (by norm_num)
    linarith
  refine ⟨fun h => ?_, fun r hr => ?_⟩
  · have := f1.mp h
    nlinarith
  · obtain ⟨g1, g2, g3, g4⟩ := f2 r hr
    have hq : an ≠ 0 → (an : ℚ) * 2 ^ 48 / bn * 2 ^ 31 ≤ rr * T * (2 ^ 31 + 1) := by
      intro h
      have := mul_le_mul_of_nonneg_right (d3 h) (le_of_lt hT)
      nlinarith
    refine ⟨g1, by nlinarith, ?_, ?_⟩
    · by_cases h0 : an = 0
      · subst h0
        have : (0:ℚ) ≤ r := by positivity
        simp; positivity
      · have := hq h0
        nlinarith
    · intro h0 hr31
      have h1 := hq h0
      have h2 : (2:ℚ) ^ 32 ≤ r := by exact_mod_cast hr31
      nlinarith

theorem neg_part {a an : Int} (ha : Fx.inRange a) (h : (if a < 0 then Fx.neg a else .ok a) = Except.ok (ε := Err) an) :
    an.toNat < 2 ^ 127 ∧ (an.toNat : ℚ) = |(a : ℚ)| ∧ (an.toNat = 0 ↔ a = 0) := by
  unfold Fx.inRange at ha
  have hM : I128MAX = 2 ^ 127 - 1 := by decide
  have : an = |a| ∧ an ≤ I128MAX := by
    by_cases hn : a < 0
    · rw [if_pos hn] at h
      have := Fx.ck_ok.mp h
      unfold Fx.inRange at this
      rw [abs_of_neg hn]; omega
    · rw [if_neg hn] at h; simp at h; subst h
      rw [abs_of_nonneg (by omega)]; omega
  obtain ⟨rfl, h2⟩ := this
  have h3 := abs_nonneg a
  refine ⟨by omega, ?_, ?_⟩
  · have : ((|a|.toNat : ℤ) : ℚ) = ((|a| : ℤ) : ℚ) := by rw [Int.toNat_of_nonneg h3]
    rw [Int.cast_abs] at this
    exact_mod_cast this
  · rw [← abs_eq_zero]; omega

/-- **C42** For all operands (apart from the smallest representable value, whose negation aborts), with q the exact quotient:
* division by zero, and only a quotient of at least (nearly) 2^79, gives no result;
* otherwise the result has the sign of the quotient, is at most |q| (1 + 2^-31), and at least |q| / (1 + 2^-31) less one last place;
* so if the result has at least 33 significant bits it is within a relative error of 2^-30: the first 30 bits are correct. -/
theorem C42_div30 {a b : I80F48} (ha : Fx.inRange a) (hb : Fx.inRange b) (ha' : a ≠ I128MIN) (hb' : b ≠ I128MIN) :
    ∃ o, div30 a b = .ok o ∧
    (o = none → b = 0 ∨ (2:ℚ) ^ 79 ≤ |val a / val b| * (1 + 1 / 2 ^ 31)) ∧
    (∀ r, o = some r → b ≠ 0 ∧ Fx.inRange r ∧
      (0 ≤ val a / val b → 0 ≤ r) ∧ (val a / val b ≤ 0 → r ≤ 0) ∧
      |val r| ≤ |val a / val b| * (1 + 1 / 2 ^ 31) ∧
      |val a / val b| ≤ (|val r| + 1 / 2 ^ 48) * (1 + 1 / 2 ^ 31) ∧
      (2 ^ 32 ≤ |r| → |val a / val b| ≤ |val r| * (1 + 1 / 2 ^ 30))) := by
  have hM : I128MAX = 2 ^ 127 - 1 := by decide
  have hm : I128MIN = - 2 ^ 127 := by decide
  by_cases hb0 : b = 0
  · exact ⟨none, by simp [div30, hb0], fun _ => Or.inl hb0, by simp⟩
  have ea : ∃ an, (if a < 0 then Fx.neg a else .ok a) = Except.ok (ε := Err) an := by
    split
    · refine ⟨-a, Fx.ck_ok.mpr ⟨rfl, ?_⟩⟩; unfold Fx.inRange at *; omega
    · exact ⟨a, rfl⟩
  have eb : ∃ bn, (if b < 0 then Fx.neg b else .ok b) = Except.ok (ε := Err) bn := by
    split
    · refine ⟨-b, Fx.ck_ok.mpr ⟨rfl, ?_⟩⟩; unfold Fx.inRange at *; omega
    · exact ⟨b, rfl⟩
  obtain ⟨an, ea⟩ := ea
  obtain ⟨bn, eb⟩ := eb
  obtain ⟨a1, a2, a3⟩ := neg_part ha ea
  obtain ⟨b1, b2, b3⟩ := neg_part hb eb
  obtain ⟨k1, k2⟩ := core a1 b1 (fun h => hb0 (b3.mp h))
  have hq : |val a / val b| = (an.toNat : ℚ) / bn.toNat := by
    unfold val
    rw [a2, b2, ← abs_div]
    congr 1
    have : (b:ℚ) ≠ 0 := by exact_mod_cast hb0
    field_simp
  have hQ : (an.toNat : ℚ) * 2 ^ 48 / bn.toNat = |val a / val b| * 2 ^ 48 := by rw [hq]; ring
  rw [hQ] at k1
  simp only [hQ] at k2
  have hd : div30 a b = (match finish (normA an.toNat).1 (normB bn.toNat).1 (normA an.toNat).2 (normB bn.toNat).2 with
      | none => .ok none
      | some r => .ok (some (if (decide (a < 0)) ^^ (decide (b < 0)) then -(r : Int) else (r : Int)))) := by
    unfold div30
    rw [if_neg hb0, ea, eb]
    rfl
  cases hf : finish (normA an.toNat).1 (normB bn.toNat).1 (normA an.toNat).2 (normB bn.toNat).2 with
  | none =>
    refine ⟨none, by rw [hd, hf], fun _ => Or.inr ?_, by simp⟩
    have := k1 hf
    nlinarith
  | some r =>
    obtain ⟨g1, g2, g3, g4⟩ := k2 r hf
    refine ⟨some (if (decide (a < 0)) ^^ (decide (b < 0)) then -(r : Int) else (r : Int)), by rw [hd, hf], by simp, ?_⟩
    intro r' hr'
    simp only [Option.some.injEq] at hr'
    have habs : |r'| = r := by
      rw [← hr']; split <;> simp
    have hv : |val r'| = (r : ℚ) / 2 ^ 48 := by
      unfold val
      rw [abs_div, abs_of_pos (show (0:ℚ) < 2 ^ 48 by norm_num), ← Int.cast_abs, habs]
      simp
    have hzero : a = 0 → r = 0 := by
      intro h
      have hz : |val a / val b| = 0 := by rw [h]; simp [val]
      rw [hz] at g2
      have : (r : ℚ) ≤ 0 := by linarith
      exact_mod_cast le_antisymm this (by positivity)
    have hsgn : val a / val b = ((a:ℚ) / b) := by
      unfold val
      have : (b:ℚ) ≠ 0 := by exact_mod_cast hb0
      field_simp
    refine ⟨hb0, ?_, ?_, ?_, ?_, ?_, ?_⟩
    · unfold Fx.inRange
      have := abs_le.mp (le_of_eq habs)
      omega
    · intro h0
      rw [hsgn] at h0
      rcases div_nonneg_iff.mp h0 with ⟨x, y⟩ | ⟨x, y⟩
      · have x' : 0 ≤ a := by exact_mod_cast x
        have y' : 0 ≤ b := by exact_mod_cast y
        rw [← hr']; simp [show ¬ a < 0 by omega, show ¬ b < 0 by omega]
      · have x' : a ≤ 0 := by exact_mod_cast x
        have y' : b ≤ 0 := by exact_mod_cast y
        by_cases hz : a = 0
        · rw [← hr', hzero hz]; simp
        · rw [← hr']; simp [show a < 0 by omega, show b < 0 by omega]
    · intro h0
      rw [hsgn] at h0
      rcases div_nonpos_iff.mp h0 with ⟨x, y⟩ | ⟨x, y⟩
      · have x' : 0 ≤ a := by exact_mod_cast x
        have y' : b ≤ 0 := by exact_mod_cast y
        rw [← hr']; simp [show ¬ a < 0 by omega, show b < 0 by omega]
      · have x' : a ≤ 0 := by exact_mod_cast x
        have y' : 0 ≤ b := by exact_mod_cast y
        by_cases hz : a = 0
        · rw [← hr', hzero hz]; simp
        · rw [← hr']; simp [show a < 0 by omega, show ¬ b < 0 by omega]
    · rw [hv, div_le_iff₀ (by norm_num)]; nlinarith
    · rw [hv]; nlinarith
    · intro hr31
      rw [habs] at hr31
      have h31 : 2 ^ 32 ≤ r := by exact_mod_cast hr31
      have hne : an.toNat ≠ 0 := by
        intro h
        have := hzero (a3.mp h)
        omega
      have := g4 hne h31
      rw [hv]; nlinarith

/-- the smallest value aborts -/
theorem C42_smallest_aborts : div30 I128MIN S = .error .panic ∧ div30 S I128MIN = .error .panic := by decide +kernel

/-- 1 / 3: the exact quotient and the reduced one differ beyond the first 30 bits -/
example : div30 S (3 * S) = .ok (some 93824992215040) ∧ Int.tdiv (S * S) (3 * S) = 93824992236885 := by decide +kernel
example : div30 (-(2 ^ 126)) 1 = .ok none := by decide +kernel

end Div30
end Mango
