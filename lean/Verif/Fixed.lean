import Verif.Basic
/-!
# I80F48 fixed-point numbers

The `fixed` crate (fork v1.11.0, /repo/Cargo.lock) is not available in the sandbox; its semantics as used by
mango is: an `I80F48` is an `i128` bit pattern with 48 fractional bits; `+ - *` and unary minus panic when the
result does not fit (`overflow-checks = true`), `*` floors (/repo/programs/mango-v4/src/i80f48.rs:139-146 asserts the
rounding towards minus infinity), `/` truncates towards zero and panics on a zero divisor.
-/
namespace Mango

/-- An I80F48 as its bit pattern (`to_bits()`): the number represented is `x / 2^48`. -/
scoped notation "I80F48" => Int

/-- 2^48: the bits of `I80F48::ONE`. -/
def S : Int := 281474976710656

namespace Fx
def ZERO : I80F48 := 0
def ONE : I80F48 := S
/-- `I80F48::DELTA`: the smallest positive value. -/
def DELTA : I80F48 := 1
def MAX : I80F48 := I128MAX
def MIN : I80F48 := I128MIN

/-- overflow check of a bit pattern -/
def ck (x : Int) : Res I80F48 := chk I128MIN I128MAX x

/-- `a + b` -/
def add (a b : I80F48) : Res I80F48 := ck (a + b)
/-- `a - b` -/
def sub (a b : I80F48) : Res I80F48 := ck (a - b)
/-- `-a` -/
def neg (a : I80F48) : Res I80F48 := ck (-a)
/-- `a * b`: floor of the exact product (i80f48.rs:139-146). -/
def mul (a b : I80F48) : Res I80F48 := ck (a * b / S)
/-- `a / b`: truncation toward zero; division by zero panics. -/
def div (a b : I80F48) : Res I80F48 := if b = 0 then .error .panic else ck (Int.tdiv (a * S) b)
/-- `I80F48::from(n)` for a (64 bit) integer, `checked_mul_int` with one. -/
def ofInt (n : Int) : I80F48 := n * S
/-- `checked_mul_int(n).unwrap()` -/
def mulInt (a : I80F48) (n : Int) : Res I80F48 := ck (a * n)
/-- `ceil()`: smallest integer not below; panics on overflow. -/
def ceil (a : I80F48) : Res I80F48 := ck (-((-a) / S) * S)
/-- `floor()` -/
def floor (a : I80F48) : Res I80F48 := ck (a / S * S)
/-- `to_num::<i64>()` / integer part (rounds toward minus infinity), before range checks -/
def toInt (a : I80F48) : Int := a / S
/-- `round_to_zero()` -/
def roundToZero (a : I80F48) : I80F48 := Int.tdiv a S * S
/-- `abs()` -/
def abs (a : I80F48) : Res I80F48 := ck (if a < 0 then -a else a)

/-- i80f48.rs:8-18 `clamp_to_i64` -/
def clampToI64 (a : I80F48) : Int :=
  if a ≤ I64MIN * S then I64MIN else if a ≥ I64MAX * S then I64MAX else a / S

/-- i80f48.rs:20-28 `clamp_to_u64` -/
def clampToU64 (a : I80F48) : Int :=
  if a ≤ 0 then 0 else if a ≥ U64MAX * S then U64MAX else a / S

def inRange (x : Int) : Prop := I128MIN ≤ x ∧ x ≤ I128MAX

theorem ck_ok {x y : Int} : ck x = .ok y ↔ y = x ∧ inRange x := chk_ok
theorem add_ok {a b y : I80F48} : add a b = .ok y ↔ y = a + b ∧ inRange (a + b) := ck_ok
theorem sub_ok {a b y : I80F48} : sub a b = .ok y ↔ y = a - b ∧ inRange (a - b) := ck_ok
theorem neg_ok {a y : I80F48} : neg a = .ok y ↔ y = -a ∧ inRange (-a) := ck_ok
theorem mul_ok {a b y : I80F48} : mul a b = .ok y ↔ y = a * b / S ∧ inRange (a * b / S) := ck_ok
theorem mulInt_ok {a : I80F48} {n : Int} {y : I80F48} : mulInt a n = .ok y ↔ y = a * n ∧ inRange (a * n) := ck_ok
theorem div_ok {a b y : I80F48} :
    div a b = .ok y ↔ b ≠ 0 ∧ y = Int.tdiv (a * S) b ∧ inRange (Int.tdiv (a * S) b) := by
  unfold div; split
  · simp_all
  · rw [ck_ok]; simp_all
theorem ceil_ok {a y : I80F48} : ceil a = .ok y ↔ y = -((-a) / S) * S ∧ inRange (-((-a) / S) * S) := ck_ok
theorem floor_ok {a y : I80F48} : floor a = .ok y ↔ y = a / S * S ∧ inRange (a / S * S) := ck_ok

theorem S_pos : 0 < S := by decide

/-- The floor of the product: the two inequalities that characterise it. -/
theorem mulFloor_bounds (x : Int) : x / S * S ≤ x ∧ x < x / S * S + S := by
  have hS := S_pos
  have h1 := Int.ediv_mul_le x (b := S) (by decide)
  have h2 := Int.lt_ediv_add_one_mul_self x hS
  constructor
  · exact h1
  · have : (x / S + 1) * S = x / S * S + S := by rw [Int.add_mul, Int.one_mul]
    omega

theorem floor_le_iff {x n : Int} : x / S < n ↔ x < n * S := Int.ediv_lt_iff_lt_mul S_pos
theorem le_floor_iff {x n : Int} : n ≤ x / S ↔ n * S ≤ x := Int.le_ediv_iff_mul_le S_pos

theorem floor_nonneg {x : Int} (h : 0 ≤ x) : 0 ≤ x / S := Int.ediv_nonneg h (by decide)
theorem floor_neg {x : Int} (h : x < 0) : x / S < 0 := by
  rw [floor_le_iff]; simpa using h
theorem floor_mono {x y : Int} (h : x ≤ y) : x / S ≤ y / S := Int.ediv_le_ediv S_pos h

/-- Truncating division of a non-negative number by a positive one is floor division. -/
theorem tdiv_bounds {a b : Int} (ha : 0 ≤ a) (hb : 0 < b) :
    Int.tdiv a b * b ≤ a ∧ a < Int.tdiv a b * b + b ∧ 0 ≤ Int.tdiv a b := by
  rw [Int.tdiv_eq_ediv_of_nonneg ha]
  have h1 := Int.ediv_mul_le a (b := b) (by omega)
  have h2 := Int.lt_ediv_add_one_mul_self a hb
  have h3 : (a / b + 1) * b = a / b * b + b := by rw [Int.add_mul, Int.one_mul]
  refine ⟨h1, by omega, Int.ediv_nonneg ha (by omega)⟩

end Fx
end Mango
