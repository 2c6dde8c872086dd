import Verif.Fixed
import Mathlib.Data.Nat.Size
/-!
# Reduced-precision division

Models i80f48.rs:66-122 `LowPrecisionDivision::checked_div_30bit_precision`. Bits of an I80F48 are an integer; `u128`/`u64` values are naturals.
-/
namespace Mango
namespace Div30
open Fx

/-- `u128::leading_zeros` -/
def lz128 (n : Nat) : Nat := 128 - Nat.size n
/-- `u64::leading_zeros` -/
def lz64 (n : Nat) : Nat := 64 - Nat.size n

/-- i80f48.rs:89-97: the shift applied to the dividend (positive: to the left) and its top 64 bits -/
def normA (an : Nat) : Int × Nat :=
  if lz128 an ≥ 64 then ((lz128 an - 64 : Nat), an * 2 ^ (lz128 an - 64) % 2 ^ 64)
  else (-((64 - lz128 an : Nat) : Int), an / 2 ^ (64 - lz128 an) % 2 ^ 64)

/-- i80f48.rs:99-105: the shift applied to the divisor and its top 32 bits -/
def normB (bn : Nat) : Int × Nat :=
  if lz128 bn ≥ 96 then (0, bn % 2 ^ 64)
  else (-((96 - lz128 bn : Nat) : Int), bn / 2 ^ (96 - lz128 bn) % 2 ^ 64)

/-- i80f48.rs:107-116: divide, check for overflow, shift back -/
def finish (ash bsh : Int) (ar br : Nat) : Option Nat :=
  let rr := ar / br
  let s := 48 + bsh - ash
  if 63 + (lz64 rr : Int) < s then none
  else if s ≥ 0 then some (rr * 2 ^ s.toNat % 2 ^ 128)
  else some (rr / 2 ^ (-s).toNat)

/-- i80f48.rs:71-122 `checked_div_30bit_precision`; negating the smallest value panics (overflow checks are on) -/
def div30 (a b : I80F48) : Res (Option I80F48) :=
  if b = 0 then .ok none
  else do
    let an ← (if a < 0 then Fx.neg a else .ok a)
    let bn ← (if b < 0 then Fx.neg b else .ok b)
    let (ash, ar) := normA an.toNat
    let (bsh, br) := normB bn.toNat
    match finish ash bsh ar br with
    | none => .ok none
    | some r => .ok (some (if (decide (a < 0)) ^^ (decide (b < 0)) then -(r : Int) else (r : Int)))

end Div30
end Mango
