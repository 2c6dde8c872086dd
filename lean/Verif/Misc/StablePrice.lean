import Verif.Basic
import Mathlib.Algebra.Order.Field.Rat
/-!
# Stable price model

Models state/stable_price.rs. f64 values are rationals; every f64 operation is the exact operation followed by a rounding function `rnd`
(`rnd = id` is exact arithmetic). Infinities are not modelled; NaN appears only as 0/0 in the fraction below, which makes `clamp` panic.
-/
namespace Mango
namespace Stable

/-- stable_price.rs:18-58 `StablePriceModel` -/
structure Model where
  stable : ℚ
  last : Nat
  delay : List ℚ
  accPrice : ℚ
  accTime : Nat
  interval : Nat
  delayGrowth : ℚ
  stableGrowth : ℚ
  lastIdx : Nat
  reset : Bool
  deriving DecidableEq, Repr

/-- stable_price.rs:87-94 `reset_to_price` -/
def resetToPrice (m : Model) (price : ℚ) (now : Nat) : Model :=
  { m with stable := price, delay := List.replicate 24 price, accPrice := 0, accTime := 0, last := now, reset := decide (price ≤ 0) }

/-- stable_price.rs:96-98 `delay_interval_index`; a zero interval divides by zero -/
def delayIdx (m : Model) (t : Nat) : Res Nat := if m.interval = 0 then .error .panic else .ok (t / m.interval % 24)

/-- `f64::clamp`: panics if min > max -/
def clampR (x lo hi : ℚ) : Res ℚ :=
  if lo ≤ hi then .ok (if x < lo then lo else if hi < x then hi else x) else .error .panic

/-- stable_price.rs:100-107 `growth_clamped` -/
def growthClamped (rnd : ℚ → ℚ) (target prev limit : ℚ) : Res ℚ :=
  clampR target (rnd (prev * rnd (1 - limit))) (rnd (prev * rnd (1 + limit)))

/-- stable_price.rs:157-165: which slots get the new delay price -/
def overwritten (full : Bool) (lastIdx idx i : Nat) : Bool :=
  full || (if idx > lastIdx then decide (lastIdx ≤ i ∧ i < idx) else decide (lastIdx ≤ i ∨ i < idx))

/-- stable_price.rs:136-171: the delay price part of `update`. An accumulated time of zero (time since the last update a multiple of 2^32 seconds)
gives an infinite average in the code; here it is an error. -/
def updateDelay (rnd : ℚ → ℚ) (m : Model) (dt now : Nat) (price : ℚ) : Res Model := do
  let full := decide (dt > 24 * m.interval)
  let accTime := m.accTime + dt % 2 ^ 32
  require (accTime < 2 ^ 32) .panic
  let accPrice := rnd (m.accPrice + rnd (price * (min dt 600 : Nat)))
  let idx ← delayIdx m now
  if idx = m.lastIdx then .ok { m with last := now, accTime := accTime, accPrice := accPrice }
  else do
    require (accTime ≠ 0) .panic
    let prev := m.delay.getD (if m.lastIdx = 0 then 23 else m.lastIdx - 1) 0
    let new ← growthClamped rnd (rnd (accPrice / (accTime : ℚ))) prev m.delayGrowth
    .ok { m with last := now, accTime := 0, accPrice := 0, lastIdx := idx,
                 delay := m.delay.mapIdx (fun i x => if overwritten full m.lastIdx idx i then new else x) }

/-- stable_price.rs:176-185: the growth limit for the stable price; 0/0 is NaN, which makes the following clamp panic -/
def growthLimit (rnd : ℚ → ℚ) (stable delay g : ℚ) (dt : Nat) : Res ℚ := do
  let fraction ← (if delay ≥ stable then (if delay = 0 then .error .panic else .ok (rnd (stable / delay))) else .ok (rnd (delay / stable)))
  .ok (rnd (rnd (rnd (g * fraction) * fraction) * (min dt 600 : Nat)))

/-- stable_price.rs:109-188 `update` -/
def update (rnd : ℚ → ℚ) (m : Model) (now : Nat) (price : ℚ) : Res Model := do
  let m := if m.reset ∧ price > 0 then resetToPrice m price now else m
  let dt := now - m.last
  if dt < 10 then .ok m
  else do
    let m ← updateDelay rnd m dt now price
    let limit ← growthLimit rnd m.stable (m.delay.getD m.lastIdx 0) m.stableGrowth dt
    let s ← growthClamped rnd price m.stable limit
    .ok { m with stable := s }

/-- stable_price.rs:67-83 `Default` with the given rounded f32 limits, then `reset_to_price` -/
def init (dg sg price : ℚ) (now : Nat) : Model :=
  resetToPrice { stable := 0, last := 0, delay := List.replicate 24 0, accPrice := 0, accTime := 0, interval := 3600, delayGrowth := dg,
                 stableGrowth := sg, lastIdx := 0, reset := false } price now

/-- a history of update calls -/
def run (rnd : ℚ → ℚ) : Model → List (Nat × ℚ) → Res Model
  | m, [] => .ok m
  | m, (t, p) :: us => do
      let m ← update rnd m t p
      run rnd m us

end Stable
end Mango
