import Verif.Basic
import Mathlib.Data.Rat.Defs
import Mathlib.Algebra.Order.Field.Rat
/-!
# The liquidator's cache of swap quotes

Models `JupiterQuoteCache` of bin/liquidator/src/trigger_tcs.rs (83-326) as a transition system: any number of calls run at the same time, every `await` is a point where other calls may go on, and the quote service may answer in
any order, with any amounts, or with an error. What happens between two awaits is one step. A call holding the mutex of a pair across an await is the `lock` of the pair; mutexes taken and released between two awaits
only have to be free. Not modelled: the request itself, cancellation of calls, poisoned locks.
-/
namespace Mango
namespace QuoteCache

/-- an f64 price: finite, infinity or NaN -/
inductive Px where
  | fin (q : ℚ)
  | inf
  | nan
  deriving DecidableEq, Repr

/-- `a > b` of f64 -/
def Px.gt : Px → Px → Bool
  | .fin a, .fin b => decide (b < a)
  | .inf, .fin _ => true
  | _, _ => false

/-- `f64::MAX` = 2^1024 - 2^971 -/
def FMAX : Px := .fin (2 ^ 1024 - 2 ^ 971)

/-- 200: `in_amount as f64 / out_amount as f64` -/
def price (rnd : ℚ → ℚ) (i o : Nat) : Px :=
  if o = 0 then (if i = 0 then .nan else .inf) else .fin (rnd (rnd i / rnd o))

/-- in-out mint pair -/
abbrev Pair := Nat × Nat

/-- what a call to `quote` returns: the price above the maximum, a quote with its price, or the error of the request -/
inductive Out where
  | bad (p : Px)
  | quote (p : Px)
  | failed
  deriving DecidableEq, Repr

/-- where a call is: waiting for the mutex at the start (133), waiting for the service, with or without holding the mutex (151-160), waiting for the mutex to store the price (162-171), finished -/
inductive Phase where
  | enter
  | request (held : Bool)
  | store (p : Px)
  | done (o : Out)
  deriving DecidableEq, Repr

/-- a call: arguments, phase, and (history) the price of the answer it got -/
structure Call where
  pair : Pair
  max : Px
  phase : Phase := .enter
  got : Option Px := none
  deriving DecidableEq, Repr

/-- calls are identified by their position -/
structure St where
  cache : Pair → Px
  lock : Pair → Option Nat
  calls : List Call

/-- 100-105, 108-117: an entry starts at `f64::MAX` -/
def init : St := ⟨fun _ => FMAX, fun _ => none, []⟩

/-- 173-177: compare the price with the maximum -/
def verdict (max p : Px) : Out := if p.gt max then .bad p else .quote p

/-- 168-170: lower the cached price -/
def lower (old p : Px) : Px := if old.gt p then p else old

/-- what can happen next -/
inductive Ev where
  | call (pair : Pair) (max : Px)
  | enter (i : Nat)
  | reply (i : Nat) (answer : Option (Nat × Nat))
  | store (i : Nat)
  deriving DecidableEq, Repr

/-- `none`: cannot happen in this state -/
def step (rnd : ℚ → ℚ) (s : St) : Ev → Option St
  -- 120-130
  | .call pair max => some { s with calls := s.calls ++ [{ pair := pair, max := max }] }
  -- 132-149
  | .enter i =>
    match s.calls[i]? with
    | none => none
    | some c =>
      if c.phase = .enter ∧ s.lock c.pair = none then
        if s.cache c.pair = FMAX then
          some { s with lock := Function.update s.lock c.pair (some i), calls := s.calls.set i { c with phase := .request true } }
        else if (s.cache c.pair).gt c.max then
          some { s with calls := s.calls.set i { c with phase := .done (.bad (s.cache c.pair)) } }
        else some { s with calls := s.calls.set i { c with phase := .request false } }
      else none
  -- 151-171; an error drops the mutex as well
  | .reply i a =>
    match s.calls[i]? with
    | none => none
    | some c =>
      match c.phase, a with
      | .request held, none =>
        some { s with lock := if held then Function.update s.lock c.pair none else s.lock, calls := s.calls.set i { c with phase := .done .failed } }
      | .request true, some (x, y) =>
        let p := price rnd x y
        some { cache := Function.update s.cache c.pair (lower (s.cache c.pair) p), lock := Function.update s.lock c.pair none,
               calls := s.calls.set i { c with phase := .done (verdict c.max p), got := some p } }
      | .request false, some (x, y) => some { s with calls := s.calls.set i { c with phase := .store (price rnd x y), got := some (price rnd x y) } }
      | _, _ => none
  -- 162-177
  | .store i =>
    match s.calls[i]? with
    | none => none
    | some c =>
      match c.phase with
      | .store p =>
        if s.lock c.pair = none then
          some { s with cache := Function.update s.cache c.pair (lower (s.cache c.pair) p), calls := s.calls.set i { c with phase := .done (verdict c.max p) } }
        else none
      | _ => none

/-- a schedule -/
def run (rnd : ℚ → ℚ) : St → List Ev → Option St
  | s, [] => some s
  | s, e :: es => (step rnd s e).bind (fun s' => run rnd s' es)

/-- 230-242 `cached_price`, when the mutex is free -/
def cachedPrice (s : St) (i o : Nat) : Option Px :=
  if i = o then some (.fin 1) else if s.cache (i, o) ≠ FMAX then some (s.cache (i, o)) else none

/-- f64 product of two prices of the kind above (0 times infinity is NaN) -/
def Px.mul (rnd : ℚ → ℚ) : Px → Px → Px
  | .fin a, .fin b => .fin (rnd (a * b))
  | .nan, _ => .nan
  | _, .nan => .nan
  | .inf, .inf => .inf
  | .inf, .fin b => if b = 0 then .nan else .inf
  | .fin a, .inf => if a = 0 then .nan else .inf

/-- 262-272: the check of the route through the collateral against the cached prices; `some`: return BadPrice at once -/
def earlyOut (rnd : ℚ → ℚ) (cToB sToC : Option Px) (max : Px) : Option Px :=
  match cToB, sToC with
  | some c, some s => if (s.mul rnd c).gt max then some (s.mul rnd c) else none
  | _, _ => none

/-- 204-228 `unchecked_quote`: a call with maximum `f64::MAX`; anything but a quote is an error -/
def unchecked : Out → Res Px
  | .quote p => .ok p
  | _ => .error .someError

/-- 275-294, 296-314: the price of a leg; where the token is the collateral there is no quote and the price is 1 -/
def leg : Option Out → Res Px
  | some o => unchecked o
  | none => .ok (.fin 1)

/-- 274-326: after the quotes of the legs -/
def routePrice (rnd : ℚ → ℚ) (buyLeg sellLeg : Option Out) (max : Px) : Res Out := do
  let b ← leg buyLeg
  let s ← leg sellLeg
  .ok (verdict max (s.mul rnd b))

end QuoteCache
end Mango
