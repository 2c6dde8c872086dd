import Verif.Bots.Errors
import Mathlib.Data.Rat.Defs
import Mathlib.Algebra.Order.Ring.Rat
/-!
# The liquidator's estimates of swap costs

Models bin/liquidator/src/token_swap_info.rs.  f64 numbers are rational ones with the rounding `rnd` (they are finite: routes with an output of zero, whose price would be infinite, are taken as
failed).  Prices of oracles and quoted routes are inputs, `none` if fetching fails; what is asked for (lines 140-167) is left out except for the amount.
-/
namespace Mango
namespace SwapInfo
open Errors

/-- 22-29 `TokenSwapInfo` -/
structure Info where
  lastUpdate : Nat
  oracle : ℚ
  buy : ℚ
  sell : ℚ
  deriving DecidableEq

/-- 33-35 -/
def Info.buyOverOracle (rnd : ℚ → ℚ) (i : Info) : ℚ := rnd (i.buy / i.oracle)
/-- 39-41 -/
def Info.sellOverOracle (rnd : ℚ → ℚ) (i : Info) : ℚ := rnd (i.oracle / i.sell)

/-- a quoted route: `in_amount`, `out_amount` -/
structure Route where
  inAmount : Nat
  outAmount : Nat

/-- what an update gets from outside -/
structure Answers where
  tokenPrice : Option ℚ
  quotePrice : Option ℚ
  sellRoute : Option Route
  buyRoute : Option Route
  /-- number of the error message, if one of them is missing -/
  message : Nat

/-- 90-94 `in_per_out_price`; `to_num::<f64>` of u64 rounds -/
def inPerOut (rnd : ℚ → ℚ) (r : Route) : Option ℚ :=
  if r.outAmount = 0 ∨ r.inAmount = 0 then none else some (rnd (rnd r.inAmount / rnd r.outAmount))

/-- 117-188 `try_update_one` -/
def tryUpdate (rnd : ℚ → ℚ) (quoteToken token now : Nat) (a : Answers) : Option Info :=
  if token = quoteToken then some { lastUpdate := now, oracle := 1, buy := 1, sell := 1 } else do
    let tp ← a.tokenPrice
    let qp ← a.quotePrice
    let sr ← a.sellRoute
    let br ← a.buyRoute
    let buy ← inPerOut rnd br
    let sellIn ← inPerOut rnd sr
    some { lastUpdate := now, oracle := rnd (tp / qp), buy, sell := rnd (1 / sellIn) }

/-- 43-46 `TokenSwapInfoState` -/
structure State where
  infos : Nat → Option Info
  errors : Tracking

/-- 51: the only error type of this tracker -/
def errType : Nat := 0

/-- 96-115 `update_one` -/
def updateOne (rnd : ℚ → ℚ) (quoteToken : Nat) (s : State) (token now : Nat) (a : Answers) : State :=
  if (hadTooMany s.errors errType token now).isSome = true then s else
  match tryUpdate rnd quoteToken token now a with
  | some i => { s with infos := fun t => if t = token then some i else s.infos t }
  | none => { s with errors := record s.errors errType token a.message now }

inductive Op where
  | update (token : Nat) (a : Answers)
  /-- `log_all` (190-223): only its effect on the errors -/
  | log

def step (rnd : ℚ → ℚ) (quoteToken : Nat) (s : State) (now : Nat) : Op → State
  | .update token a => updateOne rnd quoteToken s token now a
  | .log => { s with errors := update s.errors now }

def run (rnd : ℚ → ℚ) (quoteToken : Nat) (s : State) (l : List (Nat × Op)) : State := l.foldl (fun s e => step rnd quoteToken s e.1 e.2) s

end SwapInfo
end Mango
