import Verif.Health.FromState
/-!
# Equity, and the f64 division

Models state/equity.rs `compute_equity`, instructions/compute_account_data.rs, and i80f48.rs:130-132 (the division used when spot orders are converted).
-/
namespace Mango
namespace Health
open Fx

/-- i80f48.rs:130-132 `checked_div_f64_precision(..).unwrap()`: both numbers become floats, their quotient is rounded to I80F48. A divisor of 0 gives infinity or NaN, which
`checked_from_num` refuses. -/
def f64Div (rnd : ℚ → ℚ) : FDiv := fun a b =>
  if Swap.toF rnd b = 0 then .error .panic else Swap.toFx (rnd (Swap.toF rnd a / Swap.toF rnd b))

/-- the map from token index to value while it is built. A HashMap has no defined order: statements are about what it contains. -/
abbrev EquityMap := List (Nat × I80F48)

/-- equity.rs:36-38 `get(..).unwrap_or(ZERO)` -/
def EquityMap.get (m : EquityMap) (k : Nat) : I80F48 :=
  match m.find? (fun e => e.1 == k) with
  | some e => e.2
  | none => 0

/-- `HashMap::insert` -/
def EquityMap.insert (m : EquityMap) (k : Nat) (v : I80F48) : EquityMap :=
  if m.any (fun e => e.1 == k) then m.map (fun e => if e.1 = k then (k, v) else e) else m ++ [(k, v)]

/-- equity.rs:20-26: token positions. `bad`: the bank was not passed or its oracle is not usable. -/
def equityTokens (banks : Nat → BankIn) : EquityMap → List Pos → Res EquityMap
  | m, [] => .ok m
  | m, p :: ps => do
    require ((banks p.tokenIndex).bad = false) .invalidBank
    let n ← Fx.mul p.indexed (if p.indexed > 0 then (banks p.tokenIndex).bank.depositIndex else (banks p.tokenIndex).bank.borrowIndex)
    let v ← Fx.mul n (banks p.tokenIndex).oracle
    equityTokens banks (m.insert p.tokenIndex v) ps

/-- equity.rs:33-40 and 43-50: add `total` native tokens to a token's value -/
def equityAdd (banks : Nat → BankIn) (m : EquityMap) (ti : Nat) (total : Int) : Res EquityMap := do
  require ((banks ti).bad = false) .invalidBank
  let x ← Fx.mul (ofInt total) (banks ti).oracle
  let v ← Fx.add (m.get ti) x
  .ok (m.insert ti v)

/-- equity.rs:29-51: open orders accounts; the total of a token there is its free and its reserved amount -/
def equityOrders (banks : Nat → BankIn) : EquityMap → List OpenOrd → Res EquityMap
  | m, [] => .ok m
  | m, o :: os => do
    let m ← equityAdd banks m o.base (o.baseFree + o.baseReserved)
    let m ← equityAdd banks m o.quote (o.quoteFree + o.quoteReserved)
    equityOrders banks m os

/-- equity.rs:13-65 `compute_equity`: the tokens (perps are left out by the code) -/
def computeEquity (banks : Nat → BankIn) (ps : List Pos) (os : List OpenOrd) : Res EquityMap := do
  let m ← equityTokens banks [] ps
  equityOrders banks m os

/-- events.rs `MangoAccountData` -/
structure AccountData where
  initHealth : I80F48
  maintHealth : I80F48
  equity : EquityMap
  deriving DecidableEq

/-- compute_account_data.rs:5-31; what is logged -/
def computeAccountData (rnd : ℚ → ℚ) (testing : Bool) (now : Int) (banks : Nat → BankIn) (ps : List Pos) (os : List OpenOrd) (perps : List (Perp.Market × Perp.Pos × I80F48)) :
    Res AccountData := do
  require (testing = true) .someError
  let c ← accountCache rnd now banks ps os perps
  let i ← c.health (f64Div rnd) .init
  let m ← c.health (f64Div rnd) .maint
  let e ← computeEquity banks ps os
  .ok ⟨i, m, e⟩

end Health
end Mango
