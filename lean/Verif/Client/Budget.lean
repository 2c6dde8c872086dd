import Mathlib.Algebra.Order.Field.Rat
import Mathlib.Data.Rat.Floor
import Mathlib.Tactic.Linarith
import Mathlib.Tactic.Ring
/-!
# Compute budget and priority fee of the client's transactions

Models lib/client/src/client.rs:2486-2527 (`instructions_with_cu_budget`), lib/client/src/util.rs:125-177 (`PreparedInstructions`) and lib/client/src/priority_fees.rs:12-113 (the fixed and the averaging
fee provider).  All sums and products of `u32` are checked: Cargo.toml:31 builds with overflow checks, so overflow is a panic (`none`).  Simplified: `f64` is ℚ without rounding; an instruction of another
program is a number that stands for all its contents; the locks of the provider are not modelled.
-/
namespace Mango
namespace Budget

/-- an instruction as `instructions_with_cu_budget` tells them apart: the compute budget program's limit and price, its other (or unreadable) instructions, and those of other programs -/
inductive Ix where
  | limit (units : Nat)
  | price (microLamports : Nat)
  | otherBudget (data : Nat)
  | other (contents : Nat)
  deriving DecidableEq, Repr

/-- 2493: the program is the compute budget program -/
def Ix.isBudget : Ix → Bool
  | .other _ => false
  | _ => true

/-- 2498-2500 -/
def Ix.isLimit : Ix → Bool
  | .limit _ => true
  | _ => false

/-- 2501-2503 -/
def Ix.isPrice : Ix → Bool
  | .price _ => true
  | _ => false

/-- the largest `u32` -/
def u32Max : Nat := 4294967295

/-- client.rs:2443-2452 `TransactionBuilderConfig`: the limit per instruction, and what the fee provider answers -/
structure Cfg where
  cuPerIx : Option Nat
  prio : Option Nat

/-- 2509-2516: the limit; the number of instructions is an `usize` that must fit in `u32` -/
def addLimit (c : Cfg) (ixs : List Ix) : Option (List Ix) :=
  let perIx := c.cuPerIx.getD 0
  if ¬ ixs.any Ix.isLimit ∧ perIx > 0 then
    let count := ixs.length - (ixs.filter Ix.isBudget).length
    if count ≤ u32Max ∧ perIx * count ≤ u32Max then some (.limit (perIx * count) :: ixs) else none
  else some ixs

/-- 2518-2526: the price, `hasPrice` from the scan of the given instructions -/
def addPrice (c : Cfg) (hasPrice : Bool) (ixs : List Ix) : List Ix :=
  let prio := c.prio.getD 0
  if ¬ hasPrice ∧ prio > 0 then .price prio :: ixs else ixs

/-- 2486-2527 `instructions_with_cu_budget`; `none` is a panic -/
def withBudget (c : Cfg) (ixs : List Ix) : Option (List Ix) :=
  (addLimit c ixs).map (addPrice c (ixs.any Ix.isPrice))

/-! ## `PreparedInstructions` -/

/-- util.rs:125-128 -/
structure Prepared where
  ixs : List Ix
  cu : Nat

/-- util.rs:131-136 -/
def Prepared.new : Prepared := ⟨[], 0⟩

/-- util.rs:138-140; `from_single` is a list of one -/
def Prepared.fromVec (ixs : List Ix) (cu : Nat) : Prepared := ⟨ixs, cu⟩

/-- util.rs:154-157 -/
def Prepared.append (p q : Prepared) : Option Prepared :=
  if p.cu + q.cu ≤ u32Max then some ⟨p.ixs ++ q.ixs, p.cu + q.cu⟩ else none

/-- util.rs:149-152 -/
def Prepared.push (p : Prepared) (ix : Ix) (cu : Nat) : Option Prepared :=
  if p.cu + cu ≤ u32Max then some ⟨p.ixs ++ [ix], p.cu + cu⟩ else none

/-- util.rs:169-172 -/
def Prepared.clear (_ : Prepared) : Prepared := ⟨[], 0⟩

/-- util.rs:159-163 -/
def Prepared.toInstructions (p : Prepared) : List Ix := .limit p.cu :: p.ixs

/-- how callers put a transaction together -/
inductive Op where
  | push (ix : Ix) (cu : Nat)
  | append (ixs : List Ix) (cu : Nat)
  | clear

/-- one call -/
def Prepared.step (p : Prepared) : Op → Option Prepared
  | .push ix cu => p.push ix cu
  | .append ixs cu => p.append (Prepared.fromVec ixs cu)
  | .clear => some p.clear

/-- a sequence of calls -/
def Prepared.run (p : Prepared) : List Op → Option Prepared
  | [] => some p
  | o :: os => match p.step o with
    | none => none
    | some q => q.run os

/-! ## The averaging fee provider -/

/-- priority_fees.rs:34-45 `EmaPriorityFeeProviderConfig`; `percentile` is already applied: a block's fee is `none` when it has none for it -/
structure EmaCfg where
  alpha : ℚ
  fallback : Nat
  maxAge : Nat

/-- priority_fees.rs:53-57; `Default`: zero and never updated -/
structure Ema where
  ema : ℚ
  lastUpdate : Option Nat

/-- the provider's initial data, priority_fees.rs:82-85 -/
def Ema.init : Ema := ⟨0, none⟩

/-- priority_fees.rs:97-110: a block arrives at time `now` with the fee at the percentile, if there is one -/
def Ema.block (c : EmaCfg) (d : Ema) (now : Nat) (fee : Option Nat) : Ema :=
  match fee with
  | none => d
  | some prio => ⟨d.ema * (1 - c.alpha) + c.alpha * prio, some now⟩

/-- the blocks seen, in order -/
def Ema.run (c : EmaCfg) (d : Ema) : List (Nat × Option Nat) → Ema
  | [] => d
  | b :: bs => (d.block c b.1 b.2).run c bs

/-- the largest `u64` -/
def u64Max : Nat := 18446744073709551615

/-- `f64 as u64`: towards zero, saturating -/
def asU64 (x : ℚ) : Nat := min (Int.toNat ⌊x⌋) u64Max

/-- priority_fees.rs:64-74 `compute_unit_fee_microlamports` -/
def Ema.fee (c : EmaCfg) (d : Ema) (now : Nat) : Nat :=
  match d.lastUpdate with
  | none => c.fallback
  | some t => if now - t > c.maxAge then c.fallback else asU64 d.ema

end Budget
end Mango
