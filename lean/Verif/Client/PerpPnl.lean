import Verif.Basic
import Mathlib.Data.List.Sort
/-!
# The accounts with the largest settleable perp pnl

Models lib/client/src/perp_pnl.rs (`fetch_top`). The accounts are given by what the code computes about each of them: the pnl after the settle limit (`apply_pnl_settle_limit`, lines 56-60; modelled in
Perp/Settle.lean) and `perp_max_settle` of its health cache (line 94; Health/). Amounts are raw fixed point integers; failures to fetch or to compute the health cache (which abort the call) are left out.
-/
namespace Mango
namespace PerpPnl

/-- perp_pnl.rs:43-70: an account with a position in the market -/
structure Cand where
  key : Nat
  /-- `limited_pnl`, line 61 -/
  pnl : Int
  /-- `perp_max_settle`, lines 94-97 -/
  maxSettle : Int
  deriving DecidableEq, Repr

/-- perp_pnl.rs:10-14 -/
inductive Direction
  | maxPositive
  | maxNegative
  deriving DecidableEq, Repr

/-- an element of `accounts_pnl`: the account and the value in the third place of the tuple -/
structure Entry where
  cand : Cand
  v : Int
  deriving DecidableEq, Repr

def raw (c : Cand) : Entry := ⟨c, c.pnl⟩

/-- perp_pnl.rs:98-102 -/
def settleable (c : Cand) : Int := if 0 < c.maxSettle then max c.pnl (-c.maxSettle) else 0

def fixed (c : Cand) : Entry := ⟨c, settleable c⟩

/-- perp_pnl.rs:87-92: the next element's value, which is not yet changed -/
def nextPnl : List Cand → Int
  | [] => 0
  | d :: _ => d.pnl

/-- perp_pnl.rs:85-113: the loop over `accounts_pnl` with the counter `stable` -/
def adjust (count : Nat) : Nat → List Cand → List Entry
  | _, [] => []
  | stable, c :: rest =>
    if settleable c ≤ nextPnl rest then
      if count ≤ stable + 1 then fixed c :: rest.map raw
      else fixed c :: adjust count (stable + 1) rest
    else fixed c :: adjust count stable rest

/-- perp_pnl.rs:43-118. `sort_by` is stable, as the insertion sort is. -/
def fetchTop (l : List Cand) (d : Direction) (count : Nat) : List Entry :=
  match d with
  | .maxPositive => (((l.filter (fun c => decide (0 < c.pnl))).insertionSort (fun a b => b.pnl ≤ a.pnl)).map raw).take count
  | .maxNegative =>
    ((adjust count 0 ((l.filter (fun c => decide (c.pnl < 0))).insertionSort (fun a b => a.pnl ≤ b.pnl))).insertionSort (fun a b => a.v ≤ b.v)).take count

end PerpPnl
end Mango
