import Verif.Account.Bytes
import Verif.Basic
/-!
# The pnl service

Models bin/service-mango-pnl/src/main.rs. Amounts are raw fixed point integers. Not modelled: the connection to the chain; failures to compute a health cache (which end the updater).
-/
namespace Mango
namespace PnlService

/-- a perp position: the market, its base lots, its quote and `perp_max_settle` for the market's settle token -/
structure Position where
  market : Nat
  baseLots : Int
  quote : Int
  maxSettle : Int
  deriving DecidableEq, Repr

structure Account where
  key : Nat
  header : Raw.Hdr
  /-- its active positions -/
  positions : List Position
  deriving DecidableEq, Repr

/-- main.rs:52-92: `compute_pnl` for one position -/
def pnlOf (p : Position) : Option (Nat × Int) :=
  if p.baseLots ≠ 0 then none
  else if p.quote > 0 then some (p.market, p.quote)
  else if p.quote < 0 ∧ p.maxSettle > 0 then some (p.market, max p.quote (-p.maxSettle))
  else none

def computePnl (a : Account) : List (Nat × Int) := a.positions.filterMap pnlOf

/-- state/mango_account.rs:232-247, `space`; the fixed part has 400 bytes -/
def dataLen (a : Account) : Nat := 8 + 400 + Raw.dynamicSize a.header

/-- `size_of::<MangoAccount>()` (state/mango_account.rs:91-199) in the compiler's memory layout: 400 + 8 bytes, five paddings of four, five `Vec`s of 24 and 64 bytes, rounded up to a multiple of 8 -/
def structSize : Nat := (400 + 8 + 5 * 4 + 5 * 24 + 64 + 7) / 8 * 8

/-- main.rs:115-148: what is stored, for the accounts of the program and group -/
def update (accounts : List Account) : List (Nat × List (Nat × Int)) :=
  (accounts.filter (fun a => dataLen a == structSize)).map (fun a => (a.key, computePnl a))

/-- the entry of a market, `find` -/
def entry (market : Nat) (d : Nat × List (Nat × Int)) : Option Int := (d.2.find? (fun x => x.1 == market)).map (·.2)

/-- main.rs:226-236: the response, from the sorted list; `unwrap` panics -/
def respond (market limit : Nat) (sorted : List (Nat × List (Nat × Int))) : Res (List (Nat × Int)) :=
  (sorted.take limit).mapM (fun d => match entry market d with
    | some v => .ok (d.1, v)
    | none => .error .panic)

/-- `cmp` of the entries: none comes before all others -/
def le : Option Int → Option Int → Prop
  | none, _ => True
  | some _, none => False
  | some a, some b => a ≤ b

inductive Order where
  | asc
  | desc
  deriving DecidableEq

/-- 212-225: is this list in the requested order? `sort_unstable_by` makes any such permutation of the stored list -/
def InOrder (market : Nat) : Order → List (Nat × List (Nat × Int)) → Prop
  | .asc, l => l.Pairwise (fun a b => le (entry market a) (entry market b))
  | .desc, l => l.Pairwise (fun a b => le (entry market b) (entry market a))

/-- 183-236: a possible response to a request; `none`: refused -/
def Request (data : List (Nat × List (Nat × Int))) (market limit : Nat) (o : Order) (r : Option (Res (List (Nat × Int)))) : Prop :=
  if limit > 20 then r = none else ∃ l, l.Perm data ∧ InOrder market o l ∧ r = some (respond market limit l)

end PnlService
end Mango
