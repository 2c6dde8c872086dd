import Verif.Basic
/-!
# The instruction gate

Models instructions/ix_gate_set.rs:6-118, state/group.rs:147-149 and the admin part of instructions/group_edit.rs:8-48.
Keys are numbers; `gate` is the u128 bit mask, bit set = instruction disabled. Logging is left out.
-/
namespace Mango
namespace Gate

/-- state/group.rs:14-80: the fields that matter here -/
structure Group where
  admin : Nat
  securityAdmin : Nat
  ixGate : Nat
  deriving DecidableEq, Repr

/-- state/group.rs:147-149 `is_ix_enabled` -/
def Group.isIxEnabled (g : Group) (ix : Nat) : Bool := decide (g.ixGate &&& (1 <<< ix) = 0)

/-- ix_gate_set.rs:11-17: some bit is cleared -/
def requireGroupAdmin (old new : Nat) : Bool :=
  (List.range 128).any (fun i => decide (old &&& (1 <<< i) ≠ 0 ∧ new &&& (1 <<< i) = 0))

/-- ix_gate_set.rs:6-118 `ix_gate_set`; `ix_gate` is a u128 -/
def ixGateSet (g : Group) (signer gate : Nat) : Res Group := do
  require (gate < 2 ^ 128) .panic
  (if requireGroupAdmin g.ixGate gate = true then require (g.admin = signer) .someError
   else require (g.admin = signer ∨ g.securityAdmin = signer) .someError)
  .ok { g with ixGate := gate }

/-- group_edit.rs:8-48 (`has_one = admin`); the zero key is not accepted as admin -/
def groupEdit (g : Group) (signer : Nat) (admin securityAdmin : Option Nat) : Res Group := do
  require (g.admin = signer) .someError
  (match admin with
   | some a => require (a ≠ 0) .requireFailed
   | none => .ok ())
  .ok { g with admin := admin.getD g.admin, securityAdmin := securityAdmin.getD g.securityAdmin }

inductive Op where
  | set (signer gate : Nat)
  | edit (signer : Nat) (admin securityAdmin : Option Nat)
  deriving DecidableEq, Repr

def Op.signer : Op → Nat
  | .set s _ => s
  | .edit s _ _ => s

/-- a failed instruction changes nothing -/
def step (g : Group) : Op → Group
  | .set s gate => match ixGateSet g s gate with | .ok g' => g' | .error _ => g
  | .edit s a b => match groupEdit g s a b with | .ok g' => g' | .error _ => g

def run : Group → List Op → Group
  | g, [] => g
  | g, o :: os => run (step g o) os

end Gate
end Mango
