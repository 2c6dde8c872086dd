import Verif.Basic
/-!
# The heap

Models allocator.rs. Addresses are numbers; the heap is mapped from `heapStart` to `top` (the runtime maps 32 KiB, or more if the transaction asks for it), is zero when the program starts, and touching an address outside it ends the
program. Rust's `alloc_zeroed` and `realloc` use their defaults: they call `alloc` and then write to the new block only.
-/
namespace Mango
namespace Alloc

/-- `HEAP_START_ADDRESS` of the runtime -/
def heapStart : Nat := 0x300000000
/-- allocator.rs:8 -/
def heapEnd : Nat := 0x400000000

structure Mem where
  bytes : Nat → UInt8
  top : Nat

inductive Fail where
  | panic
  | fault
  deriving DecidableEq, Repr

/-- a `usize` in memory, little-endian -/
def Mem.word (m : Mem) (a : Nat) : Nat := (List.range 8).foldr (fun i acc => (m.bytes (a + i)).toNat + 256 * acc) 0

/-- `*p = v` on one byte -/
def Mem.store (m : Mem) (a : Nat) (v : UInt8) : Except Fail Mem :=
  if heapStart ≤ a ∧ a < m.top then .ok { m with bytes := fun x => if x = a then v else m.bytes x } else .error .fault

def Mem.setWord (m : Mem) (a v : Nat) : Mem := { m with bytes := fun x => if a ≤ x ∧ x < a + 8 then UInt8.ofNat (v / 256 ^ (x - a) % 256) else m.bytes x }

/-- allocator.rs:37-66, `alloc` -/
def alloc (m : Mem) (size align : Nat) : Except Fail (Nat × Mem) :=
  if m.top < heapStart + 8 then .error .fault else
  let pos := if m.word heapStart = 0 then heapStart + 8 else m.word heapStart
  let mask := (align + 18446744073709551616 - 1) % 18446744073709551616
  let begin_ := (pos + mask) % 18446744073709551616 &&& (18446744073709551615 - mask)
  let e := begin_ + size
  if e ≥ 18446744073709551616 then .error .panic else
  let m := m.setWord heapStart e
  if ¬ e < heapEnd then .error .panic else
  match m.store e 0 with
  | .error f => .error f
  | .ok m => .ok (begin_, m)

/-- allocator.rs:75-85, `used` -/
def used (m : Mem) : Nat := if m.word heapStart = 0 then 0 else m.word heapStart - heapStart

end Alloc
end Mango
