/-!
# The bytes of an account and how they are rearranged by a resize

Models /repo/programs/mango-v4/src/state/mango_account.rs: the layout of the dynamic part of an account
(249-313, 570-620), `from_bytes` (478-541), `check_resize_from` (662-681) and `resize_dynamic_content`
(1532-1825), with every read, `sol_memmove`, slot default and length write at the level of single bytes.

The memory is a function from addresses to bytes together with the length of the slice. Going beyond the
slice with a checked access is the error `panic`; an unchecked `sol_memmove` that would leave the slice
(undefined behaviour in the program, which only checks the first byte of each side) is the separate error
`outOfBounds`, so that theorems can exclude it.
-/
namespace Mango.Raw

inductive RErr where
  | panic          -- failed slice index, failed unwrap
  | outOfBounds    -- unchecked memmove outside of the slice
  | require        -- a failed `require_gte!`
  | version        -- unknown header version
  deriving DecidableEq, Repr

abbrev R (α : Type) := Except RErr α

/-- The `dynamic: &mut [u8]` slice (mango_account.rs:945-947). -/
structure Mem where
  bytes : Nat → UInt8
  len : Nat

/-- `MangoAccountDynamicHeader` (mango_account.rs:468-475); the fields are `u8`. -/
structure Hdr where
  tokenCount : Nat
  serum3Count : Nat
  perpCount : Nat
  perpOoCount : Nat
  tcsCount : Nat
  deriving DecidableEq, Repr

/-- All counts fit in a `u8` (mango_account.rs:468-475). -/
def Hdr.U8 (h : Hdr) : Prop :=
  h.tokenCount < 256 ∧ h.serum3Count < 256 ∧ h.perpCount < 256 ∧ h.perpOoCount < 256 ∧ h.tcsCount < 256

/-! ## Sizes (mango_account_components.rs:49-53, 167-171, 329-333, 825-826; token_conditional_swap.rs:148-152) -/

def szToken : Nat := 184
def szSerum3 : Nat := 120
def szPerp : Nat := 304
def szPerpOo : Nat := 96
def szTcs : Nat := 200
/-- `DYNAMIC_RESERVED_BYTES` (mango_account.rs:37). -/
def szReserved : Nat := 64

/-! ## Offsets of the vectors (mango_account.rs:249-313): each is the position of the 4 length bytes -/

/-- `dynamic_token_vec_offset` (249-252): 8 header bytes and 4 padding bytes. -/
def tokenVecOffset : Nat := 8 + 4
/-- `dynamic_serum3_vec_offset` (254-258). -/
def serum3VecOffset (tc : Nat) : Nat := tokenVecOffset + (4 + szToken * tc) + 4
/-- `dynamic_perp_vec_offset` (260-264). -/
def perpVecOffset (tc sc : Nat) : Nat := serum3VecOffset tc + (4 + szSerum3 * sc) + 4
/-- `dynamic_perp_oo_vec_offset` (266-270). -/
def perpOoVecOffset (tc sc pc : Nat) : Nat := perpVecOffset tc sc + (4 + szPerp * pc) + 4
/-- `dynamic_token_conditional_swap_vec_offset` (272-281). -/
def tcsVecOffset (tc sc pc oc : Nat) : Nat := perpOoVecOffset tc sc pc + (4 + szPerpOo * oc) + 4
/-- `dynamic_reserved_bytes_offset` (283-297). -/
def reservedOffset (h : Hdr) : Nat :=
  tcsVecOffset h.tokenCount h.serum3Count h.perpCount h.perpOoCount + (4 + szTcs * h.tcsCount)
/-- `dynamic_size` (299-313). -/
def dynamicSize (h : Hdr) : Nat := reservedOffset h + szReserved

/-- `token_offset(i)` (571-575). -/
def Hdr.tokenOffset (_h : Hdr) (i : Nat) : Nat := tokenVecOffset + 4 + i * szToken
/-- `serum3_offset(i)` (579-583). -/
def Hdr.serum3Offset (h : Hdr) (i : Nat) : Nat := serum3VecOffset h.tokenCount + 4 + i * szSerum3
/-- `perp_offset(i)` (586-590). -/
def Hdr.perpOffset (h : Hdr) (i : Nat) : Nat := perpVecOffset h.tokenCount h.serum3Count + 4 + i * szPerp
/-- `perp_oo_offset(i)` (592-599). -/
def Hdr.perpOoOffset (h : Hdr) (i : Nat) : Nat :=
  perpOoVecOffset h.tokenCount h.serum3Count h.perpCount + 4 + i * szPerpOo
/-- `token_conditional_swap_offset(i)` (601-609). -/
def Hdr.tcsOffset (h : Hdr) (i : Nat) : Nat :=
  tcsVecOffset h.tokenCount h.serum3Count h.perpCount h.perpOoCount + 4 + i * szTcs

/-! ## Byte access -/

/-- The `n` bytes from address `a`. -/
def Mem.read (m : Mem) (a n : Nat) : List UInt8 := (List.range n).map fun k => m.bytes (a + k)

/-- `get_helper` (mango_account.rs:550-552): the bytes of the record at `a`; the slice index is checked. -/
def getHelper (m : Mem) (a n : Nat) : R (List UInt8) :=
  if a + n ≤ m.len then .ok (m.read a n) else .error .panic

/-- Overwriting `n` bytes from address `a` with the bytes `v 0, v 1, …`. -/
def Mem.write (m : Mem) (a n : Nat) (v : Nat → UInt8) : Mem :=
  { m with bytes := fun x => if a ≤ x ∧ x < a + n then v (x - a) else m.bytes x }

/-- A checked write through `get_helper_mut` (554-556) or a checked `copy_from_slice`. -/
def setHelper (m : Mem) (a n : Nat) (v : Nat → UInt8) : R Mem :=
  if a + n ≤ m.len then .ok (m.write a n v) else .error .panic

/-- `sol_memmove(&mut dynamic[dst], &mut dynamic[src], n)`: only the first byte of each side is checked;
the bytes are moved as if through a temporary copy. -/
def memmove (m : Mem) (dst src n : Nat) : R Mem :=
  if m.len ≤ dst ∨ m.len ≤ src then .error .panic
  else if m.len < dst + n ∨ m.len < src + n then .error .outOfBounds
  else .ok (m.write dst n fun k => m.bytes (src + k))

/-- Little-endian 16-bit value at offset `k` of a record. -/
def u16At (r : List UInt8) (k : Nat) : Nat := (r.getD k 0).toNat + 256 * (r.getD (k + 1) 0).toNat

/-! ## When a slot is in use -/

/-- `TokenPosition::is_active` (mango_account_components.rs:72-74): `token_index` is after the 16 bytes of
`indexed_position` (18-31). -/
def tokenActive (r : List UInt8) : Bool := u16At r 16 != 65535
/-- `Serum3Orders::is_active` (175-177): `market_index` is after `open_orders` (32) and two u64 (114-126). -/
def serum3Active (r : List UInt8) : Bool := u16At r 48 != 65535
/-- `PerpPosition::is_active` (398-400): `market_index` is the first field (208-209). -/
def perpActive (r : List UInt8) : Bool := u16At r 0 != 65535
/-- `PerpOpenOrder::is_active` (853-855): `market` is after two single bytes (805-811). -/
def perpOoActive (r : List UInt8) : Bool := u16At r 2 != 65535
/-- `TokenConditionalSwap::is_configured` (token_conditional_swap.rs:190-192): after 6 u64, 3 f64, 2 f32 and
2 u16 (45-108). -/
def tcsActive (r : List UInt8) : Bool := r.getD 84 0 == 1

/-! ## Default records -/

/-- `TokenPosition::default` (mango_account_components.rs:55-68). -/
def tokenDefault (k : Nat) : UInt8 := if k = 16 ∨ k = 17 then 255 else 0
/-- `Serum3Orders::default` (184-203): the three indexes are `MAX`. -/
def serum3Default (k : Nat) : UInt8 := if 48 ≤ k ∧ k < 54 then 255 else 0
/-- `PerpPosition::default` (336-366). -/
def perpDefault (k : Nat) : UInt8 := if k = 0 ∨ k = 1 then 255 else 0
/-- `PerpOpenOrder::default` (829-843). -/
def perpOoDefault (k : Nat) : UInt8 := if k = 2 ∨ k = 3 then 255 else 0
/-- `TokenConditionalSwap::default` (token_conditional_swap.rs:155-184): expiry `u64::MAX`, token indexes `MAX`. -/
def tcsDefault (k : Nat) : UInt8 := if (40 ≤ k ∧ k < 48) ∨ (80 ≤ k ∧ k < 84) then 255 else 0

/-! ## Parsing the header -/

/-- `u8::try_from(u32::from_le_bytes(..)).unwrap()` of the 4 bytes at `a` (mango_account.rs:483-488). -/
def readCount (m : Mem) (a : Nat) : R Nat :=
  if m.len < a + 4 then .error .panic
  else if (m.bytes (a + 1)).toNat + (m.bytes (a + 2)).toNat + (m.bytes (a + 3)).toNat = 0 then
    .ok (m.bytes a).toNat
  else .error .panic

/-- `MangoAccountDynamicHeader::from_bytes` (mango_account.rs:478-541). -/
def fromBytes (m : Mem) : R Hdr := do
  if m.len < 1 then .error .panic
  else if m.bytes 0 ≠ 1 then .error .version
  else do
    let tc ← readCount m tokenVecOffset
    let sc ← readCount m (serum3VecOffset tc)
    let pc ← readCount m (perpVecOffset tc sc)
    let oc ← readCount m (perpOoVecOffset tc sc pc)
    let cc ← (if tcsVecOffset tc sc pc oc + 4 < m.len then readCount m (tcsVecOffset tc sc pc oc)
      else .ok 0)
    pure ⟨tc, sc, pc, oc, cc⟩

/-! ## Resizing -/

/-- `expected_health_accounts` (mango_account.rs:647-649). -/
def Hdr.expectedHealthAccounts (h : Hdr) : Nat := h.tokenCount * 2 + h.serum3Count + h.perpCount * 2

/-- `check_resize_from` (mango_account.rs:662-681), as a decidable condition. -/
def resizeAllowed (old new : Hdr) : Bool :=
  (!(old.expectedHealthAccounts < new.expectedHealthAccounts) || new.expectedHealthAccounts ≤ 28) &&
  (!(old.perpOoCount < new.perpOoCount) || new.perpOoCount ≤ 64) &&
  (!(old.tcsCount < new.tcsCount) || new.tcsCount ≤ 64)

/-- The "defrag" loop over one vector (1573-1591 for tokens, 1593-1611 serum3, 1613-1631 perps, 1646-1664
conditional swaps): `rem` slots are still to be visited, `i` is the next one, `a` active ones were seen. -/
def defrag (start size : Nat) (act : List UInt8 → Bool) : Nat → Nat → Nat → Mem → R (Mem × Nat)
  | 0, _, a, m => .ok (m, a)
  | rem + 1, i, a, m => do
    let pos ← getHelper m (start + i * size) size
    if act pos = false then defrag start size act rem (i + 1) a m
    else do
      let m ← (if i ≠ a then memmove m (start + a * size) (start + i * size) size else .ok m)
      defrag start size act rem (i + 1) (a + 1) m

/-- The search for the last active perp open order (1633-1644): `rem` is `idx + 1` of the next slot. -/
def blockedOo (start size : Nat) (act : List UInt8 → Bool) : Nat → Mem → R Nat
  | 0, _ => .ok 0
  | idx + 1, m => do
    let pos ← getHelper m (start + idx * size) size
    if act pos = true then .ok (idx + 1) else blockedOo start size act idx m

/-- One step of the first move pass (1673-1729): move the block to the left if it needs to. -/
def moveLeft (m : Mem) (new old size cnt : Nat) : R Mem :=
  if new < old ∧ 0 < cnt then memmove m new old (size * cnt) else .ok m

/-- One step of the second move pass (1731-1787): move the block to the right if it needs to. -/
def moveRight (m : Mem) (new old size cnt : Nat) : R Mem :=
  if old < new ∧ 0 < cnt then memmove m new old (size * cnt) else .ok m

/-- The defaulting loop over one vector (1789-1807): slots `i .. i + rem`. -/
def fillDefault (start size : Nat) (dflt : Nat → UInt8) : Nat → Nat → Mem → R Mem
  | 0, _, m => .ok m
  | rem + 1, i, m => do
    let m ← setHelper m (start + i * size) size dflt
    fillDefault start size dflt rem (i + 1) m

/-- `write_borsh_vec_length_and_padding` (mango_account.rs:1491-1498): `offset` is the first slot. -/
def writeLength (m : Mem) (offset count : Nat) : R Mem := do
  let m ← setHelper m (offset - 4 - 4) 4 (fun _ => 0)
  setHelper m (offset - 4) 4 (fun k => if k = 0 then UInt8.ofNat count else 0)

/-- `resize_dynamic_content` (mango_account.rs:1532-1825). -/
def resize (m : Mem) (old new : Hdr) : R Mem := do
  if resizeAllowed old new = false then .error .require
  else do
    let (m, at_) ← defrag (old.tokenOffset 0) szToken tokenActive old.tokenCount 0 0 m
    let (m, as_) ← defrag (old.serum3Offset 0) szSerum3 serum3Active old.serum3Count 0 0 m
    let (m, ap) ← defrag (old.perpOffset 0) szPerp perpActive old.perpCount 0 0 m
    let bo ← blockedOo (old.perpOoOffset 0) szPerpOo perpOoActive old.perpOoCount m
    let (m, ac) ← defrag (old.tcsOffset 0) szTcs tcsActive old.tcsCount 0 0 m
    if ¬ (at_ ≤ new.tokenCount ∧ as_ ≤ new.serum3Count ∧ ap ≤ new.perpCount ∧ bo ≤ new.perpOoCount ∧
      ac ≤ new.tcsCount) then .error .require
    else do
      let m ← moveLeft m (new.serum3Offset 0) (old.serum3Offset 0) szSerum3 as_
      let m ← moveLeft m (new.perpOffset 0) (old.perpOffset 0) szPerp ap
      let m ← moveLeft m (new.perpOoOffset 0) (old.perpOoOffset 0) szPerpOo bo
      let m ← moveLeft m (new.tcsOffset 0) (old.tcsOffset 0) szTcs ac
      let m ← moveRight m (new.tcsOffset 0) (old.tcsOffset 0) szTcs ac
      let m ← moveRight m (new.perpOoOffset 0) (old.perpOoOffset 0) szPerpOo bo
      let m ← moveRight m (new.perpOffset 0) (old.perpOffset 0) szPerp ap
      let m ← moveRight m (new.serum3Offset 0) (old.serum3Offset 0) szSerum3 as_
      let m ← fillDefault (new.tokenOffset 0) szToken tokenDefault (new.tokenCount - at_) at_ m
      let m ← fillDefault (new.serum3Offset 0) szSerum3 serum3Default (new.serum3Count - as_) as_ m
      let m ← fillDefault (new.perpOffset 0) szPerp perpDefault (new.perpCount - ap) ap m
      let m ← fillDefault (new.perpOoOffset 0) szPerpOo perpOoDefault (new.perpOoCount - bo) bo m
      let m ← fillDefault (new.tcsOffset 0) szTcs tcsDefault (new.tcsCount - ac) ac m
      let m ← setHelper m (reservedOffset new) szReserved (fun _ => 0)
      let m ← writeLength m (new.tokenOffset 0) new.tokenCount
      let m ← writeLength m (new.serum3Offset 0) new.serum3Count
      let m ← writeLength m (new.perpOffset 0) new.perpCount
      let m ← writeLength m (new.perpOoOffset 0) new.perpOoCount
      writeLength m (new.tcsOffset 0) new.tcsCount

/-! ## The instructions -/

/-- `AccountInfo::realloc` to the size belonging to `n` dynamic bytes: new bytes are zero (the runtime
hands out zeroed growth space; comment at account_expand.rs:50-53). -/
def realloc (m : Mem) (n : Nat) : Mem :=
  { bytes := fun x => if x < m.len then m.bytes x else 0, len := n }

/-- The account data part of `account_expand` (account_expand.rs:6-74). Lengths are of the dynamic part (the
fixed part has constant size); rent transfers are not modelled. -/
def accountExpand (m : Mem) (new : Hdr) : R Mem := do
  let cur := m.len
  let n := dynamicSize new
  let m := if cur < n then realloc m n else m
  let old ← fromBytes m
  let m ← resize m old new
  pure (if n < cur then realloc m n else m)

/-- Number of active slots of one vector (e.g. `active_token_positions().count()`). -/
def countActive (m : Mem) (start size n : Nat) (act : List UInt8 → Bool) : Nat :=
  ((List.range n).filter fun i => act (m.read (start + i * size) size)).length

/-- The header chosen by `account_size_migration` (account_size_migration.rs:19-44). -/
def migrationHeader (m : Mem) (h : Hdr) : Hdr :=
  { h with
    tokenCount := min h.tokenCount (max (countActive m (h.tokenOffset 0) szToken h.tokenCount tokenActive) 8)
    perpCount := min h.perpCount (max (countActive m (h.perpOffset 0) szPerp h.perpCount perpActive) 4)
    serum3Count :=
      min h.serum3Count (max (countActive m (h.serum3Offset 0) szSerum3 h.serum3Count serum3Active) 4) }

/-- The account data part of `account_size_migration` (account_size_migration.rs:6-88). -/
def accountSizeMigration (m : Mem) : R Mem := do
  let h ← fromBytes m
  if m.len = dynamicSize h then pure m
  else accountExpand m (migrationHeader m h)

/-- The account data part of `account_create` (account_create.rs:7-54) with `load_full_init` (mango_account.rs:1870-1884):
the new account's bytes are zero, the version byte is set to 1, then the slots are set up. -/
def accountCreate (h : Hdr) : R Mem := do
  let m : Mem := ⟨fun k => if k = 0 then 1 else 0, dynamicSize h⟩
  let old ← fromBytes m
  if resizeAllowed ⟨0, 0, 0, 0, 0⟩ h = false then .error .require
  else resize m old h

end Mango.Raw
