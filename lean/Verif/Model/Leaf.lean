/-!
# Model: CodeView numeric leaves, `src/obj_writer.c:42-90` and `src/coff_writer.c:74-128`

The arena is its current address and the bytes that are pushed. `push_struct` of a number aligns the address to the size of
the number; the bytes skipped are not written and have the value `junk`.
-/
namespace Verif.Leaf

/-- `n` bytes of a number, least significant first. -/
def le : Nat → Nat → List Nat
  | 0, _ => []
  | n + 1, v => v % 256 :: le n (v / 256)

/-- `push_struct(arena, uN)` at an address, `src/std.c:755`. -/
def pushAligned (junk address n v : Nat) : List Nat :=
  List.replicate ((address + (n - 1)) / n * n - address) junk ++ le n v

/-- `push_unsigned_number_leaf`, `src/obj_writer.c:42-56`. The larger numbers are pushed as bytes. -/
def pushUnsigned (junk address value : Nat) : List Nat :=
  if value < 0x8000 then pushAligned junk address 2 value
  else if value ≤ 2 ^ 16 - 1 then
    let t := pushAligned junk address 2 0x8002
    t ++ pushAligned junk (address + t.length) 2 (value % 2 ^ 16)
  else if value ≤ 2 ^ 32 - 1 then
    pushAligned junk address 2 0x8004 ++ le 4 (value % 2 ^ 32)
  else
    pushAligned junk address 2 0x800a ++ le 8 value

/-- A conversion to an unsigned type of `n` bytes. -/
def toUnsigned (n : Nat) (v : Int) : Nat := (v % (2 ^ (8 * n) : Int)).toNat

/-- `push_signed_number_leaf`, `src/obj_writer.c:59-90`. -/
def pushSigned (junk address : Nat) (value : Int) : List Nat :=
  if value ≥ 0 then
    if value < 0x8000 then pushAligned junk address 2 (toUnsigned 2 value)
    else if value ≤ 2 ^ 15 - 1 then
      let t := pushAligned junk address 2 0x8001
      t ++ pushAligned junk (address + t.length) 2 (toUnsigned 2 value)
    else if value ≤ 2 ^ 31 - 1 then
      pushAligned junk address 2 0x8003 ++ le 4 (toUnsigned 4 value)
    else
      pushAligned junk address 2 0x8009 ++ le 8 (toUnsigned 8 value)
  else
    if value ≥ -2 ^ 7 then
      pushAligned junk address 2 0x8000 ++ le 1 (toUnsigned 1 value)
    else if value ≥ -2 ^ 15 then
      let t := pushAligned junk address 2 0x8001
      t ++ pushAligned junk (address + t.length) 2 (toUnsigned 2 value)
    else if value ≥ -2 ^ 31 then
      let t := pushAligned junk address 2 0x8003
      t ++ pushAligned junk (address + t.length) 4 (toUnsigned 4 value)
    else
      let t := pushAligned junk address 2 0x8009
      t ++ pushAligned junk (address + t.length) 8 (toUnsigned 8 value)

/-- `pdb_numeric_leaf_size_or_error`, `src/coff_writer.c:74-128`; `none` is -1. -/
def leafSize (leaf : Nat) : Option Nat :=
  if leaf &&& 0x8000 = 0 then some 2
  else if leaf = 0x8000 then some (2 + 1)
  else if leaf = 0x8001 ∨ leaf = 0x8002 then some (2 + 2)
  else if leaf = 0x8005 ∨ leaf = 0x8003 ∨ leaf = 0x8004 then some (2 + 4)
  else if leaf = 0x8009 ∨ leaf = 0x800a ∨ leaf = 0x8006 then some (2 + 8)
  else if leaf = 0x8008 ∨ leaf = 0x8017 ∨ leaf = 0x8018 then some (2 + 16)
  else none

end Verif.Leaf
