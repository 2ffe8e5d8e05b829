import Verif.Model.Cast

/-!
# Model: instructions with immediate operands

Models the immediate cases of `emit_binary_op__internal` (`src/emit_x64.c:1619-1679`),
`emit_compound_assignment__internal` (1806-1852), `emit_store` (1552-1613), `emit_load_into_specific_gpr` (1298-1328),
the comparisons of `IR_switch` (3767-3828) and the pointer increments (4047-4067), and the conversions of an
immediate (2524-2541, 2836-2904, 3230-3246).

An immediate is its `value` (a `u64`) and its `size` in bytes. Only what matters for the operand is modelled: the
opcode, the width that the prefixes select and the bytes of the immediate. That the prefixes and the opcode are encoded
correctly is C34.
-/

namespace Verif.Imm

/-- What is emitted for one operation. -/
inductive Code
  /-- An instruction with an immediate: the opcode, the size of the location (which decides the prefixes) and the bytes. -/
  | withImm (opcode width : Nat) (bytes : List Nat)
  /-- `mov register, immediate`, then an operation of `width` on this register. -/
  | viaMov (rexW : Bool) (bytes : List Nat) (width : Nat)
  /-- `xor register, register` of `loadWidth`, then an operation of `width` on this register. -/
  | viaXor (loadWidth width : Nat)
deriving DecidableEq, Repr

/-- `emit`, `emit_u16`, `emit_u32`, `emit_u64`: the low bytes of the value. -/
def leBytes : Nat → Nat → List Nat
  | 0, _ => []
  | n + 1, v => v % 256 :: leBytes n (v / 256)

def s8Max : Nat := 0x7f
def s32Max : Nat := 0x7fffffff

/-- `emit_load_into_specific_gpr` of an immediate (`src/emit_x64.c:1298-1328`), then the operation of `width` bytes. -/
def viaRegister (value size width : Nat) : Code :=
  if value = 0 then .viaXor size width
  else if size = 8 then .viaMov true (leBytes 8 value) width
  else .viaMov false (leBytes 4 value) width

/-- The bytes after `switch(size)` (`src/emit_x64.c:1651-1660`): four bytes for the sizes 4 and 8. -/
def sizedBytes (size value : Nat) : List Nat :=
  if size = 1 then leBytes 1 value else if size = 2 then leBytes 2 value else leBytes 4 value

/-- The immediate case of `emit_binary_op__internal` (`src/emit_x64.c:1628-1661`). `size` is the size of the operation. -/
def binaryOp (value srcSize size : Nat) (isSigned : Bool) : Code :=
  if srcSize = 8 ∨ (srcSize = 4 ∧ isSigned = false ∧ value > s32Max) then viaRegister value srcSize size
  else
    let short := srcSize = 1 && (isSigned || value < s8Max)
    let srcSize := if srcSize = 1 && !short then size else srcSize
    let opcode := if size = 1 then 0x80 else if short then 0x83 else 0x81
    .withImm opcode size (if srcSize = 1 then leBytes 1 value else sizedBytes size value)

/-- The immediate case of `emit_compound_assignment__internal` (`src/emit_x64.c:1826-1846`); the bytes come from
`emit_register_relative__internal` (1222-1233). -/
def compound (value rhsSize lhsSize : Nat) (isSigned : Bool) : Code :=
  if lhsSize = 1 then .withImm 0x80 lhsSize (leBytes rhsSize value)
  else if rhsSize = 1 then
    if isSigned || value ≤ s8Max then .withImm 0x83 lhsSize (leBytes rhsSize value)
    else .withImm 0x81 lhsSize (leBytes lhsSize value)
  else if rhsSize = 8 then viaRegister value rhsSize lhsSize
  else if rhsSize = 4 && isSigned && value > s32Max then viaRegister value rhsSize lhsSize
  else .withImm 0x81 lhsSize (leBytes lhsSize value)

/-- The immediate case of `emit_store` (`src/emit_x64.c:1597-1607`). -/
def store (value srcSize destSize : Nat) : Code :=
  if srcSize = 8 then viaRegister value srcSize destSize
  else .withImm (if destSize = 1 then 0xc6 else 0xc7) destSize (leBytes destSize value)

/-- The comparison with a `case` value (`src/emit_x64.c:3783-3818`), `is_signed` is 0. -/
def switchCase (value size : Nat) : Code :=
  if size = 8 then viaRegister value size size
  else
    let short := size = 1 && value < s8Max
    .withImm (if short then 0x83 else 0x81) size (if short then leBytes 1 value else sizedBytes size value)

/-- `p++` and `p--` (`src/emit_x64.c:4047-4067`): `pointee` is the size of the type pointed to. -/
def pointerIncrement (pointee : Nat) : Code :=
  if pointee > s8Max then .withImm 0x81 8 (leBytes 4 pointee) else .withImm 0x83 8 (leBytes 1 pointee)

/-- An immediate on the stack of locations: its value and its size in bits. -/
structure Loc where
  value : Nat
  bits : Nat
deriving DecidableEq, Repr

/-- The value in the register after `emit_load_into_specific_gpr` of an immediate; `old` is the previous value.
(`xor` with a size of 1 is a 32-bit instruction.) -/
def load (l : Loc) (old : Nat) : Nat :=
  if l.value = 0 then Spec.X64.writeReg (if l.bits = 8 then 32 else l.bits) old 0
  else if l.bits = 64 then Spec.X64.writeReg 64 old l.value
  else Spec.X64.writeReg 32 old l.value

/-- A conversion of an immediate that was not folded, because it is the value of a comma expression or of an assignment
(`src/emit_x64.c:2524-2541, 2897-2904, 3230-3246`): a truncation changes the size, an extension
changes the size and loads the immediate. The result is the immediate or the loaded register. -/
def castImm (k : Cast.Kind) (l : Loc) (old : Nat) : Loc ⊕ Nat :=
  match k with
  | .none => .inl l
  | .truncate n => .inl { l with bits := n }
  | .signExtend _ n => .inr (load { l with bits := n } old)
  | .zeroExtend m n => .inr (load { l with bits := if m = 32 then 32 else n } old)
  | .toBool => .inr (let r := load l old; Spec.X64.testSetne l.bits r r)

end Verif.Imm
