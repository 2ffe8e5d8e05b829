import Verif.Spec.X64

/-!
# Model: access to bit-fields

Models `emit_load_bitfield` (`src/emit_x64.c:2000-2033`), `emit_store_bitfield` (2035-2075) and
the bit-field case of a static initializer (`evaluate_static_initializer__internal`,
`src/main.c:2471-2487`). The machine code is modelled by the instructions it consists of
(`Verif.Spec.X64`); registers are naturals below 2^64, the storage unit of the bit-field is a
natural below `2 ^ unit` where `unit` is 8, 16, 32 or 64. `g` stands for the previous contents of
a register that is allocated.
-/
namespace Verif.Bitfield
open Verif.Spec.X64

/-- `struct ast_bitfield_type`: `unit` is the size in bits of `base_type` (and of the memory
location), `isSigned` is `type_is_signed(base_type)`. -/
structure Field where
  unit : Nat
  isSigned : Bool
  index : Nat
  width : Nat
deriving DecidableEq, Repr

/-- The operand size in bits of an instruction whose opcode is not the 8-bit form, emitted for a
location of `n` bits: only sizes 2 and 8 get a prefix (`src/emit_x64.c:577-645`). -/
def opBits (n : Nat) : Nat := if n = 8 then 32 else n

/-- `mov reg, [mem]`, `src/emit_x64.c:1321-1333`. -/
def loadGpr (n : Nat) (g mem : Nat) : Nat := mov n g mem

/-- An immediate in a register, `src/emit_x64.c:1294-1320`: `xor` or a 32- or 64-bit `mov`. -/
def loadImm (n : Nat) (v : Nat) : Nat := if n = 64 then v % 2 ^ 64 else v % 2 ^ 32

/-- `shl r, k` with `n` bits. -/
def shl (n : Nat) (r k : Nat) : Nat := writeReg n r (r % 2 ^ n * 2 ^ k)
/-- `shr r, k`. -/
def shr (n : Nat) (r k : Nat) : Nat := writeReg n r (r % 2 ^ n / 2 ^ k)
/-- `sar r, k`. -/
def sar (n : Nat) (r k : Nat) : Nat := writeReg n r (pattern n (sext n r / 2 ^ k))
/-- `and r, s` and `or r, s`. -/
def andR (n : Nat) (r s : Nat) : Nat := writeReg n r (r % 2 ^ n &&& s % 2 ^ n)
def orR (n : Nat) (r s : Nat) : Nat := writeReg n r (r % 2 ^ n ||| s % 2 ^ n)

/-- `emit_load_bitfield`, `src/emit_x64.c:2000-2033`. -/
def load (f : Field) (g mem : Nat) : Nat :=
  let r := loadGpr f.unit g mem
  let n := if f.unit ≤ 32 then 32 else 64
  let r := if f.index + f.width < n then shl n r (n - (f.index + f.width)) else r
  if f.width ≠ n then (if f.isSigned then sar n r (n - f.width) else shr n r (n - f.width)) else r

/-- The value the program sees: the location has size 4 for widths up to 32, else 8 (2030), and
the type is `int` for narrower fields, `int` or `unsigned` for 32 bits, else the base type
(`src/parse.c:651-661`). -/
def loadedValue (f : Field) (g mem : Nat) : Int :=
  let r := load f g mem
  if f.width < 32 then sext 32 r
  else if f.width = 32 then (if f.isSigned then sext 32 r else (r % 2 ^ 32 : Nat))
  else (if f.isSigned then sext 64 r else (r % 2 ^ 64 : Nat))

/-- `emit_store_bitfield`, `src/emit_x64.c:2035-2075`: the new contents of the storage unit.
`rhs` is the register with the value (cast to the base type by the parser), `g` the previous
contents of the register the unit is loaded into. `none`: the compiler evaluates `1ull << 64`. -/
def store (f : Field) (g rhs mem : Nat) : Option Nat :=
  if f.width < 64 then
    let n := opBits f.unit
    let mask := loadImm f.unit (2 ^ f.width - 1)
    let r := andR n rhs mask
    let r := if f.index ≠ 0 then shl n r f.index else r
    let l := loadGpr f.unit g mem
    let keep := loadImm f.unit (2 ^ 64 - 1 - (2 ^ f.width - 1) * 2 ^ f.index % 2 ^ 64)
    let l := andR n l keep
    let l := orR n l r
    some (l % 2 ^ f.unit)
  else none

/-- The static initializer of a bit-field, `src/main.c:2475-2487`; `value` is the literal
(`integer_literal_to_bytes`, extended to 64 bits), `old` the bytes already in the image. -/
def staticStore (f : Field) (value old : Nat) : Option Nat :=
  if f.width < 64 then
    let value := value * 2 ^ f.index % 2 ^ 64
    let mask := 2 ^ 64 - 1 - (2 ^ f.width - 1) * 2 ^ f.index % 2 ^ 64
    some ((mask &&& old ||| value) % 2 ^ f.unit)
  else none

end Verif.Bitfield
