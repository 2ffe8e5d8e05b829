import Verif.Model.Fold

/-!
# Model: pointer arithmetic

Models `handle_pointer_arithmetic` (`src/parse.c:1732-1815`) and the pointer difference
(6105-6126). Addresses are 64-bit, the element size is `deref_type->size` (a non-negative
64-bit integer). The errors for `void` and function pointers are not modelled.
-/
namespace Verif.Pointer
open Verif.IntType Verif.Fold

/-- `p + i` with `i` evaluated at run time, value `w` of type `t`: the index is cast to `s64`
unless it has that type (C18), multiplied by the size unless that is 1 (`IR_multiply_u64`), and
added or subtracted (`IR_add_u64`/`IR_subtract_u64`). -/
def runTime (plus : Bool) (size : Nat) (p : Nat) (w : Int) : Nat :=
  let i : Nat := (hostConv 64 true w % 2 ^ 64).toNat
  let i := if size ≠ 1 then i * size % 2 ^ 64 else i
  if plus then (p + i) % 2 ^ 64 else (p + (2 ^ 64 - i)) % 2 ^ 64

/-- A literal index and a run-time pointer, `src/parse.c:1779-1794`: the literal is extended to
64 bits and multiplied in place, signed or unsigned. `none`: signed overflow in the compiler. -/
def literalIndex (plus : Bool) (size : Nat) (p : Nat) (l : Lit) : Option Nat :=
  let scaled : Option Int :=
    if l.ty.isSigned then hostArith .s64 (hostConv 64 true l.get * size)
    else hostArith .u64 (hostConv 64 false l.get * size)
  scaled.map fun s =>
    let i := (s % 2 ^ 64).toNat
    if plus then (p + i) % 2 ^ 64 else (p + (2 ^ 64 - i)) % 2 ^ 64

/-- Both literals, `src/parse.c:1762-1778`: the index is not scaled. -/
def bothLiteral (plus : Bool) (_size : Nat) (p : Nat) (l : Lit) : Nat :=
  let i := (hostConv 64 true l.get % 2 ^ 64).toNat
  if plus then (p + i) % 2 ^ 64 else (p + (2 ^ 64 - i)) % 2 ^ 64

/-- `p - q`, `src/parse.c:6105-6126`: subtract, then an *unsigned* division by the size unless
it is 1; the result has type `s64`. `none`: division by zero (empty structures). -/
def difference (size : Nat) (p q : Nat) : Option Int :=
  let d := (p + (2 ^ 64 - q)) % 2 ^ 64
  if size ≠ 1 then
    if size = 0 then none else some (rd 64 true (d / size))
  else some (rd 64 true d)

end Verif.Pointer
