import Mathlib.Algebra.Polynomial.Div
import Mathlib.Data.ZMod.Basic

/-!
# Specification: CRC-32 (ISO 3309) as a remainder of polynomials over the field with two elements
-/
namespace Verif.Spec.Crc32
open Polynomial

/-- The polynomial whose coefficients, highest first, are the given bits. -/
noncomputable def poly (bits : List Bool) : (ZMod 2)[X] := bits.foldl (fun p b => p * X + (if b then 1 else 0)) 0

/-- The bits of a register or a byte in the order in which they are sent: lowest first. -/
def bits {w : Nat} (v : BitVec w) : List Bool := (List.range w).map v.getLsbD

/-- The bits of a message. -/
def message (data : List (BitVec 8)) : List Bool := data.flatMap bits

/-- The generating polynomial. -/
noncomputable def gen : (ZMod 2)[X] :=
  X ^ 32 + X ^ 26 + X ^ 23 + X ^ 22 + X ^ 16 + X ^ 12 + X ^ 11 + X ^ 10 + X ^ 8 + X ^ 7 + X ^ 5 + X ^ 4 + X ^ 2 + X + 1

end Verif.Spec.Crc32
