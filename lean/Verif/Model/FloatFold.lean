import Verif.Model.IntType

/-!
# Model: folding comparisons of floating literals

Models the comparison part of `perform_float_operation` (`src/parse.c:2888-2941`). The floating
point type and its comparisons are parameters: nothing about IEEE 754 is assumed.
-/
namespace Verif.FloatFold
open Verif.IntType

inductive Rel | eq | ne | ge | le | gt | lt
deriving DecidableEq, Repr

/-- The comparisons of the host. -/
structure Host (F : Type) where
  cmp : Rel → F → F → Bool

/-- `compare_value` is computed (2898-2923) and then only tested against -1; the literal is
always set to 1 (`lit->_u64 = 1`, line 2933). The result type is `int`. -/
def foldCompare {F : Type} (H : Host F) (r : Rel) (a b : F) : Ty × Nat :=
  let compareValue : Int := if H.cmp r a b then 1 else 0
  if compareValue ≠ -1 then (.s32, 1) else (.s32, 0)

end Verif.FloatFold
