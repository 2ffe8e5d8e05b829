import Verif.Model.Fold
import Verif.Spec.IntType

/-!
# Specification for folding

`Represents l v`: the stored literal `l` stands for the integer `v`: `v` is a value of the
literal's type and the low bits of the 64-bit storage are `v` in two's complement (the
other bits are irrelevant).
-/
namespace Verif.Spec.Fold
open Verif.IntType Verif.Spec.IntType Verif.Fold

def Represents (l : Lit) (v : Int) : Prop :=
  isInteger l.ty ∧ InRange l.ty v ∧ (2 ^ l.ty.bits : Int) ∣ (l.payload : Int) - v
instance (l : Lit) (v : Int) : Decidable (Represents l v) := by unfold Represents; infer_instance

/-- Folding succeeded with a literal of type `t` and value `v`. -/
def Yields (o : Out) (t : Ty) (v : Int) : Prop := ∃ l, o = .ok l ∧ l.ty = t ∧ Represents l v

/-- The token of each operator of the specification. -/
def tokOf : Op → Tok
  | .mul => .times | .div => .slash | .mod => .mod | .add => .plus | .sub => .minus
  | .eq => .logicalEquals | .ne => .logicalUnequals | .ge => .biggerEquals | .le => .smallerEquals
  | .gt => .bigger | .lt => .smaller

/-- Bit `i` of an integer in (infinite) two's complement. -/
def bit (v : Int) (i : Nat) : Int := v / 2 ^ i % 2

/-- The bitwise operators on single bits. -/
def bitOp (op : Bitwise) (a b : Int) : Int :=
  match op with
  | .and => if a = 1 ∧ b = 1 then 1 else 0
  | .or => if a = 1 ∨ b = 1 then 1 else 0
  | .xor => if a = b then 0 else 1

/-- `l` holds a 64-bit union. -/
def Fits (l : Lit) : Prop := l.payload < 2 ^ 64

end Verif.Spec.Fold
