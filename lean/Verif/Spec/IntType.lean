import Verif.Model.IntType

/-!
# Specification: integer types, conversions and operators of C11

Written from C11 6.2.5, 6.3.1 and 6.5 for the data model of the target (`int` 32 bits,
`long long` 64 bits, `char` signed, two's complement). Only the enumeration `Ty` is
shared with the model.
-/
namespace Verif.Spec.IntType
open Verif.IntType

/-- Value ranges (5.2.4.2.1). -/
def minVal : Ty → Int
  | .bool => 0 | .s8 => -128 | .u8 => 0 | .s16 => -32768 | .u16 => 0
  | .s32 => -2147483648 | .u32 => 0 | .s64 => -9223372036854775808 | .u64 => 0 | .f32 | .f64 => 0
def maxVal : Ty → Int
  | .bool => 1 | .s8 => 127 | .u8 => 255 | .s16 => 32767 | .u16 => 65535
  | .s32 => 2147483647 | .u32 => 4294967295 | .s64 => 9223372036854775807 | .u64 => 18446744073709551615
  | .f32 | .f64 => 0

/-- Conversion rank (6.3.1.1p1), as a number. -/
def rank : Ty → Nat
  | .bool => 0 | .s8 | .u8 => 1 | .s16 | .u16 => 2 | .s32 | .u32 => 3 | .s64 | .u64 => 4 | .f32 | .f64 => 0

def isInteger : Ty → Prop
  | .f32 | .f64 => False
  | _ => True
instance : DecidablePred isInteger := fun t => by cases t <;> simp only [isInteger] <;> infer_instance

/-- Signed integer types have negative values. -/
def signed (t : Ty) : Prop := minVal t < 0
instance : DecidablePred signed := fun t => by unfold signed; infer_instance

/-- The corresponding unsigned type. -/
def toUnsigned : Ty → Ty
  | .s8 => .u8 | .s16 => .u16 | .s32 => .u32 | .s64 => .u64 | t => t

/-- Integer promotion (6.3.1.1p2): types of lower rank than `int` become `int` if `int`
can represent all their values, otherwise `unsigned int`; other types are unchanged. -/
def promoted (t : Ty) : Ty :=
  if rank t < rank .s32 then
    if minVal .s32 ≤ minVal t ∧ maxVal t ≤ maxVal .s32 then .s32 else .u32
  else t

/-- The usual arithmetic conversions (6.3.1.8p1) as a relation: the clauses of the
standard in order. -/
def Common (a b c : Ty) : Prop :=
  if a = .f64 ∨ b = .f64 then c = .f64
  else if a = .f32 ∨ b = .f32 then c = .f32
  else
    let a := promoted a
    let b := promoted b
    if a = b then c = a
    else if signed a ↔ signed b then c = if rank a < rank b then b else a
    else
      let u := if signed a then b else a
      let s := if signed a then a else b
      if rank s ≤ rank u then c = u
      else if minVal s ≤ minVal u ∧ maxVal u ≤ maxVal s then c = s
      else c = toUnsigned s
instance (a b c : Ty) : Decidable (Common a b c) := by unfold Common; infer_instance

/-- `v` is a value of the integer type `t`. -/
def InRange (t : Ty) (v : Int) : Prop := minVal t ≤ v ∧ v ≤ maxVal t
instance (t : Ty) (v : Int) : Decidable (InRange t v) := by unfold InRange; infer_instance

/-- `w` is the result of converting the integer value `v` to the integer type `t`
(6.3.1.2, 6.3.1.3): for `_Bool` 0 or 1, for an unsigned type the value modulo one more than the
maximum, for a signed type the same modulo 2^n (the implementation-defined choice). -/
def Converts (t : Ty) (v w : Int) : Prop :=
  if t = .bool then w = if v = 0 then 0 else 1
  else InRange t w ∧ (maxVal t - minVal t + 1) ∣ (w - v)

instance (t : Ty) (v w : Int) : Decidable (Converts t v w) := by unfold Converts; infer_instance

/-- A binary integer operator. -/
inductive Op
  | mul | div | mod | add | sub | eq | ne | ge | le | gt | lt
deriving DecidableEq, Repr

/-- The mathematical result of an operator on two converted operands: quotients
truncate toward zero and `(a/b)*b + a%b = a` (6.5.5p6), comparisons give 0 or 1.
`none`: the second operand of `/` or `%` is 0. -/
def exact (op : Op) (x y : Int) : Option Int :=
  match op with
  | .mul => some (x * y)
  | .div => if y = 0 then none else some (x.tdiv y)
  | .mod => if y = 0 then none else some (x - x.tdiv y * y)
  | .add => some (x + y)
  | .sub => some (x - y)
  | .eq => some (if x = y then 1 else 0)
  | .ne => some (if x ≠ y then 1 else 0)
  | .ge => some (if x ≥ y then 1 else 0)
  | .le => some (if x ≤ y then 1 else 0)
  | .gt => some (if x > y then 1 else 0)
  | .lt => some (if x < y then 1 else 0)

/-- Relational and equality operators have type `int`. -/
def isCompare : Op → Bool
  | .eq | .ne | .ge | .le | .gt | .lt => true
  | _ => false

end Verif.Spec.IntType
