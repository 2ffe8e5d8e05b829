import Verif.Spec.IntType

/-!
# C15: usual arithmetic conversions
-/
namespace Verif.Props.IntType
open Verif.IntType Verif.Spec.IntType

/-- C15: for every pair of arithmetic types (the table is total and finite, so all pairs
are checked) the common type is the one C11 6.3.1.8 prescribes. -/
theorem C15_common_type (a b c : Ty) : usualConversions a b = some c ↔ Common a b c := by
  cases a <;> cases b <;> cases c <;> decide

/-- C15: the code never reaches the `invalid_code_path` and the result does not depend on
the order of the operands. -/
theorem C15_total_and_symmetric (a b : Ty) :
    (∃ c, usualConversions a b = some c) ∧ usualConversions a b = usualConversions b a := by
  constructor
  · cases a <;> cases b <;> exact ⟨_, rfl⟩
  · cases a <;> cases b <;> rfl

/-- C15: the integer promotions. -/
theorem C15_promotion (a : Ty) (h : isInteger a) : promote a = promoted a := by
  cases a <;> first | rfl | exact absurd h id

/-- C15: the size and signedness tables the code uses agree with the value ranges. -/
theorem C15_representation (a : Ty) (h : isInteger a) (hb : a ≠ .bool) :
    (a.isSigned = true ↔ signed a) ∧ maxVal a - minVal a + 1 = 2 ^ a.bits := by
  cases a <;> first | exact absurd rfl hb | exact absurd h id | decide

/-- C15, values: every operand value is converted to the common type without changing it,
unless it is negative and the common type is unsigned. -/
theorem C15_value_preserved (a b c : Ty) (ha : isInteger a) (hb : isInteger b)
    (h : usualConversions a b = some c) (v : Int) (hv : InRange a v) (hneg : 0 ≤ v ∨ signed c) : InRange c v := by
  cases a <;> first | exact absurd ha id | cases b <;> first
    | exact absurd hb id
    | (cases Option.some.inj h
       simp [InRange, minVal, maxVal, signed, promote] at hv hneg ⊢
       omega)

example : usualConversions .u32 .s64 = some .s64 ∧ usualConversions .u16 .s8 = some .s32 ∧
    usualConversions .s32 .u32 = some .u32 ∧ usualConversions .bool .f32 = some .f32 := by decide

end Verif.Props.IntType
