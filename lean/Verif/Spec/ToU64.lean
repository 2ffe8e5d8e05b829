/-!
# Specification: numbers in positional notation
-/
namespace Verif.Spec.ToU64

/-- Value of a string of digits in base `b`, most significant first. -/
def value (b : Nat) : List Nat → Nat
  | [] => 0
  | d :: ds => d * b ^ ds.length + value b ds

/-- A decimal number: one or more digits `0`..`9`, in ASCII. -/
def IsDecimal (s : List Nat) : Prop := s ≠ [] ∧ ∀ c ∈ s, 48 ≤ c ∧ c ≤ 57

/-- ASCII code of a hexadecimal digit. -/
def hexOf (d : Nat) (upper : Bool) : Nat := if d < 10 then 48 + d else if upper then 65 + (d - 10) else 97 + (d - 10)

end Verif.Spec.ToU64
