/-!
# Specification of bit-fields

A bit-field of width `w` at bit `b` of its storage unit (C11 6.2.6.1, little endian).
-/
namespace Verif.Spec.Bitfield

/-- The storage unit `m'` is `m` with bits `b .. b+w` replaced by the two's complement bits of
`v` and all other bits unchanged. -/
def Stored (unit b w : Nat) (v : Int) (m m' : Nat) : Prop :=
  m' < 2 ^ unit ∧ ∀ i, i < unit →
    m'.testBit i = if b ≤ i ∧ i < b + w then (v / 2 ^ (i - b)) % 2 == 1 else m.testBit i

/-- `v` is the value of the field: the number with the bits `b .. b+w` of `m`, two's complement
if the field is signed. -/
def IsValue (b w : Nat) (sgn : Bool) (m : Nat) (v : Int) : Prop :=
  (∀ i, i < w → ((v / 2 ^ i) % 2 == 1) = m.testBit (b + i)) ∧
  (if sgn then -2 ^ (w - 1) ≤ v ∧ v < 2 ^ (w - 1) else 0 ≤ v ∧ v < 2 ^ w)

/-- The value `v` has after conversion to a field of width `w`. -/
def Wraps (w : Nat) (sgn : Bool) (v v' : Int) : Prop :=
  (2 ^ w : Int) ∣ v - v' ∧ (if sgn then -2 ^ (w - 1) ≤ v' ∧ v' < 2 ^ (w - 1) else 0 ≤ v' ∧ v' < 2 ^ w)

end Verif.Spec.Bitfield
