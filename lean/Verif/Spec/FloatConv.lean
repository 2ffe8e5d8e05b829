import Verif.Model.FloatConv

/-!
# Spec: conversions between integers and floats (C11 6.3.1.2, 6.3.1.4)

The result of a conversion from an integer is the nearest float (Annex F). Only floats that are integers are mentioned: an integer that is not a float is greater than
all floats that are not integers.
-/

namespace Verif.Spec.FloatConv

open Verif.FloatConv

/-- The value of an object of an integer type with these bytes. -/
def intValue (t : IntType) (bytes : Nat) : Int :=
  let n := bytes % 256 ^ t.size
  if t.signed = true ∧ 256 ^ t.size ≤ 2 * n then (n : Int) - (256 ^ t.size : Nat) else n

/-- The type can represent the value. -/
def fits (t : IntType) (v : Int) : Prop :=
  if t.signed = true then -(256 ^ t.size : Nat) ≤ 2 * v ∧ 2 * v < (256 ^ t.size : Nat) else 0 ≤ v ∧ v < (256 ^ t.size : Nat)

/-- An integer that is a float with `p` bits. -/
def IsFloat (p : Nat) (r : Int) : Prop := ∃ m e : Nat, m < 2 ^ p ∧ r.natAbs = m * 2 ^ e

/-- The last of the `p` bits of the float is zero. -/
def EvenFloat (p : Nat) (r : Int) : Prop := ∃ m e : Nat, m < 2 ^ p ∧ 2 ^ p ≤ 2 * m ∧ m % 2 = 0 ∧ r.natAbs = m * 2 ^ e

/-- `r` is the float next to `x`; if there are two, the even one. -/
def Nearest (p : Nat) (x r : Int) : Prop :=
  IsFloat p r ∧ ∀ r', IsFloat p r' → r' ≠ r → (x - r).natAbs < (x - r').natAbs ∨ ((x - r).natAbs = (x - r').natAbs ∧ EvenFloat p r)

/-- Discarding the fractional part of `f` gives `t`. -/
def Truncates : Fl → Int → Prop
  | .fin neg m e, t => ∃ n : Nat, t = (if neg = true then -(n : Int) else n) ∧
      n * 2 ^ (-e).toNat ≤ m * 2 ^ e.toNat ∧ m * 2 ^ e.toNat < (n + 1) * 2 ^ (-e).toNat
  | _, _ => False

/-- The float compares equal to 0. -/
def equalsZero : Fl → Prop
  | .fin _ m _ => m = 0
  | _ => False

end Verif.Spec.FloatConv
