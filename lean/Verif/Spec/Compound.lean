import Verif.Model.Compound
import Verif.Spec.Fold

/-!
# Specification: `E1 = E1 op E2` (C11 6.5.16.2)
-/
namespace Verif.Spec.Compound
open Verif.IntType Verif.Spec.IntType Verif.Spec.Fold

/-- `E1 op E2` in C for the operators with usual arithmetic conversions: `v : l`, `w : r`;
`z` is the value of the result, of type `c`. Undefined cases (signed overflow, zero
divisor) have no result. -/
inductive Value : Verif.Compound.Op → Ty → Ty → Int → Int → Ty → Int → Prop
  | arith {op' op l r v w c x y e z} (ho : (op, op') ∈ [(Compound.Op.add, Op.add), (.sub, .sub), (.mul, .mul), (.div, .div), (.mod, .mod)])
      (hc : Common l r c) (hx : Converts c v x) (hy : Converts c w y) (he : exact op' x y = some e)
      (hs : signed c → InRange c e) (hq : signed c → op = .mod → InRange c (x.tdiv y))
      (hz : Converts c e z) : Value op l r v w c z
  | bitwise {op bop l r v w c x y z} (ho : (op, bop) ∈ [(Compound.Op.and, Fold.Bitwise.and), (.or, .or), (.xor, .xor)])
      (hc : Common l r c) (hx : Converts c v x) (hy : Converts c w y) (hr : InRange c z)
      (hb : ∀ i, i < c.bits → bit z i = bitOp bop (bit x i) (bit y i)) : Value op l r v w c z
  /-- 6.5.7: the count is non-negative and less than the width of the promoted left operand -/
  | shl {l r : Ty} {v w z : Int} (h0 : 0 ≤ w) (h1 : w < (promoted l).bits)
      (hs : signed (promoted l) → 0 ≤ v ∧ InRange (promoted l) (v * 2 ^ w.toNat))
      (hz : Converts (promoted l) (v * 2 ^ w.toNat) z) : Value .shl l r v w (promoted l) z
  | shr {l r : Ty} {v w : Int} (h0 : 0 ≤ w) (h1 : w < (promoted l).bits) : Value .shr l r v w (promoted l) (v / 2 ^ w.toNat)

/-- `E1 = E1 op E2` is defined and stores `s`. -/
def Assigns (op : Verif.Compound.Op) (l r : Ty) (v w s : Int) : Prop :=
  ∃ c z, Value op l r v w c z ∧ Converts l z s

/-- The type a bit-field is promoted to (C11 6.3.1.1p2): `int` if it can represent all values of
the field, else `unsigned int` if that can, else (an extension) the declared type. -/
def fieldPromoted (base : Ty) (width : Nat) : Ty :=
  let lo : Int := if signed base then -2 ^ (width - 1) else 0
  let hi : Int := if signed base then 2 ^ (width - 1) - 1 else 2 ^ width - 1
  if minVal .s32 ≤ lo ∧ hi ≤ maxVal .s32 then .s32
  else if minVal .u32 ≤ lo ∧ hi ≤ maxVal .u32 then .u32
  else base

/-- `s` is what a bit-field of that signedness and width holds after `z` is stored to it: the
value of the field that is congruent to `z`. -/
def FieldHolds (base : Ty) (width : Nat) (z s : Int) : Prop :=
  (if signed base then -2 ^ (width - 1) ≤ s ∧ s < 2 ^ (width - 1) else 0 ≤ s ∧ s < 2 ^ width) ∧ (2 ^ width : Int) ∣ s - z

end Verif.Spec.Compound
