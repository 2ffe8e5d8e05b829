import Verif.Spec.Declarator

/-!
# Specification: type names (C11 6.7.7)

A type name is a sequence of specifiers and an abstract declarator. The types considered are those that C has, without variable
arguments (`C69_variadic_wrong`).
-/

namespace Verif.Spec.TypeString

open Verif.Spec.Declarator

/-- The tokens are a type name for `t`. -/
def Denotes (ts : List Tok) (t : Ty) : Prop :=
  ∃ b d, ts = .spec b :: d.tokens ∧ wellFormed (fun _ => none) .typeName d = true ∧ legal (fun _ => none) (.base b) d = true ∧
    typeOf (fun _ => none) (.base b) d = t

/-- A type that a parameter can have after adjustment. -/
def paramOk : Ty → Bool
  | .base 0 => false
  | .array _ _ => false
  | .func _ _ _ => false
  | _ => true

mutual
/-- A type that C has and that is not variadic. -/
def valid : Ty → Bool
  | .base _ => true
  | .ptr t => valid t
  | .array n t => n != some 0 && elementOk t && valid t
  | .func r ps v => !v && returnOk r && valid r && validList ps

def validList : Tys → Bool
  | .nil => true
  | .cons t rest => paramOk t && valid t && validList rest
end

end Verif.Spec.TypeString
