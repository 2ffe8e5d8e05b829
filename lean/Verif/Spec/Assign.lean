import Verif.Spec.IntType

/-!
# Specification: simple assignment

C11 6.5.16.1, without qualifiers (`const` and so on). The same rules are for initializers, arguments and `return`. A structure, union, array or function type is a number here;
`compatible` says which of them are compatible.
-/
namespace Verif.Spec.Assign
open Verif.IntType

/-- Types. -/
inductive Type_
  | void
  | arith (t : Ty)
  | pointer (to : Type_)
  | bitfield (base : Ty) (width : Nat)
  | other (n : Nat)
deriving DecidableEq, Repr

/-- Compatible types (6.2.7, 6.7.6.1). -/
inductive Compatible (compatible : Nat → Nat → Bool) : Type_ → Type_ → Prop
  | void : Compatible compatible .void .void
  | arith (t : Ty) : Compatible compatible (.arith t) (.arith t)
  | pointer {a b : Type_} : Compatible compatible a b → Compatible compatible (.pointer a) (.pointer b)
  | bitfield (t : Ty) (n : Nat) : Compatible compatible (.bitfield t n) (.bitfield t n)
  | other {n m : Nat} : compatible n m = true → Compatible compatible (.other n) (.other m)

/-- The arithmetic type of what is assigned to: a bit-field has the values of some type, too. -/
def arithmetic : Type_ → Option Ty
  | .arith t => some t
  | .bitfield t _ => some t
  | _ => none

/-- The constraints: "One of the following shall hold". -/
inductive Allowed (compatible : Nat → Nat → Bool) (null : Prop) : Type_ → Type_ → Prop
  /-- Both have arithmetic type. -/
  | arithmetic {l : Type_} {t s : Ty} : arithmetic l = some t → Allowed compatible null l (.arith s)
  /-- Compatible structures or unions. -/
  | other {n m : Nat} : compatible n m = true → Allowed compatible null (.other n) (.other m)
  /-- Pointers to compatible types. -/
  | pointers {a b : Type_} : Compatible compatible a b → Allowed compatible null (.pointer a) (.pointer b)
  /-- One is a pointer to `void`. -/
  | toVoid {b : Type_} : Allowed compatible null (.pointer .void) (.pointer b)
  | fromVoid {a : Type_} : Allowed compatible null (.pointer a) (.pointer .void)
  /-- A null pointer constant: an integer constant with value 0. -/
  | null {a : Type_} {t : Ty} : null → Allowed compatible null (.pointer a) (.arith t)
  /-- The left has type `_Bool`, the right is a pointer. -/
  | bool {l b : Type_} : Spec.Assign.arithmetic l = some .bool → Allowed compatible null l (.pointer b)

end Verif.Spec.Assign
