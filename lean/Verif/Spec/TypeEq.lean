/-!
# Specification: compatible types

C11 6.2.7, 6.7.2.3, 6.7.6. Types refer to each other by numbers, since a structure can contain pointers to itself. Qualifiers and functions
without a prototype are not in the specification, and an enumerated type is `int`.
-/
namespace Verif.Spec.TypeEq

/-- What a type is made of. -/
inductive Shape
  /-- A basic type. -/
  | base (k : Nat)
  | pointer (to : Nat)
  | function (ret : Nat) (params : List Nat) (variadic : Bool)
  /-- `none` is an unknown size. -/
  | array (n : Option Nat) (elem : Nat)
  /-- A structure (`false`) or union (`true`) with its tag and its members: name, offset and type. -/
  | tagged (union_ : Bool) (tag : Nat) (members : List (Nat × Nat × Nat))
  /-- A structure or union that is nowhere defined. -/
  | incomplete (union_ : Bool) (tag : Nat)
  /-- A bit-field. -/
  | bits (index width type : Nat)

/-- Lists of the same length with related elements. -/
def Pairwise {α : Type} (R : α → α → Prop) : List α → List α → Prop
  | [], [] => True
  | a :: as, b :: bs => R a b ∧ Pairwise R as bs
  | _, _ => False

/-- Two types agree, if the types they refer to are in the relation `R`. -/
def Agree (R : Nat → Nat → Prop) : Shape → Shape → Prop
  | .base k, .base l => k = l
  | .pointer a, .pointer b => R a b
  | .function r ps v, .function s qs w => R r s ∧ Pairwise R ps qs ∧ v = w
  | .array n a, .array m b => R a b ∧ (n = none ∨ m = none ∨ n = m)
  | .tagged u t ms, .tagged v s ns =>
    u = v ∧ t = s ∧ Pairwise (fun m n => m.1 = n.1 ∧ m.2.1 = n.2.1 ∧ R m.2.2 n.2.2) ms ns
  | .incomplete u t, .incomplete v s => u = v ∧ t = s
  | .bits i w a, .bits j x b => i = j ∧ w = x ∧ R a b
  | _, _ => False

/-- Types are compatible if they agree however far one looks: they are in a relation, all whose pairs agree. -/
def Compatible (shape : Nat → Shape) (a b : Nat) : Prop :=
  ∃ R : Nat → Nat → Prop, R a b ∧ ∀ x y, R x y → Agree R (shape x) (shape y)

end Verif.Spec.TypeEq
