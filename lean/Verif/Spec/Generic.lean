/-!
# Specification: `_Generic`

C11 6.5.1.1: "If the controlling expression has a type that is compatible with one of the named types, then the result expression is the expression in that association.
Otherwise, it is the expression in the `default` association. None of the other expressions is evaluated."
-/
namespace Verif.Spec.Generic

/-- An association: the type, or `default`; the type of the expression and its code. Types and instructions are numbers. -/
structure Association where
  type : Option Nat
  result : Nat
  code : List Nat
deriving DecidableEq, Repr

/-- Whether an association is for the type. -/
def Matches (compatible : Nat → Nat → Bool) (choice : Nat) (a : Association) : Prop := ∃ t, a.type = some t ∧ compatible t choice = true

/-- The association that is selected. -/
inductive Selected (compatible : Nat → Nat → Bool) (choice : Nat) (l : List Association) (a : Association) : Prop
  | named : a ∈ l → Matches compatible choice a → Selected compatible choice l a
  | default : a ∈ l → a.type = none → (∀ b ∈ l, ¬Matches compatible choice b) → Selected compatible choice l a

/-- The constraints: at most one association is for the type, at most one is `default`. -/
def Valid (compatible : Nat → Nat → Bool) (choice : Nat) (l : List Association) : Prop :=
  l.Pairwise (fun a b => ¬(Matches compatible choice a ∧ Matches compatible choice b) ∧ ¬(a.type = none ∧ b.type = none))

end Verif.Spec.Generic
