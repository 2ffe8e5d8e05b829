/-!
# Specification: macro definitions and when two of them are identical (C11 6.10.3)

White space is left out: a replacement list is the sequence of its preprocessing tokens.
-/
namespace Verif.Spec.Redefine

/-- A preprocessing token of a replacement list; spellings are numbers. -/
inductive Tok
  | ident (a : Nat)
  | other (a : Nat)
  | hash
  | hashhash
  deriving DecidableEq, Repr

/-- A macro definition as written. A `...` is the parameter `__VA_ARGS__`. -/
structure Definition where
  functionLike : Bool
  params : List Nat
  body : List Tok
  deriving DecidableEq, Repr

/-- The definition has no `#`, and after each `##` comes a parameter. -/
def Plain (d : Definition) : Prop :=
  .hash ∉ d.body ∧ ∀ i, d.body[i]? = some .hashhash → ∃ a, d.body[i + 1]? = some (.ident a) ∧ a ∈ d.params

end Verif.Spec.Redefine
