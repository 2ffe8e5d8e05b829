import Verif.Model.Pack

/-!
# Specification: well-nested sequences of `#pragma pack` directives

Written in terms of the directives the user writes (argument lists), not of the stack.
-/
namespace Verif.Spec.Pack
open Verif.Pack

/-- A well-nested sequence: sets and shows anywhere; every push, named or not and with or
without a value, is closed by an unnamed pop. -/
inductive Nested : List (List Arg) → Prop
  | nil : Nested []
  | reset : Nested [[]]
  | set (n : Nat) : Nested [[.value n]]
  | show : Nested [[.show]]
  | seq {a b} : Nested a → Nested b → Nested (a ++ b)
  | block {a} : Nested a → Nested ([.push] :: a ++ [[.pop]])
  | blockValue (n : Nat) {a} : Nested a → Nested ([.push, .value n] :: a ++ [[.pop]])
  | blockNamed (name : String) {a} : Nested a → Nested ([.push, .ident name] :: a ++ [[.pop]])
  | blockNamedValue (name : String) (n : Nat) {a} : Nested a →
      Nested ([.push, .ident name, .value n] :: a ++ [[.pop]])

/-- What may stand between `push, name` and the matching `pop, name`: well-nested
sequences and also pushes that are never popped, if they do not use `name`. -/
inductive Between (name : String) : List (List Arg) → Prop
  | nested {a} : Nested a → Between name a
  | push : Between name [[.push]]
  | pushValue (n : Nat) : Between name [[.push, .value n]]
  | pushNamed (other : String) : other ≠ name → Between name [[.push, .ident other]]
  | pushNamedValue (other : String) (n : Nat) : other ≠ name → Between name [[.push, .ident other, .value n]]
  | seq {a b} : Between name a → Between name b → Between name (a ++ b)

end Verif.Spec.Pack
