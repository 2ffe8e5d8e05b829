/-!
# Specification: scopes of names in C

A program opens and closes scopes and declares names in the innermost one. A declaration in the
scope of a function is not visible inside a function that is nested in it.
-/
namespace Verif.Spec.Scope

/-- What happens while a program is read from top to bottom. -/
inductive Event
  /-- A function definition begins: the scope of its parameters and of its body. -/
  | openFunction
  /-- A block begins. -/
  | openBlock
  /-- The innermost scope ends. -/
  | close
  /-- The name `k` is declared; `d` is the declaration. -/
  | declare (k d : Nat)
deriving DecidableEq

/-- A scope: is it the scope of a function, and what was declared in it, the latest first. -/
structure Scope where
  function : Bool
  declared : List (Nat × Nat)
deriving DecidableEq

/-- The open scopes, the innermost first. -/
abbrev Open := List Scope

/-- The effect of an event, if it is possible here: there are no blocks outside of functions. -/
def Event.effect : Event → Open → Option Open
  | .openFunction, s => some (⟨true, []⟩ :: s)
  | .openBlock, [] => none
  | .openBlock, s => some (⟨false, []⟩ :: s)
  | .close, [] => none
  | .close, _ :: s => some s
  | .declare _ _, [] => none
  | .declare k d, c :: s => some ({ c with declared := (k, d) :: c.declared } :: s)

/-- The open scopes after a history. -/
def after : Open → List Event → Option Open
  | s, [] => some s
  | s, e :: es => (e.effect s).bind fun s => after s es

/-- The declaration `d` is the latest one of the name `k` in a scope. -/
def Latest (c : Scope) (k d : Nat) : Prop := ∃ newer older, c.declared = newer ++ (k, d) :: older ∧ ∀ e ∈ newer, e.1 ≠ k

/-- A scope does not declare the name `k`. -/
def Silent (c : Scope) (k : Nat) : Prop := ∀ e ∈ c.declared, e.1 ≠ k

/-- Which declaration the name `k` means: the latest one in the innermost scope that declares it, not
looking further than the innermost function; otherwise the global one. -/
inductive Means (global : Nat → Option Nat) (k : Nat) : Open → Option Nat → Prop
  | here {c : Scope} {s : Open} {d : Nat} : Latest c k d → Means global k (c :: s) (some d)
  | outer {c : Scope} {s : Open} {r : Option Nat} : Silent c k → c.function = false → Means global k s r → Means global k (c :: s) r
  | global {c : Scope} {s : Open} : Silent c k → c.function = true → Means global k (c :: s) (global k)
  | top : Means global k [] (global k)

end Verif.Spec.Scope
