/-!
# Specification: which global declarations can be parsed

A declaration does things in order: it needs names (of declarations, of completed structures, of arrays
whose size is known), it declares names, and it defines objects. A name can be resolved if some
declaration declares it, and all names that declaration needs before can be resolved.
-/
namespace Verif.Spec.Resolve

/-- What a global declaration does, in order. -/
inductive Action
  /-- needs the name `k` -/
  | need (k : Nat)
  /-- declares the name `k` -/
  | declare (k : Nat)
  /-- gives the object `d` its initializer or the function `d` its body -/
  | define (d : Nat)
  /-- `k` is known from here on: the size of an array that is initialized by a string -/
  | silent (k : Nat)
deriving DecidableEq, Repr

/-- A global declaration, or a static assertion. -/
structure Entry where
  assertion : Bool := false
  acts : List Action

/-- The name can be resolved by the declarations `prog 0 … prog (n - 1)`. -/
inductive Resolvable (prog : Nat → Entry) (n : Nat) : Nat → Prop
  | intro (e k : Nat) (pre post : List Action) : e < n → (prog e).acts = pre ++ .declare k :: post → (∀ k', Action.need k' ∈ pre → Resolvable prog n k') → Resolvable prog n k

/-- Declaring `k` needs `k'` before. -/
def Depends (prog : Nat → Entry) (n : Nat) (k k' : Nat) : Prop := ∃ e pre post, e < n ∧ (prog e).acts = pre ++ .declare k :: post ∧ Action.need k' ∈ pre

/-- Declaring `k` needs `k'` in one or more steps. -/
inductive DependsPlus (prog : Nat → Entry) (n : Nat) : Nat → Nat → Prop
  | one {k k' : Nat} : Depends prog n k k' → DependsPlus prog n k k'
  | step {k k' k'' : Nat} : Depends prog n k k' → DependsPlus prog n k' k'' → DependsPlus prog n k k''

/-- Somebody declares `k`. -/
def Declared (prog : Nat → Entry) (n : Nat) (k : Nat) : Prop := ∃ e, e < n ∧ Action.declare k ∈ (prog e).acts

/-- Every declaration of a name is the only one. -/
def DeclaredOnce (prog : Nat → Entry) (n : Nat) : Prop :=
  ∀ e e' k pre post pre' post', e < n → e' < n → (prog e).acts = pre ++ .declare k :: post → (prog e').acts = pre' ++ .declare k :: post' → e = e' ∧ pre = pre'

/-- The programs whose result does not depend on the order: static assertions need no names, no array is
initialized by a string, every object has one definition, and it comes after everything the
declaration needs. -/
structure Orderly (prog : Nat → Entry) (n : Nat) : Prop where
  assertion : ∀ e, e < n → (prog e).assertion = true → ∀ k, Action.need k ∉ (prog e).acts
  silent : ∀ e, e < n → ∀ k, Action.silent k ∉ (prog e).acts
  once : ∀ e e' d pre post pre' post', e < n → e' < n → (prog e).acts = pre ++ .define d :: post → (prog e').acts = pre' ++ .define d :: post' → e = e' ∧ pre = pre'
  last : ∀ e k d pre post, e < n → (prog e).acts = pre ++ .need k :: post → Action.define d ∉ pre

/-- Is it the need of a name? -/
def Action.isNeed : Action → Bool
  | .need _ => true
  | _ => false

/-- A bound for the number of steps: every declaration is parsed at most once more than the number of names it needs. -/
def bound (prog : Nat → Entry) : Nat → Nat
  | 0 => 0
  | n + 1 => bound prog n + ((prog n).acts.countP Action.isNeed + 1) * (3 * (prog n).acts.length + 10)

end Verif.Spec.Resolve
