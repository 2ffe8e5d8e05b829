/-!
# Specification: a map in which the first insertion wins
-/
namespace Verif.Spec.FirstWins

/-- Operations on the map. -/
inductive Call
  /-- Insert, unless there already is an entry. -/
  | add (k v : Nat)
  | get (k : Nat)
deriving DecidableEq

/-- The map. -/
abbrev Map := Nat → Option Nat

/-- The effect of an operation. -/
def Call.effect (m : Map) : Call → Map
  | .add k v => fun x => if x = k ∧ m k = none then some v else m x
  | .get _ => m

/-- The result of an operation: `add` returns the entry that was already there, if any. -/
def Call.result (m : Map) : Call → Option Nat
  | .add k _ => m k
  | .get k => m k

/-- The results of a sequence of operations. -/
def results : Map → List Call → List (Option Nat)
  | _, [] => []
  | m, c :: cs => c.result m :: results (c.effect m) cs

/-- The map after a sequence of operations. -/
def after (m : Map) (cs : List Call) : Map := cs.foldl Call.effect m

/-- The empty map. -/
def none : Map := fun _ => Option.none

end Verif.Spec.FirstWins
