import Verif.Model.RegAlloc

/-!
# Spec: the values of locations

A location has the value last written to it, cut to its size. Registers, stack slots and spilling do not occur here.
-/

namespace Verif.Spec.RegAlloc

open Verif.RegAlloc (Op upd)

/-- The number of locations, the size of each and its value. -/
structure Values where
  count : Nat := 0
  size : Nat → Nat := fun _ => 0
  value : Nat → Nat := fun _ => 0

def create (a : Values) (size v : Nat) : Values :=
  { count := a.count + 1, size := upd a.size a.count size, value := upd a.value a.count (v % 256 ^ size) }

def step (a : Values) : Op → Values
  | .compute _ size v => create a size v
  | .computeIn _ size v => create a size v
  | .temporary size _ v => create a size v
  | .reload _ id => create a (a.size id) (a.value id)
  | .write id v => { a with value := upd a.value id (v % 256 ^ a.size id) }
  | _ => a

def run (a : Values) (ops : List Op) : Values := ops.foldl step a

end Verif.Spec.RegAlloc
