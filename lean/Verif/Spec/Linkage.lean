import Verif.Model.Chunk

/-!
# Spec: which names are local to a file

The documented rule: a name is local to the file if any of its declarations at file scope is `static`, or if the first is
`inline` without `extern`.
-/

namespace Verif.Spec.Linkage

open Verif.Chunk (Reg)

/-- The declarations at file scope, in the order of the file. -/
def fileLocal (ds : List Reg) (n : Nat) : Bool :=
  match ds.filter (·.name = n) with
  | [] => false
  | first :: rest => (first :: rest).any (·.isStatic) || (first.isInline && !first.isExtern)

/-- The name is declared at file scope. -/
def declared (ds : List Reg) (n : Nat) : Bool := ds.any (·.name = n)

end Verif.Spec.Linkage
