/-!
# Spec: reachability

`Reachable refs roots d`: `d` is one of the roots, or is referenced by something reachable.
-/

namespace Verif.Spec

inductive Reachable {α : Type} (refs : α → List α) (roots : List α) : α → Prop
  | root {d} : d ∈ roots → Reachable refs roots d
  | ref {d e} : Reachable refs roots d → e ∈ refs d → Reachable refs roots e

end Verif.Spec
