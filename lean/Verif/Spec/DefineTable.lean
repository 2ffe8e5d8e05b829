/-!
# Specification: which macros are defined

Names are numbers, `D` is what a macro is defined as.
-/
namespace Verif.Spec.DefineTable

/-- `#define` and `#undef`. -/
inductive Directive (D : Type)
  | define (name : Nat) (d : D)
  | undef (name : Nat)

variable {D : Type}

def Directive.name : Directive D → Nat
  | .define n _ => n
  | .undef n => n

/-- The meaning of a name after some directives: what the last directive with that name says, and before any
such directive what it was at the start. -/
def meaning (start : Nat → Option D) (ds : List (Directive D)) (n : Nat) : Option D :=
  match ds.reverse.find? (fun d => d.name == n) with
  | some (.define _ d) => some d
  | some (.undef _) => none
  | none => start n

end Verif.Spec.DefineTable
