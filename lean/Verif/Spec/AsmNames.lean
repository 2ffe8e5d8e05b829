/-!
# Specification: the names of instructions

A list of names, each with an instruction. No name may be there twice.
-/
namespace Verif.Spec.AsmNames

/-- No name is there twice. -/
def Distinct (l : List (Nat × Nat)) : Prop := (l.map Prod.fst).Nodup

end Verif.Spec.AsmNames
