import Verif.Model.Reach

/-!
# Model: which functions become roots (`src/parse.c:8669-8846`)

What happens to the declarations of functions at global scope, as far as it concerns the roots of the search
of `Verif.Model.Reach`: every declaration makes a new `ast_function`, which is entered into
the table of global declarations unless there is one for the name already; a definition sets
`scope` in the one that is in the table; an exported definition is added to the list of roots.

Simplifications:
* Only functions, none of them static, intrinsic or `selectany`; one table of declarations.
* The `i`-th declaration makes the object number `i`. Threads register declarations in any order, the list of
  declarations is in the order of the insertions into the table (C28).
* The body of a function is the list of the names of functions that it refers to. Names without a declaration are an
  error elsewhere and are dropped here.
-/

namespace Verif.Roots

/-- A declaration of a function at global scope: its name, whether it is exported or
`__declspec(inline_asm)`, and, for a definition, the names its body refers to
(`src/parse.c:8669-8846`). -/
structure FunDecl where
  name : Nat
  dllexport : Bool := false
  inlineAsm : Bool := false
  body : Option (List Nat) := none

/-- The number of declarations so far, the table of global declarations as pairs of a name and an
object, the `scope` (with references) set in objects and whether the type set in
the object has the flag `is_inline_asm`, the list of roots, the number of "Redefinition" errors. -/
structure State where
  count : Nat := 0
  table : List (Nat × Nat) := []
  bodies : List (Nat × List Nat) := []
  asms : List Nat := []
  roots : List Nat := []
  errors : Nat := 0

/-- `ast_table_add_or_return_previous_entry` in `register_declaration` (`src/main.c:1833`,
`src/main.c:1985-2000`), `parser_register_definition` (`src/main.c:2026-2061`), and
`add_global_reference_for_declaration` (`src/parse.c:8826-8845`). Note that the object that becomes a root is the new one,
`function`, while the one that gets the definition is `decl`. -/
def register (s : State) (d : FunDecl) : State :=
  let function := s.count
  let decl := (s.table.lookup d.name).getD function
  let s := { s with
    count := s.count + 1
    table := if (s.table.lookup d.name).isNone then s.table ++ [(d.name, function)] else s.table }
  match d.body with
  | none => s
  | some refs =>
    if (s.bodies.lookup decl).isSome then { s with errors := s.errors + 1 }
    else
      let s := { s with
        bodies := (decl, refs) :: s.bodies
        asms := if d.inlineAsm then decl :: s.asms else s.asms }
      if d.dllexport then { s with roots := function :: s.roots } else s

/-- All declarations of a program. -/
def registerAll (ds : List FunDecl) : State := ds.foldl register {}

/-- The graph that the search of `Verif.Model.Reach` sees (`src/parse.c:4880-4917`: a name in a body is looked up
in the table of declarations). -/
def graph (s : State) (i : Nat) : Reach.Decl where
  isFunction := true
  defined := (s.bodies.lookup i).isSome
  inlineAsm := s.asms.contains i
  refs := ((s.bodies.lookup i).getD []).filterMap (fun n => s.table.lookup n)

/-- The list of roots for a program that is not an object file: the entry point is added in front
(`src/main.c:5404-5413`). -/
def roots (s : State) (entry : Nat) : List Nat :=
  ((s.table.lookup entry).toList) ++ s.roots

end Verif.Roots
