/-!
# Model: the search for reachable declarations (`src/main.c:5461-5596`)

After all functions have been parsed, the compiler walks the graph of references
between global declarations, starting at the list of roots
(`globals.globally_referenced_declarations`), and queues the functions it meets
for code generation.

Simplifications:
* A declaration is a number, `Nat`, standing for the address of its `ast_declaration`.
  The properties the search looks at are given by a function `g : Nat → Decl`;
  they do not change during the search, except the flag
  `DECLARATION_FLAGS_is_reachable_from_entry`, which is the list `marked`.
* The warning for arrays of unknown size (`src/main.c:5549-5563`) and the
  result of the evaluation of initializers and of the lookup in libraries are not modelled,
  only for which declarations they are performed.
-/

namespace Verif.Reach

/-- What the search looks at in an `ast_declaration` (`src/ast.c:537-576`, `src/main.c:5467-5588`).
`defined` is `assign_expr` being set, which shares its memory with `scope` in functions
(`src/ast.c:562`, `src/ast.c:756`). `external` is one of the flags `is_extern` and `is_dllimport`.
`refs` is the list `referenced_declarations`. -/
structure Decl where
  isFunction : Bool
  defined : Bool
  intrinsic : Bool := false
  inlineAsm : Bool := false
  dllexport : Bool := false
  external : Bool := false
  refs : List Nat := []

/-- The state of the search: the set flags, the queue `work_queue_emit_code` in the order of the
pushes, the declarations whose initializer was evaluated and those looked up in libraries, the
reported errors, the stack (of each node only `at` is used, `src/main.c:5494-5498`), and the rest
of the list of roots (`src/main.c:5465`). -/
structure State where
  marked : List Nat := []
  queue : List Nat := []
  inits : List Nat := []
  lookups : List Nat := []
  errors : List Nat := []
  stack : List (List Nat) := []
  roots : List Nat

/-- What happens to a root when it is met first (`src/main.c:5476-5488`). -/
def visitRoot (d : Decl) (r : Nat) (s : State) : State :=
  { s with
    marked := r :: s.marked
    queue := if d.isFunction && d.defined then s.queue ++ [r] else s.queue
    inits := if !d.isFunction && d.defined then s.inits ++ [r] else s.inits }

/-- What happens to any other declaration when it is met first (`src/main.c:5519-5578`). `obj` is
`globals.output_file_type == OUTPUT_FILE_obj`. -/
def visit (obj : Bool) (d : Decl) (r : Nat) (s : State) : State :=
  let s := { s with marked := r :: s.marked }
  if d.isFunction then
    if d.intrinsic then s
    else if !d.defined then
      if !obj then
        if d.dllexport then { s with errors := s.errors ++ [r] }
        else { s with lookups := s.lookups ++ [r] }
      else s
    else if !d.inlineAsm then { s with queue := s.queue ++ [r] }
    else s
  else
    let s := if d.defined then { s with inits := s.inits ++ [r] } else s
    if !obj && !d.defined && d.external then { s with lookups := s.lookups ++ [r] } else s

/-- Pushing a node for a declaration whose list of references is not empty
(`src/main.c:5491`, `src/main.c:5501-5506`, `src/main.c:5580-5587`). -/
def push (refs : List Nat) (s : State) : State :=
  if refs.isEmpty then s else { s with stack := refs :: s.stack }

/-- One iteration of the inner loop, or, if the stack is empty, of the outer one
(`src/main.c:5465-5593`). `none`: both loops are done. -/
def step (obj : Bool) (g : Nat → Decl) (s : State) : Option State :=
  match s.stack with
  | [] =>
    match s.roots with
    | [] => none
    | r :: rs =>
      let s := { s with roots := rs }
      if r ∈ s.marked then some s
      else some (push (g r).refs (visitRoot (g r) r s))
  | [] :: st => some { s with stack := st }
  | (d :: rest) :: st =>
    let s := { s with stack := rest :: st }
    if d ∈ s.marked then some s
    else some (push (g d).refs (visit obj (g d) d s))

/-- `n` iterations. -/
def run (obj : Bool) (g : Nat → Decl) : Nat → State → State
  | 0, s => s
  | n + 1, s =>
    match step obj g s with
    | none => s
    | some s' => run obj g n s'

/-- The state before `src/main.c:5465`. -/
def start (roots : List Nat) : State := { roots := roots }

end Verif.Reach
