/-!
# Model: `#pragma pack`

Models `parse_and_process_pragma_pack`, `src/parse.c:1458-1590`.

Simplifications: the argument list is already split at the commas (syntax errors are
left out), tokens remembered for error messages are left out. A missing identifier is
the empty string, as in the code (`pack_identifier.size` is 0).
-/
namespace Verif.Pack

/-- One argument of the directive (`src/parse.c:1487-1521`). -/
inductive Arg
  | push | pop | show
  | ident (name : String)
  | value (n : Nat)
deriving DecidableEq, Repr

/-- `enum pragma_pack_operation`, `src/parse.c:1474-1479`. -/
inductive Op
  | set | push | pop | show
deriving DecidableEq, Repr

/-- What the argument loop computes: `operation`, `pack_identifier`, `have_value`/`value`. -/
structure Directive where
  op : Op := .set
  ident : String := ""
  value : Option Nat := none
deriving DecidableEq, Repr

/-- One iteration of the argument loop, `src/parse.c:1484-1524`: later arguments
overwrite earlier ones. -/
def parseArg (d : Directive) : Arg → Directive
  | .push => { d with op := .push }
  | .pop => { d with op := .pop }
  | .show => { d with op := .show }
  | .ident n => { d with ident := n }
  | .value n => { d with value := some n }

/-- The argument loop; `pack()` is the empty list and takes the early return of lines
1464-1467, which does what `set` without a value does. -/
def parseArgs (args : List Arg) : Directive := args.foldl parseArg {}

/-- `context->pragma_alignment` and `context->pragma_pack_stack` (top first); each node
is `(value, identifier)`. -/
structure State where
  align : Nat := 16
  stack : List (Nat × String) := []
deriving DecidableEq, Repr

/-- The two warnings that report a failed pop. -/
inductive Warning
  | unknownIdentifier | emptyStack
deriving DecidableEq, Repr

/-- The search loop of a named pop, `src/parse.c:1550-1557`: the first node with that
identifier and the nodes below it. -/
def findNode (name : String) : List (Nat × String) → Option (Nat × List (Nat × String))
  | [] => none
  | n :: rest => if n.2 = name then some (n.1, rest) else findNode name rest

/-- `if(have_value) context->pragma_alignment = value;` -/
def setValue (v : Option Nat) (s : State) : State :=
  match v with
  | some n => { s with align := n }
  | none => s

/-- The `switch` on the operation, `src/parse.c:1528-1589`. -/
def exec (d : Directive) (s : State) : State × List Warning :=
  match d.op with
  | .set => ({ s with align := d.value.getD 16 }, [])
  | .push => (setValue d.value { s with stack := (s.align, d.ident) :: s.stack }, [])
  | .pop =>
    if d.ident ≠ "" then
      match findNode d.ident s.stack with
      | some (v, rest) => (setValue d.value { align := v, stack := rest }, [])
      | none => (setValue d.value s, [.unknownIdentifier])
    else
      match s.stack with
      | (v, _) :: rest => (setValue d.value { align := v, stack := rest }, [])
      | [] => (setValue d.value s, [.emptyStack])
  | .show => (s, [])

/-- A sequence of directives in one file. -/
def run : List Directive → State → State × List Warning
  | [], s => (s, [])
  | d :: ds, s =>
    let r := exec d s
    let r' := run ds r.1
    (r'.1, r.2 ++ r'.2)

end Verif.Pack
