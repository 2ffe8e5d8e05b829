/-!
# Model: comparison functions used with `sll_sort`

`error_node_smaller_function` of `src/diagnostic.c:70-118` and `string_lexically_smaller` of
`src/std.c:1116-1126` (used for the export table, `src/coff_writer.c:1478-1483`).
-/
namespace Verif.ErrorOrder

/-- The parts of `struct token` that are compared; `address` is the address of the token. -/
structure Token where
  fileIndex : Nat
  line : Nat
  column : Nat
  address : Nat
deriving DecidableEq, Repr

/-- `enum compile_stage`, the stages that report errors, in the order of the enum. -/
inductive Stage | tokenizeFiles | parseGlobalScope | parseFunction | emitCode
deriving DecidableEq, Repr

def Stage.num : Stage → Nat
  | .tokenizeFiles => 0 | .parseGlobalScope => 1 | .parseFunction => 2 | .emitCode => 3

/-- The parts of `struct error_report_node` that are compared, and its text. -/
structure Node where
  unit : Nat
  stage : Stage
  token : Option Token
  error : List Nat
deriving DecidableEq, Repr

/-- `error_node_smaller_function`. -/
def errorSmaller (it piveot : Node) : Bool :=
  if it.unit < piveot.unit then true
  else if it.unit > piveot.unit then false
  else if it.stage.num < piveot.stage.num then true
  else if it.stage.num > piveot.stage.num then false
  else
    match piveot.token with
    | none => false
    | some pt =>
      match it.token with
      | none => true
      | some t =>
        match it.stage with
        | .tokenizeFiles =>
          if t.fileIndex < pt.fileIndex then true
          else if t.fileIndex > pt.fileIndex then false
          else if t.line < pt.line then true
          else if t.line > pt.line then false
          else if t.column < pt.column then true
          else if t.column > pt.column then false
          else false
        | _ => t.address < pt.address

/-- `string_lexically_smaller`: the loop over the common length, then the sizes. -/
def lexSmaller : List Nat → List Nat → Bool
  | a :: as, b :: bs => if a < b then true else if a > b then false else lexSmaller as bs
  | [], _ :: _ => true
  | _, [] => false

end Verif.ErrorOrder
