import Verif.Spec.CondIncl

/-!
# Model: the directives for conditional inclusion in `tokenize_and_preprocess`
(`src/preprocess.c:3397-3404, 3637-3913, 4781-4825`)

One file, line by line; `S` stands for the macros, `ev` for `static_if_evaluate` and `lookup_define`. The
`#if` condition, which the code collects token by token as a "postponed directive" (3543-3580), is evaluated
at once. The checks that an `#endif` is in the file of its `#if` are left out with `#include`.
-/
namespace Verif.CondIncl
open Verif.Spec.CondIncl (Line)

/-- `struct static_if_stack_node`, `src/preprocess.c:3397-3404`. -/
structure Node where
  isTrue : Bool := false
  isDisabledElif : Bool := false
  isElse : Bool := false

/-- `static_if_stack`, and whether the next text line is emitted: the outer loop emits it, the loop at
`src/preprocess.c:4791-4811` skips it. -/
structure State (S T : Type) where
  stack : List Node
  emitting : Bool
  env : S
  out : List (S × T)

variable {S T C : Type}

/-- `!static_if_stack.first || static_if_stack.first->is_true` -/
def enabled : List Node → Bool
  | [] => true
  | n :: _ => n.isTrue

/-- `src/preprocess.c:4784`: after a directive, text is skipped if the block is disabled. -/
def after (s : State S T) (stack : List Node) (env : S) : State S T :=
  { s with stack := stack, env := env, emitting := enabled stack }

/-- The handling of a line; `none` for `goto end` after an error. -/
def step (ev : C → S → Option Bool) (s : State S T) : Line S T C → Option (State S T)
  | .text t => some (if s.emitting then { s with out := s.out ++ [(s.env, t)] } else s)
  /- `src/preprocess.c:3651-3654`: `continue` goes to the loop that emits -/
  | .null => some { s with emitting := true }
  /- `src/preprocess.c:3669-3682` -/
  | .dir f => if enabled s.stack then (f s.env).map fun env => after s s.stack env else some (after s s.stack s.env)
  /- `src/preprocess.c:3694-3731, 3818-3838` -/
  | .cond none => none
  | .cond (some c) =>
    if enabled s.stack then (ev c s.env).map fun b => after s ({ isTrue := b } :: s.stack) s.env
    else some (after s ({ isTrue := false } :: s.stack) s.env)
  /- `src/preprocess.c:3733-3817` -/
  | .elif none => none
  | .elif (some c) => match s.stack with
    | [] => none
    | node :: rest =>
      if node.isElse then none
      else if enabled rest then
        if node.isTrue || node.isDisabledElif then some (after s ({ node with isTrue := false, isDisabledElif := true } :: rest) s.env)
        else (ev c s.env).map fun b => after s ({ node with isTrue := b } :: rest) s.env
      else some (after s (node :: rest) s.env)
  /- `src/preprocess.c:3839-3886` -/
  | .els => match s.stack with
    | [] => none
    | node :: rest =>
      if node.isElse then none
      else if enabled rest then
        if node.isTrue || node.isDisabledElif then some (after s ({ node with isElse := true, isTrue := false } :: rest) s.env)
        else some (after s ({ node with isElse := true, isTrue := true } :: rest) s.env)
      else some (after s ({ node with isElse := true } :: rest) s.env)
  /- `src/preprocess.c:3887-3904` -/
  | .endif => match s.stack with
    | [] => none
    | _ :: rest => some (after s rest s.env)

/-- All lines from `s`. -/
def run (ev : C → S → Option Bool) : State S T → List (Line S T C) → Option (State S T)
  | s, [] => some s
  | s, l :: ls => (step ev s l).bind fun s' => run ev s' ls

/-- The whole file: an open `#if` at the end is an error, `src/preprocess.c:4820-4823`. -/
def preprocess (ev : C → S → Option Bool) (env : S) (ls : List (Line S T C)) : Option (S × List (S × T)) :=
  (run ev { stack := [], emitting := true, env := env, out := [] } ls).bind fun s =>
    if s.stack.isEmpty then some (s.env, s.out) else none

end Verif.CondIncl
