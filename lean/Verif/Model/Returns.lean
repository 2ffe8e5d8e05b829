import Verif.Model.Stmt

/-!
# Model: the analysis behind "must return a value"

Models `current_statement_returns_a_value`, `SCOPE_FLAG_found_an_alive_break` and
`default_jump_label` in `parse_statement` (`src/parse.c:9033-9797`) and the warning in
`worker_parse_function` (`src/main.c:3425-3452`), for a function that returns a value.

Simplifications: calls of `_Noreturn` functions, which also set the flag, `__try` and `__asm` are not
modelled. `known c` is the literal that the condition `c` has been folded to (C16), if any.
-/
namespace Verif.Returns
open Verif.ShortCircuit Verif.Stmt

/-- `context->current_statement_returns_a_value`, whether the scope that `break` leaves has
`SCOPE_FLAG_found_an_alive_break`, and whether `context->current_switch->default_jump_label` is set. -/
structure Flow where
  ret : Bool
  alive : Bool
  dflt : Bool
deriving DecidableEq, Repr

/-- `condition.ir->kind == IR_integer_literal && integer_literal_as_u64(&condition) != 0`
(`src/parse.c:9219`, `9274`, `9334`). -/
def isTrue (known : E → Option Nat) (c : E) : Bool :=
  match known c with
  | some v => v != 0
  | none => false

/-- The condition of `for`; a missing one is the literal 1 (`src/parse.c:9151-9153`). -/
def isTrueOpt (known : E → Option Nat) : Option E → Bool
  | none => true
  | some c => isTrue known c

/-- What a statement does to the state of the analysis. -/
def walk (known : E → Option Nat) : S → Flow → Flow
  | .skip, f => f
  | .expr _, f => f
  | .seq a b, f => walk known b (walk known a f)
  /- 9068-9085, 9106-9109 -/
  | .ifThen _ a, f => { walk known a f with ret := f.ret }
  /- 9068-9105 -/
  | .ifElse _ a b, f =>
    let r := walk known a f
    let q := walk known b { r with ret := f.ret }
    { q with ret := f.ret || (q.ret && r.ret) }
  /- 9255-9275 -/
  | .whileS c b, f =>
    let r := walk known b { f with alive := false }
    { ret := f.ret || (!r.alive && isTrue known c), alive := f.alive, dflt := r.dflt }
  /- 9302-9338 -/
  | .doS b c, f =>
    let r := walk known b { f with alive := false }
    { ret := r.ret || (!r.alive && isTrue known c), alive := f.alive, dflt := r.dflt }
  /- 9117-9225 -/
  | .forS _ c _ b, f =>
    let r := walk known b { f with alive := false }
    { ret := f.ret || (!r.alive && isTrueOpt known c), alive := f.alive, dflt := r.dflt }
  /- 9357-9361 -/
  | .brk, f => { f with alive := f.alive || !f.ret }
  /- 9386 -/
  | .cont, f => { f with ret := true }
  /- 9411-9431 -/
  | .switchS _ b, f =>
    let r := walk known b ⟨f.ret, false, false⟩
    { ret := f.ret || (r.ret && r.dflt && !r.alive), alive := f.alive, dflt := f.dflt }
  /- 9452 -/
  | .caseS _ s, f => walk known s { f with ret := false }
  /- 9494, 9508 -/
  | .dfltS s, f => walk known s { f with ret := false, dflt := true }
  /- 9587 -/
  | .label _ s, f => walk known s { f with ret := false }
  /- 9561 -/
  | .goto _, f => { f with ret := true }
  /- 9536 -/
  | .ret _, f => { f with ret := true }

/-- Whether the warning is given, `src/main.c:3427-3452`; `isMain` for a function `main` that returns `int`. -/
def warns (known : E → Option Nat) (body : S) (isMain : Bool) : Bool :=
  !(isMain || (walk known body ⟨false, false, false⟩).ret)

end Verif.Returns
