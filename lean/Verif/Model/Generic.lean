import Verif.Spec.Generic

/-!
# Model: `_Generic`

The case `TOKEN_generic` of the parser (/repo/src/parse.c 4953–5014). The associations are those of the list; `equal` is `types_are_equal` (see C77). Parsing an
expression pushes its instructions to the arena of the function. What is read later is the arena, from its start to its end (/repo/src/emit_x64.c 2602), and the type of the operand.
-/
namespace Verif.Model.Generic
open Verif.Spec.Generic (Association)

/-- `struct expr`: the address of the last instruction, the type. -/
structure Expr where
  ir : Nat
  type : Nat
deriving DecidableEq, Repr

structure State where
  arena : List Nat
  chosen : Option Expr
  default_ : Option Expr

/-- A step of the loop (/repo/src/parse.c 4975–5002). `start` is `ir_arena_start`. -/
def step (equal : Nat → Nat → Bool) (choice start : Nat) (s : State) (a : Association) : State :=
  let arena := s.arena ++ a.code
  let expression : Expr := ⟨arena.length - 1, a.result⟩
  match a.type with
  | none => { s with arena := arena, default_ := some expression }
  | some t =>
    if equal t choice then { s with arena := arena, chosen := some expression }
    else { s with arena := arena.take start }

/-- The loop and what follows it (/repo/src/parse.c 4972–5013); `arena` is what is in the arena before. There is no result after the error. -/
def generic (equal : Nat → Nat → Bool) (choice : Nat) (arena : List Nat) (l : List Association) : Option (List Nat × Expr) :=
  let s := l.foldl (step equal choice arena.length) ⟨arena, none, none⟩
  match s.chosen with
  | some e => some (s.arena, e)
  | none =>
    match s.default_ with
    | some e => some (s.arena, e)
    | none => none

end Verif.Model.Generic
