import Verif.Model.Align

/-!
# Model: the stack frame of a function (`parser_emit_memory_location`, `src/main.c:2170-2185`;
`emit_allocate_temporary_stack_location`, `src/emit_x64.c:850-858`; `emit_code_for_function`, 4713-4957)

A slot is a size and an alignment. An offset `o` stands for the address `rbp - o`.
-/
namespace Verif.Frame
open Verif.Align (alignUp)

/-- The bump allocation of both functions: the offset is aligned and then increased by the size. -/
def bump (offset : Nat) (s : Nat × Nat) : Nat := alignUp offset s.2 + s.1

/-- The offsets of a sequence of slots, and the last one. -/
def place (offset : Nat) : List (Nat × Nat) → List Nat × Nat
  | [] => ([], offset)
  | s :: ss =>
    let o := bump offset s
    let r := place o ss
    (o :: r.1, r.2)

/-- A function: its local declarations, its temporaries and spilled registers, the most arguments of a call in it, and
whether it is an exception filter. -/
structure Function where
  decls : List (Nat × Nat)
  temps : List (Nat × Nat)
  maxArguments : Nat
  isFilter : Bool

/-- `amount_of_saved_registers`: rdi and rsi, and for filters r12 and r13, `src/emit_x64.c:4763-4775`. -/
def saved (f : Function) : Nat := if f.isFilter then 4 else 2

/-- `stack_space_needed` after parsing, `src/main.c:3425`, and aligned, `src/emit_x64.c:4727`. -/
def declSpace (f : Function) : Nat := alignUp (place 0 f.decls).2 16

/-- `offset_on_stack` of the declarations; `none` for "Too many local variables", `src/main.c:2178`. -/
def declOffsets (f : Function) : Option (List Nat) :=
  if (place 0 f.decls).2 > 2 ^ 31 - 1 then none else some (place 0 f.decls).1

/-- The offsets of the temporaries, `src/emit_x64.c:850-858`. -/
def tempOffsets (f : Function) : List Nat := (place 0 f.temps).1.map (declSpace f + ·)

/-- The constant subtracted from rsp, `src/emit_x64.c:4875-4899`; `max_amount_of_function_call_arguments` starts at 4. -/
def frameSize (f : Function) : Nat :=
  alignUp (declSpace f + 32 + (place 0 f.temps).2 + 8 * max 4 f.maxArguments) 16 + (if saved f % 2 = 1 then 8 else 0)

/-- rbp after the pushes of the prolog, for rsp at the entry, `src/emit_x64.c:4757-4776`. -/
def framePointer (f : Function) (entry : Int) : Int := entry - 8 * (saved f + 1)

/-- rsp in the body. -/
def stackPointer (f : Function) (entry : Int) : Int := framePointer f entry - frameSize f

/-- The offset of argument `i`, `src/emit_x64.c:4792-4840`; a big return value comes first. -/
def argumentOffset (f : Function) (i : Nat) : Int := -(16 + 8 * saved f) - 8 * i

/-- `call_space_needed`, `src/emit_x64.c:4949`. -/
def callSpace (f : Function) : Nat := 8 * (max 4 f.maxArguments + max 4 f.maxArguments % 2)

/-- The calls of `_alloca` of one activation in order, `src/emit_x64.c:2328-2356`: rsp is decreased by the size rounded up
to a multiple of 16 and the block starts `callSpace` above it. The result is the addresses and the last rsp. Rounding is
written for sizes where `size + 15` does not overflow. -/
def allocas (f : Function) (sp : Int) : List Nat → List Int × Int
  | [] => ([], sp)
  | n :: ns =>
    let sp' := sp - ((n + 15) / 16 * 16 : Nat)
    let r := allocas f sp' ns
    ((sp' + callSpace f) :: r.1, r.2)

end Verif.Frame
