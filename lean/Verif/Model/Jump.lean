import Verif.Model.Cond

/-!
# Model: emission and patching of jumps

Models `emit_bytes` (`src/emit_x64.c:451-462`), `jump_context_emit` (1959-1970),
`jump_node_end_jump`, `emit_end_jumps_location` (1972-1981), the cases `IR_jump_label`,
`IR_jump`, `IR_jump_if_true`, `IR_jump_if_false` (3731-3765) and the loop at the end of
`emit_code_for_function__internal` that ends the jumps of all labels (4688-4691).

Simplifications: offsets are relative to `current_emit_base`; everything else the function emits
is an opaque list of bytes (`Item.bytes`). The jumps of a `switch` case and of the epilog have
a jump context of their own that is ended on the spot (`emit_end_jumps`); they are modelled as a
label with a number of its own, that is, the patch happens later than in the code.
-/
namespace Verif.Jump
open Verif.Cond

/-- What is emitted, in order. `cond = none` is `COMP_none`, an unconditional jump; otherwise the
second opcode byte chosen by `instruction_from_comp_condition`. -/
inductive Item
  | bytes (bs : List Nat)
  | jump (label : Nat) (cond : Option Nat)
  | label (l : Nat)
deriving DecidableEq, Repr

/-- `struct jump_node`. -/
structure Node where
  patch : Nat
  jumpFrom : Nat
deriving DecidableEq, Repr

/-- `emit_arena` from `current_emit_base` on, and `context->jump_labels`. -/
structure State where
  code : List Nat
  jumps : Nat → List Node
  loc : Nat → Nat

/-- Labels are zero-initialized, `src/emit_x64.c:2565`. -/
def init : State := ⟨[], fun _ => [], fun _ => 0⟩

/-- Opcode bytes of the jump, `src/emit_x64.c:1962-1965`: `JUMP_REL32` is `0xE9`,
`TWO_BYTE_INSTRUCTION_PREFIX` is `0x0F`. -/
def opcodeBytes : Option Nat → List Nat
  | none => [0xe9]
  | some inst => [0x0f, inst]

def emitItem (st : State) : Item → State
  | .bytes bs => { st with code := st.code ++ bs }
  | .jump l cond =>
    let code := st.code ++ opcodeBytes cond
    let node : Node := { patch := code.length, jumpFrom := code.length + 4 }
    { st with code := code ++ [0, 0, 0, 0], jumps := fun k => if k = l then st.jumps k ++ [node] else st.jumps k }
  | .label l => { st with loc := fun k => if k = l then st.code.length else st.loc k }

/-- The little endian bytes of an `s32`, as `memcpy` writes them. -/
def s32Bytes (v : Int) : List Nat :=
  let u := (v % 2 ^ 32).toNat
  [u % 256, u / 256 % 256, u / 65536 % 256, u / 16777216 % 256]

/-- `memcpy(patch_location, &patch, 4)`. -/
def overwrite (code : List Nat) (p : Nat) (bs : List Nat) : List Nat :=
  code.take p ++ bs ++ code.drop (p + bs.length)

/-- `jump_node_end_jump`. -/
def endJump (location : Nat) (code : List Nat) (n : Node) : List Nat :=
  overwrite code n.patch (s32Bytes ((location : Int) - n.jumpFrom))

/-- `emit_end_jumps_location`. -/
def endJumps (code : List Nat) (nodes : List Node) (location : Nat) : List Nat :=
  nodes.foldl (endJump location) code

/-- Emission of a function with `n` labels. -/
def assemble (n : Nat) (items : List Item) : List Nat :=
  let st := items.foldl emitItem init
  (List.range n).foldl (fun code l => endJumps code (st.jumps l) (st.loc l)) st.code

end Verif.Jump
