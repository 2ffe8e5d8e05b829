import Verif.Spec.AsmAddress

/-!
# Model: memory operands of inline assembly

`asm_maybe_parse_memory_operand` (/repo/src/parse_asm_block.c 1447–1590) and what the operand becomes in `_asm_block_resolve_and_allocate_operand` (/repo/src/emit_inline_asm_block.c 165–182).
Expressions that are not made of numbers, signs and `*`, such as those with variables, are not modelled; constants are integers, so their overflow is not modelled.
-/
namespace Verif.Model.AsmAddress
open Verif.Spec.AsmAddress (Tok)

/-- The names in `asm_maybe_parse_gpr` (/repo/src/parse_asm_block.c 1058–1264) with the numbers of `enum asm_register` (44–62) and the sizes. -/
def gprs : List (String × Nat × Nat) :=
  [("rax", 0, 8), ("rcx", 1, 8), ("rdx", 2, 8), ("rbx", 3, 8), ("rsi", 6, 8), ("rdi", 7, 8), ("rsp", 4, 8), ("rbp", 5, 8),
   ("r8", 8, 8), ("r9", 9, 8), ("r10", 10, 8), ("r11", 11, 8), ("r12", 12, 8), ("r13", 13, 8), ("r14", 14, 8), ("r15", 15, 8),
   ("eax", 0, 4), ("ecx", 1, 4), ("edx", 2, 4), ("ebx", 3, 4), ("esi", 6, 4), ("edi", 7, 4), ("esp", 4, 4), ("ebp", 5, 4),
   ("r8d", 8, 4), ("r9d", 9, 4), ("r10d", 10, 4), ("r11d", 11, 4), ("r12d", 12, 4), ("r13d", 13, 4), ("r14d", 14, 4), ("r15d", 15, 4),
   ("ax", 0, 2), ("cx", 1, 2), ("dx", 2, 2), ("bx", 3, 2), ("si", 6, 2), ("di", 7, 2), ("sp", 4, 2), ("bp", 5, 2),
   ("r8w", 8, 2), ("r9w", 9, 2), ("r10w", 10, 2), ("r11w", 11, 2), ("r12w", 12, 2), ("r13w", 13, 2), ("r14w", 14, 2), ("r15w", 15, 2),
   ("al", 0, 1), ("cl", 1, 1), ("dl", 2, 1), ("bl", 3, 1), ("sil", 6, 1), ("dil", 7, 1), ("spl", 4, 1), ("bpl", 5, 1),
   ("r8b", 8, 1), ("r9b", 9, 1), ("r10b", 10, 1), ("r11b", 11, 1), ("r12b", 12, 1), ("r13b", 13, 1), ("r14b", 14, 1), ("r15b", 15, 1)]

/-- `asm_maybe_parse_gpr` (/repo/src/parse_asm_block.c 1048–1273). -/
def gpr (s : String) : Option (Nat × Nat) := (gprs.find? fun e => e.1 == s).map (·.2)

/-- The words for sizes (/repo/src/parse_asm_block.c 1453–1466); 0 is no size. -/
def sizeWord (s : String) : Nat :=
  if s = "byte" then 1
  else if s = "word" then 2
  else if s = "dword" then 4
  else if s = "qword" then 8
  else if s = "xmmword" then 16
  else if s = "ymmword" then 32
  else 0

/-- A value and the tokens behind it, an error, or something that is not modelled. -/
inductive Parsed (α : Type)
  | value (v : α) (rest : List Tok)
  | error
  | unmodelled
deriving DecidableEq, Repr

/-- A number with signs before it: `parse_expression` with `AST_unary_minus` (/repo/src/parse.c 4196, 5847–5869). -/
def unary : List Tok → Parsed Int
  | .number _ n :: rest => .value n rest
  | .minus :: rest =>
    match unary rest with
    | .value v rest => .value (-v) rest
    | r => r
  | .plus :: rest => unary rest
  | .word _ :: _ => .unmodelled
  | .open_ :: _ => .unmodelled
  | .times :: _ => .unmodelled
  | .other _ :: _ => .unmodelled
  | _ => .error

/-- The operators `+`, `-` and `*` of `parse_expression`: `total` is the sum so far, `product` the product that may still grow. The first argument bounds the steps.
Constants are folded (/repo/src/parse.c 2975). -/
def operators : Nat → Int → Int → List Tok → Parsed Int
  | 0, _, _, _ => .error
  | n + 1, total, product, .plus :: rest =>
    match unary rest with
    | .value v rest => operators n (total + product) v rest
    | r => r
  | n + 1, total, product, .minus :: rest =>
    match unary rest with
    | .value v rest => operators n (total + product) (-v) rest
    | r => r
  | n + 1, total, product, .times :: rest =>
    match unary rest with
    | .value v rest => operators n total (product * v) rest
    | r => r
  | _ + 1, total, product, rest => .value (total + product) rest

/-- `asm_maybe_parse_expression_operand` for constants (/repo/src/parse_asm_block.c 1336–1356). -/
def expression (l : List Tok) : Parsed Int :=
  match unary l with
  | .value v rest => operators (rest.length + 1) 0 v rest
  | r => r

/-- `struct asm_operand` for memory operands (/repo/src/parse_asm_block.c 107–112). -/
structure Operand where
  base : Option Nat
  index : Option Nat
  scale : Nat
  offset : Int
  size : Nat
  gs : Bool
deriving DecidableEq, Repr

/-- The end (/repo/src/parse_asm_block.c 1577–1589). -/
def finish (size : Nat) (gs : Bool) (base index : Option Nat) (scale : Nat) (offset : Int) : List Tok → Parsed Operand
  | .close :: rest => .value ⟨base, index, scale, offset, size, gs⟩ rest
  | _ => .error

/-- From `skip_scale` (/repo/src/parse_asm_block.c 1542–1552). -/
def offsetPart (size : Nat) (gs : Bool) (base index : Option Nat) (scale : Nat) (negative : Bool) (l : List Tok) : Parsed Operand :=
  match expression l with
  | .value v rest => finish size gs base index scale (if negative then -v else v) rest
  | .error => .error
  | .unmodelled => .unmodelled

/-- The scale (/repo/src/parse_asm_block.c 1524–1540). -/
def scalePart (size : Nat) (gs : Bool) (base : Option Nat) : List Tok → Parsed Operand
  | .number true n :: .times :: rest =>
    match rest with
    | .word w :: rest =>
      match gpr w with
      | none => .error
      | some (r, _) =>
        match rest with
        | .plus :: rest => finish size gs base (some r) n 0 rest
        | .minus :: rest => finish size gs base (some r) n 0 rest
        | rest => offsetPart size gs base (some r) n false rest
    | _ => .error
  | l => offsetPart size gs base none 1 false l

/-- Behind the bracket (/repo/src/parse_asm_block.c 1502–1590). -/
def inBrackets (size : Nat) (gs : Bool) : List Tok → Parsed Operand
  | .word w :: rest =>
    match gpr w with
    | none => scalePart size gs none (.word w :: rest)
    | some (b, _) =>
      match rest with
      | .plus :: rest => scalePart size gs (some b) rest
      | .minus :: rest => offsetPart size gs (some b) none 1 true (.minus :: rest)
      | rest => finish size gs (some b) none 1 0 rest
  | l => scalePart size gs none l

/-- A memory operand, or that this is none. -/
inductive Result
  | operand (o : Operand) (rest : List Tok)
  | none
  | error
  | unmodelled
deriving DecidableEq, Repr

/-- From the bracket (/repo/src/parse_asm_block.c 1495–1500). -/
def bracket (size : Nat) (gs : Bool) : List Tok → Result
  | .open_ :: rest =>
    match inBrackets size gs rest with
    | .value o rest => .operand o rest
    | .error => .error
    | .unmodelled => .unmodelled
  | _ => if size ≠ 0 ∨ gs = true then .error else .none

/-- `gs:` (/repo/src/parse_asm_block.c 1485–1493). -/
def segment (size : Nat) : List Tok → Result
  | .word w :: rest =>
    if w = "gs" then
      match rest with
      | .colon :: rest => bracket size true rest
      | _ => .error
    else bracket size false (.word w :: rest)
  | l => bracket size false l

/-- `asm_maybe_parse_memory_operand` (/repo/src/parse_asm_block.c 1447–1590). -/
def memoryOperand : List Tok → Result
  | .word w :: rest =>
    if sizeWord w ≠ 0 then
      match rest with
      | .word p :: rest => if p = "ptr" then segment (sizeWord w) rest else .none
      | _ => .none
    else segment 0 (.word w :: rest)
  | l => segment 0 l

/-- `struct emit_location` of a memory operand. -/
structure Location where
  base : Nat
  index : Option Nat
  logIndexScale : Nat
  offset : Int
deriving DecidableEq, Repr

/-- `_asm_block_resolve_and_allocate_operand` (/repo/src/emit_inline_asm_block.c 165–182). Without a base it reads `emit_location_map[-1]`: no result. -/
def resolve (o : Operand) : Option Location :=
  match o.base with
  | none => none
  | some b => some ⟨b, o.index, if o.scale = 2 then 1 else if o.scale = 4 then 2 else if o.scale = 8 then 3 else 0, o.offset⟩

/-- The address of `[base + index * 2^scale + offset]`, as the processor computes it. -/
def Location.address (l : Location) (regs : Nat → Int) : Int :=
  regs l.base + (match l.index with | none => 0 | some i => regs i * 2 ^ l.logIndexScale) + l.offset

end Verif.Model.AsmAddress
