/-!
# Model: comparisons, from the operator to the condition code

Models the choice of the IR node for a comparison (`src/parse.c:6304-6330`, 6372-6390), its
decoding by the code generator (`src/emit_x64.c:3856-3873`), the negation of a condition by `!`
(4180-4192), the choice of the jump (`instruction_from_comp_condition`, 1910-1954) and of the
`setcc` (1343-1358). IR nodes, IR types and conditions are numbered as in their enums
(`src/ir.h:2-19`, 213-256, `src/emit_x64.c:700-720`).
-/
namespace Verif.Cond

/-- `enum ir_type`, the members a comparison can have. -/
inductive IrType | s32 | u32 | s64 | u64 | f32 | f64
deriving DecidableEq, Repr

/-- Position in the enum relative to `IR_TYPE_s32`. -/
def IrType.index : IrType → Nat
  | .s32 => 0 | .u32 => 1 | .s64 => 2 | .u64 => 3 | .f32 => 4 | .f64 => 5

def IrType.ofIndex : Nat → Option IrType
  | 0 => some .s32 | 1 => some .u32 | 2 => some .s64 | 3 => some .u64 | 4 => some .f32 | 5 => some .f64 | _ => none

/-- The comparison operators. -/
inductive Op | ge | le | gt | lt | eq | ne
deriving DecidableEq, Repr

/-- IR nodes: `relational i` is `IR_bigger_equals_s32 + i`, `equality i` is `IR_equals_u32 + i`. -/
inductive Ir | relational (i : Nat) | equality (i : Nat)
deriving DecidableEq, Repr

/-- The IR node of a comparison of two operands of the (common) type `t`;
`src/parse.c:6317-6326` and 6372-6382. -/
def select (op : Op) (t : IrType) : Ir :=
  let sizeBit := match t with | .s64 | .u64 | .f64 => 1 | _ => 0
  let float := match t with | .f32 | .f64 => 1 | _ => 0
  match op with
  | .ge => .relational ((t.index <<< 2) ||| 0)
  | .le => .relational ((t.index <<< 2) ||| 1)
  | .gt => .relational ((t.index <<< 2) ||| 2)
  | .lt => .relational ((t.index <<< 2) ||| 3)
  | .eq => .equality ((float <<< 2) ||| (sizeBit <<< 1) ||| 0)
  | .ne => .equality ((float <<< 2) ||| (sizeBit <<< 1) ||| 1)

/-- `enum comp_condition`, `src/emit_x64.c:700-720`, by number:
0 none, 1 equals, 2 unequals, 3 bigger_equals, 4 smaller_equals, 5 bigger, 6 smaller,
7..10 the same signed, 11 positive, 12 negative. -/
abbrev Comp := Nat

/-- `ir_type_signed`, `src/ir.h:512-515`. -/
def irTypeSigned : IrType → Bool
  | .s32 | .s64 => true
  | _ => false

/-- Decoding of the node, `src/emit_x64.c:3859-3873`: the type compared and the condition. -/
def decodeIr : Ir → Option (IrType × Comp)
  | .equality info =>
    let cond := info &&& 1
    let sizeBit := (info >>> 1) &&& 1
    let float := (info >>> 2) &&& 1
    -- IR_TYPE_f32 + size_bit or IR_TYPE_u32 + size_bit
    (IrType.ofIndex ((if float ≠ 0 then 4 else 1) + sizeBit)).map fun t => (t, 1 + cond)
  | .relational info =>
    let cond := info &&& 3
    (IrType.ofIndex (info >>> 2)).map fun t => (t, 3 + cond + ((if irTypeSigned t then 1 else 0) <<< 2))

/-- Width of the `cmp`, `ir_type_size` in bits. -/
def irTypeBits : IrType → Nat
  | .s32 | .u32 | .f32 => 32
  | .s64 | .u64 | .f64 => 64

/-- `IR_logical_not_*`, `src/emit_x64.c:4180-4192`. -/
def negate : Comp → Option Comp
  | 1 => some 2 | 2 => some 1
  | 6 => some 3 | 5 => some 4 | 4 => some 5 | 3 => some 6
  | 7 => some 10 | 8 => some 9 | 9 => some 8 | 10 => some 7
  | _ => none

/-- `instruction_from_comp_condition`, `src/emit_x64.c:1910-1954`: the second opcode byte. -/
def jumpOpcode (onTrue : Bool) (c : Comp) : Option Nat :=
  if onTrue then
    match c with
    | 2 => some 0x85 | 1 => some 0x84
    | 6 => some 0x82 | 4 => some 0x86 | 5 => some 0x87 | 3 => some 0x83
    | 10 => some 0x8c | 8 => some 0x8e | 9 => some 0x8f | 7 => some 0x8d
    | 11 => some 0x89 | 12 => some 0x88
    | _ => none
  else
    match c with
    | 2 => some 0x84 | 1 => some 0x85
    | 6 => some 0x83 | 4 => some 0x87 | 5 => some 0x86 | 3 => some 0x82
    | 10 => some 0x8d | 8 => some 0x8f | 9 => some 0x8e | 7 => some 0x8c
    | 11 => some 0x88 | 12 => some 0x89
    | _ => none

/-- The `setcc` of a condition that is loaded, `src/emit_x64.c:1343-1358`. -/
def setOpcode : Comp → Option Nat
  | 1 => some 0x94 | 2 => some 0x95
  | 4 => some 0x96 | 6 => some 0x92 | 3 => some 0x93 | 5 => some 0x97
  | 10 => some 0x9c | 8 => some 0x9e | 9 => some 0x9f | 7 => some 0x9d
  | 11 => some 0x99 | 12 => some 0x98
  | _ => none

end Verif.Cond
