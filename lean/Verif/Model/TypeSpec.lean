/-!
# Model: type specifiers (`parse_declaration_specifiers`, `src/parse.c:7548-8530`)

How the keywords in front of a declarator are collected in `c_type` and combined to a type.

Simplifications:
* `struct`, `union` and `enum` specifiers are one token, `tag`. Qualifiers
  and storage-class specifiers are one token, `other`, which does not affect the type
  (`_Atomic` is left out).
* A typedef name is not a keyword and is left out: it ends the specifiers if there is a type already
  (`src/parse.c:8376-8384`).
* A reported error is the outcome `none`.
-/

namespace Verif.TypeSpec

/-- The type specifier keywords (`src/parse.c:7791-7813`). -/
inductive Kw
  | unsigned | signed | Bool | char | short | int | long | int8 | int16 | int32 | int64 | float | double | void
  deriving DecidableEq, Repr

inductive Tok
  | kw (k : Kw)
  | tag
  | other
  deriving DecidableEq, Repr

/-- The types of `globals.typedef_*`, and the type of a `tag`. -/
inductive Ty
  | void | bool | s8 | u8 | s16 | u16 | s32 | u32 | s64 | u64 | f32 | f64 | tagged
  deriving DecidableEq, Repr

/-- The number of the bit of the keyword in `c_type` (`src/parse.c:7566-7583`). -/
def Kw.bit : Kw → Nat
  | .unsigned => 0 | .signed => 1 | .Bool => 2 | .char => 3 | .short => 4 | .int => 5 | .long => 6
  | .int8 => 8 | .int16 => 9 | .int32 => 10 | .int64 => 11 | .float => 12 | .double => 13 | .void => 14

/-- `C_TYPE_long_long` (`src/parse.c:7575`). -/
def longLongBit : Nat := 7

/-- `c_type` and whether `specifiers.type_specifier` is set (`src/parse.c:7549-7583`). -/
structure State where
  cType : Nat := 0
  tagged : Bool := false

/-- A keyword (`src/parse.c:7782-7813`). -/
def keyword (c : Nat) (k : Kw) : Option Nat :=
  if k = .long then
    if c.testBit longLongBit then none
    else if c.testBit Kw.long.bit then some (c ||| 2 ^ longLongBit)
    else some (c ||| 2 ^ Kw.long.bit)
  else if c.testBit k.bit then none
  else some (c ||| 2 ^ k.bit)

/-- One token (`src/parse.c:7601-8410`). -/
def token (s : State) : Tok → Option State
  | .kw k => (keyword s.cType k).map (fun c => { s with cType := c })
  | .tag => if s.tagged || s.cType != 0 then none else some { s with tagged := true }
  | .other => some s

/-- All tokens. -/
def tokens : List Tok → State → Option State
  | [], s => some s
  | t :: ts, s => (token s t).bind (tokens ts)

/-- The `switch` (`src/parse.c:8432-8494`). -/
def combine (c : Nat) : Option Ty :=
  if c = 0x4000 then some .void
  else if c = 0x4 then some .bool
  else if c = 0x1 then some .u32
  else if c = 0x2 then some .s32
  else if c = 0x8 then some .s8
  else if c = 0x10 then some .s16
  else if c = 0x20 then some .s32
  else if c = 0x40 then some .s32
  else if c = 0x10 ||| 0x20 then some .s16
  else if c = 0x40 ||| 0x20 then some .s32
  else if c = 0x40 ||| 0x80 then some .s64
  else if c = 0x40 ||| 0x80 ||| 0x20 then some .s64
  else if c = 0x1 ||| 0x8 then some .u8
  else if c = 0x1 ||| 0x10 then some .u16
  else if c = 0x1 ||| 0x20 then some .u32
  else if c = 0x1 ||| 0x40 then some .u32
  else if c = 0x1 ||| 0x40 ||| 0x80 then some .u64
  else if c = 0x1 ||| 0x10 ||| 0x20 then some .u16
  else if c = 0x1 ||| 0x40 ||| 0x20 then some .u32
  else if c = 0x1 ||| 0x40 ||| 0x80 ||| 0x20 then some .u64
  else if c = 0x2 ||| 0x8 then some .s8
  else if c = 0x2 ||| 0x10 then some .s16
  else if c = 0x2 ||| 0x20 then some .s32
  else if c = 0x2 ||| 0x40 then some .s32
  else if c = 0x2 ||| 0x40 ||| 0x80 then some .s64
  else if c = 0x2 ||| 0x10 ||| 0x20 then some .s16
  else if c = 0x2 ||| 0x40 ||| 0x20 then some .s32
  else if c = 0x2 ||| 0x40 ||| 0x80 ||| 0x20 then some .s64
  else if c = 0x100 then some .s8
  else if c = 0x200 then some .s16
  else if c = 0x400 then some .s32
  else if c = 0x800 then some .s64
  else if c = 0x2 ||| 0x100 then some .s8
  else if c = 0x2 ||| 0x200 then some .s16
  else if c = 0x2 ||| 0x400 then some .s32
  else if c = 0x2 ||| 0x800 then some .s64
  else if c = 0x1 ||| 0x100 then some .u8
  else if c = 0x1 ||| 0x200 then some .u16
  else if c = 0x1 ||| 0x400 then some .u32
  else if c = 0x1 ||| 0x800 then some .u64
  else if c = 0x1000 then some .f32
  else if c = 0x2000 then some .f64
  else if c = 0x40 ||| 0x2000 then some .f64
  else none

/-- The end (`src/parse.c:8415-8496`). -/
def finish (s : State) : Option Ty :=
  if s.tagged && s.cType != 0 then none
  else if !s.tagged && s.cType = 0 then none
  else if s.cType != 0 then combine s.cType
  else some .tagged

/-- The type that a sequence of specifiers denotes (`src/parse.c:7548-8496`). -/
def specify (ts : List Tok) : Option Ty := (tokens ts {}).bind finish

end Verif.TypeSpec
