/-!
# Model: arithmetic types and the usual arithmetic conversions

Models `type_is_signed` (`src/main.c:612-618`), `perform_integer_promotions` and
`perform_usual_arithmetic_conversions` (`src/parse.c:621-630, 699-739`).

The compiler identifies a type with the address of one of the `globals.typedef_...`
objects; there is one object per size and signedness (`long` is the same object as
`int`), so a type is one constructor here.
-/
namespace Verif.IntType

/-- The arithmetic types: `globals.typedef_Bool`, ..., `globals.typedef_f64`
(`src/main.c:540-560`). -/
inductive Ty
  | bool | s8 | u8 | s16 | u16 | s32 | u32 | s64 | u64 | f32 | f64
deriving DecidableEq, Repr

/-- `type->size` in bits. -/
def Ty.bits : Ty → Nat
  | .bool => 8 | .s8 => 8 | .u8 => 8 | .s16 => 16 | .u16 => 16
  | .s32 => 32 | .u32 => 32 | .s64 => 64 | .u64 => 64 | .f32 => 32 | .f64 => 64

/-- `type_is_signed`, `src/main.c:612-618`. -/
def Ty.isSigned : Ty → Bool
  | .s8 | .s16 | .s32 | .s64 => true
  | _ => false

/-- `perform_integer_promotions`, `src/parse.c:621-630`. -/
def promote : Ty → Ty
  | .bool => .s32
  | .s8 => .s32
  | .u8 => .s32
  | .s16 => .s32
  | .u16 => .s32
  | t => t

/-- `perform_usual_arithmetic_conversions`, `src/parse.c:699-739`; `none` is the
`invalid_code_path` at the end. -/
def usualConversions (lhs rhs : Ty) : Option Ty :=
  if lhs = .f64 then some .f64
  else if rhs = .f64 then some .f64
  else if lhs = .f32 then some .f32
  else if rhs = .f32 then some .f32
  else
    let lhs := promote lhs
    let rhs := promote rhs
    if lhs = rhs then some lhs
    -- same signedness
    else if lhs = .s32 ∧ rhs = .s64 then some .s64
    else if rhs = .s32 ∧ lhs = .s64 then some .s64
    else if lhs = .u32 ∧ rhs = .u64 then some .u64
    else if rhs = .u32 ∧ lhs = .u64 then some .u64
    -- unsigned of greater or equal rank
    else if lhs = .u32 ∧ rhs = .s32 then some .u32
    else if rhs = .u32 ∧ lhs = .s32 then some .u32
    else if lhs = .u64 ∧ rhs = .s32 then some .u64
    else if rhs = .u64 ∧ lhs = .s32 then some .u64
    else if lhs = .u64 ∧ rhs = .s64 then some .u64
    else if rhs = .u64 ∧ lhs = .s64 then some .u64
    -- signed type that can represent all values of the unsigned one
    else if lhs = .u32 ∧ rhs = .s64 then some .s64
    else if rhs = .u32 ∧ lhs = .s64 then some .s64
    -- otherwise
    else if lhs = .s32 then some .u32
    else if rhs = .s32 then some .u32
    else if lhs = .s64 then some .u64
    else if rhs = .s64 then some .u64
    else none

end Verif.IntType
