import Verif.Model.IntType
import Verif.Spec.X64

/-!
# Model: run-time integer conversions

Models the table `ir_kind_for_cast` in `push_cast` (`src/parse.c:471-605`) and the code
emitted for each integer conversion (`src/emit_x64.c:2524-2541, 2781-2792, 2836-2904,
3228-3246`).
-/
namespace Verif.Cast
open Verif.IntType Verif.Spec.X64

/-- The integer conversion IR kinds (`src/ir.h`). Numbers are bits. -/
inductive Kind
  | none
  | toBool
  | signExtend (src dst : Nat)
  | zeroExtend (src dst : Nat)
  | truncate (n : Nat)
deriving DecidableEq, Repr

/-- The table at `src/parse.c:488-602`, integer part, entry by entry. Missing entries are 0,
which means that no instruction is pushed. -/
def table : Ty → Ty → Kind
  | .s8, .s16 => .signExtend 8 16
  | .s8, .s32 => .signExtend 8 32
  | .s16, .s32 => .signExtend 16 32
  | .s8, .s64 => .signExtend 8 64
  | .s16, .s64 => .signExtend 16 64
  | .s32, .s64 => .signExtend 32 64
  | .s8, .u16 => .signExtend 8 16
  | .s8, .u32 => .signExtend 8 32
  | .s16, .u32 => .signExtend 16 32
  | .s8, .u64 => .signExtend 8 64
  | .s16, .u64 => .signExtend 16 64
  | .s32, .u64 => .signExtend 32 64
  | .u8, .s16 => .zeroExtend 8 16
  | .u8, .s32 => .zeroExtend 8 32
  | .u16, .s32 => .zeroExtend 16 32
  | .u8, .s64 => .zeroExtend 8 64
  | .u16, .s64 => .zeroExtend 16 64
  | .u32, .s64 => .zeroExtend 32 64
  | .u8, .u16 => .zeroExtend 8 16
  | .u8, .u32 => .zeroExtend 8 32
  | .u16, .u32 => .zeroExtend 16 32
  | .u8, .u64 => .zeroExtend 8 64
  | .u16, .u64 => .zeroExtend 16 64
  | .u32, .u64 => .zeroExtend 32 64
  | .u16, .u8 => .truncate 8
  | .u16, .s8 => .truncate 8
  | .s16, .u8 => .truncate 8
  | .s16, .s8 => .truncate 8
  | .u32, .u8 => .truncate 8
  | .u32, .s8 => .truncate 8
  | .s32, .u8 => .truncate 8
  | .s32, .s8 => .truncate 8
  | .u64, .u8 => .truncate 8
  | .u64, .s8 => .truncate 8
  | .s64, .u8 => .truncate 8
  | .s64, .s8 => .truncate 8
  | .u32, .u16 => .truncate 16
  | .u32, .s16 => .truncate 16
  | .s32, .u16 => .truncate 16
  | .s32, .s16 => .truncate 16
  | .u64, .u16 => .truncate 16
  | .u64, .s16 => .truncate 16
  | .s64, .u16 => .truncate 16
  | .s64, .s16 => .truncate 16
  | .u64, .u32 => .truncate 32
  | .u64, .s32 => .truncate 32
  | .s64, .u32 => .truncate 32
  | .s64, .s32 => .truncate 32
  | _, _ => .none

/-- `push_cast` of a non-literal integer: nothing for the same type (`src/parse.c:298-300`),
a `_Bool` source is treated as `u8` (477), a `_Bool` target uses `IR_cast_to_bool` (482-486). -/
def kind (src dst : Ty) : Kind :=
  if src = dst then .none
  else if dst = .bool then .toBool
  else table (if src = .bool then .u8 else src) dst

/-- The emitted code on a value that is already in a register. `srcBits` is the size of the
location before the cast (used by the `test` of `IR_cast_to_bool`).
`emit_integer_cast` uses the same register as source and destination
(`src/emit_x64.c:2538`); `zero_extend_u32_to_u64` is a 32-bit `mov` (2902); truncations
only change the size of the location (3230-3246). -/
def runReg (srcBits : Nat) (k : Kind) (r : Nat) : Nat :=
  match k with
  | .none => r
  | .toBool => testSetne srcBits r r
  | .signExtend m n => movsx n m r r
  | .zeroExtend m n => if m = 32 then mov 32 r r else movzx n m r r
  | .truncate _ => r

/-- The emitted code on a value in memory (`register_relative`): the extension loads from memory
into a fresh register `old` (`src/emit_x64.c:2528-2532`), `IR_cast_to_bool` loads first (2787),
otherwise the location stays in memory and only its size changes; reading it later reads the
low bytes. `bytes` is the memory contents as a little endian number. -/
def runMem (srcBits : Nat) (k : Kind) (old bytes : Nat) : Nat :=
  match k with
  | .none => bytes
  | .toBool => let r := writeReg srcBits old bytes; testSetne srcBits r r
  | .signExtend m n => movsx n m old bytes
  | .zeroExtend m n => if m = 32 then mov 32 old bytes else movzx n m old bytes
  | .truncate _ => bytes

end Verif.Cast
