import Verif.Model.RegAlloc

/-!
# Model: conversions between integers and floats (`src/emit_x64.c:2524-2555, 2781-2792, 2900-3225`, `src/parse.c:301-337`)

The casts of `emit_code_for_function__internal` between integer types, `float`, `double` and `_Bool`, with `emit_integer_cast`, `emit_float_cast` and
`emit_compare_to_zero` (2099-2120), and the conversion of float literals in `push_cast`.

The instructions are those of the processor, as in its manual: `cvtsi2ss`/`cvtsi2sd` (opcode 0x2A) round to nearest, ties to even; `cvttss2si`/`cvttsd2si` (0x2C) cut to an
integer of 32 or 64 bits, or give the "integer indefinite" value; `ucomiss`/`ucomisd` set `ZF` for equal or unordered operands.

Simplifications: a float that comes from an integer is given by its value, which is an integer. Immediates are left out, these conversions are the subject
of C18. Conversions between `float` and `double` are one instruction and left out.
-/

namespace Verif.FloatConv

open Verif.RegAlloc

/-- `float` and `double`. -/
inductive Format
  | f32
  | f64
deriving DecidableEq, Repr

/-- The number of bits of the significand. -/
def Format.bits : Format → Nat
  | .f32 => 24
  | .f64 => 53

/-- A float: `±m * 2^e`, infinite, or not a number. -/
inductive Fl
  | fin (neg : Bool) (m : Nat) (e : Int)
  | inf (neg : Bool)
  | nan
deriving DecidableEq, Repr

inductive IntType
  | s8 | s16 | s32 | s64
  | u8 | u16 | u32 | u64
deriving DecidableEq, Repr

def IntType.size : IntType → Nat
  | .s8 => 1 | .s16 => 2 | .s32 => 4 | .s64 => 8
  | .u8 => 1 | .u16 => 2 | .u32 => 4 | .u64 => 8

def IntType.signed : IntType → Bool
  | .s8 => true | .s16 => true | .s32 => true | .s64 => true
  | _ => false

/-! ## The instructions -/

/-- A register with `n` bits as a signed number. -/
def toSigned (n v : Nat) : Int := if v % 2 ^ n < 2 ^ (n - 1) then (v % 2 ^ n : Nat) else ((v % 2 ^ n : Nat) : Int) - (2 ^ n : Nat)

/-- Rounding to `p` bits, to nearest, ties to even. -/
def roundNat (p x : Nat) : Nat :=
  let sh := x.log2 + 1 - p
  let q := x / 2 ^ sh
  let rem := x % 2 ^ sh
  if 2 ^ sh < 2 * rem ∨ (2 ^ sh = 2 * rem ∧ q % 2 = 1) then (q + 1) * 2 ^ sh else q * 2 ^ sh

def roundInt (p : Nat) (x : Int) : Int := if x < 0 then -(roundNat p x.natAbs : Nat) else (roundNat p x.natAbs : Nat)

/-- `cvtsi2ss` and `cvtsi2sd` of a register with `n` bits. -/
def cvtsi (p n v : Nat) : Int := roundInt p (toSigned n v)

/-- `addss` and `addsd`, of floats that are integers. -/
def addFloat (p : Nat) (a b : Int) : Int := roundInt p (a + b)

/-- The integer part of a float. -/
def integerPart : Fl → Option Int
  | .fin neg m e =>
    let n : Nat := if 0 ≤ e then m * 2 ^ e.toNat else m / 2 ^ (-e).toNat
    some (if neg = true then -(n : Int) else n)
  | _ => none

/-- `cvttss2si` and `cvttsd2si` to a register with `n` bits. -/
def cvtt (n : Nat) (f : Fl) : Nat :=
  match integerPart f with
  | some t => if -(2 ^ (n - 1) : Nat) ≤ t ∧ t < (2 ^ (n - 1) : Nat) then (t % (2 ^ n : Nat)).toNat else 2 ^ (n - 1)
  | none => 2 ^ (n - 1)

/-- `movsx` from `n` to 32 bits. -/
def signExtend (n v : Nat) : Nat := (toSigned n v % (2 ^ 32 : Nat)).toNat

/-! ## Casts -/

/-- Where a float is: in a float register, in memory, or in a general purpose register, as after an assignment (`src/emit_x64.c:4403`). `other` is what
the float register with the same encoding holds. -/
inductive Operand
  | xmm (f : Fl)
  | memory (f : Fl)
  | gpr (f other : Fl)
deriving DecidableEq, Repr

/-- The value of the operand. -/
def Operand.value : Operand → Fl
  | .xmm f => f
  | .memory f => f
  | .gpr f _ => f

/-- What an instruction with a float operand reads (`src/emit_x64.c:2546-2551`): only the encoding of the register counts. -/
def Operand.read : Operand → Fl
  | .xmm f => f
  | .memory f => f
  | .gpr _ other => other

/-- `big_size` in bits for each cast (`src/emit_x64.c:2906-2985`). -/
def castWidth : Format → IntType → Nat
  | .f32, .s64 => 64
  | .f32, .u64 => 64
  | .f32, _ => 32
  | .f64, .u32 => 64
  | .f64, .s64 => 64
  | .f64, .u64 => 64
  | .f64, _ => 32

/-- `emit_float_cast` (`src/emit_x64.c:2543-2555`), the low `size` bytes of the register. -/
def floatToInt (fmt : Format) (t : IntType) (o : Operand) : Nat := cvtt (castWidth fmt t) o.read % 256 ^ t.size

/-- The cast from `u64` (`src/emit_x64.c:3123-3200`). -/
def u64ToFloat (p v : Nat) : Int :=
  let v := v % 2 ^ 64
  if v < 2 ^ 63 then cvtsi p 64 v
  else
    let saved := v &&& 1
    let loc := (v >>> 1) ||| saved
    let r := cvtsi p 64 loc
    addFloat p r r

/-- The casts from integers to floats (`src/emit_x64.c:2988-3225`). `v` is the content of the register or of the memory that holds the integer; its bytes above the size of the type can be
anything. -/
def intToFloat (fmt : Format) (t : IntType) (v : Nat) : Int :=
  match t with
  | .s8 => cvtsi fmt.bits 32 (signExtend 8 v)
  | .s16 => cvtsi fmt.bits 32 (signExtend 16 v)
  | .s32 => cvtsi fmt.bits 32 v
  | .s64 => cvtsi fmt.bits 64 v
  | .u8 => cvtsi fmt.bits 32 (v % 2 ^ 8)
  | .u16 => cvtsi fmt.bits 32 (v % 2 ^ 16)
  | .u32 => cvtsi fmt.bits 64 (v % 2 ^ 32)
  | .u64 => u64ToFloat fmt.bits v

/-- The bits of the float are all zero. -/
def bitsZero : Fl → Bool
  | .fin neg m _ => !neg && m = 0
  | _ => false

/-- `ucomiss`/`ucomisd` with zero: `ZF`. -/
def zeroFlag : Fl → Bool
  | .fin _ m _ => m = 0
  | .inf _ => false
  | .nan => true

/-- `IR_cast_to_bool`, and the conditions of jumps (`src/emit_x64.c:2781-2792, 3754-3757`), with `emit_compare_to_zero` (2099-2120): an operand in memory is loaded into a general purpose
register and tested there. -/
def floatToBool : Operand → Bool
  | .xmm f => !zeroFlag f
  | .memory f => !bitsZero f
  | .gpr f _ => !bitsZero f

/-- `f < 0.0`. -/
def negative : Fl → Bool
  | .fin neg m _ => neg && m ≠ 0
  | .inf neg => neg
  | .nan => false

/-- The cast of a float literal to an integer type in `push_cast` (`src/parse.c:301-337`); the conversion itself is that of the compiler that compiled it, which is taken to be right where C
defines it and anything (`host`) otherwise. `none` is the error. -/
def literalToInt (host : Nat) (t : IntType) (f : Fl) : Option Nat :=
  if t.signed = false ∧ negative f = true then none
  else
    match integerPart f with
    | some i =>
      if (if t.signed = true then -(2 ^ (8 * t.size - 1) : Nat) ≤ i ∧ i < (2 ^ (8 * t.size - 1) : Nat) else 0 ≤ i ∧ i < (2 ^ (8 * t.size) : Nat)) then
        some (i % (256 ^ t.size : Nat)).toNat
      else some (host % 256 ^ t.size)
    | none => some (host % 256 ^ t.size)

/-- The cast of a float literal to `_Bool` (`src/parse.c:322-328`). -/
def literalToBool (f : Fl) : Option Bool := if negative f = true then none else some (!(match f with | .fin _ m _ => decide (m = 0) | _ => false))

/-! ## The registers of the cast from `u64` -/

/-- `emit_load_gpr` of a location (`src/emit_x64.c:1410-1416`). -/
def loadGpr (s : State) (id : Nat) : Option (Nat × State) :=
  match s.locs id with
  | some ⟨.loaded _, _, _, _⟩ => some (id, s)
  | _ => (step s (.reload .gpr id)).map (fun s' => (s.next, s'))

/-- `allocate_register` between the jump and its target (`src/emit_x64.c:3172-3174`): the compiler updates its tables, but an instruction that stores a register is only
executed if the branch is. `saved` is written to the register in the branch. -/
def allocateInBranch (s : State) (taken : Bool) (saved : Nat) : Option (Reg × State) :=
  (allocate s .gpr).map (fun (r, s') =>
    (r, if taken = true then { s' with regs := upd s'.regs r saved } else { s' with mem := s.mem }))

/-- The cast on the register allocator (`src/emit_x64.c:3123-3200`); `enc` gives the bits of a float. The result is the number of the new location. -/
def castU64 (fmt : Format) (enc : Int → Nat) (s : State) (id : Nat) : Option (Nat × State) :=
  (step s (.compute .xmm (if fmt = .f32 then 4 else 8) 0)).bind (fun s1 =>
    (loadGpr s1 id).bind (fun (loc, s2) =>
      (step s2 (.preventSpilling loc)).bind (fun s3 =>
        (RegAlloc.value s3 loc).bind (fun v =>
          (allocateInBranch s3 (2 ^ 63 ≤ v) (v &&& 1)).bind (fun (_, s4) =>
            (step s4 (.write s.next (enc (u64ToFloat fmt.bits v)))).bind (fun s5 =>
              (step s5 (.allowSpilling loc)).bind (fun s6 =>
                (free s6 loc).map (fun s7 => (s.next, s7)))))))))

end Verif.FloatConv
