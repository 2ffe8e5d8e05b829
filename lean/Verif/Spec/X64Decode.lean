/-!
# Decoding x64 instructions (64-bit mode)

A decoder for prefixes, opcode, ModRM, SIB and displacement, written from the Intel SDM
(vol. 2, chapter 2): legacy prefixes, then REX or VEX, then the opcode, then the operands.
Bytes are naturals below 256. What follows the displacement (an immediate) is returned as is.
-/
namespace Verif.Spec.X64Decode

/-- The r/m operand. -/
inductive Rm
  | reg (r : Nat)
  /-- `[base + 2^scale * index + disp]` -/
  | mem (base : Option Nat) (index : Option (Nat × Nat)) (disp : Int)
  /-- `[rip + disp]` -/
  | rip (disp : Int)
deriving DecidableEq, Repr

/-- The opcode map: one byte, `0F`, `0F 38` or `0F 3A`. -/
inductive OpMap | one | of | of38 | of3a
deriving DecidableEq, Repr

structure Insn where
  prefixes : List Nat
  /-- REX.W or VEX.W -/
  w : Bool
  map : OpMap
  opcode : Nat
  /-- the reg field, extended -/
  reg : Nat
  rm : Rm
  /-- for VEX encodings: vvvv (the extra register), L (256 bit), pp -/
  vex : Option (Nat × Bool × Nat)
deriving DecidableEq, Repr

/-- Legacy prefixes (SDM 2.1.1). -/
def isPrefix (b : Nat) : Bool := b ∈ [0xf0, 0xf2, 0xf3, 0x2e, 0x36, 0x3e, 0x26, 0x64, 0x65, 0x66, 0x67]

def takePrefixes : List Nat → List Nat × List Nat
  | b :: bs => if isPrefix b then let (p, r) := takePrefixes bs; (b :: p, r) else ([], b :: bs)
  | [] => ([], [])

/-- Signed displacement of one byte. -/
def disp8 : List Nat → Option (Int × List Nat)
  | b :: r => some (if b < 128 then (b : Int) else b - 256, r)
  | _ => none

/-- Signed displacement of four bytes, little endian. -/
def disp32 : List Nat → Option (Int × List Nat)
  | b0 :: b1 :: b2 :: b3 :: r =>
    let u : Int := b0 + 256 * b1 + 65536 * b2 + 16777216 * b3
    some (if u < 2147483648 then u else u - 4294967296, r)
  | _ => none

/-- The displacement for a memory operand by `mod`. -/
def dispFor (mod : Nat) (bs : List Nat) : Option (Int × List Nat) :=
  if mod = 0 then some (0, bs) else if mod = 1 then disp8 bs else disp32 bs

/-- SIB byte (SDM table 2-3). `x`, `b` are REX.X and REX.B (0 or 1). -/
def decodeSib (mod x b : Nat) : List Nat → Option (Rm × List Nat)
  | sib :: bs =>
    let scale := sib / 64
    let idx := 8 * x + sib / 8 % 8
    let index := if idx = 4 then none else some (idx, scale)
    if sib % 8 = 5 ∧ mod = 0 then
      (disp32 bs).map fun (d, r) => (.mem none index d, r)
    else
      (dispFor mod bs).map fun (d, r) => (.mem (some (8 * b + sib % 8)) index d, r)
  | _ => none

/-- ModRM and what follows (SDM table 2-2). -/
def decodeRm (x b : Nat) (modrm : Nat) (bs : List Nat) : Option (Rm × List Nat) :=
  let mod := modrm / 64
  let rm := modrm % 8
  if mod = 3 then some (.reg (8 * b + rm), bs)
  else if rm = 4 then decodeSib mod x b bs
  else if rm = 5 ∧ mod = 0 then (disp32 bs).map fun (d, r) => (.rip d, r)
  else (dispFor mod bs).map fun (d, r) => (.mem (some (8 * b + rm)) none d, r)

/-- The opcode bytes. -/
def takeOpcode : List Nat → Option (OpMap × Nat × List Nat)
  | [] => none
  | b :: r =>
    if b ≠ 0x0f then some (.one, b, r)
    else match r with
      | [] => none
      | c :: r =>
        if c ≠ 0x38 ∧ c ≠ 0x3a then some (.of, c, r)
        else match r with
          | [] => none
          | d :: r => some (if c = 0x38 then .of38 else .of3a, d, r)

def vexMap (m : Nat) : Option OpMap :=
  if m = 1 then some .of else if m = 2 then some .of38 else if m = 3 then some .of3a else none

/-- ModRM and operands, after the opcode. -/
def finish (ps : List Nat) (w r x b : Nat) (map : OpMap) (op : Nat) (vex : Option (Nat × Bool × Nat)) :
    List Nat → Option (Insn × List Nat)
  | modrm :: bs =>
    (decodeRm x b modrm bs).map fun (rm, rest) =>
      (⟨ps, w = 1, map, op, 8 * r + modrm / 8 % 8, rm, vex⟩, rest)
  | [] => none

/-- Two byte VEX: `R vvvv L pp`, then the opcode. -/
def decodeVex2 (ps : List Nat) : List Nat → Option (Insn × List Nat)
  | v :: op :: rest =>
    finish ps 0 (1 - v / 128) 0 0 .of op (some (15 - v / 8 % 16, v / 4 % 2 = 1, v % 4)) rest
  | _ => none

/-- Three byte VEX: `R X B mmmmm`, `W vvvv L pp`, then the opcode. -/
def decodeVex3 (ps : List Nat) : List Nat → Option (Insn × List Nat)
  | v1 :: v2 :: op :: rest =>
    (vexMap (v1 % 32)).bind fun map =>
      finish ps (v2 / 128) (1 - v1 / 128) (1 - v1 / 64 % 2) (1 - v1 / 32 % 2) map op
        (some (15 - v2 / 8 % 16, v2 / 4 % 2 = 1, v2 % 4)) rest
  | _ => none

/-- Decode one instruction with a ModRM byte. -/
def decode (bytes : List Nat) : Option (Insn × List Nat) :=
  let (ps, bs) := takePrefixes bytes
  match bs with
  | [] => none
  | b :: rest =>
    if b = 0xc5 then decodeVex2 ps rest
    else if b = 0xc4 then decodeVex3 ps rest
    else if 0x40 ≤ b ∧ b < 0x50 then
      (takeOpcode rest).bind fun (map, op, r) => finish ps (b / 8 % 2) (b / 4 % 2) (b / 2 % 2) (b % 2) map op none r
    else
      (takeOpcode (b :: rest)).bind fun (map, op, r) => finish ps 0 0 0 0 map op none r

end Verif.Spec.X64Decode
