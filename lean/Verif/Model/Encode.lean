/-!
# Model: x64 instruction encoding

Models `emit_prefixes_and_opcode` (`src/emit_x64.c:577-645`), `make_modrm`/`make_sib` (669-684),
`emit_register_op__internal` (1128-1132) and `emit_register_relative__internal` (1157-1241).
A register is its encoding 0..15. The emit arena is the list of emitted bytes.
-/
namespace Verif.Encode

/-- `enum legacy_prefixes` as flags, `src/emit_x64.c:440-470`, and `struct prefixes`. -/
structure Prefixes where
  f0 : Bool := false
  f2 : Bool := false
  f3 : Bool := false
  p64 : Bool := false
  p65 : Bool := false
  p66 : Bool := false
  p67 : Bool := false
  vex : Bool := false
  vexRegister : Nat := 0
deriving DecidableEq, Repr

/-- `struct opcode`, built by `one_byte_opcode`, `two_byte_opcode`, `three_byte_opcode`
(`src/emit_x64.c:486-513`). -/
inductive Opcode
  | one (b : Nat)
  | two (b : Nat)
  | three (b1 b2 : Nat)
deriving DecidableEq, Repr

def Opcode.bytes : Opcode → List Nat
  | .one b => [b]
  | .two b => [0x0f, b]
  | .three b1 b2 => [0x0f, b1, b2]

/-- `register_is_extended`, `src/emit_x64.c:410`. -/
def ext (r : Nat) : Bool := r &&& 0xF8 ≠ 0

/-- `index >= 0 && register_is_extended(index)`; `none` is `INVALID_REGISTER`. -/
def indexExt : Option Nat → Bool
  | some i => ext i
  | none => false

/-- `emit_prefixes_and_opcode`, the VEX part, `src/emit_x64.c:580-622`. -/
def vexBytes (p : Prefixes) (reg regm : Nat) (index : Option Nat) (size : Nat) (op : Opcode) : List Nat :=
  let isThreeByteOpcode := match op with | .three _ _ => true | _ => false
  let three := ext regm || indexExt index || isThreeByteOpcode
  let simd := if p.f2 then 3 else if p.f3 then 2 else if p.p66 then 1 else 0
  let last := (15 - p.vexRegister % 16) * 8 + (if size = 32 then 4 else 0) + simd
  let opByte := match op with | .one b => b | .two b => b | .three _ b => b
  if three then
    let rex := (if ext reg then 0 else 4) + (if ext regm then 0 else 1) + (if indexExt index then 0 else 2)
    let mmmmm := match op with | .three b1 _ => if b1 = 0x38 then 2 else 3 | _ => 1
    [0xc4, rex * 32 + mmmmm, last, opByte]
  else
    [0xc5, last + (if ext reg then 0 else 0x80), opByte]

/-- `emit_prefixes_and_opcode`, the legacy part, `src/emit_x64.c:623-643`. -/
def legacyBytes (p : Prefixes) (reg regm : Nat) (index : Option Nat) (size : Nat) (op : Opcode) : List Nat :=
  let p66 := p.p66 || size = 2
  let flag (b : Bool) (v : Nat) : List Nat := if b then [v] else []
  let rex := (if size = 8 then 0x48 else 0) ||| (if ext reg then 0x44 else 0) |||
    (if ext regm then 0x41 else 0) ||| (if indexExt index then 0x42 else 0)
  flag p.f0 0xf0 ++ flag p.f2 0xf2 ++ flag p.f3 0xf3 ++ flag p.p64 0x64 ++ flag p.p65 0x65 ++
    flag p66 0x66 ++ flag p.p67 0x67 ++ (if rex ≠ 0 then [rex] else []) ++ op.bytes

def emitPrefixesAndOpcode (p : Prefixes) (reg regm : Nat) (index : Option Nat) (size : Nat) (op : Opcode) : List Nat :=
  if p.vex then vexBytes p reg regm index size op else legacyBytes p reg regm index size op

/-- `make_modrm`, `src/emit_x64.c:669-674`. -/
def makeModrm (mod reg rm : Nat) : Nat := (mod <<< 6) ||| (reg <<< 3) ||| rm

/-- `make_sib`, `src/emit_x64.c:678-684`. -/
def makeSib (shift index base : Nat) : Nat := (shift <<< 6) ||| (index <<< 3) ||| base

/-- `emit_u32` of a signed value, `emit` of a signed byte. -/
def u32Bytes (v : Int) : List Nat :=
  let u := (v % 4294967296).toNat
  [u % 256, u / 256 % 256, u / 65536 % 256, u / 16777216 % 256]
def u8Byte (v : Int) : Nat := (v % 256).toNat

/-- `emit_register_op__internal`, `src/emit_x64.c:1128-1132`. -/
def regReg (p : Prefixes) (op : Opcode) (reg regm size : Nat) : List Nat :=
  emitPrefixesAndOpcode p reg regm none size op ++ [makeModrm 3 (reg &&& 7) (regm &&& 7)]

/-- A `register_relative` location. `rip` is `loc->ir != 0`: a global, patched later (the emitted
displacement is 0). -/
structure MemLoc where
  base : Nat
  index : Option Nat
  scale : Nat
  offset : Int
  rip : Bool
  size : Nat
deriving DecidableEq, Repr

/-- The `mod` field, `src/emit_x64.c:1176-1192`. -/
def modFor (l : MemLoc) : Nat :=
  if l.rip then 0
  else if l.offset > 127 ∨ l.offset < -128 then 2
  else if l.offset ≠ 0 then 1
  else if l.base = 5 then 1
  else 0

/-- ModRM, SIB and displacement, `src/emit_x64.c:1194-1221`. -/
def tailBytes (other : Nat) (l : MemLoc) : List Nat :=
  let mod := modFor l
  (match l.index with
   | some i =>
     let log := if i ≠ 4 then l.scale else 0
     [makeModrm mod (other &&& 7) 4, makeSib log (i &&& 7) (l.base &&& 7)]
   | none =>
     if l.base = 4 then [makeModrm mod (other &&& 7) 4, makeSib mod 4 (l.base &&& 7)]
     else [makeModrm mod (other &&& 7) (l.base &&& 7)]) ++
  (if l.rip then u32Bytes 0
   else if mod = 2 then u32Bytes l.offset
   else if mod = 1 then [u8Byte l.offset] else [])

/-- `emit_register_relative__internal`, `src/emit_x64.c:1157-1221`, up to the immediate. -/
def regMem (p : Prefixes) (op : Opcode) (other : Nat) (l : MemLoc) : List Nat :=
  emitPrefixesAndOpcode p other l.base l.index l.size op ++ tailBytes other l

end Verif.Encode
