import Verif.Spec.AsmBytes
import Verif.Model.StringLit

/-!
# Model: instructions without operands in inline assembly

`parse_asm_instruction` (/repo/src/parse_asm_block.c 1671–2373) and `emit_inline_asm_block` (/repo/src/emit_inline_asm_block.c 209–1440) for the instructions without operands, the prefix `rep` and `bytes`.
Other instructions and labels are not modelled. That registers of the surrounding function are saved for `rdtsc` and others is not modelled.
-/
namespace Verif.Model.AsmBytes
open Verif.Spec.AsmBytes (Tok ascii)

/-- `enum memonic`, as far as it is modelled. -/
inductive Mnemonic
  | repe
  | int3 | int1 | ud2 | ret | pause | lfence | mfence | sfence | rdtsc | rdtscp | cpuid | xgetbv
  | movsb | movsw | movsd | movsq
  | stosb | stosw | stosd | stosq
  | bytes
deriving DecidableEq, Repr

/-- `asm_parse_table` (/repo/src/parse_asm_block.c 509–530) and the alias `rep` (/repo/src/main.c 4378). -/
def table : List (String × Mnemonic) :=
  [("repe", .repe), ("rep", .repe), ("int3", .int3), ("int1", .int1), ("ud2", .ud2), ("ret", .ret), ("pause", .pause), ("lfence", .lfence), ("mfence", .mfence), ("sfence", .sfence),
   ("rdtsc", .rdtsc), ("rdtscp", .rdtscp), ("cpuid", .cpuid), ("xgetbv", .xgetbv), ("movsb", .movsb), ("movsw", .movsw), ("movsd", .movsd), ("movsq", .movsq),
   ("stosb", .stosb), ("stosw", .stosw), ("stosd", .stosd), ("stosq", .stosq), ("bytes", .bytes)]

/-- `lookup_memonic_from_string` (/repo/src/parse_asm_block.c 1636–1649); the hash table is left out. -/
def lookup (s : List Nat) : Option Mnemonic := (table.find? fun e => ascii e.1 == s).map (·.2)

/-- `token_get_string` (/repo/src/ast.c 337). -/
def spelling : Tok → List Nat
  | .text s => s
  | .comma => [44]
  | .open_ => [123]
  | .close => [125]

/-- Without `0x` (/repo/src/parse_asm_block.c 1752–1756). -/
def strip : List Nat → List Nat
  | 48 :: x :: rest => if x ||| 32 = 120 then rest else 48 :: x :: rest
  | l => l

/-- `peek_token_eat(context, TOKEN_comma)` (/repo/src/parse_asm_block.c 1774). -/
def eatComma : List Tok → List Tok
  | .comma :: rest => rest
  | l => l

/-- A result and the tokens behind it, an error, or something that is not modelled. -/
inductive Outcome (α : Type)
  | value (v : α) (rest : List Tok)
  | error
  | unmodelled
deriving DecidableEq, Repr

/-- The buffer with room for one more byte (/repo/src/parse_asm_block.c 1765–1770). -/
def grow (data : List Nat) (amount : Nat) : List Nat :=
  if amount + 1 > data.length then data.take amount ++ List.replicate (2 * data.length - amount) 0 else data

/-- The loop over the bytes (/repo/src/parse_asm_block.c 1743–1775); the first argument bounds the steps. -/
def bytesLoop : Nat → List Tok → List Nat → Nat → Outcome (List Nat)
  | 0, _, _, _ => .error
  | _ + 1, [], _, _ => .error
  | n + 1, t :: rest, data, amount =>
    if t = .close then .value (data.take amount) rest
    else
      let lit := strip (spelling t)
      if lit.length ≠ 2 then .error
      else
        let value := (StringLit.parseHex 0 false lit).1 % 256
        bytesLoop n (eatComma rest) ((grow data amount).set amount value) (amount + 1)

/-- `struct asm_instruction`. -/
structure Inst where
  mnemonic : Mnemonic
  prefixRepe : Bool
  data : List Nat
deriving DecidableEq, Repr

/-- `parse_asm_instruction` (/repo/src/parse_asm_block.c 1671–2373). `repe` is the flag in `current_asm_flags`; it is stored at the end of the function (2369–2371), but not for `movsd` (1722–1732) and `bytes` (1734–1783). -/
def instruction (repe : Bool) : List Tok → Outcome Inst
  | .text s :: rest =>
    match lookup s with
    | none => .unmodelled
    | some .repe => instruction true rest
    | some .movsd =>
      match rest with
      | .close :: _ => .value ⟨.movsd, false, []⟩ rest
      | .text t :: _ => if (lookup t).isSome then .value ⟨.movsd, false, []⟩ rest else .unmodelled
      | _ => .unmodelled
    | some .bytes =>
      match rest with
      | .open_ :: rest =>
        match bytesLoop (rest.length + 1) rest (List.replicate 0x100 0) 0 with
        | .value l rest => .value ⟨.bytes, false, l⟩ rest
        | .error => .error
        | .unmodelled => .unmodelled
      | _ => .error
    | some m => .value ⟨m, repe, []⟩ rest
  | _ => .unmodelled

/-- `parse_asm_block` (/repo/src/parse_asm_block.c 2376–2410); the first argument bounds the steps. -/
def block : Nat → List Tok → Outcome (List Inst)
  | 0, _ => .error
  | n + 1, l =>
    match l with
    | .close :: rest => .value [] rest
    | l =>
      match instruction false l with
      | .value i rest =>
        match block n rest with
        | .value is rest => .value (i :: is) rest
        | r => r
      | .error => .error
      | .unmodelled => .unmodelled

/-- `emit_prefixes_and_opcode` without registers (/repo/src/emit_x64.c 622–643). -/
def opcode (repe : Bool) (size op : Nat) : List Nat :=
  (if repe then [0xF3] else []) ++ (if size = 2 then [0x66] else []) ++ (if size = 8 then [0x48] else []) ++ [op]

/-- `emit_inline_asm_block` (/repo/src/emit_inline_asm_block.c 350–355, 623–693, 1424–1428). -/
def emit (i : Inst) : List Nat :=
  match i.mnemonic with
  | .repe => []
  | .int3 => [0xcc]
  | .int1 => [0xf1]
  | .ud2 => [0x0f, 0x0b]
  | .ret => [0xc3]
  | .pause => [0xf3, 0x90]
  | .lfence => [0x0f, 0xae, 0xe8]
  | .mfence => [0x0f, 0xae, 0xf0]
  | .sfence => [0x0f, 0xae, 0xf8]
  | .rdtsc => [0x0f, 0x31]
  | .rdtscp => [0x0f, 0x01, 0xF9]
  | .cpuid => [0x0f, 0xA2]
  | .xgetbv => [0x0F, 0x01, 0xD0]
  | .movsb => opcode i.prefixRepe 1 0xA4
  | .movsw => opcode i.prefixRepe 2 0xA5
  | .movsd => opcode i.prefixRepe 4 0xA5
  | .movsq => opcode i.prefixRepe 8 0xA5
  | .stosb => opcode i.prefixRepe 1 0xAA
  | .stosw => opcode i.prefixRepe 2 0xAB
  | .stosd => opcode i.prefixRepe 4 0xab
  | .stosq => opcode i.prefixRepe 8 0xAB
  | .bytes => i.data

/-- The code of a block. -/
def assemble (l : List Tok) : Outcome (List Nat) :=
  match block (l.length + 1) l with
  | .value is rest => .value (is.flatMap emit) rest
  | .error => .error
  | .unmodelled => .unmodelled

end Verif.Model.AsmBytes
