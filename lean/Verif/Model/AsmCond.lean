import Verif.Spec.AsmCond

/-!
# Model: conditions in inline assembly

The names of instructions with conditions (`asm_parse_table` and the aliases) and the bytes that are chosen by them in `emit_inline_asm_block`.
The operands and the other bytes of the instructions are not modelled.
-/
namespace Verif.Model.AsmCond

/-- `MEMONIC_jo` to `MEMONIC_jnle` (/repo/src/parse_asm_block.c 144–159), with the names of `asm_parse_table` (534–549). -/
def jumps : List String :=
  ["jo", "jno", "jc", "jnc", "jz", "jnz", "jbe", "jnbe", "js", "jns", "jp", "jnp", "jl", "jnl", "jle", "jnle"]

/-- `MEMONIC_seto` to `MEMONIC_setnle` (/repo/src/parse_asm_block.c 203–210), with the names of `asm_parse_table` (564–579). -/
def sets : List String :=
  ["seto", "setno", "setc", "setnc", "setz", "setnz", "setbe", "setnbe", "sets", "setns", "setp", "setnp", "setl", "setnl", "setle", "setnle"]

/-- `MEMONIC_cmovo` to `MEMONIC_cmovnle` (/repo/src/parse_asm_block.c 212–219), with the names of `asm_parse_table` (581–596). -/
def cmovs : List String :=
  ["cmovo", "cmovno", "cmovc", "cmovnc", "cmovz", "cmovnz", "cmovbe", "cmovnbe", "cmovs", "cmovns", "cmovp", "cmovnp", "cmovl", "cmovnl", "cmovle", "cmovnle"]

/-- `MEMONIC_cmpeqps` to `MEMONIC_cmpordsd` (/repo/src/parse_asm_block.c 274–312), with the names of `asm_parse_table` (from 656). -/
def cmps : List String :=
  ["cmpeqps", "cmpltps", "cmpleps", "cmpunordps", "cmpneqps", "cmpnltps", "cmpnleps", "cmpordps", "cmpeqss", "cmpltss", "cmpless", "cmpunordss", "cmpneqss", "cmpnltss", "cmpnless", "cmpordss", "cmpeqpd", "cmpltpd", "cmplepd", "cmpunordpd", "cmpneqpd", "cmpnltpd", "cmpnlepd", "cmpordpd", "cmpeqsd", "cmpltsd", "cmplesd", "cmpunordsd", "cmpneqsd", "cmpnltsd", "cmpnlesd", "cmpordsd"]

/-- The aliases (/repo/src/main.c 4380–4445). -/
def aliases : List (String × String) :=
  [("cmovb", "cmovc"), ("cmovnae", "cmovc"), ("cmovnb", "cmovnc"), ("cmovae", "cmovnc"), ("cmove", "cmovz"), ("cmovne", "cmovnz"), ("cmovna", "cmovbe"),
   ("cmova", "cmovnbe"), ("cmovpe", "cmovp"), ("cmovpo", "cmovnp"), ("cmovnge", "cmovl"), ("cmovge", "cmovnl"), ("cmovng", "cmovle"), ("cmovg", "cmovnle"),
   ("setb", "setc"), ("setnae", "setc"), ("setnb", "setnc"), ("setae", "setnc"), ("sete", "setz"), ("setne", "setnz"), ("setna", "setbe"),
   ("seta", "setnbe"), ("setpe", "setp"), ("setpo", "setnp"), ("setnge", "setl"), ("setge", "setnl"), ("setng", "setle"), ("setg", "setnle"),
   ("jb", "jc"), ("jnae", "jc"), ("jnb", "jnc"), ("jae", "jnc"), ("je", "jz"), ("jne", "jnz"), ("jna", "jbe"),
   ("ja", "jnbe"), ("jpe", "jp"), ("jpo", "jnp"), ("jnge", "jl"), ("jge", "jnl"), ("jng", "jle"), ("jg", "jnle"),
   ("cmpgeps", "cmpnltps"), ("cmpgtps", "cmpnleps"), ("cmpngeps", "cmpltps"), ("cmpngtps", "cmpleps"), ("cmpgepd", "cmpnltpd"), ("cmpgtpd", "cmpnlepd"), ("cmpngepd", "cmpltpd"),
   ("cmpngtpd", "cmplepd"), ("cmpgesd", "cmpnltsd"), ("cmpgtsd", "cmpnlesd"), ("cmpngesd", "cmpltsd"), ("cmpngtsd", "cmplesd"), ("cmpgess", "cmpnltss"), ("cmpgtss", "cmpnless"),
   ("cmpngess", "cmpltss"), ("cmpngtss", "cmpless")]

/-- `lookup_memonic_from_string`; the hash table is left out. A name that is not an alias is the name of itself. -/
def lookup (name : String) : String := ((aliases.find? fun e => e.1 == name).map (·.2)).getD name

/-- The place of a name in a part of `enum memonic`. -/
def place (l : List String) (name : String) : Option Nat := if name ∈ l then some (l.idxOf name) else none

/-- The second byte of the opcode (/repo/src/emit_inline_asm_block.c 811, 834, 845). -/
def opcode (name : String) : Option Nat :=
  match place jumps (lookup name), place sets (lookup name), place cmovs (lookup name) with
  | some i, _, _ => some ((0x80 + i) % 256)
  | _, some i, _ => some ((0x90 + i) % 256)
  | _, _, some i => some ((0x40 + i) % 256)
  | _, _, _ => none

/-- The last byte of `cmpps` and the like (/repo/src/emit_inline_asm_block.c 921). -/
def immediate (name : String) : Option Nat := (place cmps (lookup name)).map (· &&& 7)

end Verif.Model.AsmCond
