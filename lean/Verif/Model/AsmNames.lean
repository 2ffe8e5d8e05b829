import Verif.Spec.AsmNames

/-!
# Model: the table of the names of instructions

`globals.memonic_table` (/repo/src/main.c 452) and the functions that write and read it. Names and instructions are numbers, and nothing is assumed about the hash function.
The capacity is a power of two in the code, and `x & (capacity - 1)` is written `x % capacity`. That the sum of the hash and `i` is one of 64 bits makes no difference, as the capacity divides 2^64.
-/
namespace Verif.Model.AsmNames

/-- The slots; those without a string are `none`. -/
abbrev Slots := Nat → Option (Nat × Nat)

def set (t : Slots) (index : Nat) (e : Nat × Nat) : Slots := fun i => if i = index then some e else t i

/-- The loop of `add_memonic_to_string_to_memonic_table` (/repo/src/parse_asm_block.c 1617–1633) from `i`; the last argument is how many steps are left. No result is a panic: the name is already there or there is no room. -/
def addLoop (hash : Nat → Nat) (capacity : Nat) (t : Slots) (name instruction : Nat) (i : Nat) : Nat → Option Slots
  | 0 => none
  | n + 1 =>
    match t ((hash name + i) % capacity) with
    | none => some (set t ((hash name + i) % capacity) (name, instruction))
    | some e => if e.1 = name then none else addLoop hash capacity t name instruction (i + 1) n

/-- `add_memonic_to_string_to_memonic_table` (/repo/src/parse_asm_block.c 1614–1634). -/
def add (hash : Nat → Nat) (capacity : Nat) (t : Slots) (e : Nat × Nat) : Option Slots := addLoop hash capacity t e.1 e.2 0 capacity

/-- All names, one after the other (/repo/src/main.c 4351–4443). -/
def addAll (hash : Nat → Nat) (capacity : Nat) : Slots → List (Nat × Nat) → Option Slots
  | t, [] => some t
  | t, e :: l =>
    match add hash capacity t e with
    | none => none
    | some t => addAll hash capacity t l

/-- The loop of `lookup_memonic_from_string` (/repo/src/parse_asm_block.c 1639–1647) from `i`. -/
def lookupLoop (hash : Nat → Nat) (capacity : Nat) (t : Slots) (name : Nat) (i : Nat) : Nat → Option Nat
  | 0 => none
  | n + 1 =>
    match t ((hash name + i) % capacity) with
    | none => none
    | some e => if e.1 = name then some e.2 else lookupLoop hash capacity t name (i + 1) n

/-- `lookup_memonic_from_string` (/repo/src/parse_asm_block.c 1636–1649); no result is `MEMONIC_none`. -/
def lookup (hash : Nat → Nat) (capacity : Nat) (t : Slots) (name : Nat) : Option Nat := lookupLoop hash capacity t name 0 capacity

/-- The table at the start. -/
def empty : Slots := fun _ => none

end Verif.Model.AsmNames
