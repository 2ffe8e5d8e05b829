import Verif.Model.Imm
import Verif.Spec.X64

/-!
# Spec: how the processor executes an instruction with an immediate (Intel SDM)

* `80 /r ib`, `c6 /0 ib`: 8-bit operation with an 8-bit immediate.
* `81 /r`, `c7 /0`: the operation has 16 bits with the prefix 66, 64 bits with REX.W and 32 bits otherwise. The immediate
  has 16 bits for a 16-bit operation and 32 bits otherwise; it is sign-extended.
* `83 /r ib`: the same operations; the immediate has 8 bits and is sign-extended.
* `xor r, r`: clears 16 bits with the prefix 66, otherwise the whole register.
* `b8+r`: 64-bit immediate with REX.W, otherwise 32 bits and the upper half of the register is cleared.
-/

namespace Verif.Spec.Imm

open Verif.Spec.X64 Verif.Imm

/-- A little-endian number. -/
def ofLe : List Nat → Nat
  | [] => 0
  | b :: bs => b + 256 * ofLe bs

/-- The operation size in bytes, from the size that decides the prefixes. -/
def opSize (width : Nat) : Nat := if width = 2 then 2 else if width = 8 then 8 else 4

/-- The size in bytes of the operation that the processor performs, and the value of its operand. `none` if
the processor reads more or fewer bytes than were emitted. -/
def executes : Code → Option (Nat × Nat)
  | .withImm opcode width bytes =>
    if opcode = 0x80 ∨ opcode = 0xc6 then
      if bytes.length = 1 then some (1, ofLe bytes) else none
    else if opcode = 0x81 ∨ opcode = 0xc7 then
      let n := opSize width
      let len := if n = 2 then 2 else 4
      if bytes.length = len then some (n, pattern (8 * n) (sext (8 * len) (ofLe bytes))) else none
    else if opcode = 0x83 then
      let n := opSize width
      if bytes.length = 1 then some (n, pattern (8 * n) (sext 8 (ofLe bytes))) else none
    else none
  | .viaMov rexW bytes width =>
    if bytes.length = (if rexW then 8 else 4) then some (width, ofLe bytes % 2 ^ (8 * width)) else none
  | .viaXor loadWidth width =>
    if width ≤ (if opSize loadWidth = 2 then 2 else 8) then some (width, 0) else none

/-- The value of an immediate operand of `bytes` bytes in 64 bits: sign- or zero-extended. -/
def Extended (value bytes : Nat) (isSigned : Bool) : Prop :=
  if isSigned then value = pattern 64 (sext (8 * bytes) value) else value < 2 ^ (8 * bytes)

end Verif.Spec.Imm
