/-!
# Instruction semantics (Intel SDM), for the instructions the theorems mention

A general purpose register is a natural number below 2^64. Writing a 32-bit register clears
the upper half, writing an 8- or 16-bit register keeps the other bits (SDM vol. 1, 3.4.1.1).
-/
namespace Verif.Spec.X64

/-- Write the low `n` bits of a register. -/
def writeReg (n : Nat) (old v : Nat) : Nat :=
  if n = 32 ∨ n = 64 then v % 2 ^ n else old - old % 2 ^ n + v % 2 ^ n

/-- Sign extension of the low `m` bits to an integer. -/
def sext (m : Nat) (v : Nat) : Int :=
  if v % 2 ^ m < 2 ^ (m - 1) then (v % 2 ^ m : Nat) else (v % 2 ^ m : Nat) - 2 ^ m

/-- An integer as an `n`-bit pattern. -/
def pattern (n : Nat) (v : Int) : Nat := (v % 2 ^ n).toNat

/-- `movsx`/`movsxd`: destination of `n` bits, source of `m` bits. -/
def movsx (n m : Nat) (dst src : Nat) : Nat := writeReg n dst (pattern n (sext m src))

/-- `movzx`. -/
def movzx (n m : Nat) (dst src : Nat) : Nat := writeReg n dst (src % 2 ^ m)

/-- `mov` of an `n`-bit register. -/
def mov (n : Nat) (dst src : Nat) : Nat := writeReg n dst src

/-- `test r, r` of `n` bits followed by `setne r8`. -/
def testSetne (n : Nat) (dst src : Nat) : Nat := writeReg 8 dst (if src % 2 ^ n = 0 then 0 else 1)

end Verif.Spec.X64
