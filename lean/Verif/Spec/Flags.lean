/-!
# Flags and condition codes (Intel SDM)

`cmp` on `n`-bit operands, `comiss`/`comisd`, and the meaning of the low four bits of the
opcodes `0F 8x` (jcc) and `0F 9x` (setcc).
-/
namespace Verif.Spec.Flags

structure Flags where
  cf : Bool
  zf : Bool
  sf : Bool
  of : Bool
  pf : Bool
deriving DecidableEq, Repr

/-- Two's complement value of an `n`-bit pattern. -/
def signedVal (n : Nat) (a : Nat) : Int := if a < 2 ^ (n - 1) then a else (a : Int) - 2 ^ n

/-- Flags after `cmp a, b` (`pf` is the parity of the low byte; no theorem uses it). -/
def cmp (n : Nat) (a b : Nat) (pf : Bool) : Flags :=
  let d := (a + (2 ^ n - b)) % 2 ^ n
  { cf := a < b
    zf := d = 0
    sf := 2 ^ (n - 1) ≤ d
    of := decide (¬ (-(2 ^ (n - 1) : Int) ≤ signedVal n a - signedVal n b ∧ signedVal n a - signedVal n b < 2 ^ (n - 1)))
    pf := pf }

/-- The outcome of comparing two floats. -/
inductive FloatOrder | lt | eq | gt | unordered
deriving DecidableEq, Repr

/-- Flags after `comiss`/`ucomiss a, b`. -/
def comis : FloatOrder → Flags
  | .gt => ⟨false, false, false, false, false⟩
  | .lt => ⟨true, false, false, false, false⟩
  | .eq => ⟨false, true, false, false, false⟩
  | .unordered => ⟨true, true, false, false, true⟩

/-- Whether condition code `cc` (0..15) holds (SDM vol. 1, appendix B). -/
def holds (f : Flags) (cc : Nat) : Bool :=
  match cc with
  | 0 => f.of
  | 1 => !f.of
  | 2 => f.cf
  | 3 => !f.cf
  | 4 => f.zf
  | 5 => !f.zf
  | 6 => f.cf || f.zf
  | 7 => !(f.cf || f.zf)
  | 8 => f.sf
  | 9 => !f.sf
  | 10 => f.pf
  | 11 => !f.pf
  | 12 => f.sf != f.of
  | 13 => f.sf == f.of
  | 14 => f.zf || (f.sf != f.of)
  | 15 => !(f.zf || (f.sf != f.of))
  | _ => false

end Verif.Spec.Flags
