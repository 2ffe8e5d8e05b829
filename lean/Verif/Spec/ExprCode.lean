import Verif.Spec.Compound
import Verif.Spec.X64
import Verif.Model.Cond

/-!
# Spec: integer expressions and assignments of C (C11 6.5, 6.7.9, 6.8.3), and the arithmetic instructions of x64

Written from the C standard and the Intel manual; only the enumerations of types and operators are shared with the model.
-/
namespace Verif.Spec.ExprCode
open Verif.IntType Verif.Spec.IntType Verif.Spec.X64

/-! ## Memory -/

/-- The little-endian number in the `n` bytes from address `a`. -/
def readBytes (bytes : Nat → Nat) (a : Nat) : Nat → Nat
  | 0 => 0
  | n + 1 => bytes a % 256 + 256 * readBytes bytes (a + 1) n

/-- Replace the `n` bytes from address `a` by the little-endian number `v`. -/
def writeBytes (bytes : Nat → Nat) (a n v : Nat) : Nat → Nat :=
  fun b => if a ≤ b ∧ b < a + n then v / 256 ^ (b - a) % 256 else bytes b

/-! ## Expressions -/

inductive Un
  | plus | minus | compl | not
deriving DecidableEq, Repr

inductive Bin
  | arith (op : Verif.Compound.Op)
  | compare (op : Verif.Cond.Op)
deriving DecidableEq, Repr

/-- Integer expressions. Variables are at a fixed address; `deref t e` is `*(t *)e`. -/
inductive Expr
  | lit (t : Ty) (v : Int)
  | var (t : Ty) (address : Nat)
  | deref (t : Ty) (e : Expr)
  | cast (t : Ty) (e : Expr)
  | un (op : Un) (e : Expr)
  | bin (op : Bin) (l r : Expr)
deriving Repr

/-- The relational and equality operators (6.5.8, 6.5.9). -/
def Related : Verif.Cond.Op → Int → Int → Prop
  | .ge, x, y => x ≥ y
  | .le, x, y => x ≤ y
  | .gt, x, y => x > y
  | .lt, x, y => x < y
  | .eq, x, y => x = y
  | .ne, x, y => x ≠ y
instance (op : Verif.Cond.Op) (x y : Int) : Decidable (Related op x y) := by cases op <;> unfold Related <;> infer_instance

/-- The object at address `a` has the value `v` of type `t`: its bytes are `v` in two's complement. -/
def Object (bytes : Nat → Nat) (t : Ty) (a : Nat) (v : Int) : Prop :=
  isInteger t ∧ InRange t v ∧ (2 ^ t.bits : Int) ∣ (readBytes bytes a (t.bits / 8) : Int) - v

/-- The expression has type `t` and value `v` in the given memory. Undefined behaviour (overflow, a zero divisor, a shift count
out of range, an object with a trap representation) has no value. -/
inductive Eval (bytes : Nat → Nat) : Expr → Ty → Int → Prop
  | lit {t v} (ht : isInteger t) (hv : InRange t v) : Eval bytes (.lit t v) t v
  | var {t a v} (ho : Object bytes t a v) : Eval bytes (.var t a) t v
  /-- The pointer is the value of the operand converted to 64 bits. -/
  | deref {t e s p a v} (he : Eval bytes e s p) (ha : Converts .u64 p a) (ho : Object bytes t a.toNat v) : Eval bytes (.deref t e) t v
  | cast {t e s v w} (he : Eval bytes e s v) (ht : isInteger t) (hw : Converts t v w) : Eval bytes (.cast t e) t w
  /-- 6.5.3.3: the value of the promoted operand -/
  | plus {e s v} (he : Eval bytes e s v) : Eval bytes (.un .plus e) (promoted s) v
  /-- its negative; a signed result has to be representable -/
  | minus {e s v w} (he : Eval bytes e s v) (hs : signed (promoted s) → InRange (promoted s) (-v)) (hw : Converts (promoted s) (-v) w) :
      Eval bytes (.un .minus e) (promoted s) w
  /-- its bitwise complement -/
  | compl {e s v w} (he : Eval bytes e s v) (hr : InRange (promoted s) w)
      (hb : ∀ i, i < (promoted s).bits → Fold.bit w i = 1 - Fold.bit v i) : Eval bytes (.un .compl e) (promoted s) w
  | not {e s v} (he : Eval bytes e s v) : Eval bytes (.un .not e) .s32 (if v = 0 then 1 else 0)
  | arith {op l r s u v w c z} (hl : Eval bytes l s v) (hr : Eval bytes r u w) (hz : Compound.Value op s u v w c z) :
      Eval bytes (.bin (.arith op) l r) c z
  /-- The operands are converted to their common type, the result is an `int`. -/
  | compare {op l r s u v w c x y} (hl : Eval bytes l s v) (hr : Eval bytes r u w) (hc : Common s u c) (hx : Converts c v x)
      (hy : Converts c w y) : Eval bytes (.bin (.compare op) l r) .s32 (if Related op x y then 1 else 0)

/-- No variable is read. -/
def Constant : Expr → Prop
  | .lit _ _ => True
  | .var _ _ | .deref _ _ => False
  | .cast _ e | .un _ e => Constant e
  | .bin _ l r => Constant l ∧ Constant r

/-- No constant operand of a unary minus is `2^(n-1)`, where `n` is the width of its promoted type (such a constant is unsigned). -/
def HalfFree (bytes : Nat → Nat) : Expr → Prop
  | .lit _ _ | .var _ _ => True
  | .deref _ e | .cast _ e => HalfFree bytes e
  | .un op e => HalfFree bytes e ∧ (op = .minus → Constant e → ∀ s v, Eval bytes e s v → v ≠ 2 ^ ((promoted s).bits - 1))
  | .bin _ l r => HalfFree bytes l ∧ HalfFree bytes r

/-! ## Assignments -/

/-- The left side of an assignment. -/
inductive LValue
  | var (t : Ty) (address : Nat)
  | deref (t : Ty) (e : Expr)
deriving Repr

/-- The object a left side designates. -/
inductive Designates (bytes : Nat → Nat) : LValue → Ty → Nat → Prop
  | var {t a} (ht : isInteger t) : Designates bytes (.var t a) t a
  | deref {t e s p a} (ht : isInteger t) (he : Eval bytes e s p) (ha : Converts .u64 p a) : Designates bytes (.deref t e) t a.toNat

/-- `lv = e;` (6.5.16.1): the value is converted to the type of the left side and stored in its object. -/
structure Stmt where
  lv : LValue
  e : Expr
deriving Repr

def Assigned (bytes : Nat → Nat) (s : Stmt) (bytes' : Nat → Nat) : Prop :=
  ∃ t a u v w, Designates bytes s.lv t a ∧ Eval bytes s.e u v ∧ Converts t v w ∧ bytes' = writeBytes bytes a (t.bits / 8) (pattern t.bits w)

/-- A sequence of assignments. -/
inductive Exec : (Nat → Nat) → List Stmt → (Nat → Nat) → Prop
  | nil {bytes} : Exec bytes [] bytes
  | cons {bytes bytes1 bytes2 s ss} (h : Assigned bytes s bytes1) (hs : Exec bytes1 ss bytes2) : Exec bytes (s :: ss) bytes2

/-! ## Instructions (Intel SDM vol. 2) on `n`-bit operands -/

/-- `add`, `sub`, `and`, `or`, `xor`. -/
def binary (op : Verif.Compound.Op) (n a b : Nat) : Option Nat :=
  match op with
  | .add => some ((a + b) % 2 ^ n)
  | .sub => some (pattern n ((a : Int) - b))
  | .and => some ((a &&& b) % 2 ^ n)
  | .or => some ((a ||| b) % 2 ^ n)
  | .xor => some ((a ^^^ b) % 2 ^ n)
  | _ => none

def neg (n a : Nat) : Nat := pattern n (-(a : Int))
def not (n a : Nat) : Nat := pattern n (-(a : Int) - 1)

/-- The count of a shift is the low byte of the operand, of which 6 bits are used for 64-bit operands and 5 bits otherwise. -/
def shiftCount (n b : Nat) : Nat := b % 256 % (if n = 64 then 64 else 32)
/-- `shl`, `shr` and `sar`. -/
def shl (n a b : Nat) : Nat := a * 2 ^ shiftCount n b % 2 ^ n
def shr (n a b : Nat) : Nat := a % 2 ^ n / 2 ^ shiftCount n b
def sar (n a b : Nat) : Nat := pattern n (sext n a / 2 ^ shiftCount n b)

/-- `cdq` and `cqo`: the upper half of the sign-extended accumulator. -/
def signOf (n a : Nat) : Nat := if sext n a < 0 then 2 ^ n - 1 else 0

/-- `mul` and `imul` with one operand: the upper and the lower half of the product. -/
def mul (n a b : Nat) : Nat × Nat := (a % 2 ^ n * (b % 2 ^ n) / 2 ^ n, a % 2 ^ n * (b % 2 ^ n) % 2 ^ n)
def imul (n a b : Nat) : Nat × Nat := (pattern n (sext n a * sext n b / 2 ^ n), pattern n (sext n a * sext n b))

/-- `div`: remainder and quotient of the double-width dividend; `none` is the exception `#DE`. -/
def div (n hi lo b : Nat) : Option (Nat × Nat) :=
  let d := hi % 2 ^ n * 2 ^ n + lo % 2 ^ n
  if b % 2 ^ n = 0 then none
  else if d / (b % 2 ^ n) < 2 ^ n then some (d % (b % 2 ^ n), d / (b % 2 ^ n)) else none

/-- `idiv`: the same for signed numbers, the quotient is rounded toward zero. -/
def idiv (n hi lo b : Nat) : Option (Nat × Nat) :=
  let d : Int := sext n hi * 2 ^ n + (lo % 2 ^ n : Nat)
  let b := sext n b
  if b = 0 then none
  else if -2 ^ (n - 1) ≤ d.tdiv b ∧ d.tdiv b < 2 ^ (n - 1) then some (pattern n (d.tmod b), pattern n (d.tdiv b)) else none

end Verif.Spec.ExprCode
