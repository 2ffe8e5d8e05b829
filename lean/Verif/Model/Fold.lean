import Verif.Model.IntType

/-!
# Model: integer literals at compile time, constant folding and literal casts

Models the accessors `integer_literal_as_*` (`src/parse.c:149-244`),
`perform_integer_promotion_on_literal` (669-683), `perform_integer_operation`
(2947-3029) with the callers that fix up the type of comparisons (6265-6282,
6341-6356), the folding of unary operators (5763-5870), shifts (6166-6230), bitwise
operators (6410-6551) and the integer-literal part of `push_cast` (294-420).

A literal is its type together with the 64-bit union of `struct ir_integer_literal`
(`src/ir.h`); writing `_s32` or `_u8` replaces the low 32 or 8 bits of the union and
leaves the others alone (little endian). Host arithmetic on signed types is done over
`Int`; an overflow, a division `INT_MIN / -1`, or a shift by the width or more is the
separate outcome `hostUB`.
-/
namespace Verif.Fold
open Verif.IntType

/-- `struct ir_integer_literal` (`type` and the 64-bit union). -/
structure Lit where
  ty : Ty
  payload : Nat
deriving DecidableEq, Repr

/-- Reading the member of the union with `n` bits, signed or unsigned. -/
def rd (n : Nat) (sgn : Bool) (p : Nat) : Int :=
  if sgn = true ∧ 2 ^ (n - 1) ≤ p % 2 ^ n then (p % 2 ^ n : Nat) - 2 ^ n else (p % 2 ^ n : Nat)

/-- Writing `v` to the member with `n` bits. -/
def wr (n : Nat) (p : Nat) (v : Int) : Nat := p - p % 2 ^ n + (v % 2 ^ n).toNat

/-- Implicit conversion of a host value to a host type of `n` bits. -/
def hostConv (n : Nat) (sgn : Bool) (v : Int) : Int := rd n sgn (v % 2 ^ n).toNat

/-- The value read by all accessors before it is converted to their return type. -/
def Lit.get (l : Lit) : Int := rd l.ty.bits l.ty.isSigned l.payload

/-- `integer_literal_as_s32/u32/s64/u64`, `src/parse.c:149-244`: `none` is the
`invalid_default_case` (an 8 byte literal read by a 32-bit accessor). -/
def Lit.as (n : Nat) (sgn : Bool) (l : Lit) : Option Int :=
  if l.ty.bits ≤ n then some (hostConv n sgn l.get) else none

/-- Outcome of folding. `hostUB`: the compiler itself executes undefined behaviour. -/
inductive Out
  | ok (l : Lit)
  | error
  | hostUB
deriving DecidableEq, Repr

/-- The operator tokens `perform_integer_operation` handles. -/
inductive Tok
  | times | slash | mod | plus | minus
  | logicalEquals | logicalUnequals | biggerEquals | smallerEquals | bigger | smaller
deriving DecidableEq, Repr

def Tok.isCompare : Tok → Bool
  | .logicalEquals | .logicalUnequals | .biggerEquals | .smallerEquals | .bigger | .smaller => true
  | _ => false

/-- Host arithmetic in the type `t`: unsigned results wrap, signed results out of range
are undefined. -/
def hostArith (t : Ty) (v : Int) : Option Int :=
  if t.isSigned then
    if -2 ^ (t.bits - 1) ≤ v ∧ v < 2 ^ (t.bits - 1) then some v else none
  else some (v % 2 ^ t.bits)

/-- The body of the macro `__perform_integer_operation`, `src/parse.c:2957-2987`; `t` is
the `basic_type`. Returns the new union contents of `lhs`. -/
def operate (t : Ty) (op : Tok) (payload : Nat) (lhs rhs : Int) : Option (Option Nat) :=
  let arith (v : Int) : Option (Option Nat) := (hostArith t v).map fun v => some (wr t.bits payload v)
  let cmp (b : Bool) : Option (Option Nat) := some (some (wr 64 payload (if b then 1 else 0)))
  match op with
  | .times => arith (lhs * rhs)
  | .slash => if rhs = 0 then some none else arith (Int.tdiv lhs rhs)
  -- `a % b` is undefined exactly if `a / b` is not representable
  | .mod => if rhs = 0 then some none else (hostArith t (Int.tdiv lhs rhs)).bind fun _ => arith (Int.tmod lhs rhs)
  | .plus => arith (lhs + rhs)
  | .minus => arith (lhs - rhs)
  | .logicalEquals => cmp (lhs == rhs)
  | .logicalUnequals => cmp (lhs != rhs)
  | .biggerEquals => cmp (decide (lhs ≥ rhs))
  | .smallerEquals => cmp (decide (lhs ≤ rhs))
  | .bigger => cmp (decide (lhs > rhs))
  | .smaller => cmp (decide (lhs < rhs))

/-- `perform_integer_operation`, `src/parse.c:2947-3029`, followed by the callers which set
the type of comparisons to `int` (6273-6282, 6348-6356). The computation of `value` at
2996-3011, which only selects the "defined type" used for warnings, is
`magnitudeOverflows` below. -/
def fold (op : Tok) (l r : Lit) : Out :=
  match usualConversions l.ty r.ty with
  | none => .hostUB
  | some t =>
    match l.as t.bits t.isSigned, r.as t.bits t.isSigned with
    | some lhs, some rhs =>
      match operate t op l.payload lhs rhs with
      | none => .hostUB
      | some none => .error
      | some (some p) => .ok { ty := if op.isCompare then .s32 else t, payload := p }
    | _, _ => .hostUB

/-- `value = (lhs->_s32 < 0) ? -lhs->_s32 : lhs->_s32` at `src/parse.c:2999` and
`(lhs->_s32 < 0) ? -lhs->_s64 : lhs->_s64` at 3011: does the negation overflow? -/
def magnitudeOverflows (t : Ty) (p : Nat) : Bool :=
  match t with
  | .s32 => rd 32 true p == -2 ^ 31
  | .s64 => decide (rd 32 true p < 0) && (rd 64 true p == -2 ^ 63)
  | _ => false

/-- `perform_integer_promotion_on_literal`, `src/parse.c:669-683`. -/
def promoteLit (l : Lit) : Lit :=
  if l.ty.bits ≥ 32 then l
  else { ty := .s32, payload := wr 64 l.payload (hostConv 64 true l.get) }

/-- `~`, `src/parse.c:5763-5774`. -/
def foldNot (l : Lit) : Out :=
  let l := promoteLit l
  .ok { l with payload := 2 ^ 64 - 1 - l.payload }

/-- `!`, `src/parse.c:5788-5799`. -/
def foldLogicalNot (l : Lit) : Out :=
  .ok { ty := .s32, payload := if hostConv 64 false l.get = 0 then 1 else 0 }

/-- Unary `+`, `src/parse.c:5829-5836`. -/
def foldPlus (l : Lit) : Out := .ok (promoteLit l)

/-- Unary `-`, `src/parse.c:5848-5872`: always negates the signed member. -/
def foldNegate (l : Lit) : Out :=
  let l := promoteLit l
  let v := - rd l.ty.bits true l.payload
  if v < 2 ^ (l.ty.bits - 1) then .ok { l with payload := wr l.ty.bits l.payload v } else .hostUB

/-- `push_cast` of an integer literal to another integer type, `src/parse.c:294-420`:
same type: nothing; to `_Bool`: `_u8 = (_Bool)as_u64`; otherwise `_s64 = as_s64` or
`_u64 = as_u64` by the signedness of the target. -/
def castLit (t : Ty) (l : Lit) : Lit :=
  if t = l.ty then l
  else match t with
    | .bool => { ty := .bool, payload := wr 8 l.payload (if hostConv 64 false l.get = 0 then 0 else 1) }
    | t => { ty := t, payload := wr 64 l.payload (hostConv 64 t.isSigned l.get) }

/-- The shift operators. -/
inductive Shift | left | right
deriving DecidableEq, Repr

/-- Shift of two literals, `src/parse.c:6166-6230`. Both are promoted by
`maybe_insert_integer_promotion_cast` (which is `push_cast` to the promoted type); a
negative or too large count is reported; the shift itself uses the low byte of the count. -/
def foldShift (op : Shift) (l r : Lit) : Out :=
  let l := castLit (promote l.ty) l
  let r := castLit (promote r.ty) r
  if r.ty.isSigned = true ∧ r.get < 0 then .error
  else
    let value := hostConv 64 false r.get
    if value > l.ty.bits then .error
    else
      let count := (rd 8 false r.payload).toNat
      if count ≥ l.ty.bits then .hostUB
      else
        let v := l.get
        match op with
        | .left =>
          if l.ty.isSigned = true ∧ v < 0 then .hostUB
          else match hostArith l.ty (v * 2 ^ count) with
            | none => .hostUB
            | some w => .ok { l with payload := wr l.ty.bits l.payload w }
        | .right => .ok { l with payload := wr l.ty.bits l.payload (v / 2 ^ count) }

/-- The bitwise operators. -/
inductive Bitwise | and | xor | or
deriving DecidableEq, Repr

def Bitwise.run (op : Bitwise) (a b : Nat) : Nat :=
  match op with
  | .and => a &&& b
  | .xor => a ^^^ b
  | .or => a ||| b

/-- `&`, `^`, `|` of two literals, `src/parse.c:6410-6430, 6459-6479, 6508-6528`. -/
def foldBitwise (op : Bitwise) (l r : Lit) : Out :=
  match usualConversions l.ty r.ty with
  | none => .hostUB
  | some t => .ok { ty := t, payload := op.run (hostConv 64 false l.get).toNat (hostConv 64 false r.get).toNat }

end Verif.Fold
