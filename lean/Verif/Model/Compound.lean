import Verif.Model.Fold

/-!
# Model: compound assignment `E1 op= E2` on integers

Models `src/parse.c:6997-7246` (which operand conversions are inserted and in which type the
operation is done) and `punt_compound_assignment` (4080-4155). Operands are the integer
values of `E1` and `E2`; conversions between integer types are `hostConv` (that the emitted
instructions implement it is C18). Pointers and floats are not part of this model.
-/
namespace Verif.Compound
open Verif.IntType Verif.Fold

inductive Op
  | add | sub | mul | div | mod | and | or | xor | shl | shr
deriving DecidableEq, Repr

/-- What happens: `stored v`, the compile-time error for a literal zero divisor, or the `#DE`
exception of `div`/`idiv`. -/
inductive Res
  | stored (v : Int)
  | error
  | trap
deriving DecidableEq, Repr

/-- Conversion of a value to a type: `push_cast` (C18). -/
def conv (t : Ty) (v : Int) : Int :=
  if t = .bool then (if v = 0 then 0 else 1) else hostConv t.bits t.isSigned v

/-- The run-time operation in type `t` on values of that type. `add`, `sub`, `mul` wrap
(`src/emit_x64.c:4256-4330`); `div`/`idiv` trap on a zero divisor or if the quotient does not
fit (1687-1804); shifts use the low byte of the count, which the CPU masks to 5 or 6 bits
(2122-2174). -/
def runOp (t : Ty) (op : Op) (x y : Int) : Option Int :=
  let pat (v : Int) : Nat := (v % 2 ^ t.bits).toNat
  let count : Nat := (y % 256).toNat % (if t.bits = 64 then 64 else 32)
  match op with
  | .add => some (hostConv t.bits t.isSigned (x + y))
  | .sub => some (hostConv t.bits t.isSigned (x - y))
  | .mul => some (hostConv t.bits t.isSigned (x * y))
  | .div =>
    if y = 0 then none
    else if hostConv t.bits t.isSigned (Int.tdiv x y) = Int.tdiv x y then some (Int.tdiv x y) else none
  | .mod =>
    if y = 0 then none
    else if hostConv t.bits t.isSigned (Int.tdiv x y) = Int.tdiv x y then some (Int.tmod x y) else none
  | .and => some (hostConv t.bits t.isSigned (pat x &&& pat y : Nat))
  | .or => some (hostConv t.bits t.isSigned (pat x ||| pat y : Nat))
  | .xor => some (hostConv t.bits t.isSigned (pat x ^^^ pat y : Nat))
  | .shl => some (hostConv t.bits t.isSigned (x * 2 ^ count))
  | .shr => some (x / 2 ^ count)

/-- Whether the operation is punted, i.e. done in the common type: the conditions at
`src/parse.c:7046` (`+=`, `-=`), 7087-7106 (`%=`), 7137 (`&= |= ^=`), 7179-7207 (`*= /=`),
7227 (shifts). `lit` says that the right operand is a literal. Sizes are in bytes in the
code; `1ull << lhs->resolved_type->size` really shifts by the number of bytes. -/
def punts (op : Op) (l r : Ty) (lit : Bool) (w : Int) : Bool :=
  if l = .bool then true
  else match op with
    | .mul | .div | .mod =>
      if lit = true ∧ hostConv 64 false w < 2 ^ (l.bits / 8) then false
      else decide (l.bits < r.bits)
    | _ => false

/-- The right operand of an operation that is not punted: converted to the type of the left
operand (`src/parse.c:7051, 7111, 7141, 7212`), shift counts to `u8` (7230). -/
def rightOperand (op : Op) (l : Ty) (w : Int) : Int :=
  if op = .shl ∨ op = .shr then conv .u8 w else conv l w

/-- `E1 op= E2` with `E1` of type `l` and value `v`, `E2` of type `r` and value `w`. -/
def assign (op : Op) (l r : Ty) (lit : Bool) (v w : Int) : Res :=
  if lit = true ∧ w = 0 ∧ (op = .div ∨ op = .mod) then .error
  else if punts op l r lit w then
    -- `punt_compound_assignment`: both operands in the common type, also for shifts
    match usualConversions l r with
    | none => .trap
    | some c =>
      match runOp c op (conv c v) (conv c w) with
      | none => .trap
      | some z => .stored (conv l z)
  else
    match runOp l op v (rightOperand op l w) with
    | none => .trap
    | some z => .stored z

/-- Conversion to a bit-field of the given signedness and width (`emit_store_bitfield`, C37). -/
def convBits (sgn : Bool) (width : Nat) (v : Int) : Int := hostConv width sgn v

/-- Compound assignment to a bit-field (always punted): `maybe_insert_cast_from_special_int_to_int`
(`src/parse.c:633-655`) gives the left operand type `int` for a width below 32, `int` or
`unsigned` for 32 and the declared type above. -/
def assignBitfield (op : Op) (base : Ty) (width : Nat) (r : Ty) (lit : Bool) (v w : Int) : Res :=
  let l : Ty := if width < 32 then .s32 else if width = 32 then (if base.isSigned then .s32 else .u32) else base
  if lit = true ∧ w = 0 ∧ (op = .div ∨ op = .mod) then .error
  else
    match usualConversions l r with
    | none => .trap
    | some c =>
      match runOp c op (conv c v) (conv c w) with
      | none => .trap
      | some z => .stored (convBits base.isSigned width z)

end Verif.Compound
