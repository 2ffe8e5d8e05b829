import Verif.Spec.Assign

/-!
# Model: the conversion of what is assigned

`maybe_insert_implicit_assignment_cast_and_check_that_types_match` (/repo/src/parse.c 1874–2037), with the errors of `push_cast` (/repo/src/parse.c 294–606).

Simplifications. Structures, unions, arrays and functions are numbers, and whether two of them are equal (`types_are_equal`, property C77) is given. The type that
stands for errors is left out. Atomic integers are the integers (/repo/src/parse.c 1882). Of the conversion only the errors of `push_cast` and the new type are
modelled; for values see the properties C18 and C71. A floating constant is a rational number.
-/
namespace Verif.Model.Assign
open Verif.IntType
open Verif.Spec.Assign (Type_)

/-- What is known of the value at compile time. -/
inductive Literal
  | none
  | int (value : Int)
  | float (value : Rat)

/-- `struct expr`: the type, the type before promotion (`defined_type`), and the literal, if it is one (`expr->ir`). Bit-fields that are read have their integer type already
(`maybe_insert_cast_from_special_int_to_int`, /repo/src/parse.c 633–667, 1876). -/
structure Expr where
  type : Type_
  declared : Option Ty
  literal : Literal

/-- What is reported, and the type of the right side after it. -/
structure Result where
  /-- `report_type_mismatch_warning`. -/
  mismatch : Bool
  /-- `WARNING_compile_time_truncation`. -/
  truncation : Bool
  /-- `report_type_mismatch_error`, or the error in `push_cast`. -/
  error : Bool
  type : Type_

/-- `types_are_equal` (/repo/src/parse.c 911–1051) for these types. -/
def equal (compatible : Nat → Nat → Bool) : Type_ → Type_ → Bool
  | .void, .void => true
  | .arith t, .arith s => decide (t = s)
  | .pointer a, .pointer b => equal compatible a b
  | .bitfield t n, .bitfield s m => decide (t = s) && decide (n = m)
  | .other n, .other m => compatible n m
  | _, _ => false

/-- `integer_literal_as_s64` (/repo/src/parse.c 195–219), on a value of the type of the literal. -/
def asS64 (v : Int) : Int := if 9223372036854775808 ≤ v then v - 18446744073709551616 else v

/-- `integer_literal_as_u64` (/repo/src/parse.c 221–244). -/
def asU64 (v : Int) : Int := if v < 0 then v + 18446744073709551616 else v

/-- `type->kind == AST_integer_type`. -/
def isInt : Ty → Bool
  | .f32 | .f64 => false
  | _ => true

/-- Does the value fit? (/repo/src/parse.c 1974–1994). -/
def fits (t : Ty) (v : Int) : Bool :=
  if t.isSigned then
    let value := asS64 v
    match t.bits with
    | 8 => decide (-128 ≤ value ∧ value ≤ 127)
    | 16 => decide (-32768 ≤ value ∧ value ≤ 32767)
    | 32 => decide (-2147483648 ≤ value ∧ value ≤ 2147483647)
    | _ => decide (-9223372036854775808 ≤ value ∧ value ≤ 9223372036854775807)
  else
    let value := asU64 v
    match t.bits with
    | 8 => decide (value ≤ 255)
    | 16 => decide (value ≤ 65535)
    | 32 => decide (value ≤ 4294967295)
    | _ => decide (value ≤ 18446744073709551615)

/-- The error in `push_cast` (/repo/src/parse.c 325–328). -/
def castError (to : Type_) (l : Literal) : Bool :=
  match to, l with
  | .arith t, .float v => isInt t && !t.isSigned && decide (v < 0)
  | _, _ => false

/-- `lhs_type == rhs->resolved_type` (/repo/src/parse.c 1884): there is one object for every arithmetic type, and for `void`; for other types this is given. -/
def identical (shared : Bool) (l r : Type_) : Bool :=
  match l, r with
  | .pointer _, .pointer _ => shared
  | .other _, .other _ => shared
  | l, r => decide (l = r)

/-- The loop over pointers (/repo/src/parse.c 1937–1940). -/
def pointees : Type_ → Type_ → Type_ × Type_
  | .pointer a, .pointer b => pointees a b
  | a, b => (a, b)

/-- The end of the function (/repo/src/parse.c 2026–2036). -/
def finish (compatible : Nat → Nat → Bool) (l : Type_) (r : Expr) (mismatch truncation cast skip : Bool) : Result :=
  if cast then ⟨mismatch, truncation, castError l r.literal, l⟩
  else if !skip then ⟨mismatch, truncation, !equal compatible l r.type, r.type⟩
  else ⟨mismatch, truncation, false, r.type⟩

/-- The warning for integers that are not literals (/repo/src/parse.c 1998–2022). -/
def lossy (l type : Ty) : Bool :=
  if type.bits < l.bits then
    if !type.isSigned then false
    else if l.isSigned = type.isSigned then false
    else true
  else if l.bits = type.bits then false
  else true

/-- The function. `andEquals` is for the token `&=`. -/
def assign (compatible : Nat → Nat → Bool) (shared andEquals : Bool) (l : Type_) (r : Expr) : Option Result :=
  if identical shared l r.type then some ⟨false, false, false, r.type⟩
  else match l, r.type with
    | .arith .bool, .arith _ => some (finish compatible l r false false true false)
    | .arith .bool, .pointer _ => some (finish compatible l r false false true false)
    | .arith .bool, _ => some (finish compatible l r false false false false)
    | .bitfield base _, .arith s =>
      -- The type of what `push_cast` gives (1901–1911).
      if s ≠ base then some ⟨false, false, castError (.arith base) r.literal, .arith base⟩ else some ⟨false, false, false, .arith s⟩
    | .pointer to, .arith s =>
      if isInt s then
        match r.literal with
        | .int v => some (finish compatible l r (decide (asU64 v ≠ 0)) false true false)
        | _ => some (finish compatible l r true false true false)
      else some (finish compatible (.pointer to) r false false false false)
    | .pointer a, .pointer b =>
      if a = .void ∨ b = .void then some (finish compatible l r false false false true)
      else
        let p := pointees a b
        if !equal compatible p.1 p.2 then some (finish compatible l r true false false true)
        else some (finish compatible l r false false false false)
    | .arith t, .arith s =>
      if !isInt t && isInt s then
        match r.literal with
        | .int _ => some (finish compatible l r false false true false)
        | _ => some (finish compatible l r true false true false)
      else if isInt t && !isInt s then some (finish compatible l r true false true false)
      else if !isInt t && !isInt s then
        if t.bits < s.bits then some (finish compatible l r true false true false)
        else if s.bits < t.bits then some (finish compatible l r false false true false)
        else none
      else
        match r.literal, andEquals with
        | .int v, false => some (finish compatible l r false (!fits t v) true false)
        | _, _ => some (finish compatible l r (lossy t (r.declared.getD s)) false true false)
    | l, _ => some (finish compatible l r false false false false)

end Verif.Model.Assign
