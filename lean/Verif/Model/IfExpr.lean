import Verif.Spec.IfExpr

/-!
# Model: `static_if_evaluate` (`src/preprocess.c:2855-3359`)

The input is the list of tokens after macro expansion, without white space. `value` is a `BitVec 64`.
Undefined behaviour of the evaluator itself is the outcome `ub`. `__has_include`, character literals and
the warnings are not modelled.
-/
namespace Verif.IfExpr
open Verif.Spec.IfExpr (Tok BinOp)

/-- `enum static_if_evaluate_operation`, `src/preprocess.c:2855-2889`. -/
inductive Op
  | parenthesized | ternaryCondition | ternaryIfTrue
  | logicalNot | bitwiseNot | unaryMinus
  | bin (o : BinOp)
deriving DecidableEq

/-- `token_to_precedence`, `src/preprocess.c:3089-3133`; 0 for all other tokens. -/
def tokenPrec : Tok → Nat
  | .op .mul | .op .div | .op .mod => 3
  | .op .add | .op .sub => 4
  | .op .shl | .op .shr => 5
  | .op .ge | .op .le | .op .gt | .op .lt => 6
  | .op .eq | .op .ne => 7
  | .op .and => 8
  | .op .xor => 9
  | .op .or => 10
  | .op .land => 11
  | .op .lor => 12
  | .question => 13
  | _ => 0

/-- `operation_to_precedence`, `src/preprocess.c:3138-3179`. -/
def opPrec : Op → Nat
  | .bitwiseNot | .logicalNot | .unaryMinus => 2
  | .bin .mul | .bin .div | .bin .mod => 3
  | .bin .add | .bin .sub => 4
  | .bin .shl | .bin .shr => 5
  | .bin .ge | .bin .le | .bin .gt | .bin .lt => 6
  | .bin .eq | .bin .ne => 7
  | .bin .and => 8
  | .bin .xor => 9
  | .bin .or => 10
  | .bin .land => 11
  | .bin .lor => 12
  | .parenthesized => 16
  | .ternaryCondition => 16
  | .ternaryIfTrue => 13

/-- A value with `is_unsigned`. -/
structure Value where
  value : BitVec 64
  isUnsigned : Bool
deriving DecidableEq, Repr

/-- `struct static_if_evaluate_stack_node`. -/
structure Frame where
  op : Op
  val : Value
deriving DecidableEq

/-- The result of an operation. -/
inductive Res
  | ok (v : Value)
  | error
  | ub
deriving DecidableEq, Repr

/-- A value and its type. -/
def ok (v : BitVec 64) (u : Bool) : Res := .ok ⟨v, u⟩

/-- The value of a comparison. -/
def flag (b : Bool) : Res := ok (if b then 1 else 0) false

/-- `value = -(s64)value`, and the other prefix operators, `src/preprocess.c:3191-3193`. -/
def prefixOp : Op → Value → Res
  | .logicalNot, v => ok (if v.value = 0 then 1 else 0) v.isUnsigned
  | .bitwiseNot, v => ok (~~~ v.value) v.isUnsigned
  | .unaryMinus, v => if v.value = BitVec.intMin 64 then .ub else ok (- v.value) v.isUnsigned
  | _, v => .ok v

/-- An `int64_t` result of the evaluator's own arithmetic. -/
def signed (x : Int) : Res := if -2^63 ≤ x ∧ x < 2^63 then ok (BitVec.ofInt 64 x) false else .ub

/-- The binary operators, `src/preprocess.c:3195-3268`; `c` is `current`, `v` is `value`. -/
def binaryOp (o : BinOp) (c v : Value) : Res :=
  let u := v.isUnsigned || c.isUnsigned
  match o with
  | .shl =>
    if u then (if v.value.toNat < 64 then ok (c.value <<< v.value.toNat) u else .ub)
    else (if 0 ≤ v.value.toInt ∧ v.value.toInt < 64 ∧ 0 ≤ c.value.toInt then signed (c.value.toInt * 2 ^ v.value.toNat) else .ub)
  | .shr =>
    if u then (if v.value.toNat < 64 then ok (c.value >>> v.value.toNat) u else .ub)
    else (if 0 ≤ v.value.toInt ∧ v.value.toInt < 64 then ok (c.value.sshiftRight v.value.toNat) u else .ub)
  | .and => ok (c.value &&& v.value) u
  | .or => ok (c.value ||| v.value) u
  | .xor => ok (c.value ^^^ v.value) u
  | .mul => if u then ok (c.value * v.value) u else signed (c.value.toInt * v.value.toInt)
  | .div =>
    if v.value = 0 then .error
    else if u then ok (c.value / v.value) u
    else signed (c.value.toInt.tdiv v.value.toInt)
  | .mod =>
    if v.value = 0 then .error
    else if u then ok (c.value % v.value) u
    else if c.value = BitVec.intMin 64 ∧ v.value = -1 then .ub
    else signed (c.value.toInt.tmod v.value.toInt)
  | .add => ok (c.value + v.value) u
  | .sub => ok (c.value - v.value) u
  | .eq => flag (c.value = v.value)
  | .ne => flag (c.value ≠ v.value)
  | .ge => flag (if u then v.value.ule c.value else v.value.sle c.value)
  | .le => flag (if u then c.value.ule v.value else c.value.sle v.value)
  | .gt => flag (if u then v.value.ult c.value else v.value.slt c.value)
  | .lt => flag (if u then c.value.ult v.value else c.value.slt v.value)
  | .land => flag (c.value ≠ 0 ∧ v.value ≠ 0)
  | .lor => flag (c.value ≠ 0 ∨ v.value ≠ 0)

/-- Where the evaluator is: at `retry:`, at the end of the operand with a value (before the token
`binary_expression`, the first of `ts`, is dealt with), or finished. -/
inductive Conf
  | operand (stack : List Frame) (ts : List Tok)
  | value (stack : List Frame) (v : Value) (ts : List Tok)
  | done (r : Res)

/-- `static_if_stack_push`, `src/preprocess.c:2904-2918`: `array_count` is 1024, one entry is not used. -/
def push (stack : List Frame) (op : Op) (v : Value) (ts : List Tok) : Conf :=
  if stack.length + 1 ≥ 1024 then .done .error else .operand (⟨op, v⟩ :: stack) ts

/-- `src/preprocess.c:2932-3087`: reading an operand. `env` says which names are macros. -/
def operandStep (env : Nat → Bool) (stack : List Frame) : List Tok → Conf
  | .bang :: ts => push stack .logicalNot ⟨0, false⟩ ts
  | .tilde :: ts => push stack .bitwiseNot ⟨0, false⟩ ts
  | .op .sub :: ts => push stack .unaryMinus ⟨0, false⟩ ts
  | .op .add :: ts => .operand stack ts
  | .num v u :: ts => .value stack ⟨v, u || !decide (v.toNat < 2^63 - 1)⟩ ts
  | .defined :: .lpar :: .ident n :: .rpar :: ts => .value stack ⟨if env n then 1 else 0, false⟩ ts
  | .defined :: .ident n :: ts => .value stack ⟨if env n then 1 else 0, false⟩ ts
  | .ident _ :: ts => .value stack ⟨0, false⟩ ts
  | .lpar :: ts => push stack .parenthesized ⟨0, false⟩ ts
  | _ => .done .error

/-- Goes on with the result of an operation. -/
def resume (stack : List Frame) (ts : List Tok) : Res → Conf
  | .ok v => .value stack v ts
  | r => .done r

/-- The token `binary_expression`; `TOKEN_invalid` at the end. -/
def head (ts : List Tok) : Tok := ts.headD .other

/-- The token that is left after the stack has been dealt with, `src/preprocess.c:3308-3357`. -/
def pushBinary (stack : List Frame) (v : Value) : List Tok → Conf
  | .op o :: ts => push stack (.bin o) v ts
  | .question :: ts => push stack .ternaryCondition v ts
  | _ => .done (.ok v)

/-- One iteration of the loop at `src/preprocess.c:3137-3306`, or the code after it. -/
def valueStep (stack : List Frame) (v : Value) (ts : List Tok) : Conf :=
  match stack with
  | [] => pushBinary [] v ts
  | f :: rest =>
    let op := opPrec f.op
    let tok := tokenPrec (head ts)
    if (tok ≠ 0 ∧ op > tok) ∨ (op = tok ∧ op = 13) then pushBinary (f :: rest) v ts
    else match f.op with
      | .bin o => resume rest ts (binaryOp o f.val v)
      | .parenthesized => match ts with
        | .rpar :: ts => .value rest v ts
        | _ => .done .error
      | .ternaryCondition => match ts with
        | .colon :: ts => match push rest .ternaryCondition f.val ts with
          | .operand stack _ => push stack .ternaryIfTrue v ts
          | c => c
        | _ => .done .error
      | .ternaryIfTrue => match rest with
        | c :: rest => .value rest ⟨if c.val.value ≠ 0 then f.val.value else v.value, v.isUnsigned⟩ ts
        | [] => .done .error
      | op => resume rest ts (prefixOp op v)

/-- A step of the evaluator. -/
def step (env : Nat → Bool) : Conf → Conf
  | .operand stack ts => operandStep env stack ts
  | .value stack v ts => valueStep stack v ts
  | .done r => .done r

/-- Runs the evaluator. -/
def run (env : Nat → Bool) : Nat → Conf → Conf
  | 0, c => c
  | n + 1, c => run env n (step env c)

/-- `static_if_evaluate`. Every step takes a token or shortens the stack, so `2 * ts.length + 1` steps are
enough. -/
def evaluate (env : Nat → Bool) (ts : List Tok) : Option Res :=
  match run env (2 * ts.length + 1) (.operand [] ts) with
  | .done r => some r
  | _ => none

end Verif.IfExpr
