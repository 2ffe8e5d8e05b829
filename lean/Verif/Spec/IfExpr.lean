/-!
# Specification: `#if` expressions (C11 6.10.1 and 6.5)
-/
namespace Verif.Spec.IfExpr

/-- The binary operators. -/
inductive BinOp
  | mul | div | mod
  | add | sub
  | shl | shr
  | ge | le | gt | lt
  | eq | ne
  | and | xor | or
  | land | lor
deriving DecidableEq, Repr

/-- Tokens. A number has its value and whether a suffix makes it unsigned. -/
inductive Tok
  | num (v : BitVec 64) (u : Bool)
  | ident (name : Nat)
  | defined
  | op (o : BinOp)
  | bang | tilde | lpar | rpar | question | colon
  | other
deriving DecidableEq, Repr

/-- Syntax trees. `name` is an identifier that is not a macro. -/
inductive Expr
  | num (v : BitVec 64) (u : Bool)
  | name (n : Nat)
  | defined (n : Nat)
  | not (a : Expr)
  | compl (a : Expr)
  | neg (a : Expr)
  | pos (a : Expr)
  | bin (o : BinOp) (a b : Expr)
  | cond (c a b : Expr)
deriving DecidableEq, Repr

/-- The nonterminals of C11 6.5.1 to 6.5.15. -/
inductive NT
  | primary | unary | multiplicative | additive | shift | relational | equality | and | exclusiveOr | inclusiveOr | logicalAnd | logicalOr | conditional
deriving DecidableEq

/-- The nonterminal for the operands that bind tighter: *additive-expression* consists of
*multiplicative-expression*s, and so on. -/
def NT.tighter : NT → NT
  | .primary => .primary
  | .unary => .primary
  | .multiplicative => .unary
  | .additive => .multiplicative
  | .shift => .additive
  | .relational => .shift
  | .equality => .relational
  | .and => .equality
  | .exclusiveOr => .and
  | .inclusiveOr => .exclusiveOr
  | .logicalAnd => .inclusiveOr
  | .logicalOr => .logicalAnd
  | .conditional => .logicalOr

/-- The nonterminal whose rule has the operator. -/
def BinOp.nt : BinOp → NT
  | .mul | .div | .mod => .multiplicative
  | .add | .sub => .additive
  | .shl | .shr => .shift
  | .ge | .le | .gt | .lt => .relational
  | .eq | .ne => .equality
  | .and => .and
  | .xor => .exclusiveOr
  | .or => .inclusiveOr
  | .land => .logicalAnd
  | .lor => .logicalOr

/-- The grammar: the tokens `ts` are an expression of the kind `n` with the syntax tree `e`. -/
inductive Derives : NT → Expr → List Tok → Prop
  | num (v : BitVec 64) (u : Bool) : Derives .primary (.num v u) [.num v u]
  | name (n : Nat) : Derives .primary (.name n) [.ident n]
  | defined (n : Nat) : Derives .primary (.defined n) [.defined, .ident n]
  | definedParen (n : Nat) : Derives .primary (.defined n) [.defined, .lpar, .ident n, .rpar]
  | paren {e : Expr} {ts : List Tok} : Derives .conditional e ts → Derives .primary e (.lpar :: (ts ++ [.rpar]))
  | not {e : Expr} {ts : List Tok} : Derives .unary e ts → Derives .unary (.not e) (.bang :: ts)
  | compl {e : Expr} {ts : List Tok} : Derives .unary e ts → Derives .unary (.compl e) (.tilde :: ts)
  | neg {e : Expr} {ts : List Tok} : Derives .unary e ts → Derives .unary (.neg e) (.op .sub :: ts)
  | pos {e : Expr} {ts : List Tok} : Derives .unary e ts → Derives .unary (.pos e) (.op .add :: ts)
  /-- all binary operators associate to the left -/
  | bin (o : BinOp) {a b : Expr} {ts us : List Tok} : Derives o.nt a ts → Derives o.nt.tighter b us → Derives o.nt (.bin o a b) (ts ++ .op o :: us)
  | cond {c a b : Expr} {ts us vs : List Tok} : Derives .logicalOr c ts → Derives .conditional a us → Derives .conditional b vs →
      Derives .conditional (.cond c a b) (ts ++ .question :: (us ++ .colon :: vs))
  | tighter {n : NT} {e : Expr} {ts : List Tok} : Derives n.tighter e ts → Derives n e ts

/-- The same grammar with the depth `k` of nesting: an operand on the right of an operator, in parentheses
or after a prefix operator is one deeper than its expression. (`?:` counts twice in its last operand.) -/
inductive Nests : Nat → NT → Expr → List Tok → Prop
  | num (v : BitVec 64) (u : Bool) : Nests 0 .primary (.num v u) [.num v u]
  | name (n : Nat) : Nests 0 .primary (.name n) [.ident n]
  | defined (n : Nat) : Nests 0 .primary (.defined n) [.defined, .ident n]
  | definedParen (n : Nat) : Nests 0 .primary (.defined n) [.defined, .lpar, .ident n, .rpar]
  | paren {k : Nat} {e : Expr} {ts : List Tok} : Nests k .conditional e ts → Nests (k + 1) .primary e (.lpar :: (ts ++ [.rpar]))
  | not {k : Nat} {e : Expr} {ts : List Tok} : Nests k .unary e ts → Nests (k + 1) .unary (.not e) (.bang :: ts)
  | compl {k : Nat} {e : Expr} {ts : List Tok} : Nests k .unary e ts → Nests (k + 1) .unary (.compl e) (.tilde :: ts)
  | neg {k : Nat} {e : Expr} {ts : List Tok} : Nests k .unary e ts → Nests (k + 1) .unary (.neg e) (.op .sub :: ts)
  | pos {k : Nat} {e : Expr} {ts : List Tok} : Nests k .unary e ts → Nests k .unary (.pos e) (.op .add :: ts)
  | bin (o : BinOp) {k l : Nat} {a b : Expr} {ts us : List Tok} : Nests k o.nt a ts → Nests l o.nt.tighter b us →
      Nests (max k (l + 1)) o.nt (.bin o a b) (ts ++ .op o :: us)
  | cond {k l m : Nat} {c a b : Expr} {ts us vs : List Tok} : Nests k .logicalOr c ts → Nests l .conditional a us → Nests m .conditional b vs →
      Nests (max k (max (l + 1) (m + 2))) .conditional (.cond c a b) (ts ++ .question :: (us ++ .colon :: vs))
  | tighter {k : Nat} {n : NT} {e : Expr} {ts : List Tok} : Nests k n.tighter e ts → Nests k n e ts

/-! ## Values

All arithmetic is on `intmax_t` and `uintmax_t` (C11 6.10.1p4), which have 64 bits. -/

/-- A value: an `intmax_t` or a `uintmax_t`, as the mathematical integer. -/
inductive Val
  | int (x : Int)
  | uint (x : Nat)
deriving DecidableEq, Repr

/-- Representable in `intmax_t`. -/
def fits (x : Int) : Bool := decide (-2^63 ≤ x ∧ x < 2^63)

/-- A signed result; overflow is undefined. -/
def int (x : Int) : Option Val := if fits x then some (.int x) else none

/-- An unsigned result, modulo 2^64. -/
def uint (x : Int) : Val := .uint (x % 2^64).toNat

/-- Conversion to `uintmax_t`. -/
def Val.toUnsigned : Val → Nat
  | .int x => (x % 2^64).toNat
  | .uint x => x

def Val.isUnsigned : Val → Bool
  | .int _ => false
  | .uint _ => true

/-- Nonzero. -/
def Val.truth : Val → Bool
  | .int x => decide (x ≠ 0)
  | .uint x => decide (x ≠ 0)

def ofBool (b : Bool) : Val := .int (if b then 1 else 0)

/-- Operators with the usual arithmetic conversions: `f` is the operation on integers. -/
def arith (f : Int → Int → Int) : Val → Val → Option Val
  | .int x, .int y => int (f x y)
  | a, b => some (uint (f a.toUnsigned b.toUnsigned))

/-- `/` and `%`. -/
def divide (f : Int → Int → Int) : Val → Val → Option Val
  | .int x, .int y => if y = 0 then none else if fits (x.tdiv y) then int (f x y) else none
  | a, b => if b.toUnsigned = 0 then none else some (uint (f a.toUnsigned b.toUnsigned))

/-- Bit operations, on the two's complement representation. -/
def bits (f : BitVec 64 → BitVec 64 → BitVec 64) : Val → Val → Option Val
  | .int x, .int y => some (.int (f (BitVec.ofInt 64 x) (BitVec.ofInt 64 y)).toInt)
  | a, b => some (.uint (f (BitVec.ofNat 64 a.toUnsigned) (BitVec.ofNat 64 b.toUnsigned)).toNat)

/-- Comparisons. -/
def compare (f : Int → Int → Bool) : Val → Val → Option Val
  | .int x, .int y => some (ofBool (f x y))
  | a, b => some (ofBool (f a.toUnsigned b.toUnsigned))

/-- The mathematical value. -/
def Val.toInt : Val → Int
  | .int x => x
  | .uint x => x

/-- Shifts (C11 6.5.7): the type is that of the left operand; shift counts outside 0 to 63 are
undefined, and so is shifting a negative number to the left. Shifting a negative number to the right is
arithmetic (implementation-defined, as MSVC and others define it). -/
def shl : Val → Val → Option Val
  | .int x, b => if 0 ≤ b.toInt ∧ b.toInt < 64 ∧ 0 ≤ x then int (x * 2 ^ b.toInt.toNat) else none
  | .uint x, b => if 0 ≤ b.toInt ∧ b.toInt < 64 then some (uint (x * 2 ^ b.toInt.toNat)) else none

def shr : Val → Val → Option Val
  | .int x, b => if 0 ≤ b.toInt ∧ b.toInt < 64 then int (x / 2 ^ b.toInt.toNat) else none
  | .uint x, b => if 0 ≤ b.toInt ∧ b.toInt < 64 then some (uint (x / 2 ^ b.toInt.toNat)) else none

/-- The binary operators but `&&` and `||`. -/
def binary : BinOp → Val → Val → Option Val
  | .mul => arith (· * ·)
  | .div => divide Int.tdiv
  | .mod => divide Int.tmod
  | .add => arith (· + ·)
  | .sub => arith (· - ·)
  | .shl => shl
  | .shr => shr
  | .ge => compare (fun x y => decide (x ≥ y))
  | .le => compare (fun x y => decide (x ≤ y))
  | .gt => compare (fun x y => decide (x > y))
  | .lt => compare (fun x y => decide (x < y))
  | .eq => compare (fun x y => decide (x = y))
  | .ne => compare (fun x y => decide (x ≠ y))
  | .and => bits (· &&& ·)
  | .xor => bits (· ^^^ ·)
  | .or => bits (· ||| ·)
  | .land => fun a b => some (ofBool (a.truth && b.truth))
  | .lor => fun a b => some (ofBool (a.truth || b.truth))

/-- Whether the type of an expression is `uintmax_t`. -/
def isUnsigned : Expr → Bool
  | .num v u => u || decide (v.toNat ≥ 2^63)
  | .name _ => false
  | .defined _ => false
  | .not _ => false
  | .compl a => isUnsigned a
  | .neg a => isUnsigned a
  | .pos a => isUnsigned a
  | .bin o a b => match o with
    | .mul | .div | .mod | .add | .sub | .and | .xor | .or => isUnsigned a || isUnsigned b
    | .shl | .shr => isUnsigned a
    | .ge | .le | .gt | .lt | .eq | .ne | .land | .lor => false
  | .cond _ a b => isUnsigned a || isUnsigned b

/-- Conversion of an operand of `?:` to the common type. -/
def convert (unsigned : Bool) (a : Val) : Val := if unsigned then .uint a.toUnsigned else a

/-- The value of an expression; `none` if it is undefined. The right operands of `&&` and `||`, and one
operand of `?:`, are only evaluated if they are needed. `env` says which names are macros. -/
def eval (env : Nat → Bool) : Expr → Option Val
  | .num v u => some (if u || decide (v.toNat ≥ 2^63) then .uint v.toNat else .int v.toNat)
  | .name _ => some (.int 0)
  | .defined n => some (ofBool (env n))
  | .not a => (eval env a).map fun x => ofBool (!x.truth)
  | .compl a => (eval env a).map fun
    | .int x => .int (-x - 1)
    | .uint x => uint (-(x : Int) - 1)
  | .neg a => (eval env a).bind fun
    | .int x => int (-x)
    | .uint x => some (uint (-(x : Int)))
  | .pos a => eval env a
  | .bin .land a b => (eval env a).bind fun x => if x.truth then (eval env b).map fun y => ofBool y.truth else some (ofBool false)
  | .bin .lor a b => (eval env a).bind fun x => if x.truth then some (ofBool true) else (eval env b).map fun y => ofBool y.truth
  | .bin o a b => (eval env a).bind fun x => (eval env b).bind fun y => binary o x y
  | .cond c a b => (eval env c).bind fun x =>
      (if x.truth then eval env a else eval env b).map (convert (isUnsigned a || isUnsigned b))

end Verif.Spec.IfExpr
