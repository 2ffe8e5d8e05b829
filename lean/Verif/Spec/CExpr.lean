/-!
# Specification: C expressions (C11 6.5)

The grammar of C11 6.5.1 to 6.5.17, from *primary-expression* to *expression*, and the constraints that
say which operands must be lvalues. Names are classified before parsing: `ident` names an object or a
function, `const` is a constant or an enumeration constant, `ty` a *type-name*, `braces` an initializer
list with its braces. `_Generic` is left out.
-/
namespace Verif.Spec.CExpr

/-- The binary operators but assignment and comma. -/
inductive BinOp
  | mul | div | mod
  | add | sub
  | shl | shr
  | ge | le | gt | lt
  | eq | ne
  | and | xor | or
  | land | lor
deriving DecidableEq, Repr

/-- `=`, `*=`, `/=`, … -/
inductive AssignOp
  | plain | mul | div | mod | add | sub | shl | shr | and | xor | or
deriving DecidableEq, Repr

/-- Tokens. `op .mul`, `op .and`, `op .add` and `op .sub` are also prefix operators. -/
inductive Tok
  | ident (n : Nat) | const (n : Nat) | str (n : Nat)
  | ty (n : Nat) (isStruct : Bool)
  | braces (n : Nat)
  | op (o : BinOp)
  | assign (o : AssignOp)
  | inc | dec | bang | tilde | sizeof | alignof
  | lpar | rpar | lbrack | rbrack | dot | arrow
  | question | colon | comma
  | other (n : Nat)
deriving DecidableEq, Repr

/-- The prefix operators. -/
inductive Pre
  | inc | dec | addr | deref | plus | minus | compl | not | sizeof | alignof
deriving DecidableEq, Repr

/-- Syntax trees. `call f` is the call `f()`; `arg c a` is the call `c` with `a` added at the end of its
arguments. -/
inductive Expr
  | ident (n : Nat) | const (n : Nat) | str (n : Nat)
  | compound (t : Nat) (s : Bool) (init : Nat)
  | index (a i : Expr)
  | call (f : Expr)
  | arg (c a : Expr)
  | dot (a : Expr) (m : Nat)
  | arrow (a : Expr) (m : Nat)
  | postinc (a : Expr) | postdec (a : Expr)
  | pre (p : Pre) (a : Expr)
  | sizeofType (t : Nat) (s : Bool)
  | alignofType (t : Nat) (s : Bool)
  | cast (t : Nat) (s : Bool) (a : Expr)
  | bin (o : BinOp) (a b : Expr)
  | cond (c a b : Expr)
  | assign (o : AssignOp) (a b : Expr)
  | comma (a b : Expr)
deriving DecidableEq, Repr

/-- The nonterminals of C11 6.5.1 to 6.5.17. `openCall` is a postfix expression and `(`; `arguments` is
that and a list of arguments. -/
inductive NT
  | primary | postfix | openCall | arguments | unary | cast | multiplicative | additive | shift | relational | equality
  | and | exclusiveOr | inclusiveOr | logicalAnd | logicalOr | conditional | assignment | expression
deriving DecidableEq

/-- The nonterminal whose rule has the operator. -/
def BinOp.nt : BinOp → NT
  | .mul | .div | .mod => .multiplicative
  | .add | .sub => .additive
  | .shl | .shr => .shift
  | .ge | .le | .gt | .lt => .relational
  | .eq | .ne => .equality
  | .and => .and
  | .xor => .exclusiveOr
  | .or => .inclusiveOr
  | .land => .logicalAnd
  | .lor => .logicalOr

/-- The rules *n*: *m*: every *additive-expression* is a *shift-expression*, and so on. -/
def NT.tighter : NT → Option NT
  | .primary | .openCall | .arguments => none
  | .postfix => some .primary
  | .unary => some .postfix
  | .cast => some .unary
  | .multiplicative => some .cast
  | .additive => some .multiplicative
  | .shift => some .additive
  | .relational => some .shift
  | .equality => some .relational
  | .and => some .equality
  | .exclusiveOr => some .and
  | .inclusiveOr => some .exclusiveOr
  | .logicalAnd => some .inclusiveOr
  | .logicalOr => some .logicalAnd
  | .conditional => some .logicalOr
  | .assignment => some .conditional
  | .expression => some .assignment

/-- The tokens of the *unary-operator*s `&`, `*`, `+`, `-`, `~` and `!`. -/
def Pre.unaryOperator : Pre → Option Tok
  | .addr => some (.op .and)
  | .deref => some (.op .mul)
  | .plus => some (.op .add)
  | .minus => some (.op .sub)
  | .compl => some .tilde
  | .not => some .bang
  | _ => none

/-- The tokens before a *unary-expression*: `++`, `--`, `sizeof`, and `_Alignof`, which MSVC also allows for
expressions. -/
def Pre.unaryPrefix : Pre → Option Tok
  | .inc => some .inc
  | .dec => some .dec
  | .sizeof => some .sizeof
  | .alignof => some .alignof
  | _ => none

/-- The grammar: the tokens `ts` are an expression of the kind `n` with the syntax tree `e`. `x` says whether
the extensions of this compiler are included: the last four rules. -/
inductive Derives (x : Bool) : NT → Expr → List Tok → Prop
  | ident (n : Nat) : Derives x .primary (.ident n) [.ident n]
  | const (n : Nat) : Derives x .primary (.const n) [.const n]
  | str (n : Nat) : Derives x .primary (.str n) [.str n]
  | paren {e : Expr} {ts : List Tok} : Derives x .expression e ts → Derives x .primary e (.lpar :: (ts ++ [.rpar]))
  | compound (t : Nat) (s : Bool) (i : Nat) : Derives x .postfix (.compound t s i) [.lpar, .ty t s, .rpar, .braces i]
  | index {a i : Expr} {ts us : List Tok} : Derives x .postfix a ts → Derives x .expression i us →
      Derives x .postfix (.index a i) (ts ++ .lbrack :: (us ++ [.rbrack]))
  | dot (m : Nat) {a : Expr} {ts : List Tok} : Derives x .postfix a ts → Derives x .postfix (.dot a m) (ts ++ [.dot, .ident m])
  | arrow (m : Nat) {a : Expr} {ts : List Tok} : Derives x .postfix a ts → Derives x .postfix (.arrow a m) (ts ++ [.arrow, .ident m])
  | postinc {a : Expr} {ts : List Tok} : Derives x .postfix a ts → Derives x .postfix (.postinc a) (ts ++ [.inc])
  | postdec {a : Expr} {ts : List Tok} : Derives x .postfix a ts → Derives x .postfix (.postdec a) (ts ++ [.dec])
  | openCall {f : Expr} {ts : List Tok} : Derives x .postfix f ts → Derives x .openCall (.call f) (ts ++ [.lpar])
  | firstArg {c a : Expr} {ts us : List Tok} : Derives x .openCall c ts → Derives x .assignment a us → Derives x .arguments (.arg c a) (ts ++ us)
  | nextArg {c a : Expr} {ts us : List Tok} : Derives x .arguments c ts → Derives x .assignment a us → Derives x .arguments (.arg c a) (ts ++ .comma :: us)
  | call0 {c : Expr} {ts : List Tok} : Derives x .openCall c ts → Derives x .postfix c (ts ++ [.rpar])
  | call {c : Expr} {ts : List Tok} : Derives x .arguments c ts → Derives x .postfix c (ts ++ [.rpar])
  | unaryPrefix (p : Pre) (t : Tok) {a : Expr} {ts : List Tok} : p.unaryPrefix = some t → Derives x .unary a ts → Derives x .unary (.pre p a) (t :: ts)
  | unaryOperator (p : Pre) (t : Tok) {a : Expr} {ts : List Tok} : p.unaryOperator = some t → Derives x .cast a ts → Derives x .unary (.pre p a) (t :: ts)
  | sizeofType (t : Nat) (s : Bool) : Derives x .unary (.sizeofType t s) [.sizeof, .lpar, .ty t s, .rpar]
  | alignofType (t : Nat) (s : Bool) : Derives x .unary (.alignofType t s) [.alignof, .lpar, .ty t s, .rpar]
  | cast (t : Nat) (s : Bool) {a : Expr} {ts : List Tok} : Derives x .cast a ts → Derives x .cast (.cast t s a) (.lpar :: .ty t s :: .rpar :: ts)
  /-- binary operators associate to the left -/
  | bin (o : BinOp) (m : NT) {a b : Expr} {ts us : List Tok} : o.nt.tighter = some m → Derives x o.nt a ts → Derives x m b us →
      Derives x o.nt (.bin o a b) (ts ++ .op o :: us)
  | cond {c a b : Expr} {ts us vs : List Tok} : Derives x .logicalOr c ts → Derives x .expression a us → Derives x .conditional b vs →
      Derives x .conditional (.cond c a b) (ts ++ .question :: (us ++ .colon :: vs))
  | assign (o : AssignOp) {a b : Expr} {ts us : List Tok} : Derives x .unary a ts → Derives x .assignment b us →
      Derives x .assignment (.assign o a b) (ts ++ .assign o :: us)
  | comma {a b : Expr} {ts us : List Tok} : Derives x .expression a ts → Derives x .assignment b us →
      Derives x .expression (.comma a b) (ts ++ .comma :: us)
  | tighter {n : NT} (m : NT) {e : Expr} {ts : List Tok} : n.tighter = some m → Derives x m e ts → Derives x n e ts
  /-- a comma after the last argument -/
  | trailingComma {c : Expr} {ts : List Tok} : x = true → Derives x .arguments c ts → Derives x .postfix c (ts ++ [.comma, .rpar])
  /-- `sizeof(T)` and `_Alignof(T)` where C has a postfix expression, as in `sizeof(T)[p]` -/
  | sizeofPostfix (t : Nat) (s : Bool) : x = true → Derives x .postfix (.sizeofType t s) [.sizeof, .lpar, .ty t s, .rpar]
  | alignofPostfix (t : Nat) (s : Bool) : x = true → Derives x .postfix (.alignofType t s) [.alignof, .lpar, .ty t s, .rpar]
  /-- a cast to a structure where C has a unary expression, as in `(struct s)a = b` -/
  | structCast (t : Nat) {a : Expr} {ts : List Tok} : x = true → Derives x .cast a ts → Derives x .unary (.cast t true a) (.lpar :: .ty t true :: .rpar :: ts)

/-- Whether the expression designates an object or function (C11 6.5.1, 6.5.2, 6.5.3.2). -/
def lvalue : Expr → Bool
  | .ident _ | .str _ | .compound _ _ _ => true
  | .index _ _ | .arrow _ _ => true
  | .dot a _ => lvalue a
  | .pre .deref _ => true
  | _ => false

/-- The constraints of C11 6.5.2.4, 6.5.3.1, 6.5.3.2 and 6.5.16: the operands of `++`, `--`, `&` and the left
operands of assignments are lvalues, here and in all operands. -/
def valid : Expr → Bool
  | .ident _ | .const _ | .str _ | .compound _ _ _ | .sizeofType _ _ | .alignofType _ _ => true
  | .index a i => valid a && valid i
  | .call f => valid f
  | .arg c a => valid c && valid a
  | .dot a _ | .arrow a _ => valid a
  | .postinc a | .postdec a => valid a && lvalue a
  | .pre .inc a | .pre .dec a | .pre .addr a => valid a && lvalue a
  | .pre _ a => valid a
  | .cast _ _ a => valid a
  | .bin _ a b => valid a && valid b
  | .cond c a b => valid c && valid a && valid b
  | .assign _ a b => valid a && lvalue a && valid b
  | .comma a b => valid a && valid b

/-- There is no cast to a structure or union type. -/
def noStructCast : Expr → Bool
  | .ident _ | .const _ | .str _ | .compound _ _ _ | .sizeofType _ _ | .alignofType _ _ => true
  | .index a i => noStructCast a && noStructCast i
  | .call f => noStructCast f
  | .arg c a => noStructCast c && noStructCast a
  | .dot a _ | .arrow a _ => noStructCast a
  | .postinc a | .postdec a => noStructCast a
  | .pre _ a => noStructCast a
  | .cast _ s a => !s && noStructCast a
  | .bin _ a b => noStructCast a && noStructCast b
  | .cond c a b => noStructCast c && noStructCast a && noStructCast b
  | .assign _ a b => noStructCast a && noStructCast b
  | .comma a b => noStructCast a && noStructCast b

/-- What may come after an expression: `)`, `]`, `:`, or a token like `;` that is not one of expressions, or
the end of the tokens. A comma ends an *assignment-expression* in a list (`list`). -/
def follows (list : Bool) : List Tok → Bool
  | [] => true
  | .rpar :: _ | .rbrack :: _ | .colon :: _ | .other _ :: _ => true
  | .comma :: _ => list
  | _ => false

/-- The same grammar with the depth `k` of nesting: an operand on the right of an operator, in brackets,
between `?` and `:` or after a prefix operator is one deeper than its expression. -/
inductive Nests : Nat → NT → Expr → List Tok → Prop
  | ident (n : Nat) : Nests 0 .primary (.ident n) [.ident n]
  | const (n : Nat) : Nests 0 .primary (.const n) [.const n]
  | str (n : Nat) : Nests 0 .primary (.str n) [.str n]
  | paren {k : Nat} {e : Expr} {ts : List Tok} : Nests k .expression e ts → Nests (k + 1) .primary e (.lpar :: (ts ++ [.rpar]))
  | compound (t : Nat) (s : Bool) (i : Nat) : Nests 0 .postfix (.compound t s i) [.lpar, .ty t s, .rpar, .braces i]
  | index {k l : Nat} {a i : Expr} {ts us : List Tok} : Nests k .postfix a ts → Nests l .expression i us →
      Nests (max k (l + 1)) .postfix (.index a i) (ts ++ .lbrack :: (us ++ [.rbrack]))
  | dot (m : Nat) {k : Nat} {a : Expr} {ts : List Tok} : Nests k .postfix a ts → Nests k .postfix (.dot a m) (ts ++ [.dot, .ident m])
  | arrow (m : Nat) {k : Nat} {a : Expr} {ts : List Tok} : Nests k .postfix a ts → Nests k .postfix (.arrow a m) (ts ++ [.arrow, .ident m])
  | postinc {k : Nat} {a : Expr} {ts : List Tok} : Nests k .postfix a ts → Nests k .postfix (.postinc a) (ts ++ [.inc])
  | postdec {k : Nat} {a : Expr} {ts : List Tok} : Nests k .postfix a ts → Nests k .postfix (.postdec a) (ts ++ [.dec])
  | openCall {k : Nat} {f : Expr} {ts : List Tok} : Nests k .postfix f ts → Nests k .openCall (.call f) (ts ++ [.lpar])
  | firstArg {k l : Nat} {c a : Expr} {ts us : List Tok} : Nests k .openCall c ts → Nests l .assignment a us →
      Nests (max k (l + 1)) .arguments (.arg c a) (ts ++ us)
  | nextArg {k l : Nat} {c a : Expr} {ts us : List Tok} : Nests k .arguments c ts → Nests l .assignment a us →
      Nests (max k (l + 1)) .arguments (.arg c a) (ts ++ .comma :: us)
  | call0 {k : Nat} {c : Expr} {ts : List Tok} : Nests k .openCall c ts → Nests k .postfix c (ts ++ [.rpar])
  | call {k : Nat} {c : Expr} {ts : List Tok} : Nests k .arguments c ts → Nests k .postfix c (ts ++ [.rpar])
  | unaryPrefix (p : Pre) (t : Tok) {k : Nat} {a : Expr} {ts : List Tok} : p.unaryPrefix = some t → Nests k .unary a ts →
      Nests (k + 1) .unary (.pre p a) (t :: ts)
  | unaryOperator (p : Pre) (t : Tok) {k : Nat} {a : Expr} {ts : List Tok} : p.unaryOperator = some t → Nests k .cast a ts →
      Nests (k + 1) .unary (.pre p a) (t :: ts)
  | sizeofType (t : Nat) (s : Bool) : Nests 1 .unary (.sizeofType t s) [.sizeof, .lpar, .ty t s, .rpar]
  | alignofType (t : Nat) (s : Bool) : Nests 1 .unary (.alignofType t s) [.alignof, .lpar, .ty t s, .rpar]
  | cast (t : Nat) (s : Bool) {k : Nat} {a : Expr} {ts : List Tok} : Nests k .cast a ts → Nests (k + 1) .cast (.cast t s a) (.lpar :: .ty t s :: .rpar :: ts)
  | bin (o : BinOp) (m : NT) {k l : Nat} {a b : Expr} {ts us : List Tok} : o.nt.tighter = some m → Nests k o.nt a ts → Nests l m b us →
      Nests (max k (l + 1)) o.nt (.bin o a b) (ts ++ .op o :: us)
  | cond {k l m : Nat} {c a b : Expr} {ts us vs : List Tok} : Nests k .logicalOr c ts → Nests l .expression a us → Nests m .conditional b vs →
      Nests (max k (max (l + 1) (m + 1))) .conditional (.cond c a b) (ts ++ .question :: (us ++ .colon :: vs))
  | assign (o : AssignOp) {k l : Nat} {a b : Expr} {ts us : List Tok} : Nests k .unary a ts → Nests l .assignment b us →
      Nests (max k (l + 1)) .assignment (.assign o a b) (ts ++ .assign o :: us)
  | comma {k l : Nat} {a b : Expr} {ts us : List Tok} : Nests k .expression a ts → Nests l .assignment b us →
      Nests (max k (l + 1)) .expression (.comma a b) (ts ++ .comma :: us)
  | tighter {n : NT} (m : NT) {k : Nat} {e : Expr} {ts : List Tok} : n.tighter = some m → Nests k m e ts → Nests k n e ts

end Verif.Spec.CExpr
