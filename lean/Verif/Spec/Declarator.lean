/-!
# Specification: declarators (C11 6.7.6, 6.7.7)

The syntax of declarators and the type that each gives to its name.
-/

namespace Verif.Spec.Declarator

mutual
/-- Types. `base 0` is `void`; the other base types are of no concern. -/
inductive Ty
  | base (b : Nat)
  | ptr (to : Ty)
  /-- `none` is an unknown number of elements -/
  | array (count : Option Nat) (element : Ty)
  | func (ret : Ty) (params : Tys) (variadic : Bool)
deriving DecidableEq, Repr

inductive Tys
  | nil
  | cons (t : Ty) (rest : Tys)
deriving DecidableEq, Repr
end

/-- The tokens. `spec` are declaration specifiers other than a typedef name; `size` is a constant expression with its value;
`other` are all tokens that do not occur in declarators. -/
inductive Tok
  | star
  | qualifier (q : Nat)
  | ident (n : Nat)
  | lparen
  | rparen
  | lbrack
  | rbrack
  | comma
  | dots
  | size (v : Int)
  | spec (b : Nat)
  | other (k : Nat)
deriving DecidableEq, Repr

/-- The specifiers of a parameter. -/
inductive Specs
  | base (b : Nat)
  | typedef (n : Nat)
deriving DecidableEq, Repr

/-- The end of a list of parameters. `trailingComma` is not C, but accepted by the compiler. -/
inductive End
  | plain
  | dots
  | trailingComma
deriving DecidableEq, Repr

mutual
/-- Declarators and abstract declarators. `none` is the absent name of an abstract declarator. -/
inductive Decl
  | none
  | name (n : Nat)
  | ptr (quals : List Nat) (d : Decl)
  | array (size : Option Int) (d : Decl)
  | func (ps : Params) (d : Decl)
  | paren (d : Decl)
deriving Repr

/-- Parameters. -/
inductive Params
  | done (e : End)
  | cons (s : Specs) (d : Decl) (rest : Params)
deriving Repr
end

def Specs.tokens : Specs → List Tok
  | .base b => [.spec b]
  | .typedef n => [.ident n]

def sizeTokens : Option Int → List Tok
  | none => []
  | some v => [.size v]

mutual
/-- How a declarator is written. -/
def Decl.tokens : Decl → List Tok
  | .none => []
  | .name n => [.ident n]
  | .ptr qs d => .star :: (qs.map Tok.qualifier ++ d.tokens)
  | .array n d => d.tokens ++ (.lbrack :: (sizeTokens n ++ [.rbrack]))
  | .func ps d => d.tokens ++ (.lparen :: (ps.tokens ++ [.rparen]))
  | .paren d => .lparen :: (d.tokens ++ [.rparen])

/-- How a list of parameters is written. -/
def Params.tokens : Params → List Tok
  | .done .dots => [.dots]
  | .done _ => []
  | .cons s d rest => s.tokens ++ d.tokens ++ rest.more

/-- The parameters after the first. -/
def Params.more : Params → List Tok
  | .done .plain => []
  | .done .dots => [.comma, .dots]
  | .done .trailingComma => [.comma]
  | .cons s d rest => .comma :: (s.tokens ++ d.tokens ++ rest.more)
end

/-- The declared name. -/
def Decl.ident : Decl → Option Nat
  | .none => Option.none
  | .name n => some n
  | .ptr _ d | .array _ d | .func _ d | .paren d => d.ident

/-- An array of no elements is taken as one of unknown size. -/
def count : Option Int → Option Nat
  | none => none
  | some v => if v = 0 then none else some v.toNat

/-- 6.7.6.3p7 and p8: a parameter of array or function type is a pointer. -/
def adjust : Ty → Ty
  | .array _ e => .ptr e
  | .func r ps v => .ptr (.func r ps v)
  | t => t

def Tys.ofList : List Ty → Tys
  | [] => .nil
  | t :: ts => .cons t (Tys.ofList ts)

/-- 6.7.6.3p10: `(void)` means that there are no parameters. -/
def paramTypes : List (Ty × Option Nat) → Tys
  | [(.base 0, Option.none)] => .nil
  | ps => Tys.ofList (ps.map Prod.fst)

def Params.variadic : Params → Bool
  | .done e => e = .dots
  | .cons _ _ rest => rest.variadic

/-- The type of specifiers; `void` if there is no such typedef. -/
def Specs.type (typedefs : Nat → Option Ty) : Specs → Ty
  | .base b => .base b
  | .typedef n => (typedefs n).getD (.base 0)

mutual
/-- 6.7.6: the type of the name in the declaration `t d`. -/
def typeOf (typedefs : Nat → Option Ty) : Ty → Decl → Ty
  | t, .none => t
  | t, .name _ => t
  | t, .ptr _ d => typeOf typedefs (.ptr t) d
  | t, .array n d => typeOf typedefs (.array (count n) t) d
  | t, .func ps d => typeOf typedefs (.func t (paramTypes (paramList typedefs ps)) ps.variadic) d
  | t, .paren d => typeOf typedefs t d

/-- The types and names of parameters. -/
def paramList (typedefs : Nat → Option Ty) : Params → List (Ty × Option Nat)
  | .done _ => []
  | .cons s d rest => (adjust (typeOf typedefs (s.type typedefs) d), d.ident) :: paramList typedefs rest
end

/-- 6.7.6.2p1: there are no arrays of `void`, of functions, or of arrays of unknown size. -/
def elementOk : Ty → Bool
  | .base 0 => false
  | .array none _ => false
  | .func _ _ _ => false
  | _ => true

/-- 6.7.6.3p1: functions do not return functions or arrays. -/
def returnOk : Ty → Bool
  | .array _ _ => false
  | .func _ _ _ => false
  | _ => true

def sizeOk : Option Int → Bool
  | none => true
  | some v => 0 ≤ v

mutual
/-- The constraints are met in the declaration `t d`. -/
def legal (typedefs : Nat → Option Ty) : Ty → Decl → Bool
  | _, .none => true
  | _, .name _ => true
  | t, .ptr _ d => legal typedefs (.ptr t) d
  | t, .array n d => sizeOk n && elementOk t && legal typedefs (.array (count n) t) d
  | t, .func ps d => legalParams typedefs ps && returnOk t && legal typedefs (.func t (paramTypes (paramList typedefs ps)) ps.variadic) d
  | t, .paren d => legal typedefs t d

def legalParams (typedefs : Nat → Option Ty) : Params → Bool
  | .done _ => true
  | .cons s d rest => legal typedefs (s.type typedefs) d && legalParams typedefs rest
end

/-- Where a declarator stands: in a declaration, as a type name, or in a list of parameters. -/
inductive Mode
  | declaration
  | typeName
  | parameter
deriving DecidableEq, Repr

/-- `direct-declarator` and `direct-abstract-declarator`. -/
def Decl.direct : Decl → Bool
  | .ptr _ _ => false
  | _ => true

/-- The name the declarator begins with. -/
def Decl.leading : Decl → Option Nat
  | .name n => some n
  | .array _ d | .func _ d => d.leading
  | _ => Option.none

/-- 6.7.6.3p11: in a list of parameters, a typedef name after a parenthesis is not the name of the parameter. -/
def leadingOk (typedefs : Nat → Option Ty) : Mode → Decl → Bool
  | .parameter, d => match d.leading with
    | some n => (typedefs n).isNone
    | Option.none => true
  | _, _ => true

def Decl.isNone : Decl → Bool
  | .none => true
  | _ => false

mutual
/-- The declarator can be written at the given place (6.7.6p1, 6.7.7p1). -/
def wellFormed (typedefs : Nat → Option Ty) (m : Mode) : Decl → Bool
  | .none => m != .declaration
  | .name _ => m != .typeName
  | .ptr _ d => wellFormed typedefs m d
  | .array _ d => d.direct && wellFormed typedefs m d
  | .func ps d => d.direct && wellFormed typedefs m d && wellFormedParams typedefs ps
  | .paren d => !d.isNone && leadingOk typedefs m d && wellFormed typedefs m d

def wellFormedParams (typedefs : Nat → Option Ty) : Params → Bool
  | .done e => e != .trailingComma
  | .cons s d rest => specsOk typedefs s && wellFormed typedefs .parameter d && wellFormedRest typedefs rest

def wellFormedRest (typedefs : Nat → Option Ty) : Params → Bool
  | .done _ => true
  | .cons s d rest => specsOk typedefs s && wellFormed typedefs .parameter d && wellFormedRest typedefs rest

def specsOk (typedefs : Nat → Option Ty) : Specs → Bool
  | .base _ => true
  | .typedef n => (typedefs n).isSome
end

/-- The tokens cannot continue a declarator. -/
def stops : List Tok → Bool
  | .star :: _ | .qualifier _ :: _ | .ident _ :: _ | .lparen :: _ | .lbrack :: _ => false
  | _ => true

end Verif.Spec.Declarator
