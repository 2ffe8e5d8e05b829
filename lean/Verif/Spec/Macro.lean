/-!
# Specification: replacement of macros

C11 6.10.3 for sequences of preprocessing tokens without `#` and `##`. A replacement list is scanned again
while the name of its macro is hidden; a hidden name that is found is not replaced, and it is never
replaced later. The arguments of a macro are replaced completely before they are substituted. If the
replacement of a macro ends with the name of a function-like macro, its arguments may follow after the
replaced macro; it is then replaced there (C leaves open whether such a replacement is nested).
-/
namespace Verif.Spec.Macro

inductive Token
  | ident (m : Nat)
  /-- an identifier that is not available for replacement any more -/
  | fixed (m : Nat)
  | lparen
  | rparen
  | comma
  | other (n : Nat)
deriving DecidableEq, Repr

/-- An element of a replacement list. -/
inductive Item
  | tok (t : Token)
  | param (i : Nat)
deriving DecidableEq, Repr

/-- A macro. `params` is `none` for object-like macros, and the number of parameters otherwise. `...` counts as a parameter. -/
structure Macro where
  params : Option Nat := none
  variadic : Bool := false
  body : List Item
deriving DecidableEq, Repr

/-- Is it a function-like macro? -/
def Macro.function (d : Macro) : Bool := d.params.isSome

/-- Does the list start with `(`? -/
def starts : List Token → Bool
  | .lparen :: _ => true
  | _ => false

/-- Is it a parenthesis? -/
def Token.paren : Token → Bool
  | .lparen => true
  | .rparen => true
  | _ => false

/-- Sequences of tokens with balanced parentheses. -/
inductive Balanced : List Token → Prop
  | nil : Balanced []
  | token {t : Token} {ts : List Token} : t.paren = false → Balanced ts → Balanced (t :: ts)
  | parens {a b : List Token} : Balanced a → Balanced b → Balanced (.lparen :: a ++ .rparen :: b)

/-- Sequences of tokens with balanced parentheses and all commas inside of parentheses. -/
inductive Argument : List Token → Prop
  | nil : Argument []
  | token {t : Token} {ts : List Token} : t.paren = false → t ≠ .comma → Argument ts → Argument (t :: ts)
  | parens {a b : List Token} : Balanced a → Argument b → Argument (.lparen :: a ++ .rparen :: b)

/-- The arguments with commas between them. -/
def join : List (List Token) → List Token
  | [] => []
  | [a] => a
  | a :: as => a ++ .comma :: join as

/-- `inside` are the tokens between the parentheses, and `args` are the arguments for the parameters of `d`. -/
inductive Arguments (d : Macro) : List Token → List (List Token) → Prop
  | none : d.params = some 0 → Arguments d [] []
  | plain (args : List (List Token)) : d.params = some args.length → args ≠ [] → d.variadic = false → (∀ a ∈ args, Argument a) → Arguments d (join args) args
  | variadic (args : List (List Token)) (last : List Token) : d.params = some (args.length + 1) → d.variadic = true → (∀ a ∈ args, Argument a) → Balanced last →
      Arguments d (join (args ++ [last])) (args ++ [last])
  /-- nothing for `...`; C23 and most compilers allow this -/
  | omitted (args : List (List Token)) : d.params = some (args.length + 1) → args ≠ [] → d.variadic = true → (∀ a ∈ args, Argument a) → Arguments d (join args) (args ++ [[]])

/-- Replaces the parameters. -/
def subst (body : List Item) (e : Nat → List Token) : List Token :=
  body.flatMap fun
    | .tok t => [t]
    | .param i => e i

/-- The replacement list of a macro without parameters. -/
def Macro.tokens (d : Macro) : List Token := subst d.body fun _ => []

/-- Is it the name of a macro that can be replaced? -/
def Token.macro (defs : Nat → Option Macro) : Token → Bool
  | .ident m => (defs m).isSome
  | _ => false

/-- `Scan defs strict arg hidden ts out last`: while the macros `hidden` are hidden, `ts` is replaced by
`out`, followed by `last`. `last` is empty, or the name of a function-like macro at the very end, whose
arguments may follow.

`arg` says whether the tokens are in an argument. If `strict` holds, then one case is left out: a hidden
name of a function-like macro in an argument, which is not followed by `(`. The rules of C are those with
`strict = false`. -/
inductive Scan (defs : Nat → Option Macro) (strict : Bool) : Bool → List Nat → List Token → List Token → List Token → Prop
  | nil {arg : Bool} {hidden : List Nat} : Scan defs strict arg hidden [] [] []
  /-- a token that is not the name of a macro -/
  | token {arg : Bool} {hidden : List Nat} {t : Token} {ts out last : List Token} : t.macro defs = false → Scan defs strict arg hidden ts out last → Scan defs strict arg hidden (t :: ts) (t :: out) last
  /-- the name of a hidden macro -/
  | hidden {arg : Bool} {hidden : List Nat} {m : Nat} {d : Macro} {ts out last : List Token} : defs m = some d → m ∈ hidden →
      (strict = true → arg = true → d.function = true → starts ts = true) →
      Scan defs strict arg hidden ts out last → Scan defs strict arg hidden (.ident m :: ts) (.fixed m :: out) last
  /-- the name of a function-like macro without arguments -/
  | noCall {arg : Bool} {hidden : List Nat} {m : Nat} {d : Macro} {ts out last : List Token} : defs m = some d → m ∉ hidden → d.function = true → ts ≠ [] → starts ts = false →
      Scan defs strict arg hidden ts out last → Scan defs strict arg hidden (.ident m :: ts) (.ident m :: out) last
  /-- the name of a function-like macro at the end -/
  | last {arg : Bool} {hidden : List Nat} {m : Nat} {d : Macro} : defs m = some d → m ∉ hidden → d.function = true → Scan defs strict arg hidden [.ident m] [] [.ident m]
  /-- an object-like macro -/
  | object {arg : Bool} {hidden : List Nat} {m : Nat} {d : Macro} {ts out last out' last' : List Token} : defs m = some d → m ∉ hidden → d.function = false →
      Scan defs strict arg (m :: hidden) d.tokens out last → Scan defs strict arg hidden (last ++ ts) out' last' → Scan defs strict arg hidden (.ident m :: ts) (out ++ out') last'
  /-- a function-like macro with its arguments -/
  | call {arg : Bool} {hidden : List Nat} {m : Nat} {d : Macro} {inside rest out last out' last' : List Token} {args : List (List Token)} {outs lasts : Nat → List Token} : defs m = some d → m ∉ hidden →
      Arguments d inside args →
      (∀ i, Item.param i ∈ d.body → Scan defs strict true hidden (args.getD i []) (outs i) (lasts i)) →
      Scan defs strict arg (m :: hidden) (subst d.body fun i => outs i ++ lasts i) out last →
      Scan defs strict arg hidden (last ++ rest) out' last' →
      Scan defs strict arg hidden (.ident m :: .lparen :: inside ++ .rparen :: rest) (out ++ out') last'

/-- Forgets that an identifier is not available any more. -/
def Token.erase : Token → Token
  | .fixed m => .ident m
  | t => t

/-- `source` is replaced by `out`. -/
def Replaces (defs : Nat → Option Macro) (strict : Bool) (source out : List Token) : Prop := ∃ o last, Scan defs strict false [] source o last ∧ out = (o ++ last).map Token.erase

/-- All parentheses in the replacement list are balanced. -/
def Macro.balanced (d : Macro) : Prop := Balanced d.tokens

end Verif.Spec.Macro
