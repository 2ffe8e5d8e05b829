/-!
# Specification: `#embed`

C23 6.10.4: `#embed "file"` and parameters. `prefix(...)` and `suffix(...)` are tokens before and after the contents of the file, unless it is empty; `if_empty(...)` are the tokens
for an empty file. The tokens can have parentheses that match. The names can have two underscores before and after them. Every parameter appears at most once.
-/
namespace Verif.Spec.Embed

/-- Tokens of the preprocessor. -/
inductive Tok
  | whitespace
  | comment
  | identifier (name : String)
  | open_
  | close
  | newline
  | other (n : Nat)
deriving DecidableEq, Repr

/-- What is between tokens. -/
def Gap (l : List Tok) : Prop := ∀ t ∈ l, t = .whitespace ∨ t = .comment

inductive Kind
  | prefix_
  | suffix_
  | ifEmpty
deriving DecidableEq, Repr

def Spells (name : String) : Kind → Prop
  | .prefix_ => name = "prefix" ∨ name = "__prefix__"
  | .suffix_ => name = "suffix" ∨ name = "__suffix__"
  | .ifEmpty => name = "if_empty" ∨ name = "__if_empty__"

/-- A parameter as it is written: what is before the name, the name, what is between the name and the parenthesis, the tokens. -/
structure Parameter where
  before : List Tok
  name : String
  between : List Tok
  tokens : List Tok
  kind : Kind

/-- Tokens on a line whose parentheses match ("pp-balanced-token-sequence"), inside of so many of them. -/
def balanced : Nat → List Tok → Bool
  | d, [] => decide (d = 0)
  | d, .open_ :: rest => balanced (d + 1) rest
  | d + 1, .close :: rest => balanced d rest
  | 0, .close :: _ => false
  | _, .newline :: _ => false
  | d, _ :: rest => balanced d rest

structure Written (p : Parameter) : Prop where
  before : Gap p.before
  between : Gap p.between
  spells : Spells p.name p.kind
  tokens : balanced 0 p.tokens = true

def write (p : Parameter) : List Tok := p.before ++ [.identifier p.name] ++ p.between ++ [.open_] ++ p.tokens ++ [.close]

/-- What the directive is replaced by: tokens, and the bytes of the file. -/
inductive Out
  | token (t : Tok)
  | file (bytes : List Nat)
deriving DecidableEq, Repr

/-- The tokens of a parameter. -/
def tokensOf (k : Kind) (ps : List Parameter) : List Out :=
  ((ps.filter (fun p => decide (p.kind = k))).flatMap (fun p => p.tokens.filter (fun t => decide (t ≠ .whitespace ∧ t ≠ .comment)))).map .token

def replaced (ps : List Parameter) (file : List Nat) : List Out :=
  if file = [] then tokensOf .ifEmpty ps else tokensOf .prefix_ ps ++ [.file file] ++ tokensOf .suffix_ ps

end Verif.Spec.Embed
