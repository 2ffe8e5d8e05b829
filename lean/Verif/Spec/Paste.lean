/-!
# Specification: the operator `##`

C11 6.10.3.3: before a replacement list is scanned again, each `##` joins the token before it with the token
after it. Parameters next to `##` are replaced by their arguments without expansion, and an empty argument
counts as a placemarker, which disappears when it is joined. `##` is taken from left to right. In
addition there is the extension that a comma joined with an empty argument disappears.

A replacement list is a list of chains `a ## b ## ... ## c`; most chains are a single operand.
-/
namespace Verif.Spec.Paste

inductive Operand (τ : Type)
  | tok (t : τ)
  | param (i : Nat)
  /-- `#` and a parameter -/
  | str (i : Nat)
deriving DecidableEq, Repr

structure Chain (τ : Type) where
  first : Operand τ
  rest : List (Operand τ)
deriving DecidableEq, Repr

/-- The arguments: as written, after expansion, and as a string literal. -/
structure Args (τ : Type) where
  raw : Nat → List τ
  expanded : Nat → List τ
  string : Nat → τ

/-- `tokenize ts` are the tokens of the spellings of `ts`, without anything in between. -/
structure Lang (τ : Type) where
  tokenize : List τ → List τ
  comma : τ → Bool

variable {τ : Type}

/-- An operand of `##`; `none` is a placemarker. -/
def operand (a : Args τ) : Operand τ → List (Option τ)
  | .tok t => [some t]
  | .str i => [some (a.string i)]
  | .param i => match a.raw i with
    | [] => [none]
    | t :: ts => some t :: ts.map some

/-- Joins two tokens. -/
def pair (L : Lang τ) : Option τ → Option τ → List (Option τ)
  | some x, some y => (L.tokenize [x, y]).map some
  | some x, none => if L.comma x then [none] else [some x]
  | none, y => [y]

/-- Joins the last element of `l` with the first one of `r`. -/
def glue (L : Lang τ) (l r : List (Option τ)) : List (Option τ) :=
  match l.getLast?, r with
  | some x, y :: r => l.dropLast ++ pair L x y ++ r
  | none, r => r
  | some _, [] => l

/-- The value of `first ## rest₀ ## rest₁ ...`. -/
def value (L : Lang τ) (a : Args τ) (first : Operand τ) (rest : List (Operand τ)) : List (Option τ) :=
  rest.foldl (fun l o => glue L l (operand a o)) (operand a first)

/-- The tokens for a chain. -/
def Chain.tokens (L : Lang τ) (a : Args τ) (c : Chain τ) : List τ :=
  match c.rest, c.first with
  | [], .tok t => [t]
  | [], .str i => [a.string i]
  | [], .param i => a.expanded i
  | _ :: _, _ => (value L a c.first c.rest).filterMap id

/-- The tokens for a replacement list. -/
def result (L : Lang τ) (a : Args τ) (body : List (Chain τ)) : List τ := body.flatMap (Chain.tokens L a)

/-- The tokens after `#define name(parameters)`, as they are written; `param` is the name of a parameter. -/
inductive Raw (τ : Type)
  | tok (t : τ)
  | param (i : Nat)
  | hash
  | hashhash
deriving DecidableEq, Repr

def Operand.written : Operand τ → List (Raw τ)
  | .tok t => [.tok t]
  | .param i => [.param i]
  | .str i => [.hash, .param i]

def Chain.written (c : Chain τ) : List (Raw τ) := c.first.written ++ c.rest.flatMap fun o => .hashhash :: o.written

/-- How a replacement list is written. -/
def written (body : List (Chain τ)) : List (Raw τ) := body.flatMap Chain.written

end Verif.Spec.Paste
