import Verif.Spec.Stringize

/-!
# Model: the operator `#`

The part of `expand_define` that makes a string literal of each argument that needs one while the arguments are
collected (`src/preprocess.c:2041-2206`).

White space, comments and newlines are one kind of token. The bytes that are pushed to the arena are a list; nothing
else is pushed to the arena in between.
-/
namespace Verif.Stringize
open Verif.Spec.Stringize

/-- What `#define` found: the number of parameters (`...` included), `is_varargs`, and `stringify_index` of each
parameter (`none` is `-1`), `src/preprocess.c:3930-3970,4066`. -/
structure Config where
  params : Nat
  variadic : Bool
  index : Nat → Option Nat

/-- The variables of the loop, `src/preprocess.c:2046-2056`. `text` are the bytes from `argument_stringified_start` on;
`eating` says that `eat_whitespace_comments_and_newlines` was just called. `strings` is `stringified_arguments`; `none` are
entries that are not initialized. -/
structure State where
  depth : Nat
  arg : Nat
  text : List Char
  lastSpace : Bool
  eating : Bool
  strings : Nat → Option (List Char)

/-- A quote is pushed at the beginning, `src/preprocess.c:2041-2056`. -/
def start : State := ⟨1, 0, ['"'], false, true, fun _ => none⟩

/-- The end of an argument: the closing quote, `src/preprocess.c:2069-2076,2106-2109`. -/
def State.close (c : Config) (s : State) : State :=
  match c.index s.arg with
  | none => s
  | some k => { s with text := ['"'], strings := fun x => if x = k then some (s.text ++ ['"']) else s.strings x }

/-- A token becomes part of the argument, `src/preprocess.c:2135-2206`. -/
def State.add (c : Config) (s : State) (t : Tok) : State :=
  { s with
    text := match c.index s.arg with
      | none => s.text
      | some _ => if t.isSpace then s.text else s.text ++ (if s.lastSpace then [' '] else []) ++ t.spell ['\'', '"', '\\']
    lastSpace := t.isSpace
    eating := false }

inductive Out
  | more (s : State)
  | fin (s : State)
  | bad

/-- One token, `src/preprocess.c:2058-2133`. -/
def step (c : Config) (s : State) (t : Tok) : Out :=
  if s.eating && t.isSpace then .more s
  else match t with
  | .comma =>
    if s.depth = 1 then
      if s.arg + 1 < c.params then .more { s.close c with arg := s.arg + 1, lastSpace := false, eating := true }
      else if c.variadic then .more (s.add c .comma) else .bad
    else .more (s.add c .comma)
  | .lparen => .more ({ s with depth := s.depth + 1 }.add c .lparen)
  | .rparen =>
    if s.depth = 1 then
      if s.arg + 1 < c.params then
        if c.variadic && s.arg + 2 = c.params then .fin (s.close c) else .bad
      else .fin (s.close c)
    else .more ({ s with depth := s.depth - 1 }.add c .rparen)
  | t => .more (s.add c t)

/-- The result of collecting the arguments. -/
inductive Result
  | fin (strings : Nat → Option (List Char)) (rest : List Tok)
  | error

/-- The loop. -/
def run (c : Config) : State → List Tok → Result
  | _, [] => .error
  | s, t :: ts =>
    match step c s t with
    | .more s => run c s ts
    | .fin s => .fin s.strings ts
    | .bad => .error

end Verif.Stringize
