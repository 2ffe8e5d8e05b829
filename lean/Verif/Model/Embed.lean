import Verif.Spec.Embed

/-!
# Model: `#embed`

The directive after the name of the file (/repo/src/preprocess.c 4424–4533), in the tokens of its line. Loading the file and the buffer for the tokens are left out; `limit` is an
error in the code.
-/
namespace Verif.Model.Embed
open Verif.Spec.Embed (Tok Out)

/-- `eat_whitespace_and_comments`. -/
def eat : List Tok → List Tok := List.dropWhile (fun t => decide (t = .whitespace ∨ t = .comment))

structure Parameters where
  prefix_ : List Tok
  suffix_ : List Tok
  ifEmpty : List Tok

/-- What a parameter is for (/repo/src/preprocess.c 4459–4473); no result is an error. -/
def assign (name : String) (tokens : List Tok) (s : Parameters) : Option Parameters :=
  if name = "prefix" ∨ name = "__prefix__" then some { s with prefix_ := tokens }
  else if name = "suffix" ∨ name = "__suffix__" then some { s with suffix_ := tokens }
  else if name = "if_empty" ∨ name = "__if_empty__" then some { s with ifEmpty := tokens }
  else none

/-- The condition of the loop over the tokens of a parameter (/repo/src/preprocess.c 4446). -/
def inside (t : Tok) : Bool := decide (t ≠ .close ∧ t ≠ .newline)

/-- The loop over the parameters (/repo/src/preprocess.c 4433–4474); the first argument bounds the steps. What comes after them is junk. -/
def parameters : Nat → List Tok → Parameters → Option Parameters
  | 0, _, _ => none
  | n + 1, .identifier name :: rest, s =>
    match eat rest with
    | .open_ :: rest =>
      match rest.dropWhile inside with
      | .close :: after =>
        match assign name (rest.takeWhile inside) s with
        | some s => parameters n after s
        | none => none
      | _ => none
    | _ => none
  | _ + 1, _, s => some s

/-- The loops that emit tokens: whitespace and comments are left out. -/
def emit (tokens : List Tok) : List Out := (tokens.filter (fun t => decide (¬(t = .whitespace ∨ t = .comment)))).map .token

/-- The directive (/repo/src/preprocess.c 4424–4533). -/
def embed (line : List Tok) (file : List Nat) : Option (List Out) :=
  match parameters (line.length + 1) (eat line) ⟨[], [], []⟩ with
  | none => none
  | some s => if file ≠ [] then some (emit s.prefix_ ++ [.file file] ++ emit s.suffix_) else some (emit s.ifEmpty)

end Verif.Model.Embed
