/-!
# Specification: the replacement list of a macro

C11 6.10.3: in the replacement list of a function-like macro, `#` and a parameter is a string, a parameter next to `##` is replaced by the argument as it is written, any other parameter by the
expanded argument. `##` is neither first nor last, and in a function-like macro `#` is followed by a parameter. In an object-like macro `#` is a token like others.
-/
namespace Verif.Spec.Define

/-- Tokens without whitespace and comments; identifiers are numbers. -/
inductive Tok
  | identifier (n : Nat)
  | hash
  | hashhash
  | other (n : Nat)
deriving DecidableEq, Repr

/-- What is in a replacement list; parameters are counted from 0. -/
inductive Element
  | plain (t : Tok)
  | expanded (parameter : Nat)
  | written (parameter : Nat)
  | string (parameter : Nat)
  | paste
deriving DecidableEq, Repr

/-- The elements of a list of tokens; `after` is whether the token before is `##`. No result is an error. -/
def elements (functionLike : Bool) (parameters : List Nat) : Bool → List Tok → Option (List Element)
  | _, [] => some []
  | after, .identifier n :: rest =>
    match parameters.idxOf? n with
    | none => (elements functionLike parameters false rest).map (.plain (.identifier n) :: ·)
    | some a => (elements functionLike parameters false rest).map ((if after = true ∨ rest.head? = some .hashhash then .written a else .expanded a) :: ·)
  | _, .other k :: rest => (elements functionLike parameters false rest).map (.plain (.other k) :: ·)
  | _, .hashhash :: rest => if rest = [] then none else (elements functionLike parameters true rest).map (.paste :: ·)
  | _, .hash :: .identifier n :: rest =>
    if functionLike = true then
      match parameters.idxOf? n with
      | none => none
      | some a => (elements functionLike parameters false rest).map (.string a :: ·)
    else (elements functionLike parameters false (.identifier n :: rest)).map (.plain .hash :: ·)
  | _, .hash :: rest => if functionLike = true then none else (elements functionLike parameters false rest).map (.plain .hash :: ·)

/-- The replacement list. -/
def replacement (functionLike : Bool) (parameters : List Nat) (l : List Tok) : Option (List Element) :=
  if l.head? = some .hashhash then none else elements functionLike parameters false l

/-- Tokens of a list of parameters. -/
inductive ParameterTok
  | space
  | identifier (n : Nat)
  | dots
  | comma
  | open_
  | close
  | other (n : Nat)
deriving DecidableEq, Repr

/-- A parameter or `...`, with the whitespace and comments around it. -/
structure Written where
  before : Nat
  tok : ParameterTok
  after : Nat

def writeOne (w : Written) : List ParameterTok := List.replicate w.before .space ++ [w.tok] ++ List.replicate w.after .space

/-- Parameters with commas between them. -/
def writeList : List Written → List ParameterTok
  | [] => []
  | [w] => writeOne w
  | w :: ws => writeOne w ++ [.comma] ++ writeList ws

/-- Identifiers; the last one can be `...`. -/
def parametersOf (vaArgs : Nat) : List Written → Option (List Nat)
  | [] => some []
  | [w] => match w.tok with
    | .identifier n => some [n]
    | .dots => some [vaArgs]
    | _ => none
  | w :: ws => match w.tok with
    | .identifier n => (parametersOf vaArgs ws).map (n :: ·)
    | _ => none

/-- After `##` there is neither `#` nor `##`. -/
def Separate (l : List Tok) : Prop := ∀ a t b, l = a ++ .hashhash :: t :: b → t ≠ .hash ∧ t ≠ .hashhash

/-- The identifiers of a list of parameters. -/
def named (ws : List Written) : List Nat := ws.filterMap (fun w => match w.tok with | .identifier n => some n | _ => none)

end Verif.Spec.Define
