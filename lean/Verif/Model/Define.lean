import Verif.Spec.Define

/-!
# Model: the replacement list of a macro

`#define`, after the parameters (/repo/src/preprocess.c 3977–4114). Whitespace and comments are left out: the code eats them before the list and after every token (3979, 4007, 4114).
The arguments that are stringified are in the order of their `stringify_index`.
-/
namespace Verif.Model.Define
open Verif.Spec.Define (Tok ParameterTok)

/-- `struct define_replacement_node`. -/
inductive Node
  | tokens (l : List Tok)
  | argument (a : Nat)
  | hash (stringifyIndex : Nat)
  | hashhash (prefixArgument : Option Nat) (postfixToken : Tok) (postfixArgument : Option Nat)
deriving DecidableEq, Repr

/-- `postfix_argument` (/repo/src/preprocess.c 4029–4034, 4081–4087). -/
def postfixArgument (parameters : List Nat) : Tok → Option Nat
  | .identifier n => parameters.idxOf? n
  | _ => none

/-- A token that is not special (/repo/src/preprocess.c 4091–4125). -/
def addToken (nodes : List Node) (t : Tok) : List Node :=
  match nodes.getLast? with
  | some (.tokens ts) => nodes.dropLast ++ [.tokens (ts ++ [t])]
  | _ => nodes ++ [.tokens [t]]

/-- `stringify_index` (/repo/src/preprocess.c 4062). -/
def stringify (order : List Nat) (a : Nat) : Nat × List Nat := if a ∈ order then (order.idxOf a, order) else (order.length, order ++ [a])

/-- The loop over the tokens (/repo/src/preprocess.c 3997–4134); the first argument bounds the steps. No result is an error. -/
def body (parameters : List Nat) : Nat → List Tok → List Node → List Nat → Option (List Node × List Nat)
  | 0, _, _, _ => none
  | _ + 1, [], nodes, order => some (nodes, order)
  | n + 1, .identifier i :: rest, nodes, order =>
    match parameters.idxOf? i with
    | none => body parameters n rest (addToken nodes (.identifier i)) order
    | some a =>
      match rest with
      | [.hashhash] => none
      | .hashhash :: t :: rest => body parameters n rest (nodes ++ [.hashhash (some a) t (postfixArgument parameters t)]) order
      | rest => body parameters n rest (nodes ++ [.argument a]) order
  | n + 1, .hash :: rest, nodes, order =>
    match rest with
    | .identifier i :: rest =>
      match parameters.idxOf? i with
      | none => none
      | some a => body parameters n rest (nodes ++ [.hash (stringify order a).1]) (stringify order a).2
    | _ => none
  | n + 1, .hashhash :: rest, nodes, order =>
    match rest with
    | [] => none
    | t :: rest => body parameters n rest (nodes ++ [.hashhash none t (postfixArgument parameters t)]) order
  | n + 1, .other k :: rest, nodes, order => body parameters n rest (addToken nodes (.other k)) order

/-- The replacement list (/repo/src/preprocess.c 3979–4134). -/
def define (parameters : List Nat) (l : List Tok) : Option (List Node × List Nat) :=
  match l with
  | .hashhash :: _ => none
  | l => body parameters (l.length + 1) l [] []

/-- `eat_whitespace_and_comments`. -/
def eat : List ParameterTok → List ParameterTok := List.dropWhile (fun t => decide (t = .space))

/-- The loop over the parameters (/repo/src/preprocess.c 3934–3975); the first argument bounds the steps. `vaArgs` is `__VA_ARGS__`. No result is an error. -/
def parameterLoop (vaArgs : Nat) : Nat → List ParameterTok → List Nat → Option (List Nat × List ParameterTok)
  | 0, _, _ => none
  | n + 1, l, arguments =>
    match eat l with
    | .dots :: rest => some (arguments ++ [vaArgs], eat rest)
    | .identifier i :: rest =>
      if i ∈ arguments then none
      else
        match eat rest with
        | .comma :: rest => parameterLoop vaArgs n rest (arguments ++ [i])
        | rest => some (arguments ++ [i], rest)
    | _ => none

/-- The parameters after the name of the macro (/repo/src/preprocess.c 3927–3977): whether the macro is function-like, the parameters, the rest of the line. -/
def parameters (vaArgs : Nat) (l : List ParameterTok) : Option (Bool × List Nat × List ParameterTok) :=
  match l with
  | .open_ :: rest =>
    match eat rest with
    | .close :: rest => some (true, [], rest)
    | rest =>
      match parameterLoop vaArgs (rest.length + 1) rest [] with
      | some (arguments, .close :: rest) => some (true, arguments, rest)
      | _ => none
  | l => some (false, [], l)

end Verif.Model.Define
