import Verif.Spec.Macro

/-!
# Model: macro expansion

The token stack (`src/preprocess.c:123-200`), `expand_define` (`src/preprocess.c:1830-2504`) and the two loops
that scan for macros: the one of the preprocessor (`src/preprocess.c:3479-3510`) and the one for arguments
(`src/preprocess.c:2240-2299`).

White space, comments and newlines are left out, as are `#` and `##`, the builtin macros and directives. (In an
object-like macro, `##` makes the same tokens each time; `body` is then the list with these tokens.) An
error ends the model. The nodes that `expand_define` pushes for the parts of one replacement list are one
node here; only the lowest of them enables the macro again. The recursion of the argument expansion is not
bounded by the C code; `scan` has a bound `fuel` for it and for the number of tokens, and is `none` if the
bound is reached.
-/
namespace Verif.Macro
open Verif.Spec.Macro

/-- `struct token_stack_node`: the tokens from `at` on, and the macro that is enabled at the end, `src/main.c:717-723`. -/
structure Node where
  tokens : List Token
  reenable : Option Nat
deriving DecidableEq, Repr

/-- The top of the stack is the head. `blocked_size` is modelled by scanning arguments with a stack of their own. -/
abbrev Stack := List Node

/-- The flags `is_disabled`. -/
abbrev Disabled := Nat → Bool

/-- `define->is_disabled = true`, `src/preprocess.c:2492`. -/
def disable (dis : Disabled) (m : Nat) : Disabled := fun x => if x = m then true else dis x

/-- `define_to_reenable_on_exit->is_disabled = false`, `src/preprocess.c:147-148`. -/
def enable (dis : Disabled) : Option Nat → Disabled
  | none => dis
  | some m => fun x => if x = m then false else dis x

/-- The loop of `get_current_token_raw`: pops the nodes that have no tokens left, `src/preprocess.c:142-161`. -/
def settle : Stack → Disabled → Stack × Disabled
  | [], dis => ([], dis)
  | ⟨[], re⟩ :: below, dis => settle below (enable dis re)
  | ⟨t :: ts, re⟩ :: below, dis => (⟨t :: ts, re⟩ :: below, dis)

/-- `peek_token_raw(context, TOKEN_open_paren)`, `src/preprocess.c:186-192`. -/
def peekParen : Stack → Bool
  | ⟨ts, _⟩ :: _ => starts ts
  | [] => false

/-- What the collection of arguments has found so far: `paren_depth`, the arguments that are complete, and
the tokens of the current one, `src/preprocess.c:2046-2052`. -/
structure Gather where
  depth : Nat
  done : List (List Token)
  cur : List Token
deriving DecidableEq, Repr

/-- The result of looking at one more token. -/
inductive Feed
  | more (g : Gather)
  | fin (args : List (List Token))
  | bad
deriving DecidableEq, Repr

/-- The token becomes part of the current argument, `src/preprocess.c:2201-2203`. -/
def Gather.add (g : Gather) (t : Token) : Gather := { g with cur := g.cur ++ [t] }

/-- One more token for a macro without parameters, `src/preprocess.c:1974-1985`. -/
def feedNone (t : Token) : Feed := if t = .rparen then .fin [] else .bad

/-- One more token for a macro with an empty replacement list, `src/preprocess.c:1987-2013`. -/
def feedSkip (g : Gather) : Token → Feed
  | .lparen => .more { g with depth := g.depth + 1 }
  | .rparen => if g.depth = 1 then .fin [] else .more { g with depth := g.depth - 1 }
  | _ => .more g

/-- One more token for all other macros, `src/preprocess.c:2058-2135`. -/
def feedArg (d : Macro) (g : Gather) : Token → Feed
  | .comma =>
    if g.depth = 1 then
      if g.done.length + 1 < d.params.getD 0 then .more { g with done := g.done ++ [g.cur], cur := [] }
      else if d.variadic then .more (g.add .comma) else .bad
    else .more (g.add .comma)
  | .lparen => .more { g.add .lparen with depth := g.depth + 1 }
  | .rparen =>
    if g.depth = 1 then
      if g.done.length + 1 = d.params.getD 0 then .fin (g.done ++ [g.cur])
      else if d.variadic && g.done.length + 2 = d.params.getD 0 then .fin (g.done ++ [g.cur] ++ [[]])
      else .bad
    else .more { g.add .rparen with depth := g.depth - 1 }
  | t => .more (g.add t)

/-- Looks at one more token while arguments are collected. -/
def feed (d : Macro) (g : Gather) (t : Token) : Feed :=
  if d.params.getD 0 = 0 then feedNone t else if d.body = [] then feedSkip g t else feedArg d g t

/-- The result of looking at all tokens of one node. -/
inductive Gathered
  | more (g : Gather)
  | fin (args : List (List Token)) (rest : List Token)
  | bad
deriving DecidableEq, Repr

/-- Collects arguments from the tokens of one node. -/
def gather (d : Macro) : Gather → List Token → Gathered
  | g, [] => .more g
  | g, t :: ts =>
    match feed d g t with
    | .more g => gather d g ts
    | .fin args => .fin args ts
    | .bad => .bad

/-- The result of collecting arguments. -/
inductive Collected
  | fin (args : List (List Token)) (stack : Stack) (dis : Disabled)
  | error

/-- Collects arguments from the stack; nodes without tokens are popped and their macros enabled. -/
def collect (d : Macro) : Gather → Stack → Disabled → Collected
  | _, [], _ => .error
  | g, ⟨ts, re⟩ :: below, dis =>
    match gather d g ts with
    | .more g => collect d g below (enable dis re)
    | .fin args rest => .fin args (⟨rest, re⟩ :: below) dis
    | .bad => .error

/-- The result of a scan. -/
inductive Result
  | ok (out : List Token) (dis : Disabled)
  | error

/-- One more token in front. -/
def Result.cons (t : Token) : Result → Result
  | .ok out dis => .ok (t :: out) dis
  | .error => .error

/-- Expands the arguments from number `i` on, `src/preprocess.c:2220-2310`. -/
def expandArgs (scanArg : List Token → Disabled → Option Result) (d : Macro) : Nat → List (List Token) → Disabled → Option (Option (List (List Token) × Disabled))
  | _, [], dis => some (some ([], dis))
  | i, a :: as, dis =>
    if .param i ∈ d.body then
      match scanArg a dis with
      | none => none
      | some .error => some none
      | some (.ok out dis) =>
        match expandArgs scanArg d (i + 1) as dis with
        | none => none
        | some none => some none
        | some (some (outs, dis)) => some (some (out :: outs, dis))
    else
      match expandArgs scanArg d (i + 1) as dis with
      | none => none
      | some none => some none
      | some (some (outs, dis)) => some (some ([] :: outs, dis))

/-- Pushes the replacement list and disables the macro, `src/preprocess.c:2316-2501`. -/
def push (m : Nat) (d : Macro) (args : List (List Token)) (stack : Stack) (dis : Disabled) : Stack × Disabled :=
  if d.body = [] then (stack, dis) else (⟨subst d.body fun i => args.getD i [], some m⟩ :: stack, disable dis m)

/-- `expand_define`; `none` if `scanArg` reaches its bound, `some none` for an error. -/
def expand (scanArg : List Token → Disabled → Option Result) (m : Nat) (d : Macro) (stack : Stack) (dis : Disabled) : Option (Option (Stack × Disabled)) :=
  if d.function then
    match stack with
    | ⟨_ :: ts, re⟩ :: below =>
      match collect d ⟨1, [], []⟩ (⟨ts, re⟩ :: below) dis with
      | .error => some none
      | .fin args stack dis =>
        match expandArgs scanArg d 0 args dis with
        | none => none
        | some none => some none
        | some (some (outs, dis)) => some (some (push m d outs stack dis))
    | _ => some none
  else some (some (push m d [] stack dis))

/-- What to do with the token that was just read. -/
inductive Decision
  | emit (t : Token) (stack : Stack) (dis : Disabled)
  | expand (m : Nat) (d : Macro) (stack : Stack) (dis : Disabled)

/-- The two loops: with `arg = false`, `src/preprocess.c:3488-3510`, with `arg = true`, `src/preprocess.c:2244-2290`. `stack` is the stack after the token. -/
def decideToken (defs : Nat → Option Macro) (arg : Bool) (t : Token) (stack : Stack) (dis : Disabled) : Decision :=
  match t with
  | .ident m =>
    match defs m with
    | none => .emit t stack dis
    | some d =>
      if arg then
        if d.function then
          let s := settle stack dis
          if peekParen s.1 then
            if s.2 m then .emit (.fixed m) s.1 s.2 else .expand m d s.1 s.2
          else .emit t s.1 s.2
        else if dis m then .emit (.fixed m) stack dis
        else .expand m d stack dis
      else
        if dis m then .emit t stack dis
        else if d.function then
          let s := settle stack dis
          if peekParen s.1 then .expand m d s.1 s.2 else .emit t s.1 s.2
        else .expand m d stack dis
  | t => .emit t stack dis

/-- Scans until the stack is empty. -/
def scan (defs : Nat → Option Macro) : Nat → Bool → Stack → Disabled → Option Result
  | 0, _, _, _ => none
  | fuel + 1, arg, stack, dis =>
    match settle stack dis with
    | (⟨t :: ts, re⟩ :: below, dis) =>
      match decideToken defs arg t (⟨ts, re⟩ :: below) dis with
      | .emit t stack dis => (scan defs fuel arg stack dis).map (Result.cons t)
      | .expand m d stack dis =>
        match expand (fun a dis => scan defs fuel true [⟨a, none⟩] dis) m d stack dis with
        | none => none
        | some none => some .error
        | some (some (stack, dis)) => scan defs fuel arg stack dis
    | (_, dis) => some (.ok [] dis)

/-- The result of preprocessing a file without directives: the tokens, with the names that must not be
expanded again turned into identifiers, `src/preprocess.c:3607-3611`; `none` for an error. -/
def Result.tokens : Result → Option (List Token)
  | .ok out _ => some (out.map Token.erase)
  | .error => none

/-- Preprocesses a file with the macros `defs`. -/
def preprocess (defs : Nat → Option Macro) (fuel : Nat) (source : List Token) : Option (Option (List Token)) :=
  (scan defs fuel false [⟨source, none⟩] fun _ => false).map Result.tokens

end Verif.Macro
