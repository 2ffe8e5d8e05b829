import Verif.Spec.Paste

/-!
# Model: the operator `##`

How `#define` turns a replacement list into replacement nodes (`src/preprocess.c:3990-4150`), and how
`expand_define` turns these into nodes of the token stack (`src/preprocess.c:2316-2475`).

White space is left out; the code skips it everywhere. The token stack is a list with the newest node first;
only the nodes of the macro that is expanded are in it.
-/
namespace Verif.Paste
open Verif.Spec.Paste

/-- `struct define_replacement_node`, `src/preprocess.c:59-85`. -/
inductive Repl (τ : Type)
  | tokens (ts : List τ)
  | argument (i : Nat)
  | hash (i : Nat)
  /-- `post` is the token after `##` -/
  | hashhash (prefixArgument : Option Nat) (post : Raw τ)
deriving DecidableEq, Repr

variable {τ : Type}

/-- A token that is not special is added to the last node if possible, `src/preprocess.c:4100-4140`. The list is in reverse. -/
def pushToken (t : τ) : List (Repl τ) → List (Repl τ)
  | .tokens ts :: acc => .tokens (ts ++ [t]) :: acc
  | acc => .tokens [t] :: acc

/-- The loop of `#define`, `src/preprocess.c:3998-4150`; `none` for an error. -/
def parseLoop : List (Repl τ) → List (Raw τ) → Option (List (Repl τ))
  | acc, [] => some acc.reverse
  | _, [.param _, .hashhash] => none
  | acc, .param i :: .hashhash :: t :: rest => parseLoop (.hashhash (some i) t :: acc) rest
  | acc, .param i :: rest => parseLoop (.argument i :: acc) rest
  | acc, .hash :: .param i :: rest => parseLoop (.hash i :: acc) rest
  | _, .hash :: _ => none
  | _, [.hashhash] => none
  | acc, .hashhash :: t :: rest => parseLoop (.hashhash none t :: acc) rest
  | acc, .tok t :: rest => parseLoop (pushToken t acc) rest

/-- `##` at the beginning is an error, `src/preprocess.c:3980-3983`. -/
def parse : List (Raw τ) → Option (List (Repl τ))
  | .hashhash :: _ => none
  | ts => parseLoop [] ts

/-- `token_stack_node_count`, `src/preprocess.c:4020,4046,4070,4085,4125`. -/
def nodeCount : Repl τ → Nat
  | .hashhash _ _ => 3
  | _ => 1

/-- The search for the prefix token: the last token of the newest node that has any. Nodes without tokens are
removed. `none` if there are no nodes left: the assertion fails, `src/preprocess.c:2385-2410`. -/
def search : List (List τ) → Option (τ × List (List τ))
  | [] => none
  | ts :: below =>
    match ts.getLast? with
    | some t => some (t, ts.dropLast :: below)
    | none => search below

/-- The prefix: the token (or nothing, for an empty argument), and the stack, `src/preprocess.c:2362-2411`. -/
def prefixOf (a : Args τ) (pre : Option Nat) (stack : List (List τ)) : Option (Option τ × List (List τ)) :=
  match pre with
  | some i =>
    match (a.raw i).getLast? with
    | none => some (none, stack)
    | some t => if (a.raw i).length = 1 then some (some t, stack) else some (some t, (a.raw i).dropLast :: stack)
  | none => (search stack).map fun (t, stack) => (some t, stack)

/-- The postfix: the token (or nothing), and the rest of the argument, `src/preprocess.c:2413-2430`. `hashTok` and
`hashhashTok` are the tokens `#` and `##`. -/
def postfixOf (a : Args τ) (hashTok hashhashTok : τ) : Raw τ → Option τ × List τ
  | .param i =>
    match a.raw i with
    | [] => (none, [])
    | t :: ts => (some t, ts)
  | .tok t => (some t, [])
  | .hash => (some hashTok, [])
  | .hashhash => (some hashhashTok, [])

/-- Pushes a node if it is not empty. -/
def pushNonempty (ts : List τ) (stack : List (List τ)) : List (List τ) := if ts.isEmpty then stack else ts :: stack

/-- A comma with nothing after it disappears, `src/preprocess.c:2434`. -/
def dropsComma (L : Lang τ) : Option τ → Option τ → Bool
  | some t, none => L.comma t
  | _, _ => false

/-- The joining: unless a comma disappears, the
tokens of the joined spelling and the rest of the argument are pushed, `src/preprocess.c:2436-2465`. -/
def joinTokens (L : Lang τ) (pre post : Option τ) (rest : List τ) (stack : List (List τ)) : List (List τ) :=
  if dropsComma L pre post then stack
  else pushNonempty rest (pushNonempty (L.tokenize (pre.toList ++ post.toList)) stack)

/-- One replacement node, `src/preprocess.c:2326-2468`. -/
def expandNode (L : Lang τ) (a : Args τ) (hashTok hashhashTok : τ) (stack : List (List τ)) : Repl τ → Option (List (List τ))
  | .tokens ts => some (ts :: stack)
  | .argument i => some (a.expanded i :: stack)
  | .hash i => some ([a.string i] :: stack)
  | .hashhash pre post =>
    (prefixOf a pre stack).map fun p => joinTokens L p.1 (postfixOf a hashTok hashhashTok post).1 (postfixOf a hashTok hashhashTok post).2 p.2

/-- All replacement nodes. -/
def expandNodes (L : Lang τ) (a : Args τ) (hashTok hashhashTok : τ) : List (Repl τ) → List (List τ) → Option (List (List τ))
  | [], stack => some stack
  | r :: rs, stack => (expandNode L a hashTok hashhashTok stack r).bind (expandNodes L a hashTok hashhashTok rs)

/-- The tokens of the stack in the order they are read. -/
def flat (stack : List (List τ)) : List τ := stack.reverse.flatten

end Verif.Paste
