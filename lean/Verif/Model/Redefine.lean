import Verif.Spec.Redefine

/-!
# Model: parsing a macro definition and comparing it to the previous one (`src/preprocess.c:3915-4276`)

White space and comments are dropped while parsing (`eat_whitespace_and_comments`), so they are not in the model's
tokens.
-/
namespace Verif.Redefine
open Verif.Spec.Redefine

/-- `struct define_replacement_node`, `src/preprocess.c:59-86`. Absent arguments (-1) are `none`. -/
inductive Node
  | tokens (ts : List Tok)
  | argument (i : Nat)
  | hash (stringify : Nat)
  | hashhash (pre post : Option Nat) (postTok : Tok)
  deriving DecidableEq, Repr

/-- `lookup_define_argument`, `src/preprocess.c:43-52`: the index of the parameter. -/
def paramIndex (params : List Nat) (a : Nat) : Option Nat := params.findIdx? (· == a)

/-- `postfix_argument`, `src/preprocess.c:4033-4038` and 4087-4093. -/
def postfixArg (params : List Nat) : Tok → Option Nat
  | .ident a => paramIndex params a
  | _ => none

/-- The token goes to the last node if that is a run of tokens, `src/preprocess.c:4100-4138`. -/
def addToken (acc : List Node) (t : Tok) : List Node :=
  match acc.getLast? with
  | some (.tokens ts) => acc.dropLast ++ [.tokens (ts ++ [t])]
  | _ => acc ++ [.tokens [t]]

/-- The loop over the replacement list, `src/preprocess.c:3996-4148`. `strs` are the parameters with a
`stringify_index`, in the order of that index. -/
def parseBody (params : List Nat) (strs : List Nat) (acc : List Node) : List Tok → Option (List Node)
  | [] => some acc
  | .hash :: .ident a :: rest =>
    match paramIndex params a with
    | some i =>
      if i ∈ strs then parseBody params strs (acc ++ [.hash (strs.idxOf i)]) rest
      else parseBody params (strs ++ [i]) (acc ++ [.hash strs.length]) rest
    | none => none
  | .hash :: _ => none
  | .hashhash :: t :: rest => parseBody params strs (acc ++ [.hashhash none (postfixArg params t) t]) rest
  | .hashhash :: [] => none
  | .ident a :: .hashhash :: t :: rest =>
    match paramIndex params a with
    | some i => parseBody params strs (acc ++ [.hashhash (some i) (postfixArg params t) t]) rest
    | none => parseBody params strs (addToken acc (.ident a)) (.hashhash :: t :: rest)
  | [.ident _, .hashhash] => none
  | .ident a :: rest =>
    match paramIndex params a with
    | some i => parseBody params strs (acc ++ [.argument i]) rest
    | none => parseBody params strs (addToken acc (.ident a)) rest
  | .other a :: rest => parseBody params strs (addToken acc (.other a)) rest

/-- The replacement list; it must not begin with `##`, `src/preprocess.c:3980-3983`. -/
def parse (d : Definition) : Option (List Node) :=
  if d.body.head? = some .hashhash then none else parseBody d.params [] [] d.body

/-- The comparison of two runs of tokens, `src/preprocess.c:4191-4221`. -/
def sameTokens : List Tok → List Tok → Bool
  | [], [] => true
  | t :: ts, u :: us => if t ≠ u then false else sameTokens ts us
  | _, _ => false

/-- The comparison of two nodes, `src/preprocess.c:4185-4240`. -/
def sameNode : Node → Node → Bool
  | .tokens ts, .tokens us => sameTokens ts us
  | .argument i, .argument j => i == j
  | .hash i, .hash j => i == j
  | .hashhash p q _, .hashhash p' q' _ => p == p' && q == q'
  | _, _ => false

/-- The loop over the two replacement lists; both have to be at the end, `src/preprocess.c:4184-4249`. -/
def sameNodes : List Node → List Node → Bool
  | [], [] => true
  | n :: ns, m :: ms => if sameNode n m then sameNodes ns ms else false
  | _, _ => false

/-- The comparison of the parameters, `src/preprocess.c:4256-4274`. -/
def sameParams : List Nat → List Nat → Bool
  | [], [] => true
  | a :: as, b :: bs => if a ≠ b then false else sameParams as bs
  | _, _ => false

/-- `defines_are_equivalent` of the parsed definitions, `src/preprocess.c:4179-4276`. -/
def sameParsed (new old : Bool × List Nat × List Node) : Bool :=
  sameNodes new.2.2 old.2.2 && sameParams old.2.1 new.2.1 && (old.1 == new.1)

/-- A `#define` of a name that is defined: `none` if the new definition is an error, else whether the two
definitions count as the same (no warning), `src/preprocess.c:3915-4298`. -/
def equivalent (new old : Definition) : Option Bool :=
  match parse new, parse old with
  | some n, some o => some (sameParsed (new.functionLike, new.params, n) (old.functionLike, old.params, o))
  | _, _ => none

end Verif.Redefine
