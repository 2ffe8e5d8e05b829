/-!
# Model: splitting a file into top-level declarations (`src/main.c:2842-3176`)

After preprocessing, `worker_preprocess_file` splits the tokens of a file into global scope entries, which are then parsed
independently, and collects the names that are declared at file scope together with `static`, `extern` and `inline`
(`src/main.c:2933-2999`; what happens to these is `Verif.Model.StaticTable`). The model also contains the replacement of
`__func__` in function bodies (`src/main.c:3057-3067`).

Simplifications: tokens are classified as the loop distinguishes them. `#pragma pack` is left out. A reported error is the
outcome `none`; the program stops after the entry with the error.
-/

namespace Verif.Chunk

/-- `enum token_type` (`src/ast.c`), as far as the loop distinguishes them. -/
inductive Tok
  /-- From `TOKEN_first_basic_type` to `TOKEN_last_basic_type`. -/
  | basic
  /-- `struct`, `union` or `enum`. -/
  | tag
  | declspec
  | static
  | extern
  | inline
  | ident (name : Nat)
  | equals
  | comma
  | semicolon
  | openCurly
  | closedCurly
  | openParen
  | closedParen
  | openIndex
  | closedIndex
  | staticAssert
  /-- `__func__` -/
  | func
  /-- The string literal that `__func__` becomes in the function of this name. -/
  | nameLiteral (name : Nat)
  /-- All others: operators, literals, qualifiers, `typedef`, … -/
  | other (kind : Nat)
deriving DecidableEq, Repr

/-- `skip_until_tokens_are_balanced` (`src/parse.c:6-32`) after the opening token: the skipped tokens, with the closing one, and the
rest. -/
def skip (o c : Tok) : Nat → List Tok → Option (List Tok × List Tok)
  | _, [] => none
  | n, t :: ts =>
    if t = c then
      if n - 1 = 0 then some ([t], ts)
      else (skip o c (n - 1) ts).map (fun (w, r) => (t :: w, r))
    else if t = o then (skip o c (n + 1) ts).map (fun (w, r) => (t :: w, r))
    else (skip o c n ts).map (fun (w, r) => (t :: w, r))

/-- The body of a function after the opening brace (`src/main.c:3052-3075`). -/
def body (name : Option Nat) : Nat → List Tok → Option (List Tok × List Tok)
  | _, [] => none
  | n, t :: ts =>
    if t = .closedCurly then
      if n - 1 = 0 then some ([t], ts)
      else (body name (n - 1) ts).map (fun (w, r) => (t :: w, r))
    else if t = .openCurly then (body name (n + 1) ts).map (fun (w, r) => (t :: w, r))
    else if t = .func then
      match name with
      | some f => (body name n ts).map (fun (w, r) => (.nameLiteral f :: w, r))
      | none => none
    else (body name n ts).map (fun (w, r) => (t :: w, r))

/-- The tokens from here to the matching parenthesis, if here is an opening one (`src/main.c:2886-2888, 2916-2918, 3122-3124`). -/
def maybeParens : List Tok → Option (List Tok × List Tok)
  | .openParen :: ts => (skip .openParen .closedParen 1 ts).map (fun (w, r) => (.openParen :: w, r))
  | ts => some ([], ts)

/-- `while(peek_token_eat(context, TOKEN_declspec))` (`src/main.c:2885-2889`). -/
def declspecs : Nat → List Tok → Option (List Tok × List Tok)
  | fuel + 1, .declspec :: ts =>
    match maybeParens ts with
    | none => none
    | some (w, r) => (declspecs fuel r).map (fun (w', r') => (.declspec :: w ++ w', r'))
  | _, ts => some ([], ts)

/-- The name of a structure, union or enumeration (`src/main.c:2891`). -/
def maybeIdent : List Tok → List Tok × List Tok
  | .ident n :: ts => ([.ident n], ts)
  | ts => ([], ts)

/-- The members of a structure, union or enumeration (`src/main.c:2892-2919`). -/
def maybeCurly : List Tok → Option (List Tok × List Tok)
  | .openCurly :: ts => (skip .openCurly .closedCurly 1 ts).map (fun (w, r) => (.openCurly :: w, r))
  | ts => some ([], ts)

/-- What follows `struct`, `union` or `enum` (`src/main.c:2883-2922`). -/
def afterTag (ts : List Tok) : Option (List Tok × List Tok) :=
  match declspecs ts.length ts with
  | none => none
  | some (w1, r1) =>
    let (w2, r2) := maybeIdent r1
    (maybeCurly r2).map (fun (w3, r3) => (w1 ++ w2 ++ w3, r3))

/-- The token that closes a bracket. -/
def closing : Tok → Option Tok
  | .openParen => some .closedParen
  | .openCurly => some .closedCurly
  | .openIndex => some .closedIndex
  | _ => none

/-- The initializer after `=` with the comma or semicolon that ends it, and whether it is a semicolon (`src/main.c:3005-3029`). -/
def init : Nat → List Tok → Option (List Tok × Bool × List Tok)
  | fuel + 1, t :: ts =>
    match closing t with
    | some c =>
      match skip t c 1 ts with
      | none => none
      | some (w, r) => (init fuel r).map (fun (w', b, r') => (t :: w ++ w', b, r'))
    | none =>
      if t = .comma then some ([t], false, ts)
      else if t = .semicolon then some ([t], true, ts)
      else (init fuel ts).map (fun (w, b, r) => (t :: w, b, r))
  | _, ts => some ([], false, ts)

/-- The local variables of the loop (`src/main.c:2868-2873`). -/
structure Flags where
  isStatic : Bool := false
  isExtern : Bool := false
  isInline : Bool := false
  gotType : Bool := false
  ident : Option Nat := none
deriving DecidableEq, Repr

/-- A name that is put into the table of static names (`src/main.c:2933-2999`). -/
structure Reg where
  name : Nat
  isStatic : Bool
  isExtern : Bool
  isInline : Bool
deriving DecidableEq, Repr

/-- The tokens of an entry, the names it declares, and the rest of the tokens. -/
abbrev Result := Option (List Tok × List Reg × List Tok)

/-- The loop has consumed `w` and registered `g`. -/
def prepend (w : List Tok) (g : List Reg) (r : Result) : Result := r.map (fun (w', g', rest) => (w ++ w', g ++ g', rest))

/-- The loop that finds the end of one global scope entry (`src/main.c:2877-3129`). -/
def scan : Nat → Flags → List Tok → Result
  | fuel + 1, fl, t :: ts =>
    match t with
    | .basic => prepend [t] [] (scan fuel { fl with gotType := true } ts)
    | .tag =>
      match afterTag ts with
      | none => none
      | some (w, r) => prepend (t :: w) [] (scan fuel { fl with gotType := true } r)
    | .declspec =>
      match maybeParens ts with
      | none => none
      | some (w, r) => prepend (t :: w) [] (scan fuel fl r)
    | .static => prepend [t] [] (scan fuel { fl with isStatic := true } ts)
    | .extern => prepend [t] [] (scan fuel { fl with isExtern := true } ts)
    | .inline => prepend [t] [] (scan fuel { fl with isInline := true } ts)
    | .ident n =>
      if fl.gotType = true then
        prepend [t] [⟨n, fl.isStatic, fl.isExtern, fl.isInline⟩] (scan fuel { fl with ident := some n } ts)
      else prepend [t] [] (scan fuel { fl with gotType := true } ts)
    | .equals =>
      match init ts.length ts with
      | none => none
      | some (w, true, r) => some (t :: w, [], r)
      | some (w, false, r) => prepend (t :: w) [] (scan fuel { fl with ident := none } r)
    | .comma => prepend [t] [] (scan fuel { fl with ident := none } ts)
    | .semicolon => some ([t], [], ts)
    | .openCurly =>
      match body fl.ident 1 ts with
      | none => none
      | some (w, r) => some (t :: w, [], r)
    | .openParen =>
      if fl.ident.isSome = true then
        match skip .openParen .closedParen 1 ts with
        | none => none
        | some (w, r) => prepend (t :: w) [] (scan fuel fl r)
      else prepend [t] [] (scan fuel fl ts)
    | .openIndex =>
      match skip .openIndex .closedIndex 1 ts with
      | none => none
      | some (w, r) => prepend (t :: w) [] (scan fuel fl r)
    | .staticAssert =>
      match maybeParens ts with
      | none => none
      | some (w, r) => prepend (t :: w) [] (scan fuel fl r)
    | _ => prepend [t] [] (scan fuel fl ts)
  | _, _, ts => some ([], [], ts)

/-- The loop over the file (`src/main.c:2855-3176`): the entries and the registered names. -/
def chunks : Nat → List Tok → Option (List (List Tok) × List Reg)
  | fuel + 1, t :: ts =>
    match scan (t :: ts).length {} (t :: ts) with
    | none => none
    | some (w, g, r) => (chunks fuel r).map (fun (cs, g') => (w :: cs, g ++ g'))
  | _, _ => some ([], [])

/-- Splitting the tokens of a file. -/
def split (ts : List Tok) : Option (List (List Tok) × List Reg) := chunks ts.length ts

end Verif.Chunk
