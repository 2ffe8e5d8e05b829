/-!
# Specification: Windows command lines

Microsoft's rules for splitting a command line into arguments as a derivation system, and the usual way to quote an
argument list. Characters are bytes.
-/
namespace Verif.Spec.CommandLine

def backslash : Nat := 92
def quote : Nat := 34

/-- Space, tab, vertical tab, form feed, newline, carriage return. -/
def IsSpace (c : Nat) : Prop := c = 32 ∨ c = 9 ∨ c = 11 ∨ c = 12 ∨ c = 10 ∨ c = 13

/-- `Arg q s v r`: reading the rest `s` of an argument, inside quotes if `q`, gives the characters `v` and leaves `r`. -/
inductive Arg : Bool → List Nat → List Nat → List Nat → Prop where
  /-- white space or the end of the command line ends an argument -/
  | atEnd : Arg false [] [] []
  | atSpace {c s} : IsSpace c → Arg false (c :: s) [] (c :: s)
  /-- a missing closing quote is supplied at the end -/
  | unclosed : Arg true [] [] []
  /-- other characters stand for themselves; white space does inside quotes -/
  | char {q c s v r} : c ≠ backslash → c ≠ quote → (q = true ∨ ¬ IsSpace c) → Arg q s v r → Arg q (c :: s) (c :: v) r
  /-- backslashes that do not precede a quote stand for themselves -/
  | backslashes {q n s v r} : 0 < n → s.head? ≠ some backslash → s.head? ≠ some quote → Arg q s v r →
      Arg q (List.replicate n backslash ++ s) (List.replicate n backslash ++ v) r
  /-- `2n+1` backslashes and a quote are `n` backslashes and a quote character -/
  | escaped {q n s v r} : Arg q s v r →
      Arg q (List.replicate (2 * n + 1) backslash ++ quote :: s) (List.replicate n backslash ++ quote :: v) r
  /-- `2n` backslashes and a quote are `n` backslashes and a quote that delimits -/
  | paired {q n s v r} : 0 < n → Arg q (quote :: s) v r →
      Arg q (List.replicate (2 * n) backslash ++ quote :: s) (List.replicate n backslash ++ v) r
  /-- a quote opens or closes a quoted part -/
  | opening {s v r} : Arg true s v r → Arg false (quote :: s) v r
  | closing {s v r} : s.head? ≠ some quote → Arg false s v r → Arg true (quote :: s) v r
  /-- two quotes inside a quoted part are one quote character -/
  | doubled {s v r} : Arg true s v r → Arg true (quote :: quote :: s) (quote :: v) r

/-- A command line and its arguments: arguments separated by white space. -/
inductive Split : List Nat → List (List Nat) → Prop where
  | nil : Split [] []
  | space {c s vs} : IsSpace c → Split s vs → Split (c :: s) vs
  | arg {c s v r vs} : ¬ IsSpace c → Arg false (c :: s) v r → Split r vs → Split (c :: s) (v :: vs)

/-- The inside of a quoted argument after `n` backslashes: backslashes before a quote or at the end are doubled. -/
def encode : Nat → List Nat → List Nat
  | n, [] => List.replicate (2 * n) backslash
  | n, c :: s =>
    if c = backslash then encode (n + 1) s
    else if c = quote then List.replicate (2 * n + 1) backslash ++ quote :: encode 0 s
    else List.replicate n backslash ++ c :: encode 0 s

/-- Every argument in quotes, separated by spaces. -/
def join : List (List Nat) → List Nat
  | [] => []
  | [a] => quote :: (encode 0 a ++ [quote])
  | a :: as => quote :: (encode 0 a ++ quote :: 32 :: join as)

end Verif.Spec.CommandLine
