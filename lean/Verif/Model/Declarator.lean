import Verif.Spec.Declarator

/-!
# Model: `parse_declarator` (`src/parse.c:9846-10344`)

The tokens of the specification are used; calling conventions are left out, and so are the limit on the size of arrays and
types that are not known yet. `typedefs` are the typedef names that the compiler knows when the declarator is parsed. A reported
error is `none`. The recursion has a bound `fuel`; twice the number of tokens plus three is enough (shown in the proofs).
-/

namespace Verif.Declarator

open Verif.Spec.Declarator

/-- The qualifiers after `*`, `src/parse.c:9899-9917`. They are ignored. -/
def qualifiers : List Tok → List Tok
  | .qualifier _ :: ts => qualifiers ts
  | ts => ts

theorem qualifiers_length (ts : List Tok) : (qualifiers ts).length ≤ ts.length := by
  fun_induction qualifiers ts with
  | case1 _ ts ih => simp only [List.length_cons]; omega
  | case2 => exact Nat.le_refl _

/-- `while(peek_token_eat(context, TOKEN_times))`, `src/parse.c:9892-9920`. -/
def pointers (t : Ty) : List Tok → Ty × List Tok
  | .star :: ts => pointers (.ptr t) (qualifiers ts)
  | ts => (t, ts)
termination_by ts => ts.length
decreasing_by have := qualifiers_length ts; simp only [List.length_cons]; omega

/-- `skip_until_tokens_are_balanced` for parentheses, `src/parse.c:6-32`: the tokens after the matching one. -/
def skip : Nat → List Tok → Option (List Tok)
  | _, [] => none
  | n, .rparen :: ts => if n - 1 = 0 then some ts else skip (n - 1) ts
  | n, .lparen :: ts => skip (n + 1) ts
  | n, _ :: ts => skip n ts

/-- What the direct declarator begins with. -/
inductive Head
  | error
  /-- the declarator ends here -/
  | stop
  | name (n : Nat) (rest : List Tok)
  /-- the tokens after the parenthesis -/
  | nested (inner : List Tok)
  /-- a parameter list or an array without a name -/
  | absent

/-- Whether the token after a parenthesis begins a nested declarator, `src/parse.c:9991-10028`. -/
def isNested (typedefs : Nat → Option Ty) : Mode → List Tok → Bool
  | .declaration, _ => true
  | _, .star :: _ => true
  | _, .lparen :: _ => true
  | _, .lbrack :: _ => true
  | .parameter, .ident n :: _ => (typedefs n).isNone
  | _, _ => false

/-- `src/parse.c:9971-10061`. -/
def head (typedefs : Nat → Option Ty) (m : Mode) : List Tok → Head
  | .ident n :: ts => if m = .typeName then .error else .name n ts
  | .lparen :: ts => if isNested typedefs m ts then .nested ts else .absent
  | .lbrack :: _ => if m = .declaration then .error else .absent
  | _ => if m = .declaration then .error else .stop

/-- `struct post_type_node`, `src/parse.c:10083-10088`. -/
inductive Post
  | array (count : Option Nat)
  | func (params : Tys) (variadic : Bool)

/-- `src/parse.c:10249-10318`. The list begins with the last one. -/
def applyPosts : Ty → List Post → Option Ty
  | t, [] => some t
  | t, .func ps v :: rest => if returnOk t then applyPosts (.func t ps v) rest else none
  | t, .array n :: rest => if elementOk t then applyPosts (.array n t) rest else none

/-- The specifiers of a parameter, `src/parse.c:10132`. -/
def specs (typedefs : Nat → Option Ty) : List Tok → Option (Ty × List Tok)
  | .spec b :: ts => some (.base b, ts)
  | .ident n :: ts => (typedefs n).map fun t => (t, ts)
  | _ => none

/-- The number of elements, `src/parse.c:10207-10233`. -/
def arraySize : List Tok → Option (Option Nat × List Tok)
  | .rbrack :: ts => some (none, ts)
  | .size v :: .rbrack :: ts => if v = 0 then some (none, ts) else if v < 0 then none else some (some v.toNat, ts)
  | _ => none

/-- The parsed parameters: types, names, and whether there are variable arguments. -/
abbrev Parsed := List (Ty × Option Nat) × Bool × List Tok

/-- `expect_token(context, TOKEN_closed_paren, …)`, `src/parse.c:10167`. -/
def close (acc : List (Ty × Option Nat)) (variadic : Bool) : List Tok → Option Parsed
  | .rparen :: ts => some (acc, variadic, ts)
  | _ => none

/-- The result of one parameter: what follows the comma, or the end. -/
def afterComma : List Tok → Option (List Tok)
  | .comma :: ts => some ts
  | _ => none

mutual
/-- `parse_declarator`. -/
def declarator (typedefs : Nat → Option Ty) : Nat → Mode → Ty → List Tok → Option (Ty × Option Nat × List Tok)
  | 0, _, _, _ => none
  | fuel + 1, m, t, ts =>
    match head typedefs m (pointers t ts).2 with
    | .error => none
    | .stop => some ((pointers t ts).1, none, (pointers t ts).2)
    | .name n rest =>
      match posts typedefs fuel rest [] with
      | none => none
      | some (ps, rest) => (applyPosts (pointers t ts).1 ps).map fun t => (t, some n, rest)
    | .absent =>
      match posts typedefs fuel (pointers t ts).2 [] with
      | none => none
      | some (ps, rest) => (applyPosts (pointers t ts).1 ps).map fun t => (t, none, rest)
    | .nested inner =>
      match skip 1 inner with
      | none => none
      | some after =>
        match posts typedefs fuel after [] with
        | none => none
        | some (ps, rest) =>
          match applyPosts (pointers t ts).1 ps with
          | none => none
          | some t =>
            match declarator typedefs fuel m t inner with
            | some (t, n, .rparen :: _) => some (t, n, rest)
            | _ => none

/-- The loop over `(` and `[`, `src/parse.c:10090-10244`. -/
def posts (typedefs : Nat → Option Ty) : Nat → List Tok → List Post → Option (List Post × List Tok)
  | 0, _, _ => none
  | fuel + 1, .lparen :: ts, acc =>
    match params typedefs fuel ts with
    | none => none
    | some (ps, v, rest) => posts typedefs fuel rest (.func (paramTypes ps) v :: acc)
  | fuel + 1, .lbrack :: ts, acc =>
    match arraySize ts with
    | none => none
    | some (n, rest) => posts typedefs fuel rest (.array n :: acc)
  | _ + 1, ts, acc => some (acc, ts)

/-- The parameters after the parenthesis, `src/parse.c:10115-10169`. -/
def params (typedefs : Nat → Option Ty) : Nat → List Tok → Option Parsed
  | 0, _ => none
  | _ + 1, .rparen :: ts => some ([], false, ts)
  | fuel + 1, ts => paramLoop typedefs fuel ts []

/-- The loop over the parameters, `src/parse.c:10116-10165`. -/
def paramLoop (typedefs : Nat → Option Ty) : Nat → List Tok → List (Ty × Option Nat) → Option Parsed
  | 0, _, _ => none
  | _ + 1, .dots :: ts, acc => close acc true ts
  | _ + 1, .rparen :: ts, acc => close acc false (.rparen :: ts)
  | fuel + 1, ts, acc =>
    match specs typedefs ts with
    | none => none
    | some (t, ts) =>
      match declarator typedefs fuel .parameter t ts with
      | none => none
      | some (t, n, ts) =>
        match afterComma ts with
        | some ts => paramLoop typedefs fuel ts (acc ++ [(adjust t, n)])
        | none => close (acc ++ [(adjust t, n)]) false ts
end

/-- A declarator with the base type `t` at the beginning of `ts`: the type, the name and the tokens after it. -/
def parse (typedefs : Nat → Option Ty) (m : Mode) (t : Ty) (ts : List Tok) : Option (Ty × Option Nat × List Tok) :=
  declarator typedefs (2 * ts.length + 3) m t ts

end Verif.Declarator
