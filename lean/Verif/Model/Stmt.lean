import Verif.Model.ShortCircuit

/-!
# Model: IR of statements

Models `parse_statement` (`src/parse.c:9033-9797`), `parse_imperative_scope` (9800-9846) and the
end of `worker_parse_function` (`src/main.c:3400-3436`), for a parser that reads a statement it
accepts: `S` is the statement that the tokens spell.

Simplifications: the statements of a block are nested `seq`s; declarations are expression
statements (their initializers) here, scopes are C26; label names are numbers; values of `case`
are the already converted constants; `__try`, `__asm` and line information are not modelled.
-/
namespace Verif.Stmt
open Verif.ShortCircuit

/-- Statements. -/
inductive S
  | skip
  | expr (e : E)
  | seq (a b : S)
  | ifThen (c : E) (a : S)
  | ifElse (c : E) (a b : S)
  | whileS (c : E) (b : S)
  | doS (b : S) (c : E)
  | forS (init cond inc : Option E) (b : S)
  | brk
  | cont
  | switchS (e : E) (b : S)
  | caseS (v : Nat) (s : S)
  | dfltS (s : S)
  | label (n : Nat) (s : S)
  | goto (n : Nat)
  | ret (e : Option E)
deriving Repr

/-- The part of `struct context` that statements change: `jump_label_index`, the number of unnamed
declarations, the number of `IR_case` nodes pushed, `label_list` (name and label number), and
`current_switch` (its `case_list` of value and node, and the label number of its
`default_jump_label`), if any. -/
structure St where
  labels : Nat
  temps : Nat
  cases : Nat
  table : List (Nat × Nat)
  switch : Option (List (Nat × Nat) × Option Nat)

/-- The code of an expression, advancing the counters. -/
def exprCode (e : E) (st : St) : List I × St :=
  let o := ShortCircuit.compile e st.labels st.temps
  (o.code, { st with labels := o.labels, temps := o.temps })

/-- An expression whose value is dropped, if it is there: the increment and the initialization of
`for` (`src/parse.c:9125-9128`, `9187-9205`). -/
def optExprCode (e : Option E) (st : St) : List I × St :=
  match e with
  | none => ([], st)
  | some e => ((exprCode e st).1 ++ [.pop], (exprCode e st).2)

/-- The condition of `for`: a missing one is the literal 1 (`src/parse.c:9151-9153`). -/
def condCode (e : Option E) (st : St) : List I × St :=
  match e with
  | none => ([.lit 1], st)
  | some e => exprCode e st

/-- `parse_statement`. `brk` is `current_break_label` if there is an enclosing scope with
`SCOPE_FLAG_can_break`, `cont` the same for `continue`. `none` is an error. -/
def compileS : S → (brk cont : Option Nat) → St → Option (List I × St)
  | .skip, _, _, st => some ([], st)
  | .expr e, _, _, st => some ((exprCode e st).1 ++ [.pop], (exprCode e st).2) -- 9603-9616, 9770-9775
  | .seq a b, brk, cont, st => -- 9808-9830
    match compileS a brk cont st with
    | none => none
    | some (ca, st) =>
      match compileS b brk cont st with
      | none => none
      | some (cb, st) => some (ca ++ cb, st)
  | .ifThen c a, brk, cont, st => -- 9050-9113
    let l := st.labels -- if_false_label
    let oc := exprCode c { st with labels := st.labels + 1 }
    match compileS a brk cont oc.2 with
    | none => none
    | some (ca, st) => some (oc.1 ++ .jumpIfFalse l :: (ca ++ [.label l]), st)
  | .ifElse c a b, brk, cont, st =>
    let l := st.labels
    let oc := exprCode c { st with labels := st.labels + 1 }
    match compileS a brk cont oc.2 with
    | none => none
    | some (ca, st) =>
      let e := st.labels -- jump_over_else->label_number
      match compileS b brk cont { st with labels := st.labels + 1 } with
      | none => none
      | some (cb, st) => some (oc.1 ++ .jumpIfFalse l :: (ca ++ .jump e :: .label l :: (cb ++ [.label e])), st)
  | .whileS c b, _, _, st => -- 9227-9282
    let lc := st.labels
    let lb := st.labels + 1
    let oc := exprCode c { st with labels := st.labels + 2 }
    match compileS b (some lb) (some lc) oc.2 with
    | none => none
    | some (cb, st) => some (.label lc :: (oc.1 ++ .jumpIfFalse lb :: (cb ++ [.jump lc, .label lb])), st)
  | .doS b c, _, _, st => -- 9283-9343
    let ll := st.labels
    let lc := st.labels + 1
    let lb := st.labels + 2
    match compileS b (some lb) (some lc) { st with labels := st.labels + 3 } with
    | none => none
    | some (cb, st) =>
      let oc := exprCode c st
      some (.label ll :: (cb ++ .label lc :: (oc.1 ++ [.jumpIfTrue ll, .label lb])), oc.2)
  | .forS init cond inc b, _, _, st => -- 9115-9226
    let oi := optExprCode init st
    let lf := oi.2.labels
    let lc := oi.2.labels + 1
    let lb := oi.2.labels + 2
    let oc := condCode cond { oi.2 with labels := oi.2.labels + 3 }
    match compileS b (some lb) (some lc) oc.2 with
    | none => none
    | some (cb, st) =>
      let on := optExprCode inc st -- the increment is parsed after the body
      some (oi.1 ++ .label lf :: (oc.1 ++ .jumpIfFalse lb :: (cb ++ .label lc :: (on.1 ++ [.jump lf, .label lb]))), on.2)
  | .brk, brk, _, st => brk.map fun l => ([.jump l], st) -- 9345-9366
  | .cont, _, cont, st => cont.map fun l => ([.jump l], st) -- 9367-9386
  | .switchS e b, _, cont, st => -- 9387-9442
    let oe := exprCode e st
    let lb := oe.2.labels
    match compileS b (some lb) cont { oe.2 with labels := oe.2.labels + 1, switch := some ([], none) } with
    | none => none
    | some (cb, st') =>
      match st'.switch with
      | none => none
      | some (cs, d) => some (oe.1 ++ .switch cs (d.getD lb) :: (cb ++ [.label lb]), { st' with switch := st.switch })
  | .caseS v s, brk, cont, st => -- 9443-9488
    match st.switch with
    | none => none -- 'case' is only allowed within 'switch'-statement
    | some (cs, d) =>
      if cs.any (·.1 == v) then none -- already handled
      else
        match compileS s brk cont { st with cases := st.cases + 1, switch := some (cs ++ [(v, st.cases)], d) } with
        | none => none
        | some (code, st') => some (.case st.cases :: code, st')
  | .dfltS s, brk, cont, st => -- 9489-9518
    match st.switch with
    | none => none
    | some (cs, d) =>
      if d.isSome then none -- more than one 'default'
      else
        match compileS s brk cont { st with labels := st.labels + 1, switch := some (cs, some st.labels) } with
        | none => none
        | some (code, st') => some (.label st.labels :: code, st')
  | .label n s, brk, cont, st => -- 9573-9602
    if st.table.any (·.1 == n) then none -- redefinition of label
    else
      match compileS s brk cont { st with labels := st.labels + 1, table := st.table ++ [(n, st.labels)] } with
      | none => none
      | some (code, st') => some (.label st.labels :: code, st')
  | .goto n, _, _, st => some ([.goto n], st) -- 9559-9572
  | .ret none, _, _, st => some ([.ret false], st) -- 9523-9544
  | .ret (some e), _, _, st => some ((exprCode e st).1 ++ [.ret true], (exprCode e st).2)

/-- The loop over `goto_list` (`src/main.c:3407-3424`): the first label of that name. -/
def patch (table : List (Nat × Nat)) : I → I
  | .goto n =>
    match table.find? (·.1 == n) with
    | some (_, l) => .jump l
    | none => .goto n
  | i => i

/-- `worker_parse_function` for the body `s` (`src/main.c:3398-3436`): an undefined label is an
error; in `main`, `return 0;` is appended. -/
def compileFunction (s : S) (isMain : Bool) : Option (List I) :=
  match compileS s none none ⟨0, 0, 0, [], none⟩ with
  | none => none
  | some (code, st) =>
    let code := code.map (patch st.table)
    if code.any (fun | .goto _ => true | _ => false) then none
    else some (code ++ if isMain then [.lit 0, .ret true] else [])

end Verif.Stmt
