import Verif.Spec.CExpr

/-!
# Model: `parse_expression` (`src/parse.c:4160-7532`)

What is modelled is the syntax: the stack of operators, the precedences, the recursive calls and the flag
`in_lhs_expression`. The result is a syntax tree, not the intermediate code. Types are not modelled: all
checks of types succeed, `.` has a structure on its left, a cast to a structure has a structure as operand.
`_Generic`, `printlike` functions, sleeping and the limit on the depth of recursion
(`maybe_report_error_for_stack_exhaustion`) are not modelled. The recursive calls are made explicit: `Call`
says where a call returns to.
-/
namespace Verif.CExpr
open Verif.Spec.CExpr

/-- `struct expr`, with the flag `in_lhs_expression`, which is set together with `operand`. -/
structure Value where
  e : Expr
  lhs : Bool
deriving DecidableEq, Repr

/-- `struct ast_stack_entry`: an operator and, if it has one, its left operand. `guard` is `AST_invalid`;
`cond` is one of `AST_conditional_expression`, `_true` and `_false` with the condition and the operand
between `?` and `:`. -/
inductive Entry
  | guard
  | pre (p : Pre)
  | cast (t : Nat) (s : Bool)
  | bin (o : BinOp) (v : Value)
  | cond (c a : Value)
  | assign (o : AssignOp) (v : Value)
  | comma (v : Value)
deriving DecidableEq

/-- `token_to_precedence`, `src/parse.c:5419-5474`; 0 for all other tokens. -/
def tokenPrec : Tok → Nat
  | .op .mul | .op .div | .op .mod => 3
  | .op .add | .op .sub => 4
  | .op .shl | .op .shr => 5
  | .op .ge | .op .le | .op .gt | .op .lt => 6
  | .op .eq | .op .ne => 7
  | .op .and => 8
  | .op .xor => 9
  | .op .or => 10
  | .op .land => 11
  | .op .lor => 12
  | .question => 13
  | .assign _ => 14
  | .comma => 15
  | _ => 0

/-- `ast_to_precedence`, `src/parse.c:5479-5534`. -/
def entryPrec : Entry → Nat
  | .guard => 0
  | .pre _ | .cast _ _ => 2
  | .bin .mul _ | .bin .div _ | .bin .mod _ => 3
  | .bin .add _ | .bin .sub _ => 4
  | .bin .shl _ | .bin .shr _ => 5
  | .bin .ge _ | .bin .le _ | .bin .gt _ | .bin .lt _ => 6
  | .bin .eq _ | .bin .ne _ => 7
  | .bin .and _ => 8
  | .bin .xor _ => 9
  | .bin .or _ => 10
  | .bin .land _ => 11
  | .bin .lor _ => 12
  | .cond _ _ => 13
  | .assign _ _ => 14
  | .comma _ => 15

/-- What a recursive call parses: `(` expression `)` (4353), `[` expression `]` (5145), an argument of a
call (5319), the operand between `?` and `:` (7377, 7404). The operands already parsed are kept. -/
inductive Ret
  | paren
  | index (v : Value)
  | arg (v : Value)
  | middle (v : Value)
deriving DecidableEq

/-- The locals of a call of `parse_expression`: `should_skip_comma_expression`, `did_push`,
`ast_stack_before` (4168-4175), and where it returns to. -/
inductive Call
  | top (skip : Bool)
  | inner (ret : Ret) (skip didPush : Bool) (before : Nat) (outer : Call)
deriving DecidableEq

def Call.skip : Call → Bool
  | .top s => s
  | .inner _ s _ _ _ => s

/-- The result: an expression and the tokens after it, a reported error, or a failed assertion. -/
inductive Res
  | ok (v : Value) (rest : List Tok)
  | error
  | assertion
deriving DecidableEq

/-- Where the parser is: at `restart:` (4177), in the loop for postfix expressions (5036), in the loop for
the stack (5478), or finished. -/
inductive Conf
  | operand (c : Call) (stack : List Entry) (ts : List Tok)
  | postfix (c : Call) (stack : List Entry) (v : Value) (ts : List Tok)
  | value (c : Call) (stack : List Entry) (v : Value) (ts : List Tok)
  | done (r : Res)
deriving DecidableEq

/-- `ast_stack_push` and `goto restart`, `src/parse.c:1386-1404`. `limit` is `array_count(context->ast_stack)`. -/
def push (limit : Nat) (c : Call) (stack : List Entry) (x : Entry) (ts : List Tok) : Conf :=
  if stack.length + 1 > limit then .done .error else .operand c (x :: stack) ts

/-- The beginning of a recursive call, `src/parse.c:4168-4175`. -/
def enter (limit : Nat) (ret : Ret) (skip : Bool) (outer : Call) (stack : List Entry) (ts : List Tok) : Conf :=
  if stack.length ≠ 0 ∧ stack.length < limit then .operand (.inner ret skip true stack.length outer) (.guard :: stack) ts
  else .operand (.inner ret skip false stack.length outer) stack ts

/-- `ast_stack_current(context) == AST_alignof || ast_stack_current(context) == AST_sizeof`, `src/parse.c:4296`:
the stack without that entry and the literal. -/
def sizeOrAlign (t : Nat) (s : Bool) : List Entry → Option (List Entry × Value)
  | .pre .sizeof :: stack => some (stack, ⟨.sizeofType t s, false⟩)
  | .pre .alignof :: stack => some (stack, ⟨.alignofType t s, false⟩)
  | _ => none

/-- From `restart:` to the loop for postfix expressions, `src/parse.c:4177-5026`. -/
def operandStep (limit : Nat) (c : Call) (stack : List Entry) : List Tok → Conf
  | .inc :: ts => push limit c stack (.pre .inc) ts
  | .dec :: ts => push limit c stack (.pre .dec) ts
  | .bang :: ts => push limit c stack (.pre .not) ts
  | .tilde :: ts => push limit c stack (.pre .compl) ts
  | .op .mul :: ts => push limit c stack (.pre .deref) ts
  | .op .sub :: ts => push limit c stack (.pre .minus) ts
  | .op .add :: ts => push limit c stack (.pre .plus) ts
  | .op .and :: ts => push limit c stack (.pre .addr) ts
  | .sizeof :: ts => push limit c stack (.pre .sizeof) ts
  | .alignof :: ts => push limit c stack (.pre .alignof) ts
  | .lpar :: .ty t s :: .rpar :: .braces i :: ts => .postfix c stack ⟨.compound t s i, true⟩ ts
  | .lpar :: .ty t s :: .rpar :: ts => match sizeOrAlign t s stack with
    | some (stack, v) => .postfix c stack v ts
    | none => push limit c stack (.cast t s) ts
  | .lpar :: .ty _ _ :: _ => .done .error
  | .lpar :: ts => enter limit .paren false c stack ts
  | .ident n :: ts => .postfix c stack ⟨.ident n, true⟩ ts
  | .const n :: ts => .postfix c stack ⟨.const n, false⟩ ts
  | .str n :: ts => .postfix c stack ⟨.str n, true⟩ ts
  | _ => .done .error

/-- One iteration of the loop for postfix expressions, `src/parse.c:5034-5413`. The check for `++` and `--`
is `check_types_for_increment_or_decrement`, `src/parse.c:3050`. -/
def postfixStep (limit : Nat) (c : Call) (stack : List Entry) (v : Value) : List Tok → Conf
  | .inc :: ts => if v.lhs then .postfix c stack ⟨.postinc v.e, false⟩ ts else .done .error
  | .dec :: ts => if v.lhs then .postfix c stack ⟨.postdec v.e, false⟩ ts else .done .error
  | .lbrack :: ts => enter limit (.index v) false c stack ts
  | .dot :: .ident m :: ts => .postfix c stack ⟨.dot v.e m, v.lhs⟩ ts
  | .dot :: _ => .done .error
  | .arrow :: .ident m :: ts => .postfix c stack ⟨.arrow v.e m, true⟩ ts
  | .arrow :: _ => .done .error
  | .lpar :: .rpar :: ts => .postfix c stack ⟨.call v.e, false⟩ ts
  | .lpar :: ts => enter limit (.arg ⟨.call v.e, false⟩) true c stack ts
  | ts => .value c stack v ts

/-- After the recursive call: `ret` says where. -/
def resume (limit : Nat) (ret : Ret) (c : Call) (stack : List Entry) (v : Value) (ts : List Tok) : Conf :=
  match ret, ts with
  /- 4354 -/
  | .paren, .rpar :: ts => .postfix c stack v ts
  /- 5146-5209 -/
  | .index a, .rbrack :: ts => .postfix c stack ⟨.index a.e v.e, true⟩ ts
  /- 5360-5365: "Allow trailling ',' in function calls." -/
  | .arg f, .comma :: .rpar :: ts => .postfix c stack ⟨.arg f.e v.e, false⟩ ts
  | .arg f, .comma :: ts => enter limit (.arg ⟨.arg f.e v.e, false⟩) true c stack ts
  | .arg f, .rpar :: ts => .postfix c stack ⟨.arg f.e v.e, false⟩ ts
  /- 7380-7396, 7407-7433 -/
  | .middle x, .colon :: ts => push limit c stack (.cond x v) ts
  | _, _ => .done .error

/-- The end of `parse_expression`, `src/parse.c:7521-7532`. -/
def leave (limit : Nat) (c : Call) (stack : List Entry) (v : Value) (ts : List Tok) : Conf :=
  match c with
  | .top _ => if stack.length = 0 then .done (.ok v ts) else .done .assertion
  | .inner ret _ true before outer => match stack with
    | .guard :: stack => if before = stack.length then resume limit ret outer stack v ts else .done .assertion
    | _ => .done .assertion
  | .inner ret _ false before outer => if before = stack.length then resume limit ret outer stack v ts else .done .assertion

/-- What happens with an operator taken from the stack, `src/parse.c:5558-7256`. -/
def reduce (x : Entry) (v : Value) : Option Value :=
  match x with
  | .guard => none
  | .pre .inc => if v.lhs then some ⟨.pre .inc v.e, false⟩ else none
  | .pre .dec => if v.lhs then some ⟨.pre .dec v.e, false⟩ else none
  | .pre .addr => if v.lhs then some ⟨.pre .addr v.e, false⟩ else none
  | .pre .deref => some ⟨.pre .deref v.e, true⟩
  | .pre p => some ⟨.pre p v.e, false⟩
  /- a cast to a structure does not touch the flag, 5979-5988 -/
  | .cast t s => some ⟨.cast t s v.e, if s then v.lhs else false⟩
  | .bin o a => some ⟨.bin o a.e v.e, false⟩
  | .cond c a => some ⟨.cond c.e a.e v.e, false⟩
  | .assign o a => some ⟨.assign o a.e v.e, false⟩
  | .comma a => some ⟨.comma a.e v.e, false⟩

/-- The token that is left after the stack has been dealt with, `src/parse.c:7263-7527`. -/
def pushBinary (limit : Nat) (c : Call) (stack : List Entry) (v : Value) : List Tok → Conf
  | .op o :: ts => push limit c stack (.bin o v) ts
  | .question :: ts => enter limit (.middle v) false c stack ts
  | .assign o :: ts => if v.lhs then push limit c stack (.assign o v) ts else .done .error
  | .comma :: ts => if c.skip then leave limit c stack v (.comma :: ts) else push limit c stack (.comma v) ts
  | ts => leave limit c stack v ts

/-- The token `binary_expression`. -/
def head (ts : List Tok) : Tok := ts.headD (.other 0)

/-- The operator `x` on the stack has to wait for the token, `src/parse.c:5550-5556`. -/
def waits (x : Entry) (t : Tok) : Bool :=
  (entryPrec x == tokenPrec t && (entryPrec x == 14 || entryPrec x == 13)) || (tokenPrec t != 0 && decide (entryPrec x > tokenPrec t))

/-- One iteration of the loop at `src/parse.c:5478-7260`, or the code after it. -/
def valueStep (limit : Nat) (c : Call) (stack : List Entry) (v : Value) (ts : List Tok) : Conf :=
  match stack with
  | [] => pushBinary limit c [] v ts
  | .guard :: rest => pushBinary limit c (.guard :: rest) v ts
  | x :: rest =>
    if waits x (head ts) = true then pushBinary limit c (x :: rest) v ts
    else match reduce x v with
      | some v => .value c rest v ts
      | none => .done .error

/-- A step of the parser. -/
def step (limit : Nat) : Conf → Conf
  | .operand c stack ts => operandStep limit c stack ts
  | .postfix c stack v ts => postfixStep limit c stack v ts
  | .value c stack v ts => valueStep limit c stack v ts
  | .done r => .done r

/-- Runs the parser. -/
def run (limit : Nat) : Nat → Conf → Conf
  | 0, c => c
  | n + 1, c => run limit n (step limit c)

/-- `parse_expression`, with the stack empty. Every step takes a token or shortens the stack or goes from one
loop to the next, so `3 * ts.length + 2` steps are enough. -/
def parseWith (limit : Nat) (skip : Bool) (ts : List Tok) : Option Res :=
  match run limit (3 * ts.length + 2) (.operand (.top skip) [] ts) with
  | .done r => some r
  | _ => none

/-- The stack has 1024 entries, `src/main.c:783`. -/
def parse : Bool → List Tok → Option Res := parseWith 1024

end Verif.CExpr
