/-!
# Model: IR of `&&`, `||`, `!`, `?:` and `,`

Models the pushes of IR for these operators in `parse_expression`: `!` (`src/parse.c:5787-5825`),
`&&` (7300-7315, 6559-6650), `||` (7318-7333, 6658-6760), `?:` (7336-7429, 6766-6862, constant
condition 6863-6930), `,` (7524, 7248-7255).

Operands that are none of these are opaque (`E.leaf`). Simplifications: all values are numbers in
a common type (the conversions of `?:` are not modelled here, see C15/C17), a literal is its
value; the IR is a list instead of an arena, so that un-emitting a literal
(`pop_from_ir_arena`) is replacing the code of the operator.
-/
namespace Verif.ShortCircuit

/-- Expressions. -/
inductive E
  | leaf (n : Nat)
  | lit (v : Nat)
  | not (e : E)
  | andE (a b : E)
  | orE (a b : E)
  | cond (c a b : E)
  | comma (a b : E)
deriving Repr

/-- IR nodes (`src/ir.h:10-160`). `temp k` is `IR_identifier` of the unnamed declaration `k`. The
last four occur only in the code of statements (`Model/Stmt.lean`): `switch` carries the
`case_list` and the `default_jump_label` of the `ir_switch`, `case k` is the `k`-th `IR_case` node
of the function, `goto n` is an `IR_jump` whose label number has not been filled in yet, `ret` is
`IR_return` (with or without a value on the stack). -/
inductive I
  | leaf (n : Nat)
  | lit (v : Nat)
  | logicalNot
  | jumpIfFalse (l : Nat)
  | jumpIfTrue (l : Nat)
  | jump (l : Nat)
  | label (l : Nat)
  | temp (k : Nat)
  | store
  | pop
  | nop
  | switch (cases : List (Nat × Nat)) (dflt : Nat)
  | case (k : Nat)
  | goto (n : Nat)
  | ret (value : Bool)
deriving DecidableEq, Repr

/-- What is known after parsing an expression: its code, whether it is an `IR_integer_literal`
(`operand.ir->kind`), `context->jump_label_index` and the number of unnamed declarations. -/
structure Out where
  code : List I
  lit : Option Nat
  labels : Nat
  temps : Nat

/-- The IR of an expression, starting with the given label and declaration counters. -/
def compile : E → Nat → Nat → Out
  | .leaf n, nl, nt => ⟨[.leaf n], none, nl, nt⟩
  | .lit v, nl, nt => ⟨[.lit v], some v, nl, nt⟩
  | .not e, nl, nt =>
    let o := compile e nl nt
    match o.lit with
    | some v => ⟨[.lit (if v = 0 then 1 else 0)], some (if v = 0 then 1 else 0), o.labels, o.temps⟩
    | none => ⟨o.code ++ [.logicalNot], none, o.labels, o.temps⟩
  | .andE a b, nl, nt =>
    let oa := compile a nl nt
    let l := oa.labels -- conditional_jump->label_number
    let ob := compile b (l + 1) oa.temps
    match oa.lit, ob.lit with
    | some v, some w => ⟨[.lit (if v ≠ 0 ∧ w ≠ 0 then 1 else 0)], some (if v ≠ 0 ∧ w ≠ 0 then 1 else 0), ob.labels, ob.temps⟩
    | _, _ =>
      let t := ob.temps
      let e := ob.labels -- jump_end->label_number
      ⟨oa.code ++ .jumpIfFalse l :: (ob.code ++ [.jumpIfFalse l, .temp t, .lit 1, .store, .pop, .jump e, .label l,
          .temp t, .lit 0, .store, .pop, .label e, .temp t]), none, e + 1, t + 1⟩
  | .orE a b, nl, nt =>
    let oa := compile a nl nt
    let l := oa.labels
    let ob := compile b (l + 1) oa.temps
    match oa.lit, ob.lit with
    | some v, some w => ⟨[.lit (if v ≠ 0 ∨ w ≠ 0 then 1 else 0)], some (if v ≠ 0 ∨ w ≠ 0 then 1 else 0), ob.labels, ob.temps⟩
    | _, _ =>
      let t := ob.temps
      let e := ob.labels
      ⟨oa.code ++ .jumpIfTrue l :: (ob.code ++ [.jumpIfTrue l, .temp t, .lit 0, .store, .pop, .jump e, .label l,
          .temp t, .lit 1, .store, .pop, .label e, .temp t]), none, e + 1, t + 1⟩
  | .cond c a b, nl, nt =>
    let oc := compile c nl nt
    match oc.lit with
    | some v =>
      let oa := compile a oc.labels oc.temps
      let ob := compile b oa.labels oa.temps
      if v ≠ 0 then ⟨oa.code, oa.lit, ob.labels, ob.temps⟩ else ⟨ob.code, ob.lit, ob.labels, ob.temps⟩
    | none =>
      let l := oc.labels -- conditional_jump->label_number
      let oa := compile a (l + 1) oc.temps
      let e := oa.labels -- end_jump->label_number
      let ob := compile b (e + 1) oa.temps
      let t := ob.temps -- the declaration is made last, temp1 and temp2 are filled in then
      ⟨oc.code ++ .jumpIfFalse l :: .temp t :: (oa.code ++ .nop :: .store :: .pop :: .jump e :: .label l :: .temp t ::
          (ob.code ++ [.store, .pop, .label e, .temp t])), none, ob.labels, t + 1⟩
  | .comma a b, nl, nt =>
    let oa := compile a nl nt
    let ob := compile b oa.labels oa.temps
    ⟨oa.code ++ .pop :: (ob.code ++ [.nop]), none, ob.labels, ob.temps⟩

end Verif.ShortCircuit
