import Verif.Model.ExprCode
import Verif.Spec.FuncCode

/-!
# Model: the code of functions with control flow

Models `parse_statement` (`src/parse.c:9033-9616`, `if`, `for`, `while`, `do`, `break`, `continue`, `return`, blocks and expression
statements) on top of the expressions of `Model/ExprCode.lean`, the end of `worker_parse_function` (`src/main.c:3425-3436`), and
`emit_code_for_function__internal` (`src/emit_x64.c:2560-4414`) with jumps: the code of each node is emitted once, in the order of the
nodes, with the registers and locations that the emitter has at that point; it is executed each time control reaches it.

Simplifications: as in `Model/ExprCode.lean`; jumps go to nodes instead of byte offsets (the encoding and the patching of jumps are C35
and C36); `switch`, `goto` and declarations are left out (C59 has their IR). The machine ends at the epilog, which follows the last node.
-/
namespace Verif.ExprCode
open Verif.IntType Verif.RegAlloc Verif.Spec.ExprCode Verif.Spec.FuncCode

/-! ## IR of statements -/

/-- An expression statement (`src/parse.c:9603-9616`) and the increment of `for` (9190-9202). -/
def lowerAct : Act → Option (List Ir)
  | .assign s => lowerStmt s
  | .expr e => (lower e).map (fun l => l.irs ++ [.pop])

/-- The first part and the increment of `for` may be missing (`src/parse.c:9125-9128, 9187`). -/
def lowerActOpt : Option Act → Option (List Ir)
  | none => some []
  | some a => lowerAct a

/-- A condition with its jump (`src/parse.c:9070, 9166, 9252, 9325`). -/
def lowerJump (onTrue : Bool) (label : Nat) (e : Expr) : Option (List Ir) := (lower e).map (fun l => l.irs ++ [.jumpIf onTrue label])

/-- The condition of `for`; a missing one is the literal 1 (`src/parse.c:9151-9153`). -/
def condOr1 : Option Expr → Expr
  | none => .lit .s32 1
  | some e => e

/-- `parse_statement` in a function that returns `t` (`none`: `void`). `brk` and `cont` are `current_break_label` and `current_continue_label`, if
there is such a scope; `n` is `jump_label_index`. `none` is an error. -/
def lowerS (t : Option Ty) : S → (brk cont : Option Nat) → Nat → Option (List Ir × Nat)
  | .skip, _, _, n => some ([], n)
  | .act a, _, _, n => (lowerAct a).map (fun c => (c, n))
  | .seq a b, brk, cont, n =>
    (lowerS t a brk cont n).bind (fun (ca, n) => (lowerS t b brk cont n).map (fun (cb, n) => (ca ++ cb, n)))
  | .ifThen c a, brk, cont, n => -- 9050-9113; `if_false_label` is `n`
    (lowerJump false n c).bind (fun cc => (lowerS t a brk cont (n + 1)).map (fun (ca, n') => (cc ++ ca ++ [.label n], n')))
  | .ifElse c a b, brk, cont, n =>
    (lowerJump false n c).bind (fun cc => (lowerS t a brk cont (n + 1)).bind (fun (ca, e) =>
      (lowerS t b brk cont (e + 1)).map (fun (cb, n') => (cc ++ ca ++ [.jump e, .label n] ++ cb ++ [.label e], n'))))
  | .whileS c b, _, _, n => -- 9227-9282; the labels are `continue` and `break`
    (lowerJump false (n + 1) c).bind (fun cc =>
      (lowerS t b (some (n + 1)) (some n) (n + 2)).map (fun (cb, n') => ([.label n] ++ cc ++ cb ++ [.jump n, .label (n + 1)], n')))
  | .doS b c, _, _, n => -- 9283-9343; the labels are `loop`, `continue` and `break`
    (lowerS t b (some (n + 2)) (some (n + 1)) (n + 3)).bind (fun (cb, n') => (lowerJump true n c).map (fun cc =>
      ([.label n] ++ cb ++ [.label (n + 1)] ++ cc ++ [.label (n + 2)], n')))
  | .forS i c inc b, _, _, n => -- 9115-9226; the labels are `for`, `continue` and `break`
    (lowerActOpt i).bind (fun ci => (lowerJump false (n + 2) (condOr1 c)).bind (fun cc =>
      (lowerS t b (some (n + 2)) (some (n + 1)) (n + 3)).bind (fun (cb, n') => (lowerActOpt inc).map (fun cn =>
        (ci ++ [.label n] ++ cc ++ cb ++ [.label (n + 1)] ++ cn ++ [.jump n, .label (n + 2)], n')))))
  | .brk, brk, _, n => brk.map (fun l => ([.jump l], n)) -- 9345-9366
  | .cont, _, cont, n => cont.map (fun l => ([.jump l], n)) -- 9367-9386
  | .ret none, _, _, n => if t = none then some ([.retVoid], n) else none -- 9518-9543
  | .ret (some e), _, _, n => t.bind (fun t => (lowerReturn t e).map (fun c => (c, n)))

/-- The nodes of a function and the number of its labels, `worker_parse_function` (`src/main.c:3395-3436`). In `main`, `return 0;` is appended if it returns `int`. -/
def lowerFunction (t : Option Ty) (isMain : Bool) (s : S) : Option (List Ir × Nat) :=
  (lowerS t s none none 0).map (fun (c, n) => (c ++ if isMain = true ∧ t = some .s32 then [.literal ⟨.s32, 0⟩, .ret] else [], n))

/-! ## Emission -/

/-- The emitter goes through the nodes once; its state before each of them and at the end. The instructions themselves are not executed here:
`div` and the others, which might raise an exception, are replaced by some number. -/
def layout : List Ir → St → Option (List St)
  | [], st => some [st]
  | ir :: rest, st => (emitWith (fun _ _ _ _ _ _ => some (0, 0)) rest.head? ir st).bind (fun st' => (layout rest st').map (fun sts => st :: sts))

/-! ## Execution -/

/-- The contents of the registers, the temporaries, the memory and the flags, and whether the last conditional jump was taken. -/
structure Contents where
  regs : Reg → Nat
  mem : Nat → Nat
  bytes : Nat → Nat
  flags : Spec.Flags.Flags
  taken : Option Bool := none

def contents (st : St) : Contents := ⟨st.m.s.regs, st.m.s.mem, st.m.bytes, st.m.flags, st.taken⟩

/-- The emitter's state with the given contents. -/
def fill (st : St) (c : Contents) : St :=
  { m := { s := { st.m.s with regs := c.regs, mem := c.mem }, bytes := c.bytes, flags := c.flags }, stack := st.stack, taken := c.taken }

/-- `context->jump_labels[l].jump_location` (`src/emit_x64.c:3734-3739`): the last label with that number. -/
def find (l : Nat) : List Ir → Option Nat
  | [] => none
  | ir :: rest => match find l rest with
    | some p => some (p + 1)
    | none => if ir = .label l then some 0 else none

/-- Where control goes after the node: `return` jumps to the epilog, unless it is the last node (`src/emit_x64.c:3692-3696`). -/
def target (code : List Ir) (ir : Ir) (pc : Nat) (taken : Option Bool) : Option Nat :=
  match ir with
  | .ret | .retVoid => some code.length
  | .jump l => find l code
  | .jumpIf _ l => if taken = some true then find l code else some (pc + 1)
  | _ => some (pc + 1)

/-- Execute the code that was emitted for the node at `pc`. -/
def stepAt (code : List Ir) (sts : List St) (pc : Nat) (c : Contents) : Option (Nat × Contents) :=
  match code[pc]?, sts[pc]? with
  | some ir, some st => (emit code[pc + 1]? ir (fill st c)).bind (fun st' => (target code ir pc st'.taken).map (fun pc' => (pc', contents st')))
  | _, _ => none

/-- Execute at most `fuel` nodes, until the epilog is reached. -/
def exec (code : List Ir) (sts : List St) : Nat → Nat → Contents → Option Contents
  | 0, pc, c => if pc = code.length then some c else none
  | fuel + 1, pc, c => if pc = code.length then some c else (stepAt code sts pc c).bind (fun x => exec code sts fuel x.1 x.2)

/-- The place in the code and the contents after `k` nodes. -/
def after (code : List Ir) (sts : List St) : Nat → Nat → Contents → Option (Nat × Contents)
  | 0, pc, c => some (pc, c)
  | k + 1, pc, c => (stepAt code sts pc c).bind (fun x => after code sts k x.1 x.2)

/-! ## Limits -/

def needAct : Act → Nat
  | .assign s => needStmt s
  | .expr e => need e

/-- The stack of emit locations is large enough for every expression. -/
def Fits : S → Prop
  | .skip | .brk | .cont => True
  | .act a => needAct a ≤ 256
  | .seq a b => Fits a ∧ Fits b
  | .ifThen c a => need c ≤ 256 ∧ Fits a
  | .ifElse c a b => need c ≤ 256 ∧ Fits a ∧ Fits b
  | .whileS c b => need c ≤ 256 ∧ Fits b
  | .doS b c => Fits b ∧ need c ≤ 256
  | .forS i c n b => Opt (fun a => needAct a ≤ 256) i ∧ Opt (fun c => need c ≤ 256) c ∧ Opt (fun a => needAct a ≤ 256) n ∧ Fits b
  | .ret e => Opt (fun e => need e ≤ 256) e

end Verif.ExprCode
