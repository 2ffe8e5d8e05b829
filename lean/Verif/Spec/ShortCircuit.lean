import Verif.Model.ShortCircuit

/-!
# Semantics of the expressions and of the IR

`σ` is the state of the program (memory, output, ...); evaluating leaf `n` is an arbitrary
function `act n` of it.
-/
namespace Verif.Spec.ShortCircuit
open Verif.ShortCircuit

/-- C11 6.5.3.3, 6.5.13, 6.5.14, 6.5.15, 6.5.17: value and effect. -/
def eval {σ : Type} (act : Nat → σ → Nat × σ) : E → σ → Nat × σ
  | .leaf n, s => act n s
  | .lit v, s => (v, s)
  | .not e, s => let r := eval act e s; (if r.1 = 0 then 1 else 0, r.2)
  | .andE a b, s =>
    let ra := eval act a s
    if ra.1 = 0 then (0, ra.2) -- b is not evaluated
    else
      let rb := eval act b ra.2
      (if rb.1 = 0 then 0 else 1, rb.2)
  | .orE a b, s =>
    let ra := eval act a s
    if ra.1 ≠ 0 then (1, ra.2)
    else
      let rb := eval act b ra.2
      (if rb.1 = 0 then 0 else 1, rb.2)
  | .cond c a b, s =>
    let rc := eval act c s
    if rc.1 ≠ 0 then eval act a rc.2 else eval act b rc.2
  | .comma a b, s => eval act b (eval act a s).2

/-- An entry of the operand stack: a value, or the location of an unnamed declaration, which is
read when the entry is used. -/
inductive Entry
  | val (v : Nat)
  | loc (k : Nat)
deriving DecidableEq, Repr

structure Cfg (σ : Type) where
  pc : Nat
  stack : List Entry
  temps : Nat → Nat
  st : σ

def deref (temps : Nat → Nat) : Entry → Nat
  | .val v => v
  | .loc k => temps k

/-- Index of the label in the program. -/
def find (l : Nat) (prog : List I) : Nat := prog.findIdx (· == .label l)

/-- One instruction of the stack machine that the IR is code for. `switch` compares with the cases
in order and jumps to the node of the first equal one, or to the default label
(`src/emit_x64.c:3767-3828`). `ret` ends the function: there is no next configuration. -/
def exec {σ : Type} (act : Nat → σ → Nat × σ) (prog : List I) (c : Cfg σ) : I → Option (Cfg σ)
  | .leaf n => some ⟨c.pc + 1, .val (act n c.st).1 :: c.stack, c.temps, (act n c.st).2⟩
  | .lit v => some ⟨c.pc + 1, .val v :: c.stack, c.temps, c.st⟩
  | .logicalNot =>
    match c.stack with
    | e :: s => some ⟨c.pc + 1, .val (if deref c.temps e = 0 then 1 else 0) :: s, c.temps, c.st⟩
    | _ => none
  | .jumpIfFalse l =>
    match c.stack with
    | e :: s => some ⟨if deref c.temps e = 0 then find l prog else c.pc + 1, s, c.temps, c.st⟩
    | _ => none
  | .jumpIfTrue l =>
    match c.stack with
    | e :: s => some ⟨if deref c.temps e = 0 then c.pc + 1 else find l prog, s, c.temps, c.st⟩
    | _ => none
  | .jump l => some ⟨find l prog, c.stack, c.temps, c.st⟩
  | .label _ => some ⟨c.pc + 1, c.stack, c.temps, c.st⟩
  | .temp k => some ⟨c.pc + 1, .loc k :: c.stack, c.temps, c.st⟩
  | .store =>
    match c.stack with
    | e :: .loc k :: s => some ⟨c.pc + 1, .loc k :: s, fun j => if j = k then deref c.temps e else c.temps j, c.st⟩
    | _ => none
  | .pop =>
    match c.stack with
    | _ :: s => some ⟨c.pc + 1, s, c.temps, c.st⟩
    | _ => none
  | .nop => some ⟨c.pc + 1, c.stack, c.temps, c.st⟩
  | .switch cases d =>
    match c.stack with
    | e :: s =>
      match cases.find? (·.1 == deref c.temps e) with
      | some (_, k) => some ⟨prog.findIdx (· == .case k), s, c.temps, c.st⟩
      | none => some ⟨find d prog, s, c.temps, c.st⟩
    | _ => none
  | .case _ => some ⟨c.pc + 1, c.stack, c.temps, c.st⟩
  | .goto _ => none
  | .ret _ => none

def step {σ : Type} (act : Nat → σ → Nat × σ) (prog : List I) (c : Cfg σ) : Option (Cfg σ) :=
  (prog[c.pc]?).bind (exec act prog c)

inductive Steps {σ : Type} (act : Nat → σ → Nat × σ) (prog : List I) : Cfg σ → Cfg σ → Prop
  | refl (c : Cfg σ) : Steps act prog c c
  | cons (a b c : Cfg σ) : step act prog a = some b → Steps act prog b c → Steps act prog a c

/-- The labels placed by some code. -/
def placed (code : List I) : List Nat := code.filterMap fun | .label l => some l | _ => none

end Verif.Spec.ShortCircuit
