import Verif.Model.Stmt
import Verif.Spec.ShortCircuit

/-!
# Semantics of statements

C11 6.8, as a transition system on a statement and what remains to be done after it.
-/
namespace Verif.Spec.Stmt
open Verif.ShortCircuit Verif.Stmt Verif.Spec.ShortCircuit

/-- What remains to be done after the current statement. -/
inductive K
  | stop
  | seq (s : S) (k : K)
  | whileK (c : E) (b : S) (k : K)
  | doK (b : S) (c : E) (k : K)
  | forK (cond inc : Option E) (b : S) (k : K)
  | switchK (k : K)

/-- Where control can be transferred to. -/
inductive Target
  | caseT (v : Nat)
  | dfltT
  | labelT (n : Nat)
deriving DecidableEq, Repr

/-- The labelled statement in `s`, and what is to be done after it, if `k` is to be done after
`s`. The cases of a nested switch belong to that switch. -/
def locate (t : Target) : S → K → Option (S × K)
  | .seq a b, k => (locate t a (.seq b k)).or (locate t b k)
  | .ifThen _ a, k => locate t a k
  | .ifElse _ a b, k => (locate t a k).or (locate t b k)
  | .whileS c b, k => locate t b (.whileK c b k)
  | .doS b c, k => locate t b (.doK b c k)
  | .forS _ c n b, k => locate t b (.forK c n b k)
  | .switchS _ b, k =>
    match t with
    | .labelT _ => locate t b (.switchK k)
    | _ => none
  | .caseS v s, k => if t = .caseT v then some (s, k) else locate t s k
  | .dfltS s, k => if t = .dfltT then some (s, k) else locate t s k
  | .label n s, k => if t = .labelT n then some (s, k) else locate t s k
  | _, _ => none

/-- How a call ended: `return`, with or without a value, or reaching the closing brace. -/
inductive Outcome
  | returned (v : Option Nat)
  | fellOff
deriving DecidableEq, Repr

inductive Res (σ : Type)
  | next (s : S) (k : K) (st : σ)
  | done (o : Outcome) (st : σ)
  | stuck

def evalOpt {σ : Type} (act : Nat → σ → Nat × σ) (e : Option E) (st : σ) : Nat × σ :=
  match e with
  | none => (1, st)
  | some e => eval act e st

/-- One step in the function with the body `body`. -/
def step {σ : Type} (act : Nat → σ → Nat × σ) (body : S) : S → K → σ → Res σ
  | .skip, .stop, st => .done .fellOff st
  | .skip, .seq s k, st => .next s k st
  | .skip, .whileK c b k, st => .next (.whileS c b) k st
  | .skip, .doK b c k, st => if (eval act c st).1 = 0 then .next .skip k (eval act c st).2 else .next (.doS b c) k (eval act c st).2
  | .skip, .forK c n b k, st => .next (.forS none c n b) k (evalOpt act n st).2
  | .skip, .switchK k, st => .next .skip k st
  | .expr e, k, st => .next .skip k (eval act e st).2
  | .seq a b, k, st => .next a (.seq b k) st
  | .ifThen c a, k, st => if (eval act c st).1 = 0 then .next .skip k (eval act c st).2 else .next a k (eval act c st).2
  | .ifElse c a b, k, st => if (eval act c st).1 = 0 then .next b k (eval act c st).2 else .next a k (eval act c st).2
  | .whileS c b, k, st => if (eval act c st).1 = 0 then .next .skip k (eval act c st).2 else .next b (.whileK c b k) (eval act c st).2
  | .doS b c, k, st => .next b (.doK b c k) st
  | .forS (some e) c n b, k, st => .next (.forS none c n b) k (eval act e st).2
  | .forS none c n b, k, st =>
    if (evalOpt act c st).1 = 0 then .next .skip k (evalOpt act c st).2 else .next b (.forK c n b k) (evalOpt act c st).2
  | .brk, .seq _ k, st => .next .brk k st
  | .brk, .whileK _ _ k, st => .next .skip k st
  | .brk, .doK _ _ k, st => .next .skip k st
  | .brk, .forK _ _ _ k, st => .next .skip k st
  | .brk, .switchK k, st => .next .skip k st
  | .brk, .stop, _ => .stuck
  | .cont, .seq _ k, st => .next .cont k st
  | .cont, .switchK k, st => .next .cont k st
  | .cont, .whileK c b k, st => .next (.whileS c b) k st
  | .cont, .doK b c k, st => .next .skip (.doK b c k) st
  | .cont, .forK c n b k, st => .next .skip (.forK c n b k) st
  | .cont, .stop, _ => .stuck
  | .switchS e b, k, st =>
    match (locate (.caseT (eval act e st).1) b (.switchK k)).or (locate .dfltT b (.switchK k)) with
    | some (s', k') => .next s' k' (eval act e st).2
    | none => .next .skip k (eval act e st).2
  | .caseS _ s, k, st => .next s k st
  | .dfltS s, k, st => .next s k st
  | .label _ s, k, st => .next s k st
  | .goto n, _, st =>
    match locate (.labelT n) body .stop with
    | some (s', k') => .next s' k' st
    | none => .stuck
  | .ret none, _, st => .done (.returned none) st
  | .ret (some e), _, st => .done (.returned (some (eval act e st).1)) (eval act e st).2

/-- The execution from `s`, `k`, `st` ends with the outcome `o` in the state `st'`. -/
inductive Runs {σ : Type} (act : Nat → σ → Nat × σ) (body : S) : S → K → σ → Outcome → σ → Prop
  | done (s k st o st') : step act body s k st = .done o st' → Runs act body s k st o st'
  | next (s k st s' k' st' o st'') : step act body s k st = .next s' k' st' → Runs act body s' k' st' o st'' → Runs act body s k st o st''

/-- A call of the function with the body `body`. Reaching the end of `main` returns 0 (C11
5.1.2.2.3). -/
def Calls {σ : Type} (act : Nat → σ → Nat × σ) (body : S) (isMain : Bool) (st : σ) (o : Outcome) (st' : σ) : Prop :=
  ∃ o', Runs act body body .stop st o' st' ∧ o = if isMain ∧ o' = .fellOff then .returned (some 0) else o'

/-- The machine has reached the end of the function. -/
def Final {σ : Type} (prog : List I) (c : Cfg σ) (o : Outcome) (st : σ) : Prop :=
  c.st = st ∧ match o with
    | .fellOff => c.pc = prog.length
    | .returned none => prog[c.pc]? = some (.ret false)
    | .returned (some v) => prog[c.pc]? = some (.ret true) ∧ ∃ e s, c.stack = e :: s ∧ deref c.temps e = v

/-- The code, run from its start with an empty operand stack and any contents of the unnamed
declarations, ends. -/
def Executes {σ : Type} (act : Nat → σ → Nat × σ) (prog : List I) (temps : Nat → Nat) (st : σ) (o : Outcome) (st' : σ) : Prop :=
  ∃ c, Steps act prog ⟨0, [], temps, st⟩ c ∧ Final prog c o st'

end Verif.Spec.Stmt

namespace Verif.Spec.Stmt
open Verif.ShortCircuit Verif.Stmt

/-- The labels of a function body (C11 6.8.1). -/
def labelsOf : S → List Nat
  | .seq a b => labelsOf a ++ labelsOf b
  | .ifThen _ a => labelsOf a
  | .ifElse _ a b => labelsOf a ++ labelsOf b
  | .whileS _ b => labelsOf b
  | .doS b _ => labelsOf b
  | .forS _ _ _ b => labelsOf b
  | .switchS _ b => labelsOf b
  | .caseS _ s => labelsOf s
  | .dfltS s => labelsOf s
  | .label n s => n :: labelsOf s
  | _ => []

/-- The names used in `goto`. -/
def gotosOf : S → List Nat
  | .seq a b => gotosOf a ++ gotosOf b
  | .ifThen _ a => gotosOf a
  | .ifElse _ a b => gotosOf a ++ gotosOf b
  | .whileS _ b => gotosOf b
  | .doS b _ => gotosOf b
  | .forS _ _ _ b => gotosOf b
  | .switchS _ b => gotosOf b
  | .caseS _ s => gotosOf s
  | .dfltS s => gotosOf s
  | .label _ s => gotosOf s
  | .goto n => [n]
  | _ => []

/-- The values of the cases that belong to the switch whose body contains `s`. -/
def casesOf : S → List Nat
  | .seq a b => casesOf a ++ casesOf b
  | .ifThen _ a => casesOf a
  | .ifElse _ a b => casesOf a ++ casesOf b
  | .whileS _ b => casesOf b
  | .doS b _ => casesOf b
  | .forS _ _ _ b => casesOf b
  | .caseS v s => v :: casesOf s
  | .dfltS s => casesOf s
  | .label _ s => casesOf s
  | _ => []

/-- The number of `default` labels of that switch. -/
def dfltsOf : S → Nat
  | .seq a b => dfltsOf a + dfltsOf b
  | .ifThen _ a => dfltsOf a
  | .ifElse _ a b => dfltsOf a + dfltsOf b
  | .whileS _ b => dfltsOf b
  | .doS b _ => dfltsOf b
  | .forS _ _ _ b => dfltsOf b
  | .caseS _ s => dfltsOf s
  | .dfltS s => dfltsOf s + 1
  | .label _ s => dfltsOf s
  | _ => 0

/-- `break`, `continue`, `case` and `default` are where they may be; the cases of each switch are
distinct and it has at most one default (C11 6.8.1p2, 6.8.4.2p3, 6.8.6.2p1, 6.8.6.3p1). -/
def Placed (inBreakable inLoop inSwitch : Bool) : S → Prop
  | .seq a b => Placed inBreakable inLoop inSwitch a ∧ Placed inBreakable inLoop inSwitch b
  | .ifThen _ a => Placed inBreakable inLoop inSwitch a
  | .ifElse _ a b => Placed inBreakable inLoop inSwitch a ∧ Placed inBreakable inLoop inSwitch b
  | .whileS _ b => Placed true true inSwitch b
  | .doS b _ => Placed true true inSwitch b
  | .forS _ _ _ b => Placed true true inSwitch b
  | .switchS _ b => Placed true inLoop true b ∧ (casesOf b).Nodup ∧ dfltsOf b ≤ 1
  | .caseS _ s => inSwitch = true ∧ Placed inBreakable inLoop inSwitch s
  | .dfltS s => inSwitch = true ∧ Placed inBreakable inLoop inSwitch s
  | .label _ s => Placed inBreakable inLoop inSwitch s
  | .brk => inBreakable = true
  | .cont => inLoop = true
  | _ => True

/-- The constraints of the C standard on a function body that are about control flow. -/
def WellFormed (body : S) : Prop :=
  Placed false false false body ∧ (labelsOf body).Nodup ∧ ∀ n ∈ gotosOf body, n ∈ labelsOf body

end Verif.Spec.Stmt
