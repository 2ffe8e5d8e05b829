import Verif.Spec.ExprCode

/-!
# Spec: statements of C (C11 6.8) over integer expressions and assignments

Written from the C standard; on top of the meaning of expressions and assignments in `Spec/ExprCode.lean`.
-/
namespace Verif.Spec.FuncCode
open Verif.IntType Verif.Spec.IntType Verif.Spec.ExprCode

/-- An expression statement: an assignment, or an expression whose value is dropped. -/
inductive Act
  | assign (s : Stmt)
  | expr (e : Expr)
deriving Repr

def Done (bytes : Nat → Nat) : Act → (Nat → Nat) → Prop
  | .assign s, bytes' => Assigned bytes s bytes'
  | .expr e, bytes' => (∃ t v, Eval bytes e t v) ∧ bytes' = bytes

/-- Statements. A missing part of `for` is `none`. -/
inductive S
  | skip
  | act (a : Act)
  | seq (a b : S)
  | ifThen (c : Expr) (a : S)
  | ifElse (c : Expr) (a b : S)
  | whileS (c : Expr) (b : S)
  | doS (b : S) (c : Expr)
  | forS (init : Option Act) (cond : Option Expr) (inc : Option Act) (b : S)
  | brk
  | cont
  | ret (e : Option Expr)
deriving Repr

/-- How a statement ends: it is done, or one of the jump statements (6.8.6) was executed. -/
inductive Res
  | normal
  | brk
  | cont
  | ret (v : Option Int)
deriving DecidableEq, Repr

/-- The controlling expression compares unequal to 0 (6.8.4.1, 6.8.5). -/
def True' (bytes : Nat → Nat) (e : Expr) : Prop := ∃ t v, Eval bytes e t v ∧ v ≠ 0
def False' (bytes : Nat → Nat) (e : Expr) : Prop := ∃ t, Eval bytes e t 0

/-- An omitted controlling expression is a nonzero constant (6.8.5.3). -/
def TrueOpt (bytes : Nat → Nat) : Option Expr → Prop
  | none => True
  | some e => True' bytes e
def DoneOpt (bytes : Nat → Nat) : Option Act → (Nat → Nat) → Prop
  | none, bytes' => bytes' = bytes
  | some a, bytes' => Done bytes a bytes'

/-- In a function that returns `t` (`none` is `void`), the statement run with the first memory ends with the second one in this way. -/
inductive Runs (t : Option Ty) : (Nat → Nat) → S → (Nat → Nat) → Res → Prop
  | skip {m} : Runs t m .skip m .normal
  | act {m a m'} (h : Done m a m') : Runs t m (.act a) m' .normal
  | seq {m a m1 b m2 r} (ha : Runs t m a m1 .normal) (hb : Runs t m1 b m2 r) : Runs t m (.seq a b) m2 r
  | seqStop {m a m1 b r} (ha : Runs t m a m1 r) (hr : r ≠ .normal) : Runs t m (.seq a b) m1 r
  | ifThen {m c a m1 r} (hc : True' m c) (ha : Runs t m a m1 r) : Runs t m (.ifThen c a) m1 r
  | ifThenNot {m c a} (hc : False' m c) : Runs t m (.ifThen c a) m .normal
  | ifElse {m c a b m1 r} (hc : True' m c) (ha : Runs t m a m1 r) : Runs t m (.ifElse c a b) m1 r
  | ifElseNot {m c a b m1 r} (hc : False' m c) (hb : Runs t m b m1 r) : Runs t m (.ifElse c a b) m1 r
  | whileEnd {m c b} (hc : False' m c) : Runs t m (.whileS c b) m .normal
  | whileBreak {m c b m1} (hc : True' m c) (hb : Runs t m b m1 .brk) : Runs t m (.whileS c b) m1 .normal
  | whileReturn {m c b m1 v} (hc : True' m c) (hb : Runs t m b m1 (.ret v)) : Runs t m (.whileS c b) m1 (.ret v)
  | whileNext {m c b m1 r m2 r'} (hc : True' m c) (hb : Runs t m b m1 r) (hr : r = .normal ∨ r = .cont) (hw : Runs t m1 (.whileS c b) m2 r') :
      Runs t m (.whileS c b) m2 r'
  | doBreak {m c b m1} (hb : Runs t m b m1 .brk) : Runs t m (.doS b c) m1 .normal
  | doReturn {m c b m1 v} (hb : Runs t m b m1 (.ret v)) : Runs t m (.doS b c) m1 (.ret v)
  | doEnd {m c b m1 r} (hb : Runs t m b m1 r) (hr : r = .normal ∨ r = .cont) (hc : False' m1 c) : Runs t m (.doS b c) m1 .normal
  | doNext {m c b m1 r m2 r'} (hb : Runs t m b m1 r) (hr : r = .normal ∨ r = .cont) (hc : True' m1 c) (hw : Runs t m1 (.doS b c) m2 r') :
      Runs t m (.doS b c) m2 r'
  | forInit {m i c n b m1 m2 r} (hi : Done m i m1) (hf : Runs t m1 (.forS none c n b) m2 r) : Runs t m (.forS (some i) c n b) m2 r
  | forEnd {m c n b} (hc : False' m c) : Runs t m (.forS none (some c) n b) m .normal
  | forBreak {m c n b m1} (hc : TrueOpt m c) (hb : Runs t m b m1 .brk) : Runs t m (.forS none c n b) m1 .normal
  | forReturn {m c n b m1 v} (hc : TrueOpt m c) (hb : Runs t m b m1 (.ret v)) : Runs t m (.forS none c n b) m1 (.ret v)
  | forNext {m c n b m1 r m2 m3 r'} (hc : TrueOpt m c) (hb : Runs t m b m1 r) (hr : r = .normal ∨ r = .cont) (hn : DoneOpt m1 n m2)
      (hw : Runs t m2 (.forS none c n b) m3 r') : Runs t m (.forS none c n b) m3 r'
  | brk {m} : Runs t m .brk m .brk
  | cont {m} : Runs t m .cont m .cont
  | retVoid {m} (ht : t = none) : Runs t m (.ret none) m (.ret none)
  /-- 6.8.6.4: the value is converted to the type of the function. -/
  | ret {m e u v w r} (ht : t = some r) (hr : isInteger r) (he : Eval m e u v) (hw : Converts r v w) : Runs t m (.ret (some e)) m (.ret (some w))

/-- The statement run with this memory is still running after `n` complete iterations of loops. It runs forever if this holds for every `n`: without
loops, a statement ends. -/
inductive Going (t : Option Ty) : Nat → (Nat → Nat) → S → Prop
  | start {m s} : Going t 0 m s
  | seqFirst {n m a b} (h : Going t n m a) : Going t n m (.seq a b)
  | seqSecond {n m a b m1} (ha : Runs t m a m1 .normal) (h : Going t n m1 b) : Going t n m (.seq a b)
  | ifThen {n m c a} (hc : True' m c) (h : Going t n m a) : Going t n m (.ifThen c a)
  | ifElse {n m c a b} (hc : True' m c) (h : Going t n m a) : Going t n m (.ifElse c a b)
  | ifElseNot {n m c a b} (hc : False' m c) (h : Going t n m b) : Going t n m (.ifElse c a b)
  | whileBody {n m c b} (hc : True' m c) (h : Going t n m b) : Going t n m (.whileS c b)
  | whileNext {n m c b m1 r} (hc : True' m c) (hb : Runs t m b m1 r) (hr : r = .normal ∨ r = .cont) (h : Going t n m1 (.whileS c b)) :
      Going t (n + 1) m (.whileS c b)
  | doBody {n m c b} (h : Going t n m b) : Going t n m (.doS b c)
  | doNext {n m c b m1 r} (hb : Runs t m b m1 r) (hr : r = .normal ∨ r = .cont) (hc : True' m1 c) (h : Going t n m1 (.doS b c)) : Going t (n + 1) m (.doS b c)
  | forInit {n m i c inc b m1} (hi : Done m i m1) (h : Going t n m1 (.forS none c inc b)) : Going t n m (.forS (some i) c inc b)
  | forBody {n m c inc b} (hc : TrueOpt m c) (h : Going t n m b) : Going t n m (.forS none c inc b)
  | forNext {n m c inc b m1 r m2} (hc : TrueOpt m c) (hb : Runs t m b m1 r) (hr : r = .normal ∨ r = .cont) (hn : DoneOpt m1 inc m2)
      (h : Going t n m2 (.forS none c inc b)) : Going t (n + 1) m (.forS none c inc b)

/-! ## Well-typed statements -/

/-- All types that occur are integer types. -/
def Typed : Expr → Prop
  | .lit t _ | .var t _ => isInteger t
  | .deref t e | .cast t e => isInteger t ∧ Typed e
  | .un _ e => Typed e
  | .bin _ l r => Typed l ∧ Typed r

def TypedLValue : LValue → Prop
  | .var t _ => isInteger t
  | .deref t e => isInteger t ∧ Typed e

def TypedAct : Act → Prop
  | .assign s => TypedLValue s.lv ∧ Typed s.e
  | .expr e => Typed e

/-- Every part, if it is there, satisfies the predicate. -/
def Opt {α : Type} (p : α → Prop) : Option α → Prop
  | none => True
  | some a => p a

def TypedS : S → Prop
  | .skip | .brk | .cont => True
  | .act a => TypedAct a
  | .seq a b => TypedS a ∧ TypedS b
  | .ifThen c a => Typed c ∧ TypedS a
  | .ifElse c a b => Typed c ∧ TypedS a ∧ TypedS b
  | .whileS c b => Typed c ∧ TypedS b
  | .doS b c => TypedS b ∧ Typed c
  | .forS i c n b => Opt TypedAct i ∧ Opt Typed c ∧ Opt TypedAct n ∧ TypedS b
  | .ret e => Opt Typed e

end Verif.Spec.FuncCode
