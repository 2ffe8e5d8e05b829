import Verif.Lemmas.ExprStore

/-!
# C72: compiled expressions and assignments compute what C prescribes
-/
namespace Verif.Props.ExprCode
open Verif.IntType Verif.RegAlloc Verif.ExprCode Verif.Spec.ExprCode Verif.Spec.IntType
open Verif.Lemmas.ExprRun Verif.Lemmas.ExprCode

theorem boot_good (base regs mem bytes flags) : Good [] (boot base regs mem bytes flags) {} :=
  ⟨Props.RegAlloc.start_inv base regs mem, (by intro _ _ h; cases h), (by intro _ _ h; cases h), by simp, by simp⟩

theorem boot_idle (base regs mem bytes flags) : Idle (boot base regs mem bytes flags) := fun _ => rfl

/-- C72: `return e;` leaves in `rax` the value of `e`, converted to the type that the function returns, and changes no memory. -/
theorem C72_return (base : Nat) (regs : Reg → Nat) (mem bytes : Nat → Nat) (flags) (t u : Ty) (e : Expr) (v w : Int) (c : List Ir)
    (he : Eval bytes e u v) (ht : isInteger t) (hw : Converts t v w) (hc : lowerReturn t e = some c) (hn : need e ≤ 256) :
    ∃ st, run c ⟨boot base regs mem bytes flags, [], none⟩ = some st ∧ st.m.bytes = bytes ∧ (2 ^ t.bits : Int) ∣ (st.m.s.regs rax : Int) - w := by
  obtain ⟨m', A', h1, _, _, h4, h5⟩ := ret_ok (taken := none) he hc ht hw hn (boot_good base regs mem bytes flags) (boot_idle _ _ _ _ _) rfl
  exact ⟨_, h1, h4, h5.2.2⟩

/-- C72: a sequence of assignments changes the memory as C prescribes. -/
theorem C72_assignments (base : Nat) (regs : Reg → Nat) (mem bytes bytes' : Nat → Nat) (flags) (ss : List Stmt) (c : List Ir)
    (h : Exec bytes ss bytes') (hc : lowerStmts ss = some c) (hn : ∀ s ∈ ss, needStmt s ≤ 256) :
    ∃ st, run c ⟨boot base regs mem bytes flags, [], none⟩ = some st ∧ st.m.bytes = bytes' := by
  obtain ⟨m', A', h1, _, _, h4⟩ := stmts_ok (taken := none) h hc hn (boot_good base regs mem bytes flags) (boot_idle _ _ _ _ _) rfl
  exact ⟨_, h1, h4⟩

/-- C72: a conditional jump is taken exactly if the condition is not zero (`onTrue`) or zero. -/
theorem C72_condition (base : Nat) (regs : Reg → Nat) (mem bytes : Nat → Nat) (flags) (onTrue : Bool) (label : Nat) (e : Expr) (t : Ty) (v : Int) (low : Low)
    (he : Eval bytes e t v) (hl : lower e = some low) (hn : need e ≤ 256) :
    ∃ st, run (low.irs ++ [.jumpIf onTrue label]) ⟨boot base regs mem bytes flags, [], none⟩ = some st ∧ st.m.bytes = bytes ∧
      st.taken = some (decide (v ≠ 0) == onTrue) := by
  obtain ⟨m', A', h1, _, _, h4⟩ := jump_ok (taken := none) onTrue label he hl hn (boot_good base regs mem bytes flags) (boot_idle _ _ _ _ _) rfl
  refine ⟨_, h1, h4, ?_⟩
  by_cases hv : v = 0 <;> cases onTrue <;> simp [hv]

/-- C72 (the part that holds): an expression with a value is compiled, unless it negates the constant `2^(n-1)` of an unsigned type. -/
theorem C72_compiles_partial (bytes : Nat → Nat) (e : Expr) (t : Ty) (v : Int) (he : Eval bytes e t v) (hh : HalfFree bytes e) :
    ∃ low, lower e = some low := lower_some he hh

/-! ## Non-vacuity -/

namespace Sample

/-- `a` (an `int` at 0) is -7, `b` (a `long long` at 8) is 3, `p` (at 16) points to 40, `c` (a `char` at 24) is -1. -/
def bytes : Nat → Nat := fun a =>
  if a = 0 then 0xf9 else if a < 4 then 0xff else if a = 8 then 3 else if a = 16 then 40 else if a = 24 then 0xff else 0
def flags : Spec.Flags.Flags := ⟨true, false, true, false, true⟩
def m : Machine := boot 64 (fun r => 1000 + r.num) (fun a => a) bytes flags

def a : Expr := .var .s32 0
def b : Expr := .var .s64 8
def p : Expr := .var .u64 16
def c : Expr := .var .s8 24

theorem eval_a : Eval bytes a .s32 (-7) := .var ⟨trivial, by decide, by decide⟩
theorem eval_b : Eval bytes b .s64 3 := .var ⟨trivial, by decide, by decide⟩
theorem eval_p : Eval bytes p .u64 40 := .var ⟨trivial, by decide, by decide⟩
theorem eval_c : Eval bytes c .s8 (-1) := .var ⟨trivial, by decide, by decide⟩

/-- `a / b + (c << 2u)` is not defined in C (a negative number is shifted), `a / b - c % a` is. -/
def e : Expr := .bin (.arith .sub) (.bin (.arith .div) a b) (.bin (.arith .mod) c a)

theorem eval_e : Eval bytes e .s64 (-1) := by
  have h1 : Eval bytes (.bin (.arith .div) a b) .s64 (-2) := .arith eval_a eval_b
    (.arith (op' := .div) (c := .s64) (x := -7) (y := 3) (e := -2) (by decide) (by decide) (by decide) (by decide) (by decide) (by decide) (by decide) (by decide))
  have h2 : Eval bytes (.bin (.arith .mod) c a) .s32 (-1) := .arith eval_c eval_a
    (.arith (op' := .mod) (c := .s32) (x := -1) (y := -7) (e := -1) (by decide) (by decide) (by decide) (by decide) (by decide) (by decide) (by decide) (by decide))
  exact .arith h1 h2
    (.arith (op' := .sub) (c := .s64) (x := -2) (y := -1) (e := -1) (by decide) (by decide) (by decide) (by decide) (by decide) (by decide) (by decide) (by decide))

/-- The hypotheses of `C72_return` hold for `unsigned char f() { return a / b - c % a; }`, and the value returned is 255. -/
example : ∃ code, lowerReturn .u8 e = some code ∧ need e ≤ 256 ∧ Converts .u8 (-1) 255 ∧
    ∃ st, run code ⟨m, [], none⟩ = some st ∧ st.m.bytes = bytes ∧ (2 ^ 8 : Int) ∣ (st.m.s.regs rax : Int) - 255 := by
  have hc : Converts .u8 (-1) 255 := by decide
  obtain ⟨low, h⟩ := C72_compiles_partial bytes e .s64 (-1) eval_e ⟨⟨trivial, trivial⟩, ⟨trivial, trivial⟩⟩
  have hl : lowerReturn .u8 e = some ((castLow .u8 low).irs ++ [.ret]) := by unfold lowerReturn; rw [h]; rfl
  exact ⟨_, hl, by decide, hc, C72_return 64 _ _ bytes flags .u8 .s64 e (-1) 255 _ eval_e trivial hc hl (by decide)⟩

/-- The code of `a / b` as it is emitted: the cast of the left operand comes after the right operand. -/
example : lower (.bin (.arith .div) a b) = some (.code .s64 [.identifier 0 4, .identifier 8 8, .cast true (.signExtend 32 64), .mulDiv .div true]) := by
  decide
example : ((run [.identifier 0 4, .identifier 8 8, .cast true (.signExtend 32 64), .mulDiv .div true, .ret] ⟨m, [], none⟩).map
    (fun st => st.m.s.regs rax)) = some (2 ^ 64 - 2) := by decide +kernel

/-- `*(short *)(p + 2) = a; b = *(unsigned short *)(p + 2);` -/
def ss : List Stmt := [⟨.deref .s16 (.bin (.arith .add) p (.lit .s32 2)), a⟩, ⟨.var .s64 8, .deref .u16 (.bin (.arith .add) p (.lit .s32 2))⟩]

theorem eval_q (bytes : Nat → Nat) (h : Eval bytes p .u64 40) : Eval bytes (.bin (.arith .add) p (.lit .s32 2)) .u64 42 :=
  .arith h (.lit (v := 2) trivial (by decide))
    (.arith (op' := .add) (c := .u64) (x := 40) (y := 2) (e := 42) (by decide) (by decide) (by decide) (by decide) (by decide) (by decide) (by decide) (by decide))

theorem exec_ss : ∃ bytes', Exec bytes ss bytes' ∧ readBytes bytes' 8 8 = 0xfff9 := by
  refine ⟨_, .cons ⟨.s16, 42, .s32, -7, -7, .deref trivial (eval_q bytes eval_p) (a := 42) (by decide), eval_a, by decide, rfl⟩
    (.cons ⟨.s64, 8, .u16, 0xfff9, 0xfff9, .var trivial, .deref (eval_q _ (.var ⟨trivial, by decide, by decide⟩)) (a := 42) (by decide) ⟨trivial, by decide, by decide⟩,
      by decide, rfl⟩ .nil), by decide⟩

example : ∃ code, lowerStmts ss = some code ∧ (∀ s ∈ ss, needStmt s ≤ 256) ∧
    ∃ st, run code ⟨m, [], none⟩ = some st ∧ readBytes st.m.bytes 8 8 = 0xfff9 := by
  obtain ⟨bytes', h1, h2⟩ := exec_ss
  have hn : ∀ s ∈ ss, needStmt s ≤ 256 := by decide
  have hs : (lowerStmts ss).isSome = true := by decide
  obtain ⟨code, hc⟩ := Option.isSome_iff_exists.1 hs
  obtain ⟨st, h3, h4⟩ := C72_assignments 64 (fun r => 1000 + r.num) (fun a => a) bytes bytes' flags ss code h1 hc hn
  exact ⟨code, hc, hn, st, h3, by rw [h4, h2]⟩

/-- `!(a < b)` is zero. -/
example : ∃ low, lower (.un .not (.bin (.compare .lt) a b)) = some low ∧
    ∃ st, run (low.irs ++ [.jumpIf true 0]) ⟨m, [], none⟩ = some st ∧ st.m.bytes = bytes ∧ st.taken = some false := by
  have hv : Eval bytes (.un .not (.bin (.compare .lt) a b)) .s32 0 := .not (v := 1) (.compare (c := .s64) (x := -7) (y := 3) eval_a eval_b (by decide) (by decide) (by decide))
  obtain ⟨low, h⟩ := C72_compiles_partial bytes _ _ _ hv ⟨⟨trivial, trivial⟩, fun h => by cases h⟩
  exact ⟨low, h, C72_condition 64 _ _ bytes flags true 0 _ _ _ low hv h (by decide)⟩

end Sample

/-! ## Where it fails -/

/-- `-0x80000000u` has a value, but the compiler negates the smallest `int` to compute it. -/
theorem C72_compiles_wrong : (∀ bytes, Eval bytes (.un .minus (.lit .u32 0x80000000)) .u32 0x80000000) ∧
    lower (.un .minus (.lit .u32 0x80000000)) = none :=
  ⟨fun _ => .minus (s := .u32) (.lit trivial (by decide)) (fun h => absurd h (by decide)) (by decide), by decide⟩

/-- `x + (x + (x + ...))` with `n` additions. -/
def nest : Nat → Expr
  | 0 => .var .s32 0
  | n + 1 => .bin (.arith .add) (.var .s32 0) (nest n)

theorem nest_code : ∀ n, lower (nest n) = some (.code .s32 (List.replicate (n + 1) (.identifier 0 4) ++ List.replicate n (.binary .add)))
  | 0 => rfl
  | n + 1 => by
    show (lower (nest n)).bind _ = _
    rw [nest_code n]
    show some (Low.code .s32 ([Ir.identifier 0 4] ++ (List.replicate (n + 1) (.identifier 0 4) ++ List.replicate n (.binary .add)) ++ [] ++ [] ++ [Ir.binary .add])) = _
    rw [List.replicate_succ (n := n + 1), List.replicate_succ' (n := n) (a := Ir.binary .add)]
    simp only [List.append_nil, List.append_assoc, List.cons_append, List.nil_append]

theorem nest_eval : ∀ n, Eval (fun _ => 0) (nest n) .s32 0
  | 0 => .var ⟨trivial, by decide, by decide⟩
  | n + 1 => .arith (.var (v := 0) ⟨trivial, by decide, by decide⟩) (nest_eval n)
      (.arith (op' := .add) (x := 0) (y := 0) (e := 0) (by decide) (by decide) (by decide) (by decide) (by decide) (by decide) (by decide) (by decide))

theorem push_full : ∀ (n : Nat) (rest : List Ir) (st : St), st.stack.length ≤ 256 → 256 < st.stack.length + n →
    run (List.replicate n (.identifier 0 4) ++ rest) st = none
  | 0, _, _, h, h' => by omega
  | n + 1, rest, st, h, h' => by
    show (push st (.mem 0 4)).bind _ = none
    unfold push
    split
    · exact push_full n rest _ (by show st.stack.length + 1 ≤ 256; omega) (by show 256 < st.stack.length + 1 + n; omega)
    · rfl

/-- More than 256 pending operands are written past the end of the stack of the compiler, whatever the value of the expression. -/
theorem C72_stack_wrong (n : Nat) (hn : 256 ≤ n) (base regs mem bytes flags) :
    Eval (fun _ => 0) (nest n) .s32 0 ∧ ∃ low, lower (nest n) = some low ∧ run low.irs ⟨boot base regs mem bytes flags, [], none⟩ = none := by
  refine ⟨nest_eval n, _, nest_code n, push_full (n + 1) _ _ (by simp) (by simp; omega)⟩

end Verif.Props.ExprCode
