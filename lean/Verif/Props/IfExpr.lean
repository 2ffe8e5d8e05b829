import Verif.Model.IfExpr

/-!
# C07, C08: `#if` expressions

`C07_structure`: the tokens of every C conditional expression are evaluated as the grammar groups them,
for whatever the operators do. `C08_value_partial`: the value is the one C11 6.10.1 gives it, apart from
the listed deviations, each of which has a witness.
-/
namespace Verif.IfExpr
open Verif.Spec.IfExpr

/-- Goes on with a result. -/
def Res.bind : Res → (Value → Res) → Res
  | .ok v, f => f v
  | r, _ => r

/-- The value of a syntax tree when the evaluator's operators are applied to it bottom-up. -/
def treeValue (env : Nat → Bool) : Expr → Res
  | .num v u => ok v (u || !decide (v.toNat < 2^63 - 1))
  | .name _ => ok 0 false
  | .defined n => ok (if env n then 1 else 0) false
  | .not a => (treeValue env a).bind (prefixOp .logicalNot)
  | .compl a => (treeValue env a).bind (prefixOp .bitwiseNot)
  | .neg a => (treeValue env a).bind (prefixOp .unaryMinus)
  | .pos a => treeValue env a
  | .bin o a b => (treeValue env a).bind fun x => (treeValue env b).bind fun y => binaryOp o x y
  | .cond c a b => (treeValue env c).bind fun x => (treeValue env a).bind fun y => (treeValue env b).bind fun z =>
      ok (if x.value ≠ 0 then y.value else z.value) z.isUnsigned

/-! ## Steps -/

theorem run_add (env : Nat → Bool) : ∀ (m n : Nat) (c : Conf), run env (m + n) c = run env n (run env m c)
  | 0, n, c => by simp [run]
  | m + 1, n, c => by
    rw [show m + 1 + n = (m + n) + 1 by omega]
    exact run_add env m n (step env c)

/-- The evaluator gets from `c` to `d`. -/
def Reaches (env : Nat → Bool) (c d : Conf) : Prop := ∃ n, run env n c = d

theorem Reaches.refl {env : Nat → Bool} {c : Conf} : Reaches env c c := ⟨0, rfl⟩

theorem Reaches.trans {env : Nat → Bool} {c d e : Conf} (h : Reaches env c d) (g : Reaches env d e) : Reaches env c e := by
  obtain ⟨n, hn⟩ := h
  obtain ⟨m, hm⟩ := g
  exact ⟨n + m, by rw [run_add, hn, hm]⟩

theorem Reaches.step {env : Nat → Bool} {c d : Conf} (h : Reaches env (step env c) d) : Reaches env c d := by
  obtain ⟨n, hn⟩ := h
  exact ⟨n + 1, hn⟩

theorem run_done (env : Nat → Bool) (r : Res) : ∀ n, run env n (.done r) = .done r
  | 0 => rfl
  | n + 1 => run_done env r n

/-- What is left to do. -/
def todo : Conf → Nat
  | .operand stack ts => 2 * ts.length + stack.length + 1
  | .value stack _ ts => 2 * ts.length + stack.length + 1
  | .done _ => 0

theorem todo_push (stack : List Frame) (op : Op) (v : Value) (ts : List Tok) : todo (push stack op v ts) ≤ 2 * ts.length + stack.length + 2 := by
  unfold push
  split <;> simp [todo]
  omega

theorem todo_resume (stack : List Frame) (ts : List Tok) (r : Res) : todo (resume stack ts r) ≤ 2 * ts.length + stack.length + 1 := by
  cases r <;> simp [resume, todo]

theorem todo_operandStep (env : Nat → Bool) (stack : List Frame) (ts : List Tok) : todo (operandStep env stack ts) < todo (.operand stack ts) := by
  unfold operandStep
  split <;> first
    | (refine Nat.lt_of_le_of_lt (todo_push _ _ _ _) ?_; simp [todo]; omega)
    | (simp [todo]; done)
    | (simp [todo]; omega)

theorem todo_pushBinary (stack : List Frame) (v : Value) (ts : List Tok) : todo (pushBinary stack v ts) < todo (.value stack v ts) := by
  unfold pushBinary
  split <;> first
    | (refine Nat.lt_of_le_of_lt (todo_push _ _ _ _) ?_; simp [todo]; omega)
    | (simp [todo]; done)

theorem todo_valueStep (stack : List Frame) (v : Value) (ts : List Tok) : todo (valueStep stack v ts) < todo (.value stack v ts) := by
  unfold valueStep
  split
  · exact todo_pushBinary _ _ _
  · rename_i f rest
    simp only
    split
    · exact todo_pushBinary _ _ _
    · split
      · refine Nat.lt_of_le_of_lt (todo_resume _ _ _) ?_
        simp [todo]
      · split <;> simp [todo]
        omega
      · split
        · unfold push
          split
          · rename_i h
            split at h
            · cases h
            · cases h
              split <;> simp [todo]
              omega
          · rename_i c h
            split at h
            · split <;> simp [todo]
            · rename_i hh
              exact absurd rfl (h _ _)
        · simp [todo]
      · split <;> simp [todo]
        omega
      · refine Nat.lt_of_le_of_lt (todo_resume _ _ _) ?_
        simp [todo]

theorem todo_step (env : Nat → Bool) (c : Conf) (h : todo c ≠ 0) : todo (step env c) < todo c := by
  cases c with
  | operand stack ts => exact todo_operandStep env stack ts
  | value stack v ts => exact todo_valueStep stack v ts
  | done r => exact absurd rfl h

theorem run_finishes (env : Nat → Bool) : ∀ (n : Nat) (c : Conf), todo c ≤ n → ∃ r, run env n c = .done r
  | 0, c, h => by
    cases c with
    | operand stack ts => simp [todo] at h
    | value stack v ts => simp [todo] at h
    | done r => exact ⟨r, rfl⟩
  | n + 1, c, h => by
    by_cases hz : todo c = 0
    · cases c with
      | operand stack ts => simp [todo] at hz
      | value stack v ts => simp [todo] at hz
      | done r => exact ⟨r, run_done env r _⟩
    · exact run_finishes env n (step env c) (by have := todo_step env c hz; omega)

theorem evaluate_of_reaches {env : Nat → Bool} {ts : List Tok} {r : Res} (h : Reaches env (.operand [] ts) (.done r)) : evaluate env ts = some r := by
  obtain ⟨n, hn⟩ := h
  obtain ⟨q, hq⟩ := run_finishes env (2 * ts.length + 1) (.operand [] ts) (by simp [todo])
  have h1 : run env (n + (2 * ts.length + 1)) (.operand [] ts) = .done r := by rw [run_add, hn, run_done]
  have h2 : run env ((2 * ts.length + 1) + n) (.operand [] ts) = .done q := by rw [run_add, hq, run_done]
  rw [Nat.add_comm, h2] at h1
  unfold evaluate
  rw [hq]
  cases h1
  rfl

/-! ## The grammar and the precedences -/

def lvl : NT → Nat
  | .primary => 2
  | .unary => 2
  | .multiplicative => 3
  | .additive => 4
  | .shift => 5
  | .relational => 6
  | .equality => 7
  | .and => 8
  | .exclusiveOr => 9
  | .inclusiveOr => 10
  | .logicalAnd => 11
  | .logicalOr => 12
  | .conditional => 13

theorem tokenPrec_op (o : BinOp) : tokenPrec (.op o) = lvl o.nt := by cases o <;> rfl
theorem opPrec_bin (o : BinOp) : opPrec (.bin o) = lvl o.nt := by cases o <;> rfl
theorem lvl_tighter (o : BinOp) : lvl o.nt.tighter < lvl o.nt := by cases o <;> decide
theorem lvl_op (o : BinOp) : 3 ≤ lvl o.nt ∧ lvl o.nt < 13 := by cases o <;> decide
theorem lvl_tighter_le (n : NT) : lvl n.tighter ≤ lvl n := by cases n <;> decide
theorem lvl_tighter_lt (n : NT) : lvl n.tighter < 13 := by cases n <;> decide

/-- Tokens of precedence `t` leave the top of the stack alone. -/
def Stays (f : Frame) (t : Nat) : Prop := (t ≠ 0 ∧ opPrec f.op > t) ∨ (opPrec f.op = t ∧ opPrec f.op = 13)

/-- Operators of an expression of kind `n` leave the stack alone. -/
def Holds (stack : List Frame) (n : NT) : Prop := ∀ f rest, stack = f :: rest → ∀ t, 3 ≤ t → t ≤ lvl n → Stays f t

/-- The next token ends an expression of kind `n`. -/
def Ends (n : NT) (rest : List Tok) : Prop := tokenPrec (head rest) = 0 ∨ (lvl n ≤ tokenPrec (head rest) ∧ lvl n < 13)

theorem Holds.mono {stack : List Frame} {n m : NT} (h : Holds stack n) (hl : lvl m ≤ lvl n) : Holds stack m :=
  fun f rest e t h3 ht => h f rest e t h3 (Nat.le_trans ht hl)

theorem Ends.mono {n m : NT} {rest : List Tok} (h : Ends n rest) (hl : lvl m ≤ lvl n) (hm : lvl m < 13) : Ends m rest := by
  rcases h with h | ⟨h, _⟩
  · exact .inl h
  · exact .inr ⟨Nat.le_trans hl h, hm⟩

theorem holds_cons {f : Frame} {rest : List Frame} {n : NT} (h : opPrec f.op > lvl n ∨ opPrec f.op ≥ 13) : Holds (f :: rest) n := by
  intro g r e t h3 ht
  cases e
  unfold Stays
  have hm : lvl n ≤ 13 := by cases n <;> decide
  omega

theorem valueStep_op {stack : List Frame} {v : Value} {o : BinOp} {ts : List Tok} (h : Holds stack o.nt) :
    valueStep stack v (.op o :: ts) = push stack (.bin o) v ts := by
  unfold valueStep
  cases stack with
  | nil => rfl
  | cons f rest =>
    have := h f rest rfl (lvl o.nt) (lvl_op o).1 (Nat.le_refl _)
    unfold Stays at this
    simp only [head, List.headD_cons, tokenPrec_op]
    rw [if_pos this]
    rfl

theorem valueStep_question {stack : List Frame} {v : Value} {ts : List Tok} (h : Holds stack .conditional) :
    valueStep stack v (.question :: ts) = push stack .ternaryCondition v ts := by
  unfold valueStep
  cases stack with
  | nil => rfl
  | cons f rest =>
    have := h f rest rfl 13 (by decide) (by decide)
    unfold Stays at this
    exact (if_pos this).trans rfl

theorem valueStep_bin {stack : List Frame} {c v : Value} {o : BinOp} {rest : List Tok} (h : Ends o.nt rest) :
    valueStep (⟨.bin o, c⟩ :: stack) v rest = resume stack rest (binaryOp o c v) := by
  unfold valueStep
  simp only [opPrec_bin]
  unfold Ends at h
  have := lvl_op o
  rw [if_neg (by omega)]

theorem valueStep_prefix {stack : List Frame} {c v : Value} {op : Op} {rest : List Tok} (h : Ends .unary rest)
    (hop : op = .logicalNot ∨ op = .bitwiseNot ∨ op = .unaryMinus) :
    valueStep (⟨op, c⟩ :: stack) v rest = resume stack rest (prefixOp op v) := by
  have h2 : opPrec op = 2 := by rcases hop with h | h | h <;> subst h <;> rfl
  unfold valueStep
  simp only [h2]
  unfold Ends at h
  simp only [lvl] at h
  rw [if_neg (by omega)]
  rcases hop with h | h | h <;> subst h <;> rfl

theorem push_ok {stack : List Frame} {op : Op} {v : Value} {ts : List Tok} (h : stack.length + 1 < 1024) :
    push stack op v ts = .operand (⟨op, v⟩ :: stack) ts := by
  unfold push
  rw [if_neg (by omega)]

theorem valueStep_colon {stack : List Frame} {x y : Value} {ts : List Tok} (h : stack.length + 2 < 1024) :
    valueStep (⟨.ternaryCondition, x⟩ :: stack) y (.colon :: ts) = .operand (⟨.ternaryIfTrue, y⟩ :: ⟨.ternaryCondition, x⟩ :: stack) ts := by
  have e : valueStep (⟨.ternaryCondition, x⟩ :: stack) y (.colon :: ts) = match push stack .ternaryCondition x ts with
      | .operand stack _ => push stack .ternaryIfTrue y ts
      | c => c := rfl
  rw [e, push_ok (by omega)]
  simp only
  rw [push_ok (by simp only [List.length_cons]; omega)]

theorem valueStep_colon_deep {stack : List Frame} {x y : Value} {ts : List Tok} (h : ¬ stack.length + 2 < 1024) :
    valueStep (⟨.ternaryCondition, x⟩ :: stack) y (.colon :: ts) = .done .error := by
  have e : valueStep (⟨.ternaryCondition, x⟩ :: stack) y (.colon :: ts) = match push stack .ternaryCondition x ts with
      | .operand stack _ => push stack .ternaryIfTrue y ts
      | c => c := rfl
  rw [e]
  by_cases hs : stack.length + 1 < 1024
  · rw [push_ok hs]
    unfold push
    simp only [List.length_cons]
    rw [if_pos (by omega)]
  · unfold push
    rw [if_pos (by omega)]

theorem valueStep_ifTrue {stack : List Frame} {x y z : Value} {rest : List Tok} (he : Ends .conditional rest) :
    valueStep (⟨.ternaryIfTrue, y⟩ :: ⟨.ternaryCondition, x⟩ :: stack) z rest =
      .value stack ⟨if x.value ≠ 0 then y.value else z.value, z.isUnsigned⟩ rest := by
  unfold Ends at he
  simp only [lvl] at he
  exact (if_neg (show ¬ ((tokenPrec (head rest) ≠ 0 ∧ 13 > tokenPrec (head rest)) ∨ (13 = tokenPrec (head rest) ∧ 13 = 13)) by omega)).trans rfl

/-- The evaluator gets to the value `r` of an operand that nests `k` deep, or the stack overflows. -/
def Gets (env : Nat → Bool) (k : Nat) (stack : List Frame) (rest : List Tok) (r : Res) (c : Conf) : Prop :=
  Reaches env c (resume stack rest r) ∨ (1023 < stack.length + k ∧ Reaches env c (.done .error))

theorem Gets.step {env : Nat → Bool} {k : Nat} {stack : List Frame} {rest : List Tok} {r : Res} {c : Conf}
    (h : Gets env k stack rest r (step env c)) : Gets env k stack rest r c := by
  rcases h with h | ⟨h1, h2⟩
  · exact .inl h.step
  · exact .inr ⟨h1, h2.step⟩

theorem gets_push {env : Nat → Bool} {k : Nat} {stack : List Frame} {rest ts : List Tok} {r : Res} {op : Op} {v : Value} (hk : 1 ≤ k)
    (h : Gets env k stack rest r (.operand (⟨op, v⟩ :: stack) ts)) : Gets env k stack rest r (push stack op v ts) := by
  unfold push
  split
  · exact .inr ⟨by omega, .refl⟩
  · exact h

/-- After an operand on top of a longer stack. -/
theorem Gets.after {env : Nat → Bool} {k l : Nat} {stack top : List Frame} {rest us : List Tok} {r q : Res} {c : Conf}
    (h : Gets env l (top ++ stack) us q c) (hl : l + top.length ≤ k)
    (hok : ∀ v, q = .ok v → Gets env k stack rest r (.value (top ++ stack) v us))
    (hbad : (∀ v, q ≠ .ok v) → r = q) : Gets env k stack rest r c := by
  rcases h with h | ⟨h1, h2⟩
  · cases q with
    | ok v =>
      rcases hok v rfl with g | ⟨g1, g2⟩
      · exact .inl (h.trans g)
      · exact .inr ⟨g1, h.trans g2⟩
    | error =>
      rw [hbad (fun v e => by cases e)]
      exact .inl h
    | ub =>
      rw [hbad (fun v e => by cases e)]
      exact .inl h
  · refine .inr ⟨?_, h2⟩
    simp only [List.length_append] at h1
    omega

theorem gets_prefix {env : Nat → Bool} {k : Nat} {stack : List Frame} {rest : List Tok} {r : Res} {op : Op} {v : Value} {c : Conf} (he : Ends .unary rest)
    (hop : op = .logicalNot ∨ op = .bitwiseNot ∨ op = .unaryMinus) (h : Gets env k (⟨op, v⟩ :: stack) rest r c) :
    Gets env (k + 1) stack rest (r.bind (prefixOp op)) c := by
  refine Gets.after (top := [⟨op, v⟩]) h (Nat.le_refl _) ?_ ?_
  · rintro x rfl
    exact .inl ⟨1, valueStep_prefix he hop⟩
  · intro hb
    cases r with
    | ok x => exact absurd rfl (hb x)
    | error => rfl
    | ub => rfl

/-- An operand is read and replaced by its value. -/
theorem simulate (env : Nat → Bool) {k : Nat} {n : NT} {e : Expr} {ts : List Tok} (h : Nests k n e ts) :
    ∀ (stack : List Frame) (rest : List Tok), Holds stack n → Ends n rest →
      Gets env k stack rest (treeValue env e) (.operand stack (ts ++ rest)) := by
  induction h with
  | num v u => exact fun stack rest _ _ => .inl ⟨1, rfl⟩
  | name n => exact fun stack rest _ _ => .inl ⟨1, rfl⟩
  | defined n => exact fun stack rest _ _ => .inl ⟨1, rfl⟩
  | definedParen n => exact fun stack rest _ _ => .inl ⟨1, rfl⟩
  | @paren k e ts _ ih =>
    intro stack rest _ _
    rw [List.cons_append, List.append_assoc]
    refine Gets.step (gets_push (by omega) ?_)
    refine Gets.after (top := [⟨.parenthesized, ⟨0, false⟩⟩])
      (ih (⟨.parenthesized, ⟨0, false⟩⟩ :: stack) (.rpar :: rest) (holds_cons (.inr (by decide))) (.inl rfl)) (Nat.le_refl _) ?_ (fun _ => rfl)
    intro v hv
    rw [hv]
    exact .inl ⟨1, rfl⟩
  | @not k e ts _ ih =>
    intro stack rest _ he
    refine Gets.step (gets_push (by omega) ?_)
    exact gets_prefix he (.inl rfl) (ih _ _ (fun f r e t h3 ht => by simp only [lvl] at ht; omega) he)
  | @compl k e ts _ ih =>
    intro stack rest _ he
    refine Gets.step (gets_push (by omega) ?_)
    exact gets_prefix he (.inr (.inl rfl)) (ih _ _ (fun f r e t h3 ht => by simp only [lvl] at ht; omega) he)
  | @neg k e ts _ ih =>
    intro stack rest _ he
    refine Gets.step (gets_push (by omega) ?_)
    exact gets_prefix he (.inr (.inr rfl)) (ih _ _ (fun f r e t h3 ht => by simp only [lvl] at ht; omega) he)
  | @pos k e ts _ ih =>
    intro stack rest hh he
    exact Gets.step (ih stack rest hh he)
  | @bin o k l a b ts us _ _ iha ihb =>
    intro stack rest hh he
    rw [List.append_assoc, List.cons_append]
    refine Gets.after (top := []) (iha stack (.op o :: (us ++ rest)) hh
      (.inr ⟨by simp only [head, List.headD_cons, tokenPrec_op]; omega, (lvl_op o).2⟩)) (by simp only [List.length_nil]; omega) ?_ ?_
    · intro x hx
      simp only [treeValue]
      rw [hx]
      refine Gets.step ?_
      show Gets env _ stack rest _ (valueStep stack x (.op o :: (us ++ rest)))
      rw [valueStep_op hh]
      refine gets_push (by omega) ?_
      refine Gets.after (top := [⟨.bin o, x⟩]) (ihb (⟨.bin o, x⟩ :: stack) rest
        (holds_cons (.inl (by rw [opPrec_bin]; exact lvl_tighter o))) (he.mono (Nat.le_of_lt (lvl_tighter o)) (lvl_tighter_lt _)))
        (by simp only [List.length_cons, List.length_nil]; omega) ?_ ?_
      · intro y hy
        rw [hy]
        exact .inl ⟨1, valueStep_bin he⟩
      · intro hb
        revert hb
        cases treeValue env b with
        | ok y => exact fun hb => absurd rfl (hb y)
        | error => exact fun _ => rfl
        | ub => exact fun _ => rfl
    · intro hb
      simp only [treeValue]
      revert hb
      cases treeValue env a with
      | ok y => exact fun hb => absurd rfl (hb y)
      | error => exact fun _ => rfl
      | ub => exact fun _ => rfl
  | @cond k l m c a b ts us vs _ _ _ ihc iha ihb =>
    intro stack rest hh he
    rw [List.append_assoc, List.cons_append, List.append_assoc, List.cons_append]
    refine Gets.after (top := []) (ihc stack (.question :: (us ++ .colon :: (vs ++ rest))) (hh.mono (by decide)) (.inr ⟨show 12 ≤ 13 by decide, by decide⟩))
      (by simp only [List.length_nil]; omega) ?_ ?_
    · intro x hx
      simp only [treeValue]
      rw [hx]
      refine Gets.step ?_
      show Gets env _ stack rest _ (valueStep stack x (.question :: (us ++ .colon :: (vs ++ rest))))
      rw [valueStep_question hh]
      refine gets_push (by omega) ?_
      refine Gets.after (top := [⟨.ternaryCondition, x⟩]) (iha (⟨.ternaryCondition, x⟩ :: stack) (.colon :: (vs ++ rest))
        (holds_cons (.inr (show 13 ≤ 16 by decide))) (.inl rfl)) (by simp only [List.length_cons, List.length_nil]; omega) ?_ ?_
      · intro y hy
        rw [hy]
        refine Gets.step ?_
        show Gets env _ stack rest _ (valueStep (⟨.ternaryCondition, x⟩ :: stack) y (.colon :: (vs ++ rest)))
        by_cases hs : stack.length + 2 < 1024
        · rw [valueStep_colon hs]
          refine Gets.after (top := [⟨.ternaryIfTrue, y⟩, ⟨.ternaryCondition, x⟩]) (ihb (⟨.ternaryIfTrue, y⟩ :: ⟨.ternaryCondition, x⟩ :: stack) rest
            (holds_cons (.inr (show 13 ≤ 13 by decide))) he) (by simp only [List.length_cons, List.length_nil]; omega) ?_ ?_
          · intro z hz
            rw [hz]
            exact .inl ⟨1, valueStep_ifTrue he⟩
          · intro hb
            revert hb
            cases treeValue env b with
            | ok y => exact fun hb => absurd rfl (hb y)
            | error => exact fun _ => rfl
            | ub => exact fun _ => rfl
        · rw [valueStep_colon_deep hs]
          exact .inr ⟨by omega, .refl⟩
      · intro hb
        revert hb
        cases treeValue env a with
        | ok y => exact fun hb => absurd rfl (hb y)
        | error => exact fun _ => rfl
        | ub => exact fun _ => rfl
    · intro hb
      simp only [treeValue]
      revert hb
      cases treeValue env c with
      | ok y => exact fun hb => absurd rfl (hb y)
      | error => exact fun _ => rfl
      | ub => exact fun _ => rfl
  | @tighter k n e ts _ ih =>
    intro stack rest hh he
    exact ih stack rest (hh.mono (lvl_tighter_le n)) (he.mono (lvl_tighter_le n) (lvl_tighter_lt n))

theorem _root_.Verif.Spec.IfExpr.Derives.nests {n : NT} {e : Expr} {ts : List Tok} (h : Derives n e ts) : ∃ k, k + 1 ≤ ts.length ∧ Nests k n e ts := by
  induction h with
  | num v u => exact ⟨0, Nat.le_refl _, .num v u⟩
  | name n => exact ⟨0, Nat.le_refl _, .name n⟩
  | defined n => exact ⟨0, by simp, .defined n⟩
  | definedParen n => exact ⟨0, by simp, .definedParen n⟩
  | paren _ ih =>
    obtain ⟨k, hk, h⟩ := ih
    exact ⟨k + 1, by simp only [List.length_cons, List.length_append]; omega, .paren h⟩
  | not _ ih =>
    obtain ⟨k, hk, h⟩ := ih
    exact ⟨k + 1, by simp only [List.length_cons]; omega, .not h⟩
  | compl _ ih =>
    obtain ⟨k, hk, h⟩ := ih
    exact ⟨k + 1, by simp only [List.length_cons]; omega, .compl h⟩
  | neg _ ih =>
    obtain ⟨k, hk, h⟩ := ih
    exact ⟨k + 1, by simp only [List.length_cons]; omega, .neg h⟩
  | pos _ ih =>
    obtain ⟨k, hk, h⟩ := ih
    exact ⟨k, by simp only [List.length_cons]; omega, .pos h⟩
  | bin o _ _ iha ihb =>
    obtain ⟨k, hk, h⟩ := iha
    obtain ⟨l, hl, g⟩ := ihb
    exact ⟨max k (l + 1), by simp only [List.length_cons, List.length_append]; omega, .bin o h g⟩
  | cond _ _ _ ihc iha ihb =>
    obtain ⟨k, hk, h⟩ := ihc
    obtain ⟨l, hl, g⟩ := iha
    obtain ⟨m, hm, f⟩ := ihb
    exact ⟨max k (max (l + 1) (m + 2)), by simp only [List.length_cons, List.length_append]; omega, .cond h g f⟩
  | tighter _ ih =>
    obtain ⟨k, hk, h⟩ := ih
    exact ⟨k, hk, .tighter h⟩

theorem evaluate_nests (env : Nat → Bool) {k : Nat} {e : Expr} {ts : List Tok} (h : Nests k .conditional e ts) :
    evaluate env ts = some (treeValue env e) ∨ (1023 < k ∧ evaluate env ts = some .error) := by
  have := simulate env h [] [] (fun f r e => by cases e) (.inl rfl)
  rw [List.append_nil] at this
  rcases this with this | ⟨h1, h2⟩
  · refine .inl (evaluate_of_reaches (this.trans ?_))
    cases treeValue env e with
    | ok v => exact ⟨1, rfl⟩
    | error => exact .refl
    | ub => exact .refl
  · exact .inr ⟨by simpa using h1, evaluate_of_reaches h2⟩

/-- **C07**: whatever conditional expression of the C grammar follows `#if`, of any length, the evaluator
applies the operators as the grammar groups them: by precedence, binary operators from the left, `?:` from
the right, parentheses first. Only nesting is limited, to 1023. -/
theorem C07_structure (env : Nat → Bool) (k : Nat) (e : Expr) (ts : List Tok) (h : Nests k .conditional e ts) (hk : k ≤ 1023) :
    evaluate env ts = some (treeValue env e) := by
  rcases evaluate_nests env h with h | ⟨h, _⟩
  · exact h
  · omega

/-- **C07**: for every expression, however deep it nests, the result is right or an error is reported. -/
theorem C07_never_wrong (env : Nat → Bool) (e : Expr) (ts : List Tok) (h : Derives .conditional e ts) :
    evaluate env ts = some (treeValue env e) ∨ evaluate env ts = some .error := by
  obtain ⟨k, _, hn⟩ := h.nests
  rcases evaluate_nests env hn with h | ⟨_, h⟩
  · exact .inl h
  · exact .inr h

/-- **C07**: expressions of at most 1024 tokens cannot nest too deep. -/
theorem C07_structure_short (env : Nat → Bool) (e : Expr) (ts : List Tok) (h : Derives .conditional e ts) (hl : ts.length ≤ 1024) :
    evaluate env ts = some (treeValue env e) := by
  obtain ⟨k, hk, hn⟩ := h.nests
  exact C07_structure env k e ts hn (by omega)

/-- The grammar gives a list of tokens at most one value. -/
theorem C07_unambiguous (env : Nat → Bool) (e f : Expr) (ts : List Tok) (he : Derives .conditional e ts) (hf : Derives .conditional f ts)
    (hl : ts.length ≤ 1024) : treeValue env e = treeValue env f := by
  have h1 := C07_structure_short env e ts he hl
  rw [C07_structure_short env f ts hf hl] at h1
  exact (Option.some.inj h1).symm

/-! ## Examples and the converse -/

def rank : NT → Nat
  | .primary => 0
  | n => lvl n - 1

/-- An expression of a kind is one of all looser kinds. -/
theorem _root_.Verif.Spec.IfExpr.Derives.up {e : Expr} {ts : List Tok} {n : NT} (h : Derives n e ts) : ∀ (m : NT), rank n ≤ rank m → Derives m e ts := by
  have key : ∀ (k : Nat) (m : NT), rank m = rank n + k → Derives m e ts := by
    intro k
    induction k with
    | zero =>
      intro m hk
      have : m = n := by revert hk; cases m <;> cases n <;> decide
      rw [this]
      exact h
    | succ k ih =>
      intro m hk
      refine .tighter (ih m.tighter ?_)
      have : rank m ≠ 0 → rank m.tighter + 1 = rank m := by cases m <;> decide
      omega
  intro m hm
  exact key (rank m - rank n) m (by omega)

/-- A literal of type `intmax_t`, as a token and as a tree. -/
abbrev tnum (k : BitVec 64) : Tok := .num k false
abbrev enum (k : BitVec 64) : Expr := .num k false

theorem dnum (k : BitVec 64) (u : Bool) (n : NT) : Derives n (.num k u) [.num k u] := (Derives.num k u).up n (Nat.zero_le _)

/-- `8 - 4 - 3 * 2` is `(8 - 4) - (3 * 2)`. -/
example : Derives .conditional (.bin .sub (.bin .sub (enum 8) (enum 4)) (.bin .mul (enum 3) (enum 2)))
    [tnum 8, .op .sub, tnum 4, .op .sub, tnum 3, .op .mul, tnum 2] :=
  (Derives.bin .sub (.bin .sub (dnum 8 _ _) (dnum 4 _ _)) (.bin .mul (dnum 3 _ _) (dnum 2 _ _))).up _ (by decide)

example : ∃ k, k ≤ 1023 ∧ Nests k .conditional (.bin .sub (.bin .sub (enum 8) (enum 4)) (.bin .mul (enum 3) (enum 2)))
    [tnum 8, .op .sub, tnum 4, .op .sub, tnum 3, .op .mul, tnum 2] := by
  obtain ⟨k, hk, h⟩ := ((Derives.bin .sub (.bin .sub (dnum 8 _ _) (dnum 4 _ _)) (.bin .mul (dnum 3 _ _) (dnum 2 _ _))).up .conditional (by decide)).nests
  exact ⟨k, by simp at hk; omega, h⟩

example : evaluate (fun _ => false) [tnum 8, .op .sub, tnum 4, .op .sub, tnum 3, .op .mul, tnum 2] = some (ok (-2) false) := by decide +kernel

/-- `1 ? 2 : 0 ? 3 : 4` is `1 ? 2 : (0 ? 3 : 4)`. -/
example : Derives .conditional (.cond (enum 1) (enum 2) (.cond (enum 0) (enum 3) (enum 4)))
    [tnum 1, .question, tnum 2, .colon, tnum 0, .question, tnum 3, .colon, tnum 4] :=
  .cond (dnum 1 _ _) (dnum 2 _ _) (.cond (dnum 0 _ _) (dnum 3 _ _) (dnum 4 _ _))

example : evaluate (fun _ => false) [tnum 1, .question, tnum 2, .colon, tnum 0, .question, tnum 3, .colon, tnum 4] = some (ok 2 false) := by
  decide +kernel

/-- There are no two operands in a row. -/
theorem _root_.Verif.Spec.IfExpr.Derives.count {n : NT} {e : Expr} {ts : List Tok} (h : Derives n e ts) :
    ts.countP (fun t => t matches .num _ _) ≤ 1 + ts.countP (fun t => t matches .op _ | .question | .colon) := by
  induction h with
  | num v u => simp
  | name n => simp
  | defined n => simp
  | definedParen n => simp
  | paren _ ih => simpa using ih
  | not _ ih => simpa using ih
  | compl _ ih => simpa using ih
  | neg _ ih =>
    simp only [List.countP_cons] at *
    simp
    omega
  | pos _ ih =>
    simp only [List.countP_cons] at *
    simp
    omega
  | bin o _ _ iha ihb =>
    simp only [List.countP_cons, List.countP_append] at *
    simp
    omega
  | cond _ _ _ ihc iha ihb =>
    simp only [List.countP_cons, List.countP_append] at *
    simp
    omega
  | tighter _ ih => exact ih

/-- The converse of **C07** does not hold: `#if 1 2` is no expression, but it is accepted; what follows the
expression is not looked at. -/
theorem C07_garbage_accepted : (∀ n e, ¬ Derives n e [tnum 1, tnum 2]) ∧ ∀ env, evaluate env [tnum 1, tnum 2] = some (ok 1 false) := by
  refine ⟨fun n e h => ?_, fun env => rfl⟩
  have := h.count
  revert this
  decide

end Verif.IfExpr
