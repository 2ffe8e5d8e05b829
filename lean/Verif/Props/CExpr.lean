import Verif.Model.CExpr

/-!
# C19: expressions are parsed as the grammar groups them

`C19_structure`: for every expression of the C grammar the parser yields its syntax tree.
-/
namespace Verif.CExpr
open Verif.Spec.CExpr

/-! ## Steps -/

theorem run_add (lim : Nat) : ∀ (m n : Nat) (c : Conf), run lim (m + n) c = run lim n (run lim m c)
  | 0, n, c => by simp [run]
  | m + 1, n, c => by
    rw [show m + 1 + n = (m + n) + 1 by omega]
    exact run_add lim m n (step lim c)

/-- The parser gets from `c` to `d`. -/
def Reaches (lim : Nat) (c d : Conf) : Prop := ∃ n, run lim n c = d

theorem Reaches.refl {lim : Nat} {c : Conf} : Reaches lim c c := ⟨0, rfl⟩

theorem Reaches.trans {lim : Nat} {c d e : Conf} (h : Reaches lim c d) (g : Reaches lim d e) : Reaches lim c e := by
  obtain ⟨n, hn⟩ := h
  obtain ⟨m, hm⟩ := g
  exact ⟨n + m, by rw [run_add, hn, hm]⟩

theorem Reaches.step {lim : Nat} {c d : Conf} (h : Reaches lim (step lim c) d) : Reaches lim c d := by
  obtain ⟨n, hn⟩ := h
  exact ⟨n + 1, hn⟩

theorem run_done (lim : Nat) (r : Res) : ∀ n, run lim n (.done r) = .done r
  | 0 => rfl
  | n + 1 => run_done lim r n

/-- What is left to do. -/
def todo : Conf → Nat
  | .operand _ stack ts => 3 * ts.length + stack.length + 2
  | .postfix _ stack _ ts => 3 * ts.length + stack.length + 2
  | .value _ stack _ ts => 3 * ts.length + stack.length + 1
  | .done _ => 0

theorem todo_push (lim : Nat) (c : Call) (stack : List Entry) (x : Entry) (ts : List Tok) :
    todo (push lim c stack x ts) ≤ 3 * ts.length + stack.length + 3 := by
  unfold push
  split <;> simp [todo]
  omega

theorem todo_enter (lim : Nat) (ret : Ret) (skip : Bool) (c : Call) (stack : List Entry) (ts : List Tok) :
    todo (enter lim ret skip c stack ts) ≤ 3 * ts.length + stack.length + 3 := by
  unfold enter
  split <;> simp [todo]
  omega

theorem sizeOrAlign_length {t : Nat} {s : Bool} {stack stack' : List Entry} {v : Value} (h : sizeOrAlign t s stack = some (stack', v)) :
    stack.length = stack'.length + 1 := by
  unfold sizeOrAlign at h
  split at h <;> cases h <;> rfl

theorem todo_operandStep (lim : Nat) (c : Call) (stack : List Entry) (ts : List Tok) :
    todo (operandStep lim c stack ts) < todo (.operand c stack ts) := by
  unfold operandStep
  split <;> first
    | (refine Nat.lt_of_le_of_lt (todo_push _ _ _ _ _) ?_; simp [todo]; omega)
    | (refine Nat.lt_of_le_of_lt (todo_enter _ _ _ _ _ _) ?_; simp [todo]; omega)
    | (simp [todo]; done)
    | (simp [todo]; omega)
    | skip
  split
  · rename_i h
    have := sizeOrAlign_length h
    simp [todo]
    omega
  · refine Nat.lt_of_le_of_lt (todo_push _ _ _ _ _) ?_
    simp [todo]
    omega

theorem todo_postfixStep (lim : Nat) (c : Call) (stack : List Entry) (v : Value) (ts : List Tok) :
    todo (postfixStep lim c stack v ts) < todo (.postfix c stack v ts) := by
  unfold postfixStep
  split <;> first
    | (refine Nat.lt_of_le_of_lt (todo_enter _ _ _ _ _ _) ?_; simp [todo]; omega)
    | (simp [todo]; done)
    | (simp [todo]; omega)
    | (split <;> simp [todo] <;> omega)

theorem todo_resume (lim : Nat) (ret : Ret) (c : Call) (stack : List Entry) (v : Value) (ts : List Tok) :
    todo (resume lim ret c stack v ts) ≤ 3 * ts.length + stack.length := by
  unfold resume
  split <;> first
    | (refine Nat.le_trans (todo_push _ _ _ _ _) ?_; simp; omega)
    | (refine Nat.le_trans (todo_enter _ _ _ _ _ _) ?_; simp; omega)
    | (simp [todo]; done)
    | (simp [todo]; omega)

theorem todo_leave (lim : Nat) (c : Call) (stack : List Entry) (v : Value) (ts : List Tok) :
    todo (leave lim c stack v ts) ≤ 3 * ts.length + stack.length := by
  unfold leave
  split
  · split <;> simp [todo]
  · split
    · split
      · refine Nat.le_trans (todo_resume _ _ _ _ _ _) ?_
        simp
      · simp [todo]
    · simp [todo]
  · split
    · exact todo_resume _ _ _ _ _ _
    · simp [todo]

theorem todo_pushBinary (lim : Nat) (c : Call) (stack : List Entry) (v : Value) (ts : List Tok) :
    todo (pushBinary lim c stack v ts) < todo (.value c stack v ts) := by
  unfold pushBinary
  split
  · refine Nat.lt_of_le_of_lt (todo_push _ _ _ _ _) ?_
    simp [todo]; omega
  · refine Nat.lt_of_le_of_lt (todo_enter _ _ _ _ _ _) ?_
    simp [todo]; omega
  · split
    · refine Nat.lt_of_le_of_lt (todo_push _ _ _ _ _) ?_
      simp [todo]; omega
    · simp [todo]
  · split
    · refine Nat.lt_of_le_of_lt (todo_leave _ _ _ _ _) ?_
      simp [todo]
    · refine Nat.lt_of_le_of_lt (todo_push _ _ _ _ _) ?_
      simp [todo]; omega
  · refine Nat.lt_of_le_of_lt (todo_leave _ _ _ _ _) ?_
    simp [todo]

theorem todo_valueStep (lim : Nat) (c : Call) (stack : List Entry) (v : Value) (ts : List Tok) :
    todo (valueStep lim c stack v ts) < todo (.value c stack v ts) := by
  unfold valueStep
  split
  · exact todo_pushBinary _ _ _ _ _
  · exact todo_pushBinary _ _ _ _ _
  · split
    · exact todo_pushBinary _ _ _ _ _
    · split <;> simp [todo]

theorem todo_step (lim : Nat) (c : Conf) (h : todo c ≠ 0) : todo (step lim c) < todo c := by
  cases c with
  | operand c stack ts => exact todo_operandStep lim c stack ts
  | «postfix» c stack v ts => exact todo_postfixStep lim c stack v ts
  | value c stack v ts => exact todo_valueStep lim c stack v ts
  | done r => exact absurd rfl h

theorem run_finishes (lim : Nat) : ∀ (n : Nat) (c : Conf), todo c ≤ n → ∃ r, run lim n c = .done r
  | 0, c, h => by
    cases c with
    | done r => exact ⟨r, rfl⟩
    | _ => simp [todo] at h
  | n + 1, c, h => by
    by_cases hz : todo c = 0
    · cases c with
      | done r => exact ⟨r, run_done lim r _⟩
      | _ => simp [todo] at hz
    · exact run_finishes lim n (step lim c) (by have := todo_step lim c hz; omega)

theorem parse_of_reaches {lim : Nat} {skip : Bool} {ts : List Tok} {r : Res} (h : Reaches lim (.operand (.top skip) [] ts) (.done r)) :
    parseWith lim skip ts = some r := by
  obtain ⟨n, hn⟩ := h
  obtain ⟨q, hq⟩ := run_finishes lim (3 * ts.length + 2) (.operand (.top skip) [] ts) (by simp [todo])
  have h1 : run lim (n + (3 * ts.length + 2)) (.operand (.top skip) [] ts) = .done r := by rw [run_add, hn, run_done]
  have h2 : run lim ((3 * ts.length + 2) + n) (.operand (.top skip) [] ts) = .done q := by rw [run_add, hq, run_done]
  rw [Nat.add_comm, h2] at h1
  unfold parseWith
  rw [hq]
  cases h1
  rfl

/-- The parser always finishes. -/
theorem parse_total (lim : Nat) (skip : Bool) (ts : List Tok) : ∃ r, parseWith lim skip ts = some r := by
  obtain ⟨q, hq⟩ := run_finishes lim (3 * ts.length + 2) (.operand (.top skip) [] ts) (by simp [todo])
  exact ⟨q, parse_of_reaches ⟨_, hq⟩⟩

/-! ## The grammar and the precedences -/

def lvl : NT → Nat
  | .primary | .postfix | .openCall | .arguments | .unary | .cast => 2
  | .multiplicative => 3
  | .additive => 4
  | .shift => 5
  | .relational => 6
  | .equality => 7
  | .and => 8
  | .exclusiveOr => 9
  | .inclusiveOr => 10
  | .logicalAnd => 11
  | .logicalOr => 12
  | .conditional => 13
  | .assignment => 14
  | .expression => 15

theorem tokenPrec_op (o : BinOp) : tokenPrec (.op o) = lvl o.nt := by cases o <;> rfl
theorem entryPrec_bin (o : BinOp) (v : Value) : entryPrec (.bin o v) = lvl o.nt := by cases o <;> rfl
theorem lvl_op (o : BinOp) : 3 ≤ lvl o.nt ∧ lvl o.nt < 13 := by cases o <;> decide
theorem lvl_tighter_op (o : BinOp) (m : NT) (h : o.nt.tighter = some m) : lvl m < lvl o.nt := by
  revert h; cases o <;> cases m <;> decide
theorem lvl_tighter_le {n m : NT} (h : n.tighter = some m) : lvl m ≤ lvl n := by
  revert h; cases n <;> cases m <;> decide

/-- Tokens that go on with a postfix expression, or make `(T)` a compound literal. -/
def isPostfix : Tok → Bool
  | .inc | .dec | .lbrack | .dot | .arrow | .lpar | .braces _ => true
  | _ => false

/-- The kinds of expressions that may begin with a cast. -/
def loose : NT → Bool
  | .primary | .postfix | .openCall | .arguments | .unary => false
  | _ => true

def isSize : Entry → Bool
  | .pre .sizeof | .pre .alignof => true
  | _ => false

/-- Operators of an expression of kind `n` leave the stack alone. -/
def Holds (stack : List Entry) (n : NT) : Prop :=
  ∀ x rest, stack = x :: rest → x = .guard ∨
    ((∀ t, 3 ≤ t → t ≤ lvl n → entryPrec x > t ∨ (entryPrec x = t ∧ (entryPrec x = 14 ∨ entryPrec x = 13))) ∧ (loose n = true → isSize x = false))

/-- The next token ends an expression of kind `n`. -/
def Ends (n : NT) (rest : List Tok) : Prop :=
  isPostfix (head rest) = false ∧
    (tokenPrec (head rest) = 0 ∨ lvl n < tokenPrec (head rest) ∨ (lvl n = tokenPrec (head rest) ∧ (lvl n < 13 ∨ lvl n = 15)))

theorem loose_mono {n m : NT} (h : n.tighter = some m) (hm : loose m = true) : loose n = true := by
  revert h hm; cases n <;> cases m <;> decide

theorem Holds.mono {stack : List Entry} {n m : NT} (h : Holds stack n) (hl : lvl m ≤ lvl n) (hs : loose m = true → loose n = true) : Holds stack m := by
  intro x rest e
  rcases h x rest e with h | ⟨h1, h2⟩
  · exact .inl h
  · exact .inr ⟨fun t h3 ht => h1 t h3 (Nat.le_trans ht hl), fun h => h2 (hs h)⟩

theorem Ends.mono {n m : NT} {rest : List Tok} (h : Ends n rest) (hl : lvl m ≤ lvl n) : Ends m rest := by
  obtain ⟨h1, h2⟩ := h
  refine ⟨h1, ?_⟩
  by_cases hz : tokenPrec (head rest) = 0
  · exact .inl hz
  · by_cases he : lvl m = lvl n
    · rw [he]; exact h2
    · exact .inr (.inl (by omega))

theorem holds_cons {x : Entry} {rest : List Entry} {n : NT}
    (h : entryPrec x > lvl n ∨ (entryPrec x = lvl n ∧ (entryPrec x = 14 ∨ entryPrec x = 13))) (hs : isSize x = false) : Holds (x :: rest) n := by
  intro y r e
  cases e
  refine .inr ⟨fun t h3 ht => ?_, fun _ => hs⟩
  by_cases he : t = lvl n
  · subst he
    rcases h with h | h
    · exact .inl h
    · exact .inr h
  · left
    omega

theorem holds_tight {x : Entry} {rest : List Entry} {n : NT} (hl : lvl n = 2) (hs : loose n = true → isSize x = false) : Holds (x :: rest) n := by
  intro y r e
  cases e
  exact .inr ⟨fun t h3 ht => by omega, hs⟩

theorem holds_guard {rest : List Entry} {n : NT} : Holds (.guard :: rest) n := by
  intro y r e
  cases e
  exact .inl rfl

theorem holds_nil {n : NT} : Holds [] n := fun _ _ e => by cases e

theorem push_ok {lim : Nat} {c : Call} {stack : List Entry} {x : Entry} {ts : List Tok} (h : stack.length + 1 ≤ lim) :
    push lim c stack x ts = .operand c (x :: stack) ts := by
  unfold push
  rw [if_neg (by omega)]

/-- A token that is an operator of an expression of kind `n` is pushed. -/
theorem valueStep_waits {lim : Nat} {c : Call} {stack : List Entry} {v : Value} {n : NT} {t : Tok} {ts : List Tok} (h : Holds stack n)
    (h3 : 3 ≤ tokenPrec t) (ht : tokenPrec t ≤ lvl n) : valueStep lim c stack v (t :: ts) = pushBinary lim c stack v (t :: ts) := by
  cases stack with
  | nil => rfl
  | cons x rest =>
    rcases h x rest rfl with h | ⟨h, _⟩
    · subst h; rfl
    · have hw : waits x t = true := by
        have := h _ h3 ht
        simp only [waits, Bool.or_eq_true, Bool.and_eq_true, beq_iff_eq, bne_iff_ne, decide_eq_true_eq]
        omega
      have hg : x ≠ .guard := by
        rintro rfl
        have := h _ h3 ht
        simp only [entryPrec] at this
        omega
      unfold valueStep
      split
      · rename_i e; cases e
      · rename_i e; cases e; exact absurd rfl hg
      · rename_i e
        cases e
        exact if_pos hw

/-- An operator whose operand is complete is taken from the stack. -/
theorem valueStep_reduce {lim : Nat} {c : Call} {stack : List Entry} {x : Entry} {v : Value} {rest : List Tok} {n : NT} (he : Ends n rest)
    (hx : entryPrec x = lvl n) (h2 : 2 ≤ lvl n) :
    valueStep lim c (x :: stack) v rest = match reduce x v with | some v => .value c stack v rest | none => .done .error := by
  have hw : waits x (head rest) ≠ true := by
    intro h
    simp only [waits, Bool.or_eq_true, Bool.and_eq_true, beq_iff_eq, bne_iff_ne, decide_eq_true_eq] at h
    have := he.2
    omega
  have hg : x ≠ .guard := by
    rintro rfl
    simp only [entryPrec] at hx
    omega
  unfold valueStep
  split
  · rename_i e; cases e
  · rename_i e; cases e; exact absurd rfl hg
  · rename_i e
    cases e
    exact if_neg hw

/-! ## What the parser makes of a syntax tree -/

/-- The parser's value of a syntax tree: `none` if an operand has to be assignable and is not. -/
def treeValue : Expr → Option Value
  | .ident n => some ⟨.ident n, true⟩
  | .const n => some ⟨.const n, false⟩
  | .str n => some ⟨.str n, true⟩
  | .compound t s i => some ⟨.compound t s i, true⟩
  | .sizeofType t s => some ⟨.sizeofType t s, false⟩
  | .alignofType t s => some ⟨.alignofType t s, false⟩
  | .index a i => (treeValue a).bind fun x => (treeValue i).bind fun y => some ⟨.index x.e y.e, true⟩
  | .call f => (treeValue f).bind fun x => some ⟨.call x.e, false⟩
  | .arg f a => (treeValue f).bind fun x => (treeValue a).bind fun y => some ⟨.arg x.e y.e, false⟩
  | .dot a m => (treeValue a).bind fun x => some ⟨.dot x.e m, x.lhs⟩
  | .arrow a m => (treeValue a).bind fun x => some ⟨.arrow x.e m, true⟩
  | .postinc a => (treeValue a).bind fun x => if x.lhs then some ⟨.postinc x.e, false⟩ else none
  | .postdec a => (treeValue a).bind fun x => if x.lhs then some ⟨.postdec x.e, false⟩ else none
  | .pre p a => (treeValue a).bind (reduce (.pre p))
  | .cast t s a => (treeValue a).bind (reduce (.cast t s))
  | .bin o a b => (treeValue a).bind fun x => (treeValue b).bind (reduce (.bin o x))
  | .cond c a b => (treeValue c).bind fun x => (treeValue a).bind fun y => (treeValue b).bind (reduce (.cond x y))
  | .assign o a b => (treeValue a).bind fun x => if x.lhs then (treeValue b).bind (reduce (.assign o x)) else none
  | .comma a b => (treeValue a).bind fun x => (treeValue b).bind (reduce (.comma x))

/-- The parser gets to the value `q` or reports an error. -/
def Gets (lim : Nat) (q : Option Value) (mk : Value → Conf) (s : Conf) : Prop :=
  match q with
  | some v => Reaches lim s (mk v)
  | none => Reaches lim s (.done .error)

theorem Gets.step {lim : Nat} {q : Option Value} {mk : Value → Conf} {s : Conf} (h : Gets lim q mk (step lim s)) : Gets lim q mk s := by
  cases q with
  | some v => exact Reaches.step h
  | none => exact Reaches.step h

theorem Gets.bind {lim : Nat} {q : Option Value} {f : Value → Option Value} {mk mk' : Value → Conf} {s : Conf} (h : Gets lim q mk s)
    (g : ∀ v, q = some v → Gets lim (f v) mk' (mk v)) : Gets lim (q.bind f) mk' s := by
  cases q with
  | none => exact h
  | some v =>
    have g := g v rfl
    show Gets lim (f v) mk' s
    revert g
    cases f v with
    | none => exact fun g => Reaches.trans h g
    | some w => exact fun g => Reaches.trans h g

theorem Gets.map {lim : Nat} {q : Option Value} {mk mk' : Value → Conf} {s : Conf} (h : Gets lim q mk s)
    (g : ∀ v, q = some v → Reaches lim (mk v) (mk' v)) : Gets lim q mk' s := by
  cases q with
  | none => exact h
  | some v => exact Reaches.trans h (g v rfl)

/-- An operand on top of `x` is complete. -/
theorem gets_reduce {lim : Nat} {c : Call} {stack : List Entry} {x : Entry} {v : Value} {rest : List Tok} {n : NT} (he : Ends n rest)
    (hx : entryPrec x = lvl n) (h2 : 2 ≤ lvl n) : Gets lim (reduce x v) (fun w => .value c stack w rest) (.value c (x :: stack) v rest) := by
  refine Gets.step ?_
  show Gets lim _ _ (valueStep lim c (x :: stack) v rest)
  rw [valueStep_reduce he hx h2]
  cases reduce x v with
  | none => exact .refl
  | some w => exact .refl

/-- Where the parser is after an expression of kind `n`. -/
def after (lim : Nat) (n : NT) (c : Call) (stack : List Entry) (rest : List Tok) : Value → Conf :=
  match n with
  | .primary | .postfix => fun v => .postfix c stack v rest
  | .openCall => fun v => match v.e with
    | .call f => postfixStep lim c stack ⟨f, false⟩ (.lpar :: rest)
    | _ => .done .assertion
  | .arguments => fun v => match v.e with
    | .arg f a => resume lim (.arg ⟨f, false⟩) c stack ⟨a, false⟩ rest
    | _ => .done .assertion
  | _ => fun v => .value c stack v rest

/-- Tokens an expression may begin with. -/
def starts : Tok → Bool
  | .ident _ | .const _ | .str _ | .inc | .dec | .bang | .tilde | .sizeof | .alignof | .lpar => true
  | .op .mul | .op .sub | .op .add | .op .and => true
  | _ => false

theorem _root_.Verif.Spec.CExpr.Nests.start {k : Nat} {n : NT} {e : Expr} {ts : List Tok} (h : Nests k n e ts) : ∃ t us, ts = t :: us ∧ starts t = true := by
  induction h with
  | ident n => exact ⟨_, _, rfl, rfl⟩
  | const n => exact ⟨_, _, rfl, rfl⟩
  | str n => exact ⟨_, _, rfl, rfl⟩
  | paren _ _ => exact ⟨_, _, rfl, rfl⟩
  | compound t s i => exact ⟨_, _, rfl, rfl⟩
  | unaryPrefix p t hp _ _ => exact ⟨_, _, rfl, by cases p <;> cases hp <;> rfl⟩
  | unaryOperator p t hp _ _ => exact ⟨_, _, rfl, by cases p <;> cases hp <;> rfl⟩
  | sizeofType t s => exact ⟨_, _, rfl, rfl⟩
  | alignofType t s => exact ⟨_, _, rfl, rfl⟩
  | cast t s _ _ => exact ⟨_, _, rfl, rfl⟩
  | tighter m _ _ ih => exact ih
  | index _ _ ih _ | firstArg _ _ ih _ | nextArg _ _ ih _ | bin _ _ _ _ _ ih _ | assign _ _ _ ih _ | comma _ _ ih _ =>
    obtain ⟨t, us, e, h⟩ := ih
    rw [e]
    exact ⟨_, _, rfl, h⟩
  | dot _ _ ih | arrow _ _ ih | postinc _ ih | postdec _ ih | openCall _ ih | call0 _ ih | call _ ih =>
    obtain ⟨t, us, e, h⟩ := ih
    rw [e]
    exact ⟨_, _, rfl, h⟩
  | cond _ _ _ ih _ _ =>
    obtain ⟨t, us, e, h⟩ := ih
    rw [e]
    exact ⟨_, _, rfl, h⟩

/-- `n` is parsed in the loop for the stack. -/
theorem after_value {lim : Nat} {n : NT} {c : Call} {stack : List Entry} {rest : List Tok} (h : loose n = true ∨ n = .unary) :
    after lim n c stack rest = fun v => .value c stack v rest := by
  cases n <;> first | rfl | simp [loose] at h

theorem postfixStep_ends {lim : Nat} {c : Call} {stack : List Entry} {v : Value} {rest : List Tok} (h : isPostfix (head rest) = false) :
    postfixStep lim c stack v rest = .value c stack v rest := by
  unfold postfixStep
  split <;> first | rfl | (simp [head, isPostfix] at h)

/-- The end of a call of `parse_expression`. -/
theorem leave_inner {lim : Nat} {ret : Ret} {skip : Bool} {c : Call} {stack : List Entry} {v : Value} {ts : List Tok} :
    leave lim (.inner ret skip true stack.length c) (.guard :: stack) v ts = resume lim ret c stack v ts := by
  unfold leave
  simp

theorem leave_empty {lim : Nat} {ret : Ret} {skip : Bool} {c : Call} {v : Value} {ts : List Tok} :
    leave lim (.inner ret skip false 0 c) [] v ts = resume lim ret c [] v ts := by
  unfold leave
  simp

/-- The token ends the call. -/
def closes (skip : Bool) (rest : List Tok) : Prop :=
  isPostfix (head rest) = false ∧ (tokenPrec (head rest) = 0 ∨ (skip = true ∧ head rest = .comma))

theorem pushBinary_closes {lim : Nat} {c : Call} {stack : List Entry} {v : Value} {rest : List Tok} (h : closes c.skip rest) :
    pushBinary lim c stack v rest = leave lim c stack v rest := by
  unfold pushBinary
  have h := h.2
  split
  · rename_i o ts _
    have := lvl_op o
    simp only [head, List.headD_cons, tokenPrec_op, reduceCtorEq, and_false, or_false] at h
    omega
  · simp [head, tokenPrec] at h
  · simp [head, tokenPrec] at h
  · simp only [head, List.headD_cons, tokenPrec] at h
    rcases h with h | h
    · omega
    · rw [if_pos h.1]
  · rfl

theorem closes_ends {skip : Bool} {rest : List Tok} {n : NT} (h : closes skip rest) (hn : n = .expression ∧ skip = false ∨ n = .assignment) : Ends n rest := by
  obtain ⟨h1, h2⟩ := h
  refine ⟨h1, ?_⟩
  rcases h2 with h2 | ⟨h2, h3⟩
  · exact .inl h2
  · rcases hn with ⟨_, hs⟩ | hn
    · rw [hs] at h2; cases h2
    · rw [hn, h3]
      exact .inr (.inl (by decide))

/-- What the induction proves for an expression. -/
def Simulates (lim k : Nat) (n : NT) (e : Expr) (ts : List Tok) : Prop :=
  ∀ (c : Call) (stack : List Entry) (rest : List Tok), stack.length + k ≤ lim → Holds stack n → (n = .expression → c.skip = false) →
    (loose n = true ∨ n = .unary → Ends n rest) → (n = .arguments → closes true rest) → Gets lim (treeValue e) (after lim n c stack rest) (.operand c stack (ts ++ rest))

/-- A recursive call. -/
theorem gets_enter {lim k : Nat} {n : NT} {e : Expr} {ts : List Tok} (h : Simulates lim k n e ts) {ret : Ret} {skip : Bool} {c : Call} {stack : List Entry}
    {rest : List Tok} (hl : stack.length + (k + 1) ≤ lim) (hn : n = .expression ∧ skip = false ∨ n = .assignment) (hc : closes skip rest) :
    Gets lim (treeValue e) (fun v => resume lim ret c stack v rest) (enter lim ret skip c stack (ts ++ rest)) := by
  have hnl : loose n = true := by rcases hn with ⟨h, _⟩ | h <;> subst h <;> rfl
  unfold enter
  cases stack with
  | nil =>
    rw [if_neg (by simp)]
    have := h (.inner ret skip false 0 c) [] rest (by simp at hl; simp; omega) holds_nil
      (fun e => by rcases hn with ⟨_, h⟩ | h; exact h; rw [h] at e; cases e) (fun _ => closes_ends hc hn)
      (fun e => by rw [e] at hnl; cases hnl)
    rw [after_value (.inl hnl)] at this
    refine this.map fun v _ => ⟨1, ?_⟩
    show valueStep lim _ [] v rest = _
    exact (pushBinary_closes (c := .inner ret skip false 0 c) hc).trans leave_empty
  | cons x stack =>
    rw [if_pos (by simp only [List.length_cons] at *; omega)]
    have := h (.inner ret skip true (x :: stack).length c) (.guard :: x :: stack) rest (by simp only [List.length_cons] at *; omega) holds_guard
      (fun e => by rcases hn with ⟨_, h⟩ | h; exact h; rw [h] at e; cases e) (fun _ => closes_ends hc hn)
      (fun e => by rw [e] at hnl; cases hnl)
    rw [after_value (.inl hnl)] at this
    refine this.map fun v _ => ⟨1, ?_⟩
    show valueStep lim _ (.guard :: x :: stack) v rest = _
    exact (pushBinary_closes (c := .inner ret skip true (x :: stack).length c) hc).trans leave_inner

theorem closes_rpar {skip : Bool} {rest : List Tok} : closes skip (.rpar :: rest) := ⟨rfl, .inl rfl⟩
theorem closes_rbrack {skip : Bool} {rest : List Tok} : closes skip (.rbrack :: rest) := ⟨rfl, .inl rfl⟩
theorem closes_colon {skip : Bool} {rest : List Tok} : closes skip (.colon :: rest) := ⟨rfl, .inl rfl⟩

theorem operandStep_paren {lim : Nat} {c : Call} {stack : List Entry} {t : Tok} {ts : List Tok} (h : starts t = true) :
    operandStep lim c stack (.lpar :: t :: ts) = enter lim .paren false c stack (t :: ts) := by
  cases t <;> first | rfl | (simp [starts] at h)

theorem operandStep_type {lim : Nat} {c : Call} {stack : List Entry} {t : Nat} {s : Bool} {rest : List Tok} (h : isPostfix (head rest) = false ∨ starts (head rest) = true) :
    operandStep lim c stack (.lpar :: .ty t s :: .rpar :: rest) = match sizeOrAlign t s stack with
      | some (stack, v) => .postfix c stack v rest
      | none => push lim c stack (.cast t s) rest := by
  cases rest with
  | nil => rfl
  | cons u rest => cases u <;> first | rfl | (simp [head, isPostfix, starts] at h)

theorem sizeOrAlign_none {t : Nat} {s : Bool} {stack : List Entry} {n : NT} (h : Holds stack n) (hn : loose n = true) : sizeOrAlign t s stack = none := by
  cases stack with
  | nil => rfl
  | cons x stack =>
    have hx : isSize x = false := by
      rcases h x stack rfl with h | h
      · rw [h]; rfl
      · exact h.2 hn
    unfold sizeOrAlign
    split
    · rename_i e; cases e; cases hx
    · rename_i e; cases e; cases hx
    · rfl

theorem postfixStep_call {lim : Nat} {c : Call} {stack : List Entry} {v : Value} {t : Tok} {ts : List Tok} (h : starts t = true) :
    postfixStep lim c stack v (.lpar :: t :: ts) = enter lim (.arg ⟨.call v.e, false⟩) true c stack (t :: ts) := by
  cases t <;> first | rfl | (simp [starts] at h)

theorem resume_arg {lim : Nat} {c : Call} {stack : List Entry} {f v : Value} {t : Tok} {ts : List Tok} (h : starts t = true) :
    resume lim (.arg f) c stack v (.comma :: t :: ts) = enter lim (.arg ⟨.arg f.e v.e, false⟩) true c stack (t :: ts) := by
  cases t <;> first | rfl | (simp [starts] at h)

theorem operandStep_unaryPrefix {lim : Nat} {c : Call} {stack : List Entry} {p : Pre} {t : Tok} {ts : List Tok} (h : p.unaryPrefix = some t) :
    operandStep lim c stack (t :: ts) = push lim c stack (.pre p) ts := by
  cases p <;> cases h <;> rfl

theorem operandStep_unaryOperator {lim : Nat} {c : Call} {stack : List Entry} {p : Pre} {t : Tok} {ts : List Tok} (h : p.unaryOperator = some t) :
    operandStep lim c stack (t :: ts) = push lim c stack (.pre p) ts := by
  cases p <;> cases h <;> rfl

theorem treeValue_call {e : Expr} {v : Value} (h : treeValue (.call e) = some v) : ∃ x, treeValue e = some x ∧ v = ⟨.call x.e, false⟩ := by
  simp only [treeValue, Option.bind_eq_some_iff] at h
  obtain ⟨x, h1, h2⟩ := h
  exact ⟨x, h1, (Option.some.inj h2).symm⟩

theorem treeValue_arg {e a : Expr} {v : Value} (h : treeValue (.arg e a) = some v) :
    ∃ x y, treeValue e = some x ∧ treeValue a = some y ∧ v = ⟨.arg x.e y.e, false⟩ := by
  simp only [treeValue, Option.bind_eq_some_iff] at h
  obtain ⟨x, h1, y, h2, h3⟩ := h
  exact ⟨x, y, h1, h2, (Option.some.inj h3).symm⟩

theorem _root_.Verif.Spec.CExpr.Nests.shape {k : Nat} {n : NT} {e : Expr} {ts : List Tok} (h : Nests k n e ts) :
    (n = .openCall → ∃ f, e = .call f) ∧ (n = .arguments → ∃ f a, e = .arg f a) := by
  induction h with
  | openCall _ _ => exact ⟨fun _ => ⟨_, rfl⟩, fun e => by cases e⟩
  | firstArg _ _ _ _ => exact ⟨fun e => (by cases e), fun _ => ⟨_, _, rfl⟩⟩
  | nextArg _ _ _ _ => exact ⟨fun e => (by cases e), fun _ => ⟨_, _, rfl⟩⟩
  | bin o _ _ _ _ _ _ => exact ⟨fun e => (by cases o <;> cases e), fun e => (by cases o <;> cases e)⟩
  | @tighter n m k e ts hm _ _ => exact ⟨fun e => (by subst e; cases hm), fun e => (by subst e; cases hm)⟩
  | _ => exact ⟨fun e => (by cases e), fun e => (by cases e)⟩

theorem resume_arg_lhs {lim : Nat} {f v : Value} {c : Call} {stack : List Entry} {rest : List Tok} :
    resume lim (.arg f) c stack v rest = resume lim (.arg ⟨f.e, false⟩) c stack ⟨v.e, false⟩ rest := by
  cases rest with
  | nil => rfl
  | cons t rest =>
    cases t <;> try rfl
    cases rest with
    | nil => rfl
    | cons t rest => cases t <;> rfl

/-- Every expression is parsed to its tree. -/
theorem simulate {lim k : Nat} {n : NT} {e : Expr} {ts : List Tok} (h : Nests k n e ts) : Simulates lim k n e ts := by
  induction h with
  | ident n => exact fun c stack rest _ _ _ _ _ => ⟨1, rfl⟩
  | const n => exact fun c stack rest _ _ _ _ _ => ⟨1, rfl⟩
  | str n => exact fun c stack rest _ _ _ _ _ => ⟨1, rfl⟩
  | compound t s i => exact fun c stack rest _ _ _ _ _ => ⟨1, rfl⟩
  | @paren k e ts hn ih =>
    intro c stack rest hl _ _ _ _
    obtain ⟨t, us, e1, hs⟩ := hn.start
    refine Gets.step ?_
    show Gets lim _ _ (operandStep lim c stack (.lpar :: ts ++ [.rpar] ++ rest))
    have := gets_enter ih (ret := .paren) (skip := false) (c := c) (stack := stack) (rest := .rpar :: rest) hl (.inl ⟨rfl, rfl⟩) closes_rpar
    subst e1
    simp only [List.cons_append, List.append_assoc, List.nil_append]
    rw [operandStep_paren hs]
    exact this
  | @index k l a i ts us _ hi iha ihi =>
    intro c stack rest hl hh _ _ _
    have ha := iha c stack (.lbrack :: (us ++ .rbrack :: rest)) (by omega) hh (fun e => by cases e) (fun e => by rcases e with e | e <;> cases e) (fun e => by cases e)
    simp only [List.append_assoc, List.cons_append, List.nil_append]
    refine ha.bind fun x _ => ?_
    refine Gets.step ?_
    show Gets lim _ _ (enter lim (.index x) false c stack (us ++ .rbrack :: rest))
    refine (gets_enter ihi (by omega) (.inl ⟨rfl, rfl⟩) closes_rbrack).bind fun y _ => ⟨0, rfl⟩
  | @dot m k a ts _ ih =>
    intro c stack rest hl hh _ _ _
    have ha := ih c stack (.dot :: .ident m :: rest) hl hh (fun e => by cases e) (fun e => by rcases e with e | e <;> cases e) (fun e => by cases e)
    simp only [List.append_assoc, List.cons_append, List.nil_append]
    exact ha.bind fun x _ => ⟨1, rfl⟩
  | @arrow m k a ts _ ih =>
    intro c stack rest hl hh _ _ _
    have ha := ih c stack (.arrow :: .ident m :: rest) hl hh (fun e => by cases e) (fun e => by rcases e with e | e <;> cases e) (fun e => by cases e)
    simp only [List.append_assoc, List.cons_append, List.nil_append]
    exact ha.bind fun x _ => ⟨1, rfl⟩
  | @postinc k a ts _ ih =>
    intro c stack rest hl hh _ _ _
    have ha := ih c stack (.inc :: rest) hl hh (fun e => by cases e) (fun e => by rcases e with e | e <;> cases e) (fun e => by cases e)
    simp only [List.append_assoc, List.cons_append, List.nil_append]
    refine ha.bind fun x _ => ?_
    cases hx : x.lhs
    · exact ⟨1, by show postfixStep lim c stack x (.inc :: rest) = _; simp [postfixStep, hx]⟩
    · exact ⟨1, by show postfixStep lim c stack x (.inc :: rest) = _; simp [postfixStep, hx, after]⟩
  | @postdec k a ts _ ih =>
    intro c stack rest hl hh _ _ _
    have ha := ih c stack (.dec :: rest) hl hh (fun e => by cases e) (fun e => by rcases e with e | e <;> cases e) (fun e => by cases e)
    simp only [List.append_assoc, List.cons_append, List.nil_append]
    refine ha.bind fun x _ => ?_
    cases hx : x.lhs
    · exact ⟨1, by show postfixStep lim c stack x (.dec :: rest) = _; simp [postfixStep, hx]⟩
    · exact ⟨1, by show postfixStep lim c stack x (.dec :: rest) = _; simp [postfixStep, hx, after]⟩
  | @openCall k f ts _ ih =>
    intro c stack rest hl hh _ _ _
    have ha := ih c stack (.lpar :: rest) hl hh (fun e => by cases e) (fun e => by rcases e with e | e <;> cases e) (fun e => by cases e)
    simp only [List.append_assoc, List.cons_append, List.nil_append]
    refine ha.bind fun x _ => ⟨1, ?_⟩
    show postfixStep lim c stack x (.lpar :: rest) = postfixStep lim c stack ⟨x.e, false⟩ (.lpar :: rest)
    cases rest with
    | nil => rfl
    | cons t rest => cases t <;> rfl
  | @firstArg k l f a ts us hf ha ihf iha =>
    intro c stack rest hl hh _ _ hc
    obtain ⟨t, vs, e1, hs⟩ := ha.start
    have h1 := ihf c stack (us ++ rest) (by omega) hh (fun e => by cases e) (fun e => by rcases e with e | e <;> cases e) (fun e => by cases e)
    rw [List.append_assoc]
    refine h1.bind fun x hx => ?_
    obtain ⟨g, rfl⟩ := hf.shape.1 rfl
    obtain ⟨y, _, rfl⟩ := treeValue_call hx
    have h2 := gets_enter iha (ret := .arg ⟨.call y.e, false⟩) (skip := true) (c := c) (stack := stack) (rest := rest) (by omega) (.inr rfl) (hc rfl)
    show Gets lim _ _ (postfixStep lim c stack ⟨y.e, false⟩ (.lpar :: (us ++ rest)))
    rw [e1, List.cons_append, postfixStep_call hs]
    rw [e1, List.cons_append] at h2
    exact h2.bind fun z _ => ⟨0, resume_arg_lhs⟩
  | @nextArg k l f a ts us hf ha ihf iha =>
    intro c stack rest hl hh _ _ hc
    obtain ⟨t, vs, e1, hs⟩ := ha.start
    have h1 := ihf c stack (.comma :: (us ++ rest)) (by omega) hh (fun e => by cases e) (fun e => by rcases e with e | e <;> cases e)
      (fun _ => ⟨rfl, .inr ⟨rfl, rfl⟩⟩)
    rw [List.append_assoc, List.cons_append]
    refine h1.bind fun x hx => ?_
    obtain ⟨g, b, rfl⟩ := hf.shape.2 rfl
    obtain ⟨y, w, _, _, rfl⟩ := treeValue_arg hx
    have h2 := gets_enter iha (ret := .arg ⟨.arg y.e w.e, false⟩) (skip := true) (c := c) (stack := stack) (rest := rest) (by omega) (.inr rfl) (hc rfl)
    show Gets lim _ _ (resume lim (.arg ⟨y.e, false⟩) c stack ⟨w.e, false⟩ (.comma :: (us ++ rest)))
    rw [e1, List.cons_append, resume_arg hs]
    rw [e1, List.cons_append] at h2
    exact h2.bind fun z _ => ⟨0, resume_arg_lhs⟩
  | @call0 k f ts hf ih =>
    intro c stack rest hl hh _ _ _
    have h1 := ih c stack (.rpar :: rest) hl hh (fun e => by cases e) (fun e => by rcases e with e | e <;> cases e) (fun e => by cases e)
    simp only [List.append_assoc, List.cons_append, List.nil_append]
    refine h1.map fun v hv => ?_
    obtain ⟨g, rfl⟩ := hf.shape.1 rfl
    obtain ⟨x, _, rfl⟩ := treeValue_call hv
    exact ⟨0, rfl⟩
  | @call k f ts hf ih =>
    intro c stack rest hl hh _ _ _
    have h1 := ih c stack (.rpar :: rest) hl hh (fun e => by cases e) (fun e => by rcases e with e | e <;> cases e) (fun _ => closes_rpar)
    simp only [List.append_assoc, List.cons_append, List.nil_append]
    refine h1.map fun v hv => ?_
    obtain ⟨g, b, rfl⟩ := hf.shape.2 rfl
    obtain ⟨x, y, _, _, rfl⟩ := treeValue_arg hv
    exact ⟨0, rfl⟩
  | @unaryPrefix p t k a ts hp _ ih =>
    intro c stack rest hl hh _ he _
    have he := he (.inr rfl)
    refine Gets.step ?_
    show Gets lim _ _ (operandStep lim c stack (t :: (ts ++ rest)))
    rw [operandStep_unaryPrefix hp, push_ok (by omega)]
    refine (ih c (.pre p :: stack) rest (by simp only [List.length_cons]; omega) (holds_tight rfl (fun h => by cases h)) (fun e => by cases e) (fun _ => he) (fun e => by cases e)).bind
      fun x _ => gets_reduce he rfl (by decide)
  | @unaryOperator p t k a ts hp _ ih =>
    intro c stack rest hl hh _ he _
    have he := he (.inr rfl)
    refine Gets.step ?_
    show Gets lim _ _ (operandStep lim c stack (t :: (ts ++ rest)))
    rw [operandStep_unaryOperator hp, push_ok (by omega)]
    refine (ih c (.pre p :: stack) rest (by simp only [List.length_cons]; omega) (holds_tight rfl (fun h => by cases p <;> first | rfl | cases hp)) (fun e => by cases e)
      (fun _ => he.mono (by decide)) (fun e => by cases e)).bind fun x _ => gets_reduce he rfl (by decide)
  | sizeofType t s =>
    intro c stack rest hl hh _ he _
    have he := he (.inr rfl)
    refine Gets.step ?_
    show Gets lim _ _ (push lim c stack (.pre .sizeof) (.lpar :: .ty t s :: .rpar :: rest))
    rw [push_ok (by omega)]
    refine Gets.step ?_
    show Gets lim _ _ (operandStep lim c (.pre .sizeof :: stack) (.lpar :: .ty t s :: .rpar :: rest))
    rw [operandStep_type (.inl he.1)]
    exact ⟨1, postfixStep_ends he.1⟩
  | alignofType t s =>
    intro c stack rest hl hh _ he _
    have he := he (.inr rfl)
    refine Gets.step ?_
    show Gets lim _ _ (push lim c stack (.pre .alignof) (.lpar :: .ty t s :: .rpar :: rest))
    rw [push_ok (by omega)]
    refine Gets.step ?_
    show Gets lim _ _ (operandStep lim c (.pre .alignof :: stack) (.lpar :: .ty t s :: .rpar :: rest))
    rw [operandStep_type (.inl he.1)]
    exact ⟨1, postfixStep_ends he.1⟩
  | @cast t s k a ts ha ih =>
    intro c stack rest hl hh _ he _
    have he := he (.inl rfl)
    obtain ⟨u, us, e1, hs⟩ := ha.start
    refine Gets.step ?_
    show Gets lim _ _ (operandStep lim c stack (.lpar :: .ty t s :: .rpar :: (ts ++ rest)))
    rw [operandStep_type (.inr (by rw [e1]; exact hs)), sizeOrAlign_none hh rfl]
    show Gets lim _ _ (push lim c stack (.cast t s) (ts ++ rest))
    rw [push_ok (by omega)]
    refine (ih c (.cast t s :: stack) rest (by simp only [List.length_cons]; omega) (holds_tight rfl (fun h => rfl)) (fun e => by cases e)
      (fun _ => he) (fun e => by cases e)).bind fun x _ => gets_reduce he rfl (by decide)
  | @bin o m k l a b ts us hm _ hb iha ihb =>
    intro c stack rest hl hh hs he _
    have ho := lvl_op o
    have hlo : loose o.nt = true := by cases o <;> rfl
    have he := he (.inl hlo)
    have h1 := iha c stack (.op o :: (us ++ rest)) (by omega) hh (fun e => by rw [e] at ho; simp [lvl] at ho)
      (fun _ => ⟨rfl, .inr (.inr ⟨(tokenPrec_op o).symm, .inl ho.2⟩)⟩) (fun e => by rw [e] at hlo; cases hlo)
    rw [after_value (.inl hlo)] at h1 ⊢
    rw [List.append_assoc, List.cons_append]
    refine h1.bind fun x _ => ?_
    refine Gets.step ?_
    show Gets lim _ _ (valueStep lim c stack x (.op o :: (us ++ rest)))
    rw [valueStep_waits hh (by rw [tokenPrec_op]; exact ho.1) (by rw [tokenPrec_op]; exact Nat.le_refl _)]
    show Gets lim _ _ (push lim c stack (.bin o x) (us ++ rest))
    rw [push_ok (by omega)]
    have hlt := lvl_tighter_op o m hm
    have hm2 : loose m = true := by revert hm; cases o <;> cases m <;> decide
    have h2 := ihb c (.bin o x :: stack) rest (by simp only [List.length_cons]; omega) (holds_cons (.inl (by rw [entryPrec_bin]; exact hlt)) rfl)
      (fun e => by rw [e] at hlt; have : lvl .expression = 15 := rfl; omega) (fun _ => he.mono (Nat.le_of_lt hlt)) (fun e => by rw [e] at hm2; cases hm2)
    rw [after_value (.inl hm2)] at h2
    exact h2.bind fun y _ => gets_reduce he (entryPrec_bin o x) (by omega)
  | @cond k l m p a b ts us vs _ ha hb ihc iha ihb =>
    intro c stack rest hl hh hs he _
    have he := he (.inl rfl)
    have h1 := ihc c stack (.question :: (us ++ .colon :: (vs ++ rest))) (by omega) (hh.mono (by decide) (fun _ => rfl)) (fun e => by cases e)
      (fun _ => ⟨rfl, .inr (.inl (show 12 < 13 by decide))⟩) (fun e => by cases e)
    rw [List.append_assoc, List.cons_append, List.append_assoc, List.cons_append]
    refine h1.bind fun x _ => ?_
    refine Gets.step ?_
    show Gets lim _ _ (valueStep lim c stack x (.question :: (us ++ .colon :: (vs ++ rest))))
    rw [valueStep_waits hh (by decide) (by decide)]
    show Gets lim _ _ (enter lim (.middle x) false c stack (us ++ .colon :: (vs ++ rest)))
    refine (gets_enter iha (by omega) (.inl ⟨rfl, rfl⟩) closes_colon).bind fun y _ => ?_
    show Gets lim _ _ (push lim c stack (.cond x y) (vs ++ rest))
    rw [push_ok (by omega)]
    refine (ihb c (.cond x y :: stack) rest (by simp only [List.length_cons]; omega) (holds_cons (.inr ⟨rfl, .inr rfl⟩) rfl) (fun e => by cases e)
      (fun _ => he) (fun e => by cases e)).bind fun z _ => gets_reduce he rfl (by decide)
  | @assign o k l a b ts us _ hb iha ihb =>
    intro c stack rest hl hh hs he _
    have he := he (.inl rfl)
    have h1 := iha c stack (.assign o :: (us ++ rest)) (by omega) (hh.mono (by decide) (fun _ => rfl)) (fun e => by cases e)
      (fun _ => ⟨rfl, .inr (.inl (by simp only [head, List.headD_cons, tokenPrec]; decide))⟩) (fun e => by cases e)
    rw [List.append_assoc, List.cons_append]
    refine h1.bind fun x _ => ?_
    refine Gets.step ?_
    show Gets lim _ _ (valueStep lim c stack x (.assign o :: (us ++ rest)))
    rw [valueStep_waits (t := .assign o) hh (show 3 ≤ 14 by decide) (show 14 ≤ 14 by decide)]
    show Gets lim _ _ (if x.lhs = true then push lim c stack (.assign o x) (us ++ rest) else .done .error)
    by_cases hx : x.lhs = true
    · rw [if_pos hx, if_pos hx, push_ok (by omega)]
      refine (ihb c (.assign o x :: stack) rest (by simp only [List.length_cons]; omega) (holds_cons (.inr ⟨rfl, .inl rfl⟩) rfl) (fun e => by cases e)
        (fun _ => he) (fun e => by cases e)).bind fun z _ => gets_reduce he rfl (by decide)
    · rw [if_neg hx, if_neg hx]
      exact .refl
  | @comma k l a b ts us _ hb iha ihb =>
    intro c stack rest hl hh hs he _
    have he := he (.inl rfl)
    have h1 := iha c stack (.comma :: (us ++ rest)) (by omega) hh hs
      (fun _ => ⟨rfl, .inr (.inr ⟨rfl, .inr rfl⟩)⟩) (fun e => by cases e)
    rw [List.append_assoc, List.cons_append]
    refine h1.bind fun x _ => ?_
    refine Gets.step ?_
    show Gets lim _ _ (valueStep lim c stack x (.comma :: (us ++ rest)))
    rw [valueStep_waits hh (by decide) (by decide)]
    show Gets lim _ _ (if c.skip = true then _ else push lim c stack (.comma x) (us ++ rest))
    rw [if_neg (by rw [hs rfl]; decide), push_ok (by omega)]
    refine (ihb c (.comma x :: stack) rest (by simp only [List.length_cons]; omega) (holds_cons (.inl (show 15 > 14 by decide)) rfl) (fun e => by cases e)
      (fun _ => he.mono (by decide)) (fun e => by cases e)).bind fun z _ => gets_reduce he rfl (by decide)
  | @tighter n m k e ts hm _ ih =>
    intro c stack rest hl hh hs he _
    have hm1 := loose_mono hm
    have h1 := ih c stack rest hl (hh.mono (lvl_tighter_le hm) hm1) (fun e => by subst e; cases n <;> cases hm)
      (fun h => (he (by revert h hm; cases n <;> cases m <;> decide)).mono (lvl_tighter_le hm)) (fun e => by subst e; cases n <;> cases hm)
    by_cases hp : n = .unary
    · subst hp
      cases hm
      refine h1.map fun v _ => ⟨1, ?_⟩
      exact postfixStep_ends (he (.inr rfl)).1
    · have : after lim n c stack rest = after lim m c stack rest := by
        revert hm hp; cases n <;> cases m <;> simp [NT.tighter, after]
      rw [this]
      exact h1

/-! ## The constraints -/

theorem treeValue_valid {e : Expr} (h : valid e = true) : ∃ b, treeValue e = some ⟨e, b⟩ ∧ (lvalue e = true → b = true) := by
  induction e with
  | ident n | const n | str n | compound t s i | sizeofType t s | alignofType t s => exact ⟨_, rfl, fun h => by first | rfl | cases h⟩
  | index a i iha ihi | arg a i iha ihi | bin o a i iha ihi | comma a i iha ihi =>
    simp only [valid, Bool.and_eq_true] at h
    obtain ⟨x, hx, _⟩ := iha h.1
    obtain ⟨y, hy, _⟩ := ihi h.2
    exact ⟨_, by rw [treeValue, hx, hy]; rfl, fun h => by first | rfl | cases h⟩
  | call f ih | arrow f m ih | cast t s f ih =>
    obtain ⟨x, hx, _⟩ := ih h
    exact ⟨_, by rw [treeValue, hx]; rfl, fun h => by first | rfl | cases h⟩
  | dot a m ih =>
    obtain ⟨x, hx, hl⟩ := ih h
    exact ⟨x, by rw [treeValue, hx]; rfl, hl⟩
  | postinc a ih | postdec a ih =>
    simp only [valid, Bool.and_eq_true] at h
    obtain ⟨x, hx, hl⟩ := ih h.1
    have := hl h.2
    subst this
    exact ⟨_, by rw [treeValue, hx]; rfl, fun h => by cases h⟩
  | pre p a ih =>
    cases p
    case inc | dec | addr =>
      simp only [valid, Bool.and_eq_true] at h
      obtain ⟨x, hx, hl⟩ := ih h.1
      have := hl h.2
      subst this
      exact ⟨_, by rw [treeValue, hx]; rfl, fun h => by cases h⟩
    all_goals
      obtain ⟨x, hx, hl⟩ := ih h
      exact ⟨_, by rw [treeValue, hx]; rfl, fun h => by first | rfl | cases h⟩
  | cond p a b ihp iha ihb =>
    simp only [valid, Bool.and_eq_true] at h
    obtain ⟨x, hx, _⟩ := ihp h.1.1
    obtain ⟨y, hy, _⟩ := iha h.1.2
    obtain ⟨z, hz, _⟩ := ihb h.2
    exact ⟨_, by rw [treeValue, hx, hy, hz]; rfl, fun h => by cases h⟩
  | assign o a b iha ihb =>
    simp only [valid, Bool.and_eq_true] at h
    obtain ⟨x, hx, hl⟩ := iha h.1.1
    obtain ⟨y, hy, _⟩ := ihb h.2
    have := hl h.1.2
    subst this
    exact ⟨_, by rw [treeValue, hx, hy]; rfl, fun h => by cases h⟩

theorem treeValue_eq {e : Expr} (h : noStructCast e = true) : treeValue e = if valid e = true then some ⟨e, lvalue e⟩ else none := by
  induction e with
  | ident n | const n | str n | compound t s i | sizeofType t s | alignofType t s => rfl
  | index a b iha ihb | arg a b iha ihb | bin o a b iha ihb | comma a b iha ihb =>
    simp only [noStructCast, Bool.and_eq_true] at h
    rw [treeValue, iha h.1, ihb h.2]
    cases ha : valid a <;> cases hb : valid b <;> simp [valid, ha, hb, lvalue, reduce]
  | call a ih | arrow a m ih | dot a m ih =>
    rw [treeValue, ih h]
    cases ha : valid a <;> simp [valid, ha, lvalue]
  | cast t s a ih =>
    simp only [noStructCast, Bool.and_eq_true, Bool.not_eq_true'] at h
    rw [treeValue, ih h.2]
    cases ha : valid a <;> simp [valid, ha, lvalue, reduce, h.1]
  | postinc a ih | postdec a ih =>
    rw [treeValue, ih h]
    cases ha : valid a <;> cases hl : lvalue a <;> simp [valid, ha, hl, lvalue]
  | pre p a ih =>
    rw [treeValue, ih h]
    cases p <;> cases ha : valid a <;> cases hl : lvalue a <;> simp [valid, ha, hl, lvalue, reduce]
  | cond p a b ihp iha ihb =>
    simp only [noStructCast, Bool.and_eq_true] at h
    rw [treeValue, ihp h.1.1, iha h.1.2, ihb h.2]
    cases hp : valid p <;> cases ha : valid a <;> cases hb : valid b <;> simp [valid, hp, ha, hb, lvalue, reduce]
  | assign o a b iha ihb =>
    simp only [noStructCast, Bool.and_eq_true] at h
    rw [treeValue, iha h.1, ihb h.2]
    cases ha : valid a <;> cases hl : lvalue a <;> cases hb : valid b <;> simp [valid, ha, hl, hb, lvalue, reduce]

/-! ## The theorems -/

theorem follows_closes {skip : Bool} {rest : List Tok} (h : follows skip rest = true) : closes skip rest := by
  cases rest with
  | nil => exact ⟨rfl, .inl rfl⟩
  | cons t rest => cases t <;> simp_all [follows, closes, head, isPostfix, tokenPrec]

theorem parse_nests {lim k : Nat} {n : NT} {skip : Bool} {e : Expr} {ts rest : List Tok} (h : Nests k n e ts) (hk : k ≤ lim)
    (hn : n = .expression ∧ skip = false ∨ n = .assignment) (hf : follows skip rest = true) :
    parseWith lim skip (ts ++ rest) = some (match treeValue e with | some v => .ok v rest | none => .error) := by
  have hnl : loose n = true := by rcases hn with ⟨h, _⟩ | h <;> subst h <;> rfl
  have hc := follows_closes hf
  have := simulate h (lim := lim) (.top skip) [] rest (by simpa using hk) holds_nil
    (fun e => by rcases hn with ⟨_, h⟩ | h; exact h; rw [h] at e; cases e) (fun _ => closes_ends hc hn) (fun e => by rw [e] at hnl; cases hnl)
  rw [after_value (.inl hnl)] at this
  refine parse_of_reaches ?_
  revert this
  cases treeValue e with
  | none => exact id
  | some v => exact fun h => h.trans ⟨1, (pushBinary_closes (c := .top skip) hc).trans rfl⟩

/-- The nesting of an expression is less than its number of tokens. -/
theorem _root_.Verif.Spec.CExpr.Derives.nests {n : NT} {e : Expr} {ts : List Tok} (h : Derives false n e ts) : ∃ k, k + 1 ≤ ts.length ∧ Nests k n e ts := by
  induction h with
  | ident n => exact ⟨0, Nat.le_refl _, .ident n⟩
  | const n => exact ⟨0, Nat.le_refl _, .const n⟩
  | str n => exact ⟨0, Nat.le_refl _, .str n⟩
  | paren _ ih =>
    obtain ⟨k, hk, h⟩ := ih
    exact ⟨k + 1, by simp only [List.length_cons, List.length_append]; omega, .paren h⟩
  | compound t s i => exact ⟨0, by simp, .compound t s i⟩
  | index _ _ iha ihb =>
    obtain ⟨k, hk, h⟩ := iha
    obtain ⟨l, hl, g⟩ := ihb
    exact ⟨max k (l + 1), by simp only [List.length_cons, List.length_append]; omega, .index h g⟩
  | dot m _ ih =>
    obtain ⟨k, hk, h⟩ := ih
    exact ⟨k, by simp only [List.length_append]; omega, .dot m h⟩
  | arrow m _ ih =>
    obtain ⟨k, hk, h⟩ := ih
    exact ⟨k, by simp only [List.length_append]; omega, .arrow m h⟩
  | postinc _ ih =>
    obtain ⟨k, hk, h⟩ := ih
    exact ⟨k, by simp only [List.length_append]; omega, .postinc h⟩
  | postdec _ ih =>
    obtain ⟨k, hk, h⟩ := ih
    exact ⟨k, by simp only [List.length_append]; omega, .postdec h⟩
  | openCall _ ih =>
    obtain ⟨k, hk, h⟩ := ih
    exact ⟨k, by simp only [List.length_append]; omega, .openCall h⟩
  | firstArg _ _ iha ihb =>
    obtain ⟨k, hk, h⟩ := iha
    obtain ⟨l, hl, g⟩ := ihb
    exact ⟨max k (l + 1), by simp only [List.length_append]; omega, .firstArg h g⟩
  | nextArg _ _ iha ihb =>
    obtain ⟨k, hk, h⟩ := iha
    obtain ⟨l, hl, g⟩ := ihb
    exact ⟨max k (l + 1), by simp only [List.length_cons, List.length_append]; omega, .nextArg h g⟩
  | call0 _ ih =>
    obtain ⟨k, hk, h⟩ := ih
    exact ⟨k, by simp only [List.length_append]; omega, .call0 h⟩
  | call _ ih =>
    obtain ⟨k, hk, h⟩ := ih
    exact ⟨k, by simp only [List.length_append]; omega, .call h⟩
  | unaryPrefix p t hp _ ih =>
    obtain ⟨k, hk, h⟩ := ih
    exact ⟨k + 1, by simp only [List.length_cons]; omega, .unaryPrefix p t hp h⟩
  | unaryOperator p t hp _ ih =>
    obtain ⟨k, hk, h⟩ := ih
    exact ⟨k + 1, by simp only [List.length_cons]; omega, .unaryOperator p t hp h⟩
  | sizeofType t s => exact ⟨1, by simp, .sizeofType t s⟩
  | alignofType t s => exact ⟨1, by simp, .alignofType t s⟩
  | cast t s _ ih =>
    obtain ⟨k, hk, h⟩ := ih
    exact ⟨k + 1, by simp only [List.length_cons]; omega, .cast t s h⟩
  | bin o m hm _ _ iha ihb =>
    obtain ⟨k, hk, h⟩ := iha
    obtain ⟨l, hl, g⟩ := ihb
    exact ⟨max k (l + 1), by simp only [List.length_cons, List.length_append]; omega, .bin o m hm h g⟩
  | cond _ _ _ ihc iha ihb =>
    obtain ⟨k, hk, h⟩ := ihc
    obtain ⟨l, hl, g⟩ := iha
    obtain ⟨m, hm, f⟩ := ihb
    exact ⟨max k (max (l + 1) (m + 1)), by simp only [List.length_cons, List.length_append]; omega, .cond h g f⟩
  | assign o _ _ iha ihb =>
    obtain ⟨k, hk, h⟩ := iha
    obtain ⟨l, hl, g⟩ := ihb
    exact ⟨max k (l + 1), by simp only [List.length_cons, List.length_append]; omega, .assign o h g⟩
  | comma _ _ iha ihb =>
    obtain ⟨k, hk, h⟩ := iha
    obtain ⟨l, hl, g⟩ := ihb
    exact ⟨max k (l + 1), by simp only [List.length_cons, List.length_append]; omega, .comma h g⟩
  | tighter m hm _ ih =>
    obtain ⟨k, hk, h⟩ := ih
    exact ⟨k, hk, .tighter m hm h⟩
  | trailingComma h | sizeofPostfix _ _ h | alignofPostfix _ _ h | structCast _ h => cases h

/-- **C19**: whatever *expression* of the C grammar the tokens are, of any length, the parser yields the
syntax tree the grammar gives it and stops right behind it, provided the operands that have to be lvalues
are. Only nesting is limited, to 1024. -/
theorem C19_structure (k : Nat) (e : Expr) (ts rest : List Tok) (h : Nests k .expression e ts) (hk : k ≤ 1024) (hv : valid e = true)
    (hf : follows false rest = true) : ∃ lhs, parse false (ts ++ rest) = some (.ok ⟨e, lhs⟩ rest) := by
  obtain ⟨b, hb, _⟩ := treeValue_valid hv
  exact ⟨b, by rw [parse, parse_nests h hk (.inl ⟨rfl, rfl⟩) hf, hb]⟩

/-- **C19**: the same for an *assignment-expression* in a list, like an argument or an initializer, which a
comma ends. -/
theorem C19_structure_list (k : Nat) (e : Expr) (ts rest : List Tok) (h : Nests k .assignment e ts) (hk : k ≤ 1024) (hv : valid e = true)
    (hf : follows true rest = true) : ∃ lhs, parse true (ts ++ rest) = some (.ok ⟨e, lhs⟩ rest) := by
  obtain ⟨b, hb, _⟩ := treeValue_valid hv
  exact ⟨b, by rw [parse, parse_nests h hk (.inr rfl) hf, hb]⟩

/-- **C19**: expressions of at most 1025 tokens cannot nest too deep. -/
theorem C19_structure_short (e : Expr) (ts rest : List Tok) (h : Derives false .expression e ts) (hl : ts.length ≤ 1025) (hv : valid e = true)
    (hf : follows false rest = true) : ∃ lhs, parse false (ts ++ rest) = some (.ok ⟨e, lhs⟩ rest) := by
  obtain ⟨k, hk, hn⟩ := h.nests
  exact C19_structure k e ts rest hn (by omega) hv hf

/-- **C19**: without casts to structures, an expression in which an operand has to be an lvalue and is not is
rejected. -/
theorem C19_rejects_partial (k : Nat) (e : Expr) (ts rest : List Tok) (h : Nests k .expression e ts) (hk : k ≤ 1024) (hv : valid e = false)
    (hs : noStructCast e = true) (hf : follows false rest = true) : parse false (ts ++ rest) = some .error := by
  rw [parse, parse_nests h hk (.inl ⟨rfl, rfl⟩) hf, treeValue_eq hs, hv]
  rfl

/-- The grammar of C11 6.5 gives a list of tokens at most one valid syntax tree, however deep it nests. -/
theorem C19_unambiguous (e f : Expr) (ts : List Tok) (he : Derives false .expression e ts) (hf : Derives false .expression f ts) (hv : valid e = true)
    (hw : valid f = true) : e = f := by
  obtain ⟨k, hk, hn⟩ := he.nests
  obtain ⟨l, hl, hm⟩ := hf.nests
  have h1 := parse_nests hn (show k ≤ ts.length by omega) (.inl ⟨rfl, rfl⟩) (rest := []) rfl
  have h2 := parse_nests hm (show l ≤ ts.length by omega) (.inl ⟨rfl, rfl⟩) (rest := []) rfl
  obtain ⟨b, hb, _⟩ := treeValue_valid hv
  obtain ⟨d, hd, _⟩ := treeValue_valid hw
  rw [h1, hb, hd] at h2
  simp only [Option.some.injEq, Res.ok.injEq, Value.mk.injEq, and_true] at h2
  exact h2.1

/-! ## Examples and deviations -/

def rank : NT → Nat
  | .openCall | .arguments => 0
  | .primary => 1
  | .postfix => 2
  | .unary => 3
  | .cast => 4
  | n => lvl n + 2

/-- An expression of a kind is one of all looser kinds. -/
theorem _root_.Verif.Spec.CExpr.Derives.up {x : Bool} {e : Expr} {ts : List Tok} {n : NT} (h : Derives x n e ts) (h0 : 1 ≤ rank n) :
    ∀ (m : NT), rank n ≤ rank m → Derives x m e ts := by
  have key : ∀ (k : Nat) (m : NT), rank m = rank n + k → Derives x m e ts := by
    intro k
    induction k with
    | zero =>
      intro m hk
      have : m = n := by revert hk h0; cases m <;> cases n <;> decide
      rw [this]
      exact h
    | succ k ih =>
      intro m hk
      have : rank m ≥ 2 → ∃ l, m.tighter = some l ∧ rank l + 1 = rank m := by cases m <;> simp [rank, NT.tighter, lvl]
      obtain ⟨l, hl, hr⟩ := this (by omega)
      exact .tighter l hl (ih l (by omega))
  intro m hm
  exact key (rank m - rank n) m (by omega)

theorem dident (i : Nat) (n : NT) (h : 1 ≤ rank n) : Derives false n (.ident i) [.ident i] := (Derives.ident i).up (by decide) n h

/-- `a = b = c - d - e * f ? g , h : sizeof ( T ) [ … ]` … a smaller one: `a = b = c - d - e * f`. -/
example : Derives false .expression
    (.assign .plain (.ident 0) (.assign .add (.ident 1) (.bin .sub (.bin .sub (.ident 2) (.ident 3)) (.bin .mul (.ident 4) (.pre .deref (.ident 5))))))
    [.ident 0, .assign .plain, .ident 1, .assign .add, .ident 2, .op .sub, .ident 3, .op .sub, .ident 4, .op .mul, .op .mul, .ident 5] := by
  have h1 : Derives false .unary (.pre .deref (.ident 5)) [.op .mul, .ident 5] := .unaryOperator .deref _ rfl (dident 5 _ (by decide))
  have h2 : Derives false .multiplicative (.bin .mul (.ident 4) (.pre .deref (.ident 5))) [.ident 4, .op .mul, .op .mul, .ident 5] :=
    .bin .mul _ rfl (dident 4 _ (by decide)) (h1.up (by decide) _ (by decide))
  have h3 : Derives false .additive (.bin .sub (.ident 2) (.ident 3)) [.ident 2, .op .sub, .ident 3] :=
    .bin .sub .multiplicative rfl (dident 2 _ (by decide)) (dident 3 _ (by decide))
  have h4 : Derives false .additive (.bin .sub (.bin .sub (.ident 2) (.ident 3)) (.bin .mul (.ident 4) (.pre .deref (.ident 5))))
      [.ident 2, .op .sub, .ident 3, .op .sub, .ident 4, .op .mul, .op .mul, .ident 5] := .bin .sub .multiplicative rfl h3 h2
  have h5 := Derives.assign .add (dident 1 .unary (by decide)) (h4.up (by decide) .assignment (by decide))
  have h6 := Derives.assign .plain (dident 0 .unary (by decide)) h5
  exact h6.up (by decide) .expression (by decide)

/-- `a ? b , c : d ? e : f`, `sizeof ( T ) * p`, `- f ( a , b ) [ i ] -> m ++`, `( T ) - a + b`. -/
example : parse false [.ident 0, .question, .ident 1, .comma, .ident 2, .colon, .ident 3, .question, .ident 4, .colon, .ident 5, .other 1] =
    some (.ok ⟨.cond (.ident 0) (.comma (.ident 1) (.ident 2)) (.cond (.ident 3) (.ident 4) (.ident 5)), false⟩ [.other 1]) := by decide +kernel
example : parse false [.sizeof, .lpar, .ty 0 false, .rpar, .op .mul, .ident 1] = some (.ok ⟨.bin .mul (.sizeofType 0 false) (.ident 1), false⟩ []) := by decide +kernel
example : parse false [.op .sub, .ident 0, .lpar, .ident 1, .comma, .ident 2, .rpar, .lbrack, .ident 3, .rbrack, .arrow, .ident 4, .inc] =
    some (.ok ⟨.pre .minus (.postinc (.arrow (.index (.arg (.arg (.call (.ident 0)) (.ident 1)) (.ident 2)) (.ident 3)) 4)), false⟩ []) := by decide +kernel
example : parse false [.lpar, .ty 0 false, .rpar, .op .sub, .ident 1, .op .add, .ident 2] =
    some (.ok ⟨.bin .add (.cast 0 false (.pre .minus (.ident 1))) (.ident 2), false⟩ []) := by decide +kernel

/-- `a + b = c` is rejected. -/
example : parse false [.ident 0, .op .add, .ident 1, .assign .plain, .ident 2] = some .error := by decide +kernel

/-- `f ( ) = b` derives from the grammar and is rejected. -/
example : Derives false .expression (.assign .plain (.call (.ident 0)) (.ident 1)) [.ident 0, .lpar, .rpar, .assign .plain, .ident 1] ∧
    valid (.assign .plain (.call (.ident 0)) (.ident 1)) = false ∧ parse false [.ident 0, .lpar, .rpar, .assign .plain, .ident 1] = some .error := by
  refine ⟨?_, rfl, by decide +kernel⟩
  have h1 : Derives false .postfix (.call (.ident 0)) [.ident 0, .lpar, .rpar] := .call0 (.openCall (dident 0 _ (by decide)))
  exact (Derives.assign .plain (h1.up (by decide) .unary (by decide)) (dident 1 .assignment (by decide))).up (by decide) .expression (by decide)

/-- The lvalue constraints are not kept by casts to structures: `++ ( struct s ) a` is accepted although its
operand is a cast, which is never an lvalue. -/
theorem C19_struct_cast_wrong : valid (.pre .inc (.cast 0 true (.ident 0))) = false ∧
    parse false [.inc, .lpar, .ty 0 true, .rpar, .ident 0] = some (.ok ⟨.pre .inc (.cast 0 true (.ident 0)), false⟩ []) := by
  refine ⟨rfl, by decide +kernel⟩

/-- Prefix operators fill the stack. -/
theorem reaches_bangs {lim : Nat} {c : Call} {rest : List Tok} : ∀ (n : Nat) (stack : List Entry), stack.length + n ≤ lim →
    Reaches lim (.operand c stack (List.replicate n .bang ++ rest)) (.operand c (List.replicate n (.pre .not) ++ stack) rest)
  | 0, stack, _ => .refl
  | n + 1, stack, h => by
    have ih := reaches_bangs (lim := lim) (c := c) (rest := rest) n (.pre .not :: stack) (by simp only [List.length_cons]; omega)
    have e : List.replicate (n + 1) (Entry.pre .not) ++ stack = List.replicate n (.pre .not) ++ .pre .not :: stack := by
      rw [List.replicate_succ']; simp
    rw [e]
    refine Reaches.step ?_
    show Reaches lim (push lim c stack (.pre .not) (List.replicate n .bang ++ rest)) _
    rw [push_ok (by omega)]
    exact ih

theorem reaches_unbang {lim : Nat} {c : Call} {rest : List Tok} : ∀ (n : Nat) (v : Value),
    ∃ w, Reaches lim (.value c (List.replicate n (.pre .not)) v (.rpar :: rest)) (.value c [] w (.rpar :: rest))
  | 0, v => ⟨v, .refl⟩
  | n + 1, v => by
    obtain ⟨w, h⟩ := reaches_unbang (c := c) (rest := rest) n ⟨.pre .not v.e, false⟩
    exact ⟨w, Reaches.trans ⟨1, rfl⟩ h⟩

/-- When the stack is full exactly at an opening parenthesis, no guard is pushed, and the operators before the
parenthesis are applied inside it: the compiler stops with a failed assertion for 1024 `!` and `( a )`. -/
theorem C19_full_stack_wrong : parse false (List.replicate 1024 .bang ++ [.lpar, .ident 0, .rpar]) = some .assertion := by
  refine parse_of_reaches ?_
  refine (reaches_bangs 1024 [] (Nat.le_refl _)).trans ?_
  rw [List.append_nil]
  have hl : (List.replicate 1024 (Entry.pre .not)).length = 1024 := List.length_replicate
  have e : enter 1024 .paren false (.top false) (List.replicate 1024 (.pre .not)) [.ident 0, .rpar] =
      .operand (.inner .paren false false 1024 (.top false)) (List.replicate 1024 (.pre .not)) [.ident 0, .rpar] := by
    unfold enter
    rw [hl]
    rfl
  refine Reaches.step ?_
  show Reaches 1024 (enter 1024 .paren false (.top false) (List.replicate 1024 (.pre .not)) [.ident 0, .rpar]) _
  rw [e]
  refine Reaches.step (Reaches.step ?_)
  obtain ⟨w, h⟩ := reaches_unbang (lim := 1024) (c := .inner .paren false false 1024 (.top false)) (rest := []) 1024 ⟨.ident 0, true⟩
  exact Reaches.trans h ⟨1, rfl⟩

end Verif.CExpr
