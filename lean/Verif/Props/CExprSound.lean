import Verif.Props.CExpr

/-!
# C19, converse: what the parser accepts is an expression

`C19_sound`: whenever the parser accepts, the tokens it has taken derive from the grammar (with the
extensions listed there) and its result is the syntax tree. `C19_in_bounds`: the stack never overflows.
-/
namespace Verif.CExpr
open Verif.Spec.CExpr

/-! ## The stack -/

def stackOf : Conf → List Entry
  | .operand _ stack _ => stack
  | .postfix _ stack _ _ => stack
  | .value _ stack _ _ => stack
  | .done _ => []

theorem push_bound {lim : Nat} {c : Call} {stack : List Entry} {x : Entry} {ts : List Tok} : (stackOf (push lim c stack x ts)).length ≤ lim := by
  unfold push
  split
  · simp [stackOf]
  · simp only [stackOf, List.length_cons]; omega

theorem enter_bound {lim : Nat} {ret : Ret} {skip : Bool} {c : Call} {stack : List Entry} {ts : List Tok} (h : stack.length ≤ lim) :
    (stackOf (enter lim ret skip c stack ts)).length ≤ lim := by
  unfold enter
  split
  · simp only [stackOf, List.length_cons]; omega
  · exact h

theorem resume_bound {lim : Nat} {ret : Ret} {c : Call} {stack : List Entry} {v : Value} {ts : List Tok} (h : stack.length ≤ lim) :
    (stackOf (resume lim ret c stack v ts)).length ≤ lim := by
  unfold resume
  split <;> first | exact h | exact enter_bound h | exact push_bound | exact Nat.zero_le _

theorem leave_bound {lim : Nat} {c : Call} {stack : List Entry} {v : Value} {ts : List Tok} (h : stack.length ≤ lim) :
    (stackOf (leave lim c stack v ts)).length ≤ lim := by
  unfold leave
  split
  · split <;> exact Nat.zero_le _
  · split
    · split
      · exact resume_bound (by simp only [List.length_cons] at h; omega)
      · exact Nat.zero_le _
    · exact Nat.zero_le _
  · split
    · exact resume_bound h
    · exact Nat.zero_le _

theorem pushBinary_bound {lim : Nat} {c : Call} {stack : List Entry} {v : Value} {ts : List Tok} (h : stack.length ≤ lim) :
    (stackOf (pushBinary lim c stack v ts)).length ≤ lim := by
  unfold pushBinary
  split
  · exact push_bound
  · exact enter_bound h
  · split
    · exact push_bound
    · exact Nat.zero_le _
  · split
    · exact leave_bound h
    · exact push_bound
  · exact leave_bound h

theorem step_bound {lim : Nat} {s : Conf} (h : (stackOf s).length ≤ lim) : (stackOf (step lim s)).length ≤ lim := by
  cases s with
  | operand c stack ts =>
    show (stackOf (operandStep lim c stack ts)).length ≤ lim
    unfold operandStep
    split <;> first | exact push_bound | exact enter_bound h | exact h | exact Nat.zero_le _ | skip
    split
    · rename_i e
      have := sizeOrAlign_length e
      simp only [stackOf] at *
      omega
    · exact push_bound
  | «postfix» c stack v ts =>
    show (stackOf (postfixStep lim c stack v ts)).length ≤ lim
    unfold postfixStep
    split <;> first | exact enter_bound h | exact h | exact Nat.zero_le _ | (split <;> first | exact h | exact Nat.zero_le _)
  | value c stack v ts =>
    show (stackOf (valueStep lim c stack v ts)).length ≤ lim
    unfold valueStep
    split
    · exact pushBinary_bound h
    · exact pushBinary_bound h
    · split
      · exact pushBinary_bound h
      · split
        · simp only [stackOf, List.length_cons] at *; omega
        · exact Nat.zero_le _
  | done r => exact Nat.zero_le _

/-- **C19**: the operator stack never grows beyond its 1024 entries, whatever the tokens are. -/
theorem C19_in_bounds (skip : Bool) (ts : List Tok) : ∀ n, (stackOf (run 1024 n (.operand (.top skip) [] ts))).length ≤ 1024 := by
  have : ∀ (n : Nat) (s : Conf), (stackOf s).length ≤ 1024 → (stackOf (run 1024 n s)).length ≤ 1024 := by
    intro n
    induction n with
    | zero => exact fun s h => h
    | succ n ih => exact fun s h => ih _ (step_bound h)
  exact fun n => this n _ (Nat.zero_le _)

example : (stackOf (run 1024 3 (.operand (.top false) [] [.bang, .tilde, .bang, .ident 0]))).length = 3 := by decide +kernel

/-! ## What has been parsed -/

/-- The grammar with the extensions. -/
abbrev D : NT → Expr → List Tok → Prop := Derives true

/-- The token of a prefix operator. -/
def preTok : Pre → Tok
  | .inc => .inc
  | .dec => .dec
  | .addr => .op .and
  | .deref => .op .mul
  | .plus => .op .add
  | .minus => .op .sub
  | .compl => .tilde
  | .not => .bang
  | .sizeof => .sizeof
  | .alignof => .alignof

/-- An expression of kind `n` can be the operand of the operator on top. -/
def Fits (stack : List Entry) (n : NT) : Prop :=
  3 ≤ rank n ∧ match stack with
  | [] => True
  | .guard :: _ => True
  | .pre .sizeof :: _ | .pre .alignof :: _ => n = .unary
  | .pre _ :: _ | .cast _ _ :: _ => n = .unary ∨ n = .cast
  | .bin o _ :: _ => lvl n < lvl o.nt
  | .cond _ _ :: _ => lvl n ≤ 13
  | .assign _ _ :: _ => lvl n ≤ 14
  | .comma _ :: _ => lvl n ≤ 14

/-- There is no operator on top. -/
def Base : List Entry → Prop
  | [] => True
  | .guard :: _ => True
  | _ => False

/-- `should_skip_comma_expression` of a recursive call. -/
def Ret.skip : Ret → Bool
  | .arg _ => true
  | _ => false

/-- The tokens `us` before the recursive call. -/
def RetOk (stack : List Entry) : Ret → List Tok → Prop
  | .paren, us => us = [.lpar]
  | .index v, us => ∃ ws, D .postfix v.e ws ∧ us = ws ++ [.lbrack]
  | .arg v, us => D .openCall v.e us ∨ ∃ ws, D .arguments v.e ws ∧ us = ws ++ [.comma]
  | .middle v, us => ∃ ws, D .logicalOr v.e ws ∧ us = ws ++ [.question] ∧ Fits stack .conditional

/-- The tokens `u` have been taken before the current operand. -/
inductive Pending (sk : Bool) : Call → List Entry → List Tok → Prop
  | top : Pending sk (.top sk) [] []
  | guard {outer : Call} {stack : List Entry} {u us : List Tok} (ret : Ret) : Pending sk outer stack u → RetOk stack ret us →
      Pending sk (.inner ret ret.skip true stack.length outer) (.guard :: stack) (u ++ us)
  | noguard {outer : Call} {stack : List Entry} {u us : List Tok} (ret : Ret) : Pending sk outer stack u → RetOk stack ret us → Base stack →
      Pending sk (.inner ret ret.skip false stack.length outer) stack (u ++ us)
  | pre {c : Call} {stack : List Entry} {u : List Tok} (p : Pre) : Pending sk c stack u → Pending sk c (.pre p :: stack) (u ++ [preTok p])
  | cast {c : Call} {stack : List Entry} {u : List Tok} (t : Nat) (s : Bool) : Pending sk c stack u → Fits stack .cast →
      Pending sk c (.cast t s :: stack) (u ++ [.lpar, .ty t s, .rpar])
  | bin {c : Call} {stack : List Entry} {u us : List Tok} (o : BinOp) (v : Value) : Pending sk c stack u → D o.nt v.e us → Fits stack o.nt →
      Pending sk c (.bin o v :: stack) (u ++ (us ++ [.op o]))
  | cond {c : Call} {stack : List Entry} {u us vs : List Tok} (x v : Value) : Pending sk c stack u → D .logicalOr x.e us → D .expression v.e vs →
      Fits stack .conditional → Pending sk c (.cond x v :: stack) (u ++ (us ++ .question :: (vs ++ [.colon])))
  | assign {c : Call} {stack : List Entry} {u us : List Tok} (o : AssignOp) (v : Value) : Pending sk c stack u → D .unary v.e us →
      Fits stack .assignment → Pending sk c (.assign o v :: stack) (u ++ (us ++ [.assign o]))
  | comma {c : Call} {stack : List Entry} {u us : List Tok} (v : Value) : Pending sk c stack u → D .expression v.e us → Fits stack .expression →
      c.skip = false → Pending sk c (.comma v :: stack) (u ++ (us ++ [.comma]))

/-- A call that has been entered without a guard while there was an operator on top, or one inside of it:
it cannot return. -/
inductive Doomed : Call → List Entry → Prop
  | here {ret : Ret} {skip : Bool} {before : Nat} {outer : Call} (pre base : List Entry) : (∀ x ∈ pre, x ≠ .guard) → Base base → base.length < before →
      Doomed (.inner ret skip false before outer) (pre ++ base)
  | under {ret : Ret} {skip : Bool} {outer : Call} (pre stack : List Entry) : (∀ x ∈ pre, x ≠ .guard) → Doomed outer stack →
      Doomed (.inner ret skip true stack.length outer) (pre ++ .guard :: stack)
  | beside {ret : Ret} {skip : Bool} {outer : Call} (pre stack : List Entry) : (∀ x ∈ pre, x ≠ .guard) → Doomed outer stack → Base stack →
      Doomed (.inner ret skip false stack.length outer) (pre ++ stack)

/-- The invariant of the parser. -/
def Inv (skip : Bool) (all : List Tok) : Conf → Prop
  | .operand c stack ts => Doomed c stack ∨ ∃ u, all = u ++ ts ∧ Pending skip c stack u
  | .postfix c stack v ts => Doomed c stack ∨ ∃ u us, all = u ++ (us ++ ts) ∧ Pending skip c stack u ∧ D .postfix v.e us
  | .value c stack v ts => Doomed c stack ∨ ∃ u us n, all = u ++ (us ++ ts) ∧ Pending skip c stack u ∧ D n v.e us ∧ Fits stack n ∧
      (v.lhs = true → D .unary v.e us) ∧ (c.skip = true → n ≠ .expression) ∧
      (tokenPrec (head ts) = 0 ∨ lvl n < tokenPrec (head ts) ∨ (lvl n = tokenPrec (head ts) ∧ (lvl n < 13 ∨ lvl n = 15)))
  | .done (.ok v rest) => ∃ us, all = us ++ rest ∧ D (if skip then .assignment else .expression) v.e us
  | .done _ => True

/-! ### Doomed calls -/

theorem Doomed.cons {c : Call} {stack : List Entry} {x : Entry} (h : Doomed c stack) (hx : x ≠ .guard) : Doomed c (x :: stack) := by
  cases h with
  | here pre base h1 h2 h3 => exact .here (x :: pre) base (by simpa [hx] using h1) h2 h3
  | under pre stack h1 h2 => exact .under (x :: pre) stack (by simpa [hx] using h1) h2
  | beside pre stack h1 h2 h3 => exact .beside (x :: pre) stack (by simpa [hx] using h1) h2 h3

theorem Doomed.tail {c : Call} {stack : List Entry} {x : Entry} (h : Doomed c (x :: stack)) (hx : x ≠ .guard) : Doomed c stack := by
  generalize hs : x :: stack = s at h
  cases h with
  | here pre base h1 h2 h3 =>
    cases pre with
    | nil => rw [List.nil_append] at hs; subst hs; cases x <;> first | exact absurd rfl hx | exact h2.elim
    | cons y pre => cases hs; exact .here pre base (fun z hz => h1 z (by simp [hz])) h2 h3
  | under pre st h1 h2 =>
    cases pre with
    | nil => cases hs; exact absurd rfl hx
    | cons y pre => cases hs; exact .under pre st (fun z hz => h1 z (by simp [hz])) h2
  | beside pre st h1 h2 h3 =>
    cases pre with
    | nil => rw [List.nil_append] at hs; subst hs; cases x <;> first | exact absurd rfl hx | exact h3.elim
    | cons y pre => cases hs; exact .beside pre st (fun z hz => h1 z (by simp [hz])) h2 h3

/-- The operators on top. -/
theorem exists_base : ∀ (stack : List Entry), ∃ pre base, stack = pre ++ base ∧ (∀ x ∈ pre, x ≠ .guard) ∧ Base base
  | [] => ⟨[], [], rfl, by simp, trivial⟩
  | x :: stack => by
    by_cases hx : x = .guard
    · exact ⟨[], x :: stack, rfl, by simp, by rw [hx]; trivial⟩
    · obtain ⟨pre, base, h1, h2, h3⟩ := exists_base stack
      exact ⟨x :: pre, base, by rw [h1]; rfl, by simpa [hx] using h2, h3⟩

/-- A call entered without a guard above an operator. -/
theorem doomed_enter {ret : Ret} {skip : Bool} {outer : Call} {stack : List Entry} (h : ¬ Base stack) : Doomed (.inner ret skip false stack.length outer) stack := by
  obtain ⟨pre, base, h1, h2, h3⟩ := exists_base stack
  have hp : pre ≠ [] := by
    rintro rfl
    rw [List.nil_append] at h1
    rw [h1] at h
    exact h h3
  have : base.length < stack.length := by
    rw [h1, List.length_append]
    have := List.length_pos_iff.mpr hp
    omega
  have := Doomed.here (ret := ret) (skip := skip) (before := stack.length) (outer := outer) pre base h2 h3 this
  rw [h1] at this ⊢
  exact this

theorem inv_push {skip : Bool} {all : List Tok} {lim : Nat} {c : Call} {stack : List Entry} {x : Entry} {ts : List Tok}
    (h : Inv skip all (.operand c (x :: stack) ts)) : Inv skip all (push lim c stack x ts) := by
  unfold push
  split
  · trivial
  · exact h

theorem doomed_enter_step {skip sk : Bool} {all : List Tok} {lim : Nat} {ret : Ret} {c : Call} {stack : List Entry} {ts : List Tok} (h : Doomed c stack) :
    Inv skip all (enter lim ret sk c stack ts) := by
  unfold enter
  split
  · exact .inl (.under [] stack (by simp) h)
  · by_cases hb : Base stack
    · exact .inl (.beside [] stack (by simp) h hb)
    · exact .inl (doomed_enter hb)

theorem doomed_resume {skip : Bool} {all : List Tok} {lim : Nat} {ret : Ret} {c : Call} {stack : List Entry} {v : Value} {ts : List Tok} (h : Doomed c stack) :
    Inv skip all (resume lim ret c stack v ts) := by
  unfold resume
  split <;> first
    | exact .inl h
    | exact doomed_enter_step h
    | exact inv_push (.inl (h.cons (by simp)))
    | trivial

theorem doomed_leave {skip : Bool} {all : List Tok} {lim : Nat} {c : Call} {stack : List Entry} {v : Value} {ts : List Tok} (h : Doomed c stack) (hb : Base stack) :
    Inv skip all (leave lim c stack v ts) := by
  cases h with
  | here pre base h1 h2 h3 =>
    have hp : pre = [] := by
      cases pre with
      | nil => rfl
      | cons x pre => cases x <;> first | exact hb.elim | exact absurd rfl (h1 Entry.guard (by simp))
    subst hp
    simp only [leave, List.nil_append]
    rw [if_neg (by omega)]
    trivial
  | under pre stack h1 h2 =>
    have hp : pre = [] := by
      cases pre with
      | nil => rfl
      | cons x pre => cases x <;> first | exact hb.elim | exact absurd rfl (h1 Entry.guard (by simp))
    subst hp
    simp only [leave, List.nil_append, if_true]
    exact doomed_resume h2
  | beside pre stack h1 h2 h3 =>
    have hp : pre = [] := by
      cases pre with
      | nil => rfl
      | cons x pre => cases x <;> first | exact hb.elim | exact absurd rfl (h1 Entry.guard (by simp))
    subst hp
    simp only [leave, List.nil_append, if_true]
    exact doomed_resume h2

theorem doomed_pushBinary {skip : Bool} {all : List Tok} {lim : Nat} {c : Call} {stack : List Entry} {v : Value} {ts : List Tok} (h : Doomed c stack)
    (hb : Base stack ∨ (tokenPrec (head ts) ≠ 0 ∧ head ts ≠ .comma)) : Inv skip all (pushBinary lim c stack v ts) := by
  unfold pushBinary
  split
  · exact inv_push (.inl (h.cons (by simp)))
  · exact doomed_enter_step h
  · split
    · exact inv_push (.inl (h.cons (by simp)))
    · trivial
  · split
    · rcases hb with hb | hb
      · exact doomed_leave h hb
      · exact absurd rfl hb.2
    · exact inv_push (.inl (h.cons (by simp)))
  · rename_i h1 h2 h3 h4
    rcases hb with hb | hb
    · exact doomed_leave h hb
    · exfalso
      cases ts with
      | nil => exact hb.1 rfl
      | cons t ts =>
        have := hb.1
        cases t <;> first
          | exact this rfl
          | exact h1 _ _ rfl
          | exact h2 _ rfl
          | exact h3 _ _ rfl
          | exact h4 _ rfl

/-- An operator that has to wait is followed by an operator, and not by a comma. -/
theorem waits_tok {x : Entry} {t : Tok} (h : waits x t = true) : 3 ≤ tokenPrec t ∧ t ≠ .comma ∧
    (tokenPrec t < entryPrec x ∨ (tokenPrec t = entryPrec x ∧ (entryPrec x = 13 ∨ entryPrec x = 14))) := by
  unfold waits at h
  simp only [Bool.or_eq_true, Bool.and_eq_true, beq_iff_eq, bne_iff_ne, decide_eq_true_eq] at h
  have h15 : entryPrec x ≤ 15 := by
    cases x with
    | bin o v => have := lvl_op o; rw [entryPrec_bin]; omega
    | _ => simp [entryPrec]
  have h3 : tokenPrec t = 0 ∨ 3 ≤ tokenPrec t := by
    cases t with
    | op o => have := lvl_op o; rw [tokenPrec_op]; omega
    | _ => simp [tokenPrec]
  refine ⟨by omega, ?_, by omega⟩
  rintro rfl
  simp only [tokenPrec] at h
  omega

theorem not_waits {x : Entry} {t : Tok} (h : ¬ waits x t = true) : tokenPrec t = 0 ∨ entryPrec x < tokenPrec t ∨
    (entryPrec x = tokenPrec t ∧ entryPrec x ≠ 13 ∧ entryPrec x ≠ 14) := by
  unfold waits at h
  simp only [Bool.or_eq_true, Bool.and_eq_true, beq_iff_eq, bne_iff_ne, decide_eq_true_eq] at h
  omega

theorem doomed_valueStep {skip : Bool} {all : List Tok} {lim : Nat} {c : Call} {stack : List Entry} {v : Value} {ts : List Tok} (h : Doomed c stack) :
    Inv skip all (valueStep lim c stack v ts) := by
  unfold valueStep
  split
  · exact doomed_pushBinary h (.inl trivial)
  · exact doomed_pushBinary h (.inl trivial)
  · rename_i x rest hx
    split
    · rename_i hw
      have := waits_tok hw
      exact doomed_pushBinary h (.inr ⟨by omega, this.2.1⟩)
    · split
      · exact .inl (h.tail (fun e => hx e))
      · trivial

/-! ### The steps -/

theorem fits_unary (stack : List Entry) : Fits stack .unary := by
  refine ⟨by decide, ?_⟩
  split <;> first | trivial | rfl | exact .inl rfl | (show 2 < _; have := lvl_op; rename_i o _ _; have := lvl_op o; omega) | (show 2 ≤ _; omega)

theorem fits_base {stack : List Entry} {n : NT} (hn : 3 ≤ rank n) (h : Base stack) : Fits stack n := by
  refine ⟨hn, ?_⟩
  cases stack with
  | nil => trivial
  | cons x stack => cases x <;> first | trivial | exact h.elim

theorem inv_enter {skip : Bool} {all : List Tok} {lim : Nat} {ret : Ret} {c : Call} {stack : List Entry} {ts u us : List Tok}
    (hp : Pending skip c stack u) (hr : RetOk stack ret us) (ha : all = u ++ (us ++ ts)) : Inv skip all (enter lim ret ret.skip c stack ts) := by
  unfold enter
  split
  · exact .inr ⟨u ++ us, by rw [ha, List.append_assoc], .guard ret hp hr⟩
  · by_cases hb : Base stack
    · exact .inr ⟨u ++ us, by rw [ha, List.append_assoc], .noguard ret hp hr hb⟩
    · exact .inl (doomed_enter hb)

theorem args_ok {stack : List Entry} {f : Value} {e : Expr} {us vs : List Tok} (hr : RetOk stack (.arg f) us) (hv : D .assignment e vs) :
    D .arguments (.arg f.e e) (us ++ vs) := by
  rcases hr with h1 | ⟨ws, h1, rfl⟩
  · exact .firstArg h1 hv
  · have : D .arguments (.arg f.e e) (ws ++ .comma :: vs) := .nextArg h1 hv
    simpa using this

theorem inv_resume {skip : Bool} {all : List Tok} {lim : Nat} {ret : Ret} {c : Call} {stack : List Entry} {v : Value} {ts u us vs : List Tok}
    (hp : Pending skip c stack u) (hr : RetOk stack ret us) (hv : D (if ret.skip then .assignment else .expression) v.e vs)
    (ha : all = u ++ (us ++ (vs ++ ts))) : Inv skip all (resume lim ret c stack v ts) := by
  unfold resume
  split
  · rw [show us = [.lpar] from hr] at ha
    exact .inr ⟨u, .lpar :: (vs ++ [.rpar]), by simp [ha], hp, (Derives.paren hv).up (by decide) _ (by decide)⟩
  · obtain ⟨ws, h1, rfl⟩ := hr
    exact .inr ⟨u, _, by simp [ha], hp, Derives.index h1 hv⟩
  · have h2 := args_ok hr hv
    exact .inr ⟨u, _, by simp [ha], hp, Derives.trailingComma rfl h2⟩
  · have h2 := args_ok hr hv
    rename_i f _ _
    exact inv_enter (ret := .arg ⟨.arg f.e v.e, false⟩) hp (.inr ⟨_, h2, rfl⟩) (by simp [ha])
  · have h2 := args_ok hr hv
    exact .inr ⟨u, _, by simp [ha], hp, Derives.call h2⟩
  · obtain ⟨ws, h1, rfl, h3⟩ := hr
    exact inv_push (.inr ⟨_, by simp [ha], .cond _ v hp h1 hv h3⟩)
  · trivial

theorem inv_leave {skip : Bool} {all : List Tok} {lim : Nat} {c : Call} {stack : List Entry} {v : Value} {ts u us : List Tok} 
    (hp : Pending skip c stack u) (hb : Base stack) (hv : D (if c.skip then .assignment else .expression) v.e us) (ha : all = u ++ (us ++ ts)) :
    Inv skip all (leave lim c stack v ts) := by
  cases hp with
  | top => exact ⟨us, ha, hv⟩
  | guard ret hp hr =>
    simp only [leave, if_true]
    exact inv_resume hp hr hv (by simp [ha])
  | noguard ret hp hr _ =>
    simp only [leave, if_true]
    exact inv_resume hp hr hv (by simp [ha])
  | _ => exact hb.elim

/-- An operand of one of the kinds that fit below `m`. -/
theorem up_to {n m : NT} {e : Expr} {us : List Tok} (h : D n e us) (hn : 3 ≤ rank n) (hm : 3 ≤ rank m) (hl : lvl n < lvl m ∨ lvl n = lvl m ∧ 3 ≤ lvl m) : D m e us := by
  refine h.up (by omega) m ?_
  revert hl
  cases n <;> cases m <;> simp [rank, lvl] at hn hm ⊢

theorem rank_op (o : BinOp) : 3 ≤ rank o.nt := by cases o <;> decide

theorem fits_waits {x : Entry} {rest : List Entry} {m : NT} (hm : 3 ≤ lvl m)
    (h : lvl m < entryPrec x ∨ (lvl m = entryPrec x ∧ (entryPrec x = 13 ∨ entryPrec x = 14))) : Fits (x :: rest) m := by
  refine ⟨by revert hm; cases m <;> simp [rank, lvl], ?_⟩
  cases x with
  | guard => trivial
  | pre p => simp only [entryPrec] at h; omega
  | cast t s => simp only [entryPrec] at h; omega
  | bin o v =>
    have := lvl_op o
    rw [entryPrec_bin] at h
    show lvl m < lvl o.nt
    omega
  | cond x a => simp only [entryPrec] at h; show lvl m ≤ 13; omega
  | assign x a => simp only [entryPrec] at h; show lvl m ≤ 14; omega
  | comma x => simp only [entryPrec] at h; show lvl m ≤ 14; omega

theorem inv_pushBinary {skip : Bool} {all : List Tok} {lim : Nat} {c : Call} {stack : List Entry} {v : Value} {ts u us : List Tok} {n : NT}
    (hp : Pending skip c stack u) (hv : D n v.e us) (hf : Fits stack n) (hl : v.lhs = true → D .unary v.e us) (hs : c.skip = true → n ≠ .expression)
    (ht : tokenPrec (head ts) = 0 ∨ lvl n < tokenPrec (head ts) ∨ (lvl n = tokenPrec (head ts) ∧ (lvl n < 13 ∨ lvl n = 15)))
    (hw : Base stack ∨ ∃ x rest, stack = x :: rest ∧ waits x (head ts) = true)
    (ha : all = u ++ (us ++ ts)) : Inv skip all (pushBinary lim c stack v ts) := by
  have hend : D (if c.skip then .assignment else .expression) v.e us := by
    refine hv.up (by have := hf.1; omega) _ ?_
    have := hf.1
    cases h : c.skip with
    | false => revert this; cases n <;> simp [rank, lvl]
    | true => have := hs h; revert this; cases n <;> simp [rank, lvl]
  have hfit : ∀ m, 3 ≤ lvl m → lvl m = tokenPrec (head ts) → Fits stack m := by
    intro m hm he
    rcases hw with hb | ⟨x, rest, rfl, hw⟩
    · exact fits_base (by revert hm; cases m <;> simp [rank, lvl]) hb
    · have := waits_tok hw
      exact fits_waits hm (by omega)
  unfold pushBinary
  split
  · rename_i o ts
    have ho := lvl_op o
    simp only [head, List.headD_cons, tokenPrec_op] at ht
    exact inv_push (.inr ⟨_, by simp [ha], .bin o v hp (up_to hv hf.1 (rank_op o) (by omega)) (hfit _ ho.1 (tokenPrec_op o).symm)⟩)
  · rename_i ts
    simp only [head, List.headD_cons, tokenPrec] at ht
    refine inv_enter (ret := .middle v) hp ⟨us, ?_, rfl, hfit .conditional (by decide) rfl⟩ (by simp [ha])
    refine hv.up (by have := hf.1; omega) _ ?_
    have := hf.1
    have h12 : lvl n < 13 := by omega
    revert h12 this
    cases n <;> simp [rank, lvl]
  · rename_i o ts
    split
    · rename_i hlhs
      exact inv_push (.inr ⟨_, by simp [ha], .assign o v hp (hl hlhs) (hfit .assignment (by decide) rfl)⟩)
    · trivial
  · rename_i ts
    have hb : Base stack := by
      rcases hw with hb | ⟨x, rest, rfl, hw⟩
      · exact hb
      · exact absurd rfl (waits_tok hw).2.1
    split
    · exact inv_leave hp hb hend ha
    · rename_i hsk
      refine inv_push (.inr ⟨_, by simp [ha], .comma (us := us) v hp ?_ (fits_base (by decide) hb) (by simpa using hsk)⟩)
      rw [if_neg hsk] at hend
      exact hend
  · rename_i h1 h2 h3 h4
    have hb : Base stack := by
      rcases hw with hb | ⟨x, rest, rfl, hw⟩
      · exact hb
      · have := (waits_tok hw).1
        exfalso
        cases ts with
        | nil => simp [head, tokenPrec] at this
        | cons t ts =>
          cases t <;> first
            | exact h1 _ _ rfl
            | exact h2 _ rfl
            | exact h3 _ _ rfl
            | exact h4 _ rfl
            | simp [head, tokenPrec] at this
    exact inv_leave hp hb hend ha

/-- The prefix operators take unary expressions, or casts. -/
theorem d_pre {p : Pre} {a : Expr} {ts : List Tok} (h : D .unary a ts ∨ (p ≠ .inc ∧ p ≠ .dec ∧ p ≠ .sizeof ∧ p ≠ .alignof ∧ D .cast a ts)) :
    D .unary (.pre p a) (preTok p :: ts) := by
  have hc : D .unary a ts → D .cast a ts := fun h => h.up (by decide) _ (by decide)
  cases p with
  | inc | dec | sizeof | alignof => exact .unaryPrefix _ _ rfl (by rcases h with h | h; exact h; simp at h)
  | _ => exact .unaryOperator _ _ rfl (by rcases h with h | h; exact hc h; exact h.2.2.2.2)

theorem inv_valueStep {skip : Bool} {all : List Tok} {lim : Nat} {c : Call} {stack : List Entry} {v : Value} {ts : List Tok}
    (h : Inv skip all (.value c stack v ts)) : Inv skip all (valueStep lim c stack v ts) := by
  rcases h with h | ⟨u, us, n, ha, hp, hv, hf, hl, hs, ht⟩
  · exact doomed_valueStep h
  unfold valueStep
  split
  · exact inv_pushBinary hp hv hf hl hs ht (.inl trivial) ha
  · exact inv_pushBinary hp hv hf hl hs ht (.inl trivial) ha
  · rename_i x rest hx
    split
    · rename_i hw
      exact inv_pushBinary hp hv hf hl hs ht (.inr ⟨x, rest, rfl, hw⟩) ha
    · rename_i hnw
      have hw := not_waits hnw
      have h3 : tokenPrec (head ts) = 0 ∨ 2 < tokenPrec (head ts) := by
        generalize head ts = t
        cases t with
        | op o => have := lvl_op o; rw [tokenPrec_op]; omega
        | _ => simp [tokenPrec]
      split
      · rename_i w hw'
        right
        cases hp with
        | guard => exact absurd rfl hx
        | noguard _ _ _ hb => cases x <;> first | exact absurd rfl hx | exact hb.elim
        | pre p hp =>
          have key : D .unary (.pre p v.e) (preTok p :: us) ∧ w.e = .pre p v.e := by
            cases p with
            | inc | dec | addr =>
              simp only [reduce] at hw'
              split at hw'
              · rename_i hlhs
                cases hw'
                exact ⟨d_pre (.inl (hl hlhs)), rfl⟩
              · cases hw'
            | sizeof | alignof =>
              cases hw'
              cases (show n = .unary from hf.2)
              exact ⟨d_pre (.inl hv), rfl⟩
            | _ =>
              cases hw'
              rcases (show n = .unary ∨ n = .cast from hf.2) with rfl | rfl
              · exact ⟨d_pre (.inl hv), rfl⟩
              · exact ⟨d_pre (.inr (by simp [hv])), rfl⟩
          refine ⟨_, preTok p :: us, .unary, by rw [ha]; simp, hp, by rw [key.2]; exact key.1, fits_unary _, fun _ => by rw [key.2]; exact key.1, by simp, ?_⟩
          rcases h3 with h3 | h3
          · exact .inl h3
          · exact .inr (.inl h3)
        | cast t s hp hfr =>
          cases hw'
          have hc : D .cast v.e us := by
            rcases (show n = .unary ∨ n = .cast from hf.2) with rfl | rfl
            · exact hv.up (by decide) _ (by decide)
            · exact hv
          refine ⟨_, .lpar :: .ty t s :: .rpar :: us, .cast, by rw [ha]; simp, hp, .cast t s hc, hfr, ?_, by simp, ?_⟩
          · intro hlhs
            cases s with
            | false => cases hlhs
            | true => exact .structCast t rfl hc
          · rcases h3 with h3 | h3
            · exact .inl h3
            · exact .inr (.inl h3)
        | bin o a hp h1 h2 =>
          cases hw'
          rename_i u' us'
          have ho := lvl_op o
          rw [entryPrec_bin] at hw
          obtain ⟨m, hm, hml⟩ : ∃ m, o.nt.tighter = some m ∧ (∀ k, 3 ≤ rank k → lvl k < lvl o.nt → rank k ≤ rank m) := by
            cases o <;> refine ⟨_, rfl, ?_⟩ <;> intro k <;> cases k <;> simp [rank, lvl, BinOp.nt]
          refine ⟨u', us' ++ .op o :: us, o.nt, by rw [ha]; simp, hp, ?_, h2, by simp, ?_, by omega⟩
          · exact .bin o m hm h1 (hv.up (by have := hf.1; omega) m (hml n hf.1 hf.2))
          · intro _ e
            rw [e] at ho
            simp [lvl] at ho
        | cond x a hp h1 h2 hfr =>
          cases hw'
          simp only [entryPrec] at hw
          rename_i u' us' vs'
          refine ⟨u', us' ++ .question :: (vs' ++ .colon :: us), .conditional, by rw [ha]; simp, hp, ?_, hfr, by simp, by simp, by simp only [lvl]; omega⟩
          refine .cond h1 h2 (hv.up (by have := hf.1; omega) _ ?_)
          have := hf.2
          revert this
          cases n <;> simp [rank, lvl]
        | assign o a hp h1 hfr =>
          cases hw'
          simp only [entryPrec] at hw
          rename_i u' us'
          refine ⟨u', us' ++ .assign o :: us, .assignment, by rw [ha]; simp, hp, ?_, hfr, by simp, by simp, by simp only [lvl]; omega⟩
          refine .assign o h1 (hv.up (by have := hf.1; omega) _ ?_)
          have := hf.2
          revert this
          cases n <;> simp [rank, lvl]
        | comma a hp h1 hfr hsk =>
          cases hw'
          simp only [entryPrec] at hw
          rename_i u' us'
          refine ⟨u', us' ++ .comma :: us, .expression, by rw [ha]; simp, hp, ?_, hfr, by simp, by simp [hsk], ?_⟩
          · refine .comma h1 (hv.up (by have := hf.1; omega) _ ?_)
            have := hf.2
            revert this
            cases n <;> simp [rank, lvl]
          · show tokenPrec (head ts) = 0 ∨ 15 < tokenPrec (head ts) ∨ (15 = tokenPrec (head ts) ∧ (15 < 13 ∨ 15 = 15))
            omega
      · trivial

theorem inv_operandStep {skip : Bool} {all : List Tok} {lim : Nat} {c : Call} {stack : List Entry} {ts : List Tok}
    (h : Inv skip all (.operand c stack ts)) : Inv skip all (operandStep lim c stack ts) := by
  rcases h with h | ⟨u, ha, hp⟩
  · unfold operandStep
    split <;> first
      | exact inv_push (.inl (h.cons (by simp)))
      | exact .inl h
      | exact doomed_enter_step h
      | trivial
      | skip
    split
    · rename_i e
      unfold sizeOrAlign at e
      split at e <;> cases e
      · exact .inl (h.tail (by simp))
      · exact .inl (h.tail (by simp))
    · exact inv_push (.inl (h.cons (by simp)))
  · have hpre : ∀ p ts', ts = preTok p :: ts' → Inv skip all (push lim c stack (.pre p) ts') := fun p ts' e =>
      inv_push (.inr ⟨u ++ [preTok p], by rw [ha, e]; simp, .pre p hp⟩)
    unfold operandStep
    split
    · exact hpre .inc _ rfl
    · exact hpre .dec _ rfl
    · exact hpre .not _ rfl
    · exact hpre .compl _ rfl
    · exact hpre .deref _ rfl
    · exact hpre .minus _ rfl
    · exact hpre .plus _ rfl
    · exact hpre .addr _ rfl
    · exact hpre .sizeof _ rfl
    · exact hpre .alignof _ rfl
    · rename_i t s i ts
      exact .inr ⟨u, [.lpar, .ty t s, .rpar, .braces i], by rw [ha]; rfl, hp, .compound t s i⟩
    · rename_i t s ts hnb
      split
      · rename_i e
        unfold sizeOrAlign at e
        split at e <;> cases e
        · cases hp with
          | noguard _ _ _ hb => exact hb.elim
          | pre _ hp => exact .inr ⟨_, [.sizeof, .lpar, .ty t s, .rpar], by rw [ha]; simp [preTok], hp, .sizeofPostfix t s rfl⟩
        · cases hp with
          | noguard _ _ _ hb => exact hb.elim
          | pre _ hp => exact .inr ⟨_, [.alignof, .lpar, .ty t s, .rpar], by rw [ha]; simp [preTok], hp, .alignofPostfix t s rfl⟩
      · rename_i e
        refine inv_push (.inr ⟨u ++ [.lpar, .ty t s, .rpar], by rw [ha]; simp, .cast t s hp ⟨by decide, ?_⟩⟩)
        split <;> first | trivial | exact .inr rfl | (simp only [lvl]; done) | skip
        all_goals first
          | (cases e; done)
          | (show 2 ≤ _; omega)
          | (rename_i o _ _; have := lvl_op o; show 2 < lvl o.nt; omega)
    · trivial
    · rename_i ts _
      exact inv_enter (ret := .paren) (us := [.lpar]) hp rfl (by rw [ha]; rfl)
    · rename_i n ts
      exact .inr ⟨u, [.ident n], by rw [ha]; rfl, hp, (Derives.ident n).up (by decide) _ (by decide)⟩
    · rename_i n ts
      exact .inr ⟨u, [.const n], by rw [ha]; rfl, hp, (Derives.const n).up (by decide) _ (by decide)⟩
    · rename_i n ts
      exact .inr ⟨u, [.str n], by rw [ha]; rfl, hp, (Derives.str n).up (by decide) _ (by decide)⟩
    · trivial

theorem inv_postfixStep {skip : Bool} {all : List Tok} {lim : Nat} {c : Call} {stack : List Entry} {v : Value} {ts : List Tok}
    (h : Inv skip all (.postfix c stack v ts)) : Inv skip all (postfixStep lim c stack v ts) := by
  rcases h with h | ⟨u, us, ha, hp, hv⟩
  · unfold postfixStep
    split <;> first
      | exact .inl h
      | exact doomed_enter_step h
      | trivial
      | (split <;> first | exact .inl h | trivial)
  · unfold postfixStep
    split
    · split
      · exact .inr ⟨u, _, by rw [ha]; simp, hp, .postinc hv⟩
      · trivial
    · split
      · exact .inr ⟨u, _, by rw [ha]; simp, hp, .postdec hv⟩
      · trivial
    · exact inv_enter (ret := .index v) hp ⟨us, hv, rfl⟩ (by rw [ha]; simp)
    · exact .inr ⟨u, _, by rw [ha]; simp, hp, .dot _ hv⟩
    · trivial
    · exact .inr ⟨u, _, by rw [ha]; simp, hp, .arrow _ hv⟩
    · trivial
    · exact .inr ⟨u, _, by rw [ha]; simp, hp, .call0 (.openCall hv)⟩
    · exact inv_enter (ret := .arg ⟨.call v.e, false⟩) hp (.inl (.openCall hv)) (by rw [ha]; simp)
    · have hun : D .unary v.e us := hv.up (by decide) _ (by decide)
      refine .inr ⟨u, us, .unary, ha, hp, hun, fits_unary _, fun _ => hun, by simp, ?_⟩
      generalize head ts = t
      cases t with
      | op o => have := lvl_op o; rw [tokenPrec_op]; show _ ∨ 2 < _ ∨ _; omega
      | _ => simp [tokenPrec, lvl]

theorem inv_step {skip : Bool} {all : List Tok} {lim : Nat} {s : Conf} (h : Inv skip all s) : Inv skip all (step lim s) := by
  cases s with
  | operand c stack ts => exact inv_operandStep h
  | «postfix» c stack v ts => exact inv_postfixStep h
  | value c stack v ts => exact inv_valueStep h
  | done r => exact h

/-- **C19**, converse: whatever the tokens are, if the parser accepts then the tokens it has taken derive from
the grammar of C with the four extensions, and its result is their syntax tree. In a list
(`skip = true`) it is an *assignment-expression*. -/
theorem C19_sound (skip : Bool) (ts : List Tok) (v : Value) (rest : List Tok) (h : parse skip ts = some (.ok v rest)) :
    ∃ us, ts = us ++ rest ∧ Derives true (if skip then .assignment else .expression) v.e us := by
  have key : ∀ (n : Nat) (s : Conf), Inv skip ts s → Inv skip ts (run 1024 n s) := by
    intro n
    induction n with
    | zero => exact fun s h => h
    | succ n ih => exact fun s h => ih _ (inv_step h)
  have h0 : Inv skip ts (.operand (.top skip) [] ts) := .inr ⟨[], rfl, .top⟩
  have h1 := key (3 * ts.length + 2) _ h0
  unfold parse parseWith at h
  split at h
  · rename_i r hr
    cases h
    rw [hr] at h1
    exact h1
  · cases h

example : ∃ us, [Tok.ident 0, .op .add, .ident 1, .op .mul, .ident 2, .other 7] = us ++ [.other 7] ∧
    Derives true .expression (.bin .add (.ident 0) (.bin .mul (.ident 1) (.ident 2))) us :=
  C19_sound false _ ⟨_, false⟩ _ (by decide +kernel)

end Verif.CExpr
