import Verif.Spec.Stmt
import Verif.Props.ShortCircuit

/-! # Lemmas for C59: positions of code and labels -/
namespace Verif.Lemmas.Stmt
open Verif.ShortCircuit Verif.Stmt Verif.Spec.ShortCircuit Verif.Spec.Stmt Verif.Props.ShortCircuit

/-! ## Expression code -/

theorem expr_no_case (e : E) : ∀ nl nt i, i ∈ (ShortCircuit.compile e nl nt).code → (∀ k, i ≠ .case k) ∧ (∀ n, i ≠ .goto n) := by
  induction e with
  | leaf n => intro nl nt i h; simp [ShortCircuit.compile] at h; subst h; simp
  | lit n => intro nl nt i h; simp [ShortCircuit.compile] at h; subst h; simp
  | not e ih =>
    intro nl nt i h
    simp only [ShortCircuit.compile] at h
    split at h
    · simp at h; subst h; simp
    · simp only [List.mem_append, List.mem_singleton] at h
      rcases h with h | h
      · exact ih _ _ _ h
      · subst h; simp
  | andE a b iha ihb =>
    intro nl nt i h
    simp only [ShortCircuit.compile] at h
    split at h
    · simp at h; subst h; simp
    · simp only [List.mem_append, List.mem_cons, List.not_mem_nil, or_false] at h
      rcases h with h | h | h | h | h | h | h | h | h | h | h | h | h | h | h | h <;>
        first | exact iha _ _ _ h | exact ihb _ _ _ h | (subst h; simp)
  | orE a b iha ihb =>
    intro nl nt i h
    simp only [ShortCircuit.compile] at h
    split at h
    · simp at h; subst h; simp
    · simp only [List.mem_append, List.mem_cons, List.not_mem_nil, or_false] at h
      rcases h with h | h | h | h | h | h | h | h | h | h | h | h | h | h | h | h <;>
        first | exact iha _ _ _ h | exact ihb _ _ _ h | (subst h; simp)
  | cond c a b ihc iha ihb =>
    intro nl nt i h
    simp only [ShortCircuit.compile] at h
    split at h
    · split at h
      · exact iha _ _ _ h
      · exact ihb _ _ _ h
    · simp only [List.mem_append, List.mem_cons, List.not_mem_nil, or_false] at h
      rcases h with h | h | h | h | h | h | h | h | h | h | h | h | h | h | h <;>
        first | exact ihc _ _ _ h | exact iha _ _ _ h | exact ihb _ _ _ h | (subst h; simp)
  | comma a b iha ihb =>
    intro nl nt i h
    simp only [ShortCircuit.compile, List.mem_append, List.mem_cons, List.not_mem_nil, or_false] at h
    rcases h with h | h | h | h <;> first | exact iha _ _ _ h | exact ihb _ _ _ h | (subst h; simp)

theorem expr_nonempty (e : E) : ∀ nl nt, 0 < (ShortCircuit.compile e nl nt).code.length := by
  induction e with
  | leaf n => intro nl nt; simp [ShortCircuit.compile]
  | lit n => intro nl nt; simp [ShortCircuit.compile]
  | not e ih => intro nl nt; simp only [ShortCircuit.compile]; split <;> simp
  | andE a b iha ihb => intro nl nt; simp only [ShortCircuit.compile]; split <;> simp <;> omega
  | orE a b iha ihb => intro nl nt; simp only [ShortCircuit.compile]; split <;> simp <;> omega
  | cond c a b ihc iha ihb =>
    intro nl nt; simp only [ShortCircuit.compile]; split
    · split
      · exact iha _ _
      · exact ihb _ _
    · simp; omega
  | comma a b iha ihb => intro nl nt; simp [ShortCircuit.compile]; omega

theorem patch_expr (tbl) (e : E) (st : St) : (exprCode e st).1.map (patch tbl) = (exprCode e st).1 := by
  rw [List.map_congr_left (g := id), List.map_id]
  intro i hi
  have := (expr_no_case e _ _ i hi).2
  cases i <;> first | rfl | (exfalso; exact this _ rfl)

/-- The counters after an expression, and what it may contain. -/
structure Bounds (code : List I) (st st' : St) : Prop where
  labels : st.labels ≤ st'.labels
  cases : st.cases ≤ st'.cases
  label_mem : ∀ l, .label l ∈ code → st.labels ≤ l ∧ l < st'.labels
  case_mem : ∀ k, .case k ∈ code → st.cases ≤ k ∧ k < st'.cases

theorem bounds_expr (e : E) (st : St) : Bounds (exprCode e st).1 st (exprCode e st).2 := by
  have h := labels_spec e st.labels st.temps
  refine ⟨h.1, Nat.le_refl _, fun l hl => h.2.2.1 l ((mem_placed l _).mpr hl), fun k hk => ?_⟩
  exact absurd rfl ((expr_no_case e _ _ _ hk).1 k)

theorem bounds_opt (e : Option E) (st : St) : Bounds (optExprCode e st).1 st (optExprCode e st).2 := by
  cases e with
  | none => exact ⟨Nat.le_refl _, Nat.le_refl _, by simp [optExprCode], by simp [optExprCode]⟩
  | some e =>
    have := bounds_expr e st
    exact ⟨this.1, this.2, fun l hl => this.3 l (by simpa [optExprCode] using hl), fun l hl => this.4 l (by simpa [optExprCode] using hl)⟩

theorem bounds_cond (e : Option E) (st : St) : Bounds (condCode e st).1 st (condCode e st).2 := by
  cases e with
  | none => exact ⟨Nat.le_refl _, Nat.le_refl _, by simp [condCode], by simp [condCode]⟩
  | some e => exact bounds_expr e st

theorem patch_opt (tbl) (e : Option E) (st : St) : (optExprCode e st).1.map (patch tbl) = (optExprCode e st).1 := by
  cases e with
  | none => rfl
  | some e => simp only [optExprCode, List.map_append, patch_expr]; rfl

theorem patch_cond (tbl) (e : Option E) (st : St) : (condCode e st).1.map (patch tbl) = (condCode e st).1 := by
  cases e with
  | none => rfl
  | some e => exact patch_expr tbl e st

theorem patch_label (tbl) (i : I) (l : Nat) : patch tbl i = .label l ↔ i = .label l := by
  cases i <;> simp only [patch, reduceCtorEq, iff_self]
  split <;> simp

theorem patch_case (tbl) (i : I) (l : Nat) : patch tbl i = .case l ↔ i = .case l := by
  cases i <;> simp only [patch, reduceCtorEq, iff_self]
  split <;> simp

/-- The counters, and the table and switch of the context, are independent of expressions. -/
theorem exprCode_snd (e : E) (st : St) : (exprCode e st).2.table = st.table ∧ (exprCode e st).2.switch = st.switch := ⟨rfl, rfl⟩
theorem optExprCode_snd (e : Option E) (st : St) : (optExprCode e st).2.table = st.table ∧ (optExprCode e st).2.switch = st.switch := by
  cases e <;> exact ⟨rfl, rfl⟩
theorem condCode_snd (e : Option E) (st : St) : (condCode e st).2.table = st.table ∧ (condCode e st).2.switch = st.switch := by
  cases e <;> exact ⟨rfl, rfl⟩

theorem bounds (s : S) : ∀ brk cont st code st', compileS s brk cont st = some (code, st') → Bounds code st st' := by
  induction s with
  | skip => intro brk cont st code st' h; simp only [compileS, Option.some.injEq, Prod.mk.injEq] at h; obtain ⟨rfl, rfl⟩ := h; exact ⟨Nat.le_refl _, Nat.le_refl _, by simp, by simp⟩
  | expr e =>
    intro brk cont st code st' h; simp only [compileS, Option.some.injEq, Prod.mk.injEq] at h; obtain ⟨rfl, rfl⟩ := h
    have := bounds_expr e st
    exact ⟨this.1, this.2, fun l hl => this.3 l (by simpa using hl), fun l hl => this.4 l (by simpa using hl)⟩
  | seq a b iha ihb =>
    intro brk cont st code st' h
    simp only [compileS] at h
    split at h
    · cases h
    · rename_i ca st1 h1
      split at h
      · cases h
      · rename_i cb st2 h2
        simp only [Option.some.injEq, Prod.mk.injEq] at h; obtain ⟨rfl, rfl⟩ := h
        have ba := iha _ _ _ _ _ h1
        have bb := ihb _ _ _ _ _ h2
        have := ba.1; have := ba.2; have := bb.1; have := bb.2
        refine ⟨by omega, by omega, fun l hl => ?_, fun l hl => ?_⟩ <;> rw [List.mem_append] at hl <;> rcases hl with hl | hl
        · have := ba.3 l hl; omega
        · have := bb.3 l hl; omega
        · have := ba.4 l hl; omega
        · have := bb.4 l hl; omega
  | ifThen c a iha =>
    intro brk cont st code st' h
    simp only [compileS] at h
    split at h
    · cases h
    · rename_i ca st1 h1
      simp only [Option.some.injEq, Prod.mk.injEq] at h; obtain ⟨rfl, rfl⟩ := h
      have ba := iha _ _ _ _ _ h1
      have bc := bounds_expr c { st with labels := st.labels + 1 }
      have e1 := ba.1; have e2 := ba.2; have e3 := bc.1; have e4 := bc.2
      simp only at e3 e4
      refine ⟨by omega, by omega, fun l hl => ?_, fun l hl => ?_⟩ <;>
        simp only [List.mem_append, List.mem_cons, List.not_mem_nil, reduceCtorEq, I.label.injEq, or_false, false_or] at hl
      · rcases hl with hl | hl | hl
        · have := bc.3 l hl; simp only at this; omega
        · have := ba.3 l hl; omega
        · omega
      · rcases hl with hl | hl
        · have := bc.4 l hl; simp only at this; omega
        · have := ba.4 l hl; omega
  | ifElse c a b iha ihb =>
    intro brk cont st code st' h
    simp only [compileS] at h
    split at h
    · cases h
    · rename_i ca st1 h1
      split at h
      · cases h
      · rename_i cb st2 h2
        simp only [Option.some.injEq, Prod.mk.injEq] at h; obtain ⟨rfl, rfl⟩ := h
        have ba := iha _ _ _ _ _ h1
        have bb := ihb _ _ _ _ _ h2
        have bc := bounds_expr c { st with labels := st.labels + 1 }
        have e1 := ba.1; have e2 := ba.2; have e3 := bc.1; have e4 := bc.2; have e5 := bb.1; have e6 := bb.2
        simp only at e3 e4 e5 e6
        refine ⟨by omega, by omega, fun l hl => ?_, fun l hl => ?_⟩ <;>
          simp only [List.mem_append, List.mem_cons, List.not_mem_nil, reduceCtorEq, I.label.injEq, or_false, false_or] at hl
        · rcases hl with hl | hl | hl | hl | hl
          · have := bc.3 l hl; simp only at this; omega
          · have := ba.3 l hl; omega
          · omega
          · have := bb.3 l hl; simp only at this; omega
          · omega
        · rcases hl with hl | hl | hl
          · have := bc.4 l hl; simp only at this; omega
          · have := ba.4 l hl; omega
          · have := bb.4 l hl; simp only at this; omega
  | whileS c b ihb =>
    intro brk cont st code st' h
    simp only [compileS] at h
    split at h
    · cases h
    · rename_i cb st1 h1
      simp only [Option.some.injEq, Prod.mk.injEq] at h; obtain ⟨rfl, rfl⟩ := h
      have ba := ihb _ _ _ _ _ h1
      have bc := bounds_expr c { st with labels := st.labels + 2 }
      have e1 := ba.1; have e2 := ba.2; have e3 := bc.1; have e4 := bc.2
      simp only at e3 e4
      refine ⟨by omega, by omega, fun l hl => ?_, fun l hl => ?_⟩ <;>
        simp only [List.mem_append, List.mem_cons, List.not_mem_nil, reduceCtorEq, I.label.injEq, or_false, false_or] at hl
      · rcases hl with hl | hl | hl | hl
        · omega
        · have := bc.3 l hl; simp only at this; omega
        · have := ba.3 l hl; omega
        · omega
      · rcases hl with hl | hl
        · have := bc.4 l hl; simp only at this; omega
        · have := ba.4 l hl; omega
  | doS b c ihb =>
    intro brk cont st code st' h
    simp only [compileS] at h
    split at h
    · cases h
    · rename_i cb st1 h1
      simp only [Option.some.injEq, Prod.mk.injEq] at h; obtain ⟨rfl, rfl⟩ := h
      have ba := ihb _ _ _ _ _ h1
      have bc := bounds_expr c st1
      have e1 := ba.1; have e2 := ba.2; have e3 := bc.1; have e4 := bc.2
      simp only at e1 e2
      refine ⟨by omega, by omega, fun l hl => ?_, fun l hl => ?_⟩ <;>
        simp only [List.mem_append, List.mem_cons, List.not_mem_nil, reduceCtorEq, I.label.injEq, or_false, false_or] at hl
      · rcases hl with hl | hl | hl | hl | hl
        · omega
        · have := ba.3 l hl; simp only at this; omega
        · omega
        · have := bc.3 l hl; omega
        · omega
      · rcases hl with hl | hl
        · have := ba.4 l hl; simp only at this; omega
        · have := bc.4 l hl; omega
  | forS i c n b ihb =>
    intro brk cont st code st' h
    simp only [compileS] at h
    split at h
    · cases h
    · rename_i cb st1 h1
      simp only [Option.some.injEq, Prod.mk.injEq] at h; obtain ⟨rfl, rfl⟩ := h
      have ba := ihb _ _ _ _ _ h1
      have bi := bounds_opt i st
      have bc := bounds_cond c { (optExprCode i st).2 with labels := (optExprCode i st).2.labels + 3 }
      have bn := bounds_opt n st1
      have e1 := ba.1; have e2 := ba.2; have e3 := bc.1; have e4 := bc.2; have e5 := bi.1; have e6 := bi.2; have e7 := bn.1; have e8 := bn.2
      simp only at e3 e4
      refine ⟨by omega, by omega, fun l hl => ?_, fun l hl => ?_⟩ <;>
        simp only [List.mem_append, List.mem_cons, List.not_mem_nil, reduceCtorEq, I.label.injEq, or_false, false_or] at hl
      · rcases hl with hl | hl | hl | hl | hl | hl | hl
        · have := bi.3 l hl; omega
        · omega
        · have := bc.3 l hl; simp only at this; omega
        · have := ba.3 l hl; omega
        · omega
        · have := bn.3 l hl; omega
        · omega
      · rcases hl with hl | hl | hl | hl
        · have := bi.4 l hl; omega
        · have := bc.4 l hl; simp only at this; omega
        · have := ba.4 l hl; omega
        · have := bn.4 l hl; omega
  | brk =>
    intro brk cont st code st' h
    simp only [compileS, Option.map_eq_some_iff, Prod.mk.injEq] at h
    obtain ⟨l, _, rfl, rfl⟩ := h
    exact ⟨Nat.le_refl _, Nat.le_refl _, by simp, by simp⟩
  | cont =>
    intro brk cont st code st' h
    simp only [compileS, Option.map_eq_some_iff, Prod.mk.injEq] at h
    obtain ⟨l, _, rfl, rfl⟩ := h
    exact ⟨Nat.le_refl _, Nat.le_refl _, by simp, by simp⟩
  | switchS e b ihb =>
    intro brk cont st code st' h
    simp only [compileS] at h
    split at h
    · cases h
    · rename_i cb st1 h1
      split at h
      · cases h
      · simp only [Option.some.injEq, Prod.mk.injEq] at h; obtain ⟨rfl, rfl⟩ := h
        have ba := ihb _ _ _ _ _ h1
        have bc := bounds_expr e st
        have e1 := ba.1; have e2 := ba.2; have e3 := bc.1; have e4 := bc.2
        simp only at e1 e2
        refine ⟨by simp only; omega, by simp only; omega, fun l hl => ?_, fun l hl => ?_⟩ <;>
          simp only [List.mem_append, List.mem_cons, List.not_mem_nil, reduceCtorEq, I.label.injEq, or_false, false_or] at hl ⊢
        · rcases hl with hl | hl | hl
          · have := bc.3 l hl; omega
          · have := ba.3 l hl; simp only at this; omega
          · omega
        · rcases hl with hl | hl
          · have := bc.4 l hl; omega
          · have := ba.4 l hl; simp only at this; omega
  | caseS v s ih =>
    intro brk cont st code st' h
    simp only [compileS] at h
    split at h
    · cases h
    · split at h
      · cases h
      · split at h
        · cases h
        · rename_i cs st1 h1
          simp only [Option.some.injEq, Prod.mk.injEq] at h; obtain ⟨rfl, rfl⟩ := h
          have ba := ih _ _ _ _ _ h1
          have e1 := ba.1; have e2 := ba.2
          simp only at e1 e2
          refine ⟨by omega, by omega, fun l hl => ?_, fun l hl => ?_⟩ <;>
            simp only [List.mem_cons, reduceCtorEq, I.case.injEq, false_or] at hl
          · have := ba.3 l hl; simp only at this; omega
          · rcases hl with hl | hl
            · omega
            · have := ba.4 l hl; simp only at this; omega
  | dfltS s ih =>
    intro brk cont st code st' h
    simp only [compileS] at h
    split at h
    · cases h
    · split at h
      · cases h
      · split at h
        · cases h
        · rename_i cs st1 h1
          simp only [Option.some.injEq, Prod.mk.injEq] at h; obtain ⟨rfl, rfl⟩ := h
          have ba := ih _ _ _ _ _ h1
          have e1 := ba.1; have e2 := ba.2
          simp only at e1 e2
          refine ⟨by omega, by omega, fun l hl => ?_, fun l hl => ?_⟩ <;>
            simp only [List.mem_cons, reduceCtorEq, I.label.injEq, false_or] at hl
          · rcases hl with hl | hl
            · omega
            · have := ba.3 l hl; simp only at this; omega
          · have := ba.4 l hl; simp only at this; omega
  | label n s ih =>
    intro brk cont st code st' h
    simp only [compileS] at h
    split at h
    · cases h
    · split at h
      · cases h
      · rename_i cs st1 h1
        simp only [Option.some.injEq, Prod.mk.injEq] at h; obtain ⟨rfl, rfl⟩ := h
        have ba := ih _ _ _ _ _ h1
        have e1 := ba.1; have e2 := ba.2
        simp only at e1 e2
        refine ⟨by omega, by omega, fun l hl => ?_, fun l hl => ?_⟩ <;>
          simp only [List.mem_cons, reduceCtorEq, I.label.injEq, false_or] at hl
        · rcases hl with hl | hl
          · omega
          · have := ba.3 l hl; simp only at this; omega
        · have := ba.4 l hl; simp only at this; omega
  | goto n =>
    intro brk cont st code st' h; simp only [compileS, Option.some.injEq, Prod.mk.injEq] at h; obtain ⟨rfl, rfl⟩ := h; exact ⟨Nat.le_refl _, Nat.le_refl _, by simp, by simp⟩
  | ret e =>
    intro brk cont st code st' h
    cases e with
    | none => simp only [compileS, Option.some.injEq, Prod.mk.injEq] at h; obtain ⟨rfl, rfl⟩ := h; exact ⟨Nat.le_refl _, Nat.le_refl _, by simp, by simp⟩
    | some e =>
      simp only [compileS, Option.some.injEq, Prod.mk.injEq] at h; obtain ⟨rfl, rfl⟩ := h
      have := bounds_expr e st
      exact ⟨this.1, this.2, fun l hl => this.3 l (by simpa using hl), fun l hl => this.4 l (by simpa using hl)⟩

end Verif.Lemmas.Stmt
