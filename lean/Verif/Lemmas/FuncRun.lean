import Verif.Lemmas.FuncCode

/-!
# Lemmas: statements run as C prescribes
-/
namespace Verif.Lemmas.FuncCode
open Verif.IntType Verif.RegAlloc Verif.ExprCode Verif.Spec.ExprCode Verif.Spec.IntType Verif.Spec.FuncCode Verif.Props.RegAlloc
open Verif.Lemmas.ExprCode Verif.Lemmas.ExprRun Verif.Lemmas.ExprSafe Verif.Lemmas.ExprSame Verif.Lemmas.ExprType

/-! ## Labels -/

def label? : Ir → Option Nat
  | .label l => some l
  | _ => none

def labels (c : List Ir) : List Nat := c.filterMap label?

theorem labels_append (a b : List Ir) : labels (a ++ b) = labels a ++ labels b := List.filterMap_append

theorem labels_straight {c : List Ir} (h : ∀ ir ∈ c, straight ir = true) : labels c = [] := by
  refine List.filterMap_eq_nil_iff.2 fun ir hir => ?_
  have := h ir hir
  cases ir <;> first | (cases this; done) | rfl

theorem labels_act {a c} (h : lowerAct a = some c) : labels c = [] := by
  cases a with
  | assign s =>
    obtain ⟨⟨t, cl⟩, f1, f2⟩ := Option.bind_eq_some_iff.1 h
    obtain ⟨low, f3, f4⟩ := Option.map_eq_some_iff.1 f2
    subst f4
    refine labels_straight fun ir hir => ?_
    simp only [List.mem_append, List.mem_cons, List.not_mem_nil, or_false] at hir
    rcases hir with (hir | hir) | rfl | rfl
    · exact lvalue_S f1 ir hir
    · exact castLow_S (lower_S _ f3) ir hir
    · rfl
    · rfl
  | expr e =>
    obtain ⟨low, f1, f2⟩ := Option.map_eq_some_iff.1 h
    subst f2
    refine labels_straight fun ir hir => ?_
    rcases List.mem_append.1 hir with hir | hir
    · exact lower_S _ f1 ir hir
    · cases List.mem_singleton.1 hir; rfl

theorem labels_actOpt {a c} (h : lowerActOpt a = some c) : labels c = [] := by
  cases a with
  | none => cases h; rfl
  | some a => exact labels_act h

theorem labels_jump {b l e c} (h : lowerJump b l e = some c) : labels c = [] := by
  obtain ⟨low, f1, f2⟩ := Option.map_eq_some_iff.1 h
  subst f2
  rw [labels_append, labels_straight (lower_S _ f1)]
  rfl

theorem labels_return {t e c} (h : lowerReturn t e = some c) : labels c = [] := by
  obtain ⟨low, f1, f2⟩ := Option.map_eq_some_iff.1 h
  subst f2
  rw [labels_append, labels_straight (castLow_S (lower_S _ f1))]
  rfl

/-- The labels of the code are those from `n` to `n'`, each at most once. -/
structure Own (c : List Ir) (n n' : Nat) : Prop where
  le : n ≤ n'
  range : ∀ l ∈ labels c, n ≤ l ∧ l < n'
  nodup : (labels c).Nodup

theorem lowerS_own {t} : ∀ (s : S) {brk cont n c n'}, lowerS t s brk cont n = some (c, n') → Own c n n'
  | .skip, _, _, n, c, n', h => by cases h; exact ⟨Nat.le_refl _, by simp [labels], by simp [labels]⟩
  | .act a, _, _, n, c, n', h => by
    obtain ⟨c, h1, h2⟩ := Option.map_eq_some_iff.1 h
    cases h2
    have := labels_act h1
    exact ⟨Nat.le_refl _, by simp [this], by simp [this]⟩
  | .seq a b, brk, cont, n, c, n', h => by
    obtain ⟨⟨ca, n1⟩, h1, h2⟩ := Option.bind_eq_some_iff.1 h
    obtain ⟨⟨cb, n2⟩, h3, h4⟩ := Option.map_eq_some_iff.1 h2
    cases h4
    have ha := lowerS_own a h1
    have hb := lowerS_own b h3
    refine ⟨Nat.le_trans ha.le hb.le, ?_, ?_⟩
    · intro l hl
      rw [labels_append, List.mem_append] at hl
      rcases hl with hl | hl
      · have := ha.range l hl; have := hb.le; omega
      · have := hb.range l hl; have := ha.le; omega
    · rw [labels_append]
      refine List.nodup_append.2 ⟨ha.nodup, hb.nodup, fun x hx y hy => ?_⟩
      have := ha.range x hx; have := hb.range y hy; omega
  | .ifThen c a, brk, cont, n, c', n', h => by
    obtain ⟨cc, h1, h2⟩ := Option.bind_eq_some_iff.1 h
    obtain ⟨⟨ca, n1⟩, h3, h4⟩ := Option.map_eq_some_iff.1 h2
    cases h4
    have ha := lowerS_own a h3
    have e : labels (cc ++ ca ++ [Ir.label n]) = labels ca ++ [n] := by
      rw [labels_append, labels_append, labels_jump h1]; rfl
    refine ⟨by have := ha.le; omega, ?_, ?_⟩ <;> rw [e]
    · intro l hl
      rw [List.mem_append, List.mem_singleton] at hl
      have := ha.le
      rcases hl with hl | hl
      · have := ha.range l hl; omega
      · omega
    · refine List.nodup_append.2 ⟨ha.nodup, by simp, fun x hx y hy => ?_⟩
      have := ha.range x hx; rw [List.mem_singleton] at hy; omega
  | .ifElse c a b, brk, cont, n, c', n', h => by
    obtain ⟨cc, h1, h2⟩ := Option.bind_eq_some_iff.1 h
    obtain ⟨⟨ca, e⟩, h3, h4⟩ := Option.bind_eq_some_iff.1 h2
    obtain ⟨⟨cb, n1⟩, h5, h6⟩ := Option.map_eq_some_iff.1 h4
    cases h6
    have ha := lowerS_own a h3
    have hb := lowerS_own b h5
    have e : labels (cc ++ ca ++ [Ir.jump e, .label n] ++ cb ++ [Ir.label e]) = labels ca ++ ([n] ++ (labels cb ++ [e])) := by
      simp only [labels_append, labels_jump h1, List.nil_append, List.append_assoc]; rfl
    have l1 := ha.le
    have l2 := hb.le
    refine ⟨by omega, ?_, ?_⟩ <;> rw [e]
    · intro l hl
      simp only [List.mem_append, List.mem_singleton] at hl
      rcases hl with hl | hl | hl | hl
      · have := ha.range l hl; omega
      · omega
      · have := hb.range l hl; omega
      · omega
    · refine List.nodup_append.2 ⟨ha.nodup, List.nodup_append.2 ⟨by simp, List.nodup_append.2 ⟨hb.nodup, by simp, fun x hx y hy => ?_⟩, fun x hx y hy => ?_⟩, fun x hx y hy => ?_⟩
      · have := hb.range x hx; rw [List.mem_singleton] at hy; omega
      · simp only [List.mem_append, List.mem_singleton] at hx hy
        rcases hy with hy | hy
        · have := hb.range y hy; omega
        · omega
      · have := ha.range x hx
        simp only [List.mem_append, List.mem_singleton] at hy
        rcases hy with hy | hy | hy
        · omega
        · have := hb.range y hy; omega
        · omega
  | .whileS c b, brk, cont, n, c', n', h => by
    obtain ⟨cc, h1, h2⟩ := Option.bind_eq_some_iff.1 h
    obtain ⟨⟨cb, n1⟩, h3, h4⟩ := Option.map_eq_some_iff.1 h2
    cases h4
    have hb := lowerS_own b h3
    have e : labels ([Ir.label n] ++ cc ++ cb ++ [.jump n, .label (n + 1)]) = [n] ++ (labels cb ++ [n + 1]) := by
      simp only [labels_append, labels_jump h1, List.append_assoc]; rfl
    have l2 := hb.le
    refine ⟨by omega, ?_, ?_⟩ <;> rw [e]
    · intro l hl
      simp only [List.mem_append, List.mem_singleton] at hl
      rcases hl with hl | hl | hl
      · omega
      · have := hb.range l hl; omega
      · omega
    · refine List.nodup_append.2 ⟨by simp, List.nodup_append.2 ⟨hb.nodup, by simp, fun x hx y hy => ?_⟩, fun x hx y hy => ?_⟩
      · have := hb.range x hx; rw [List.mem_singleton] at hy; omega
      · simp only [List.mem_append, List.mem_singleton] at hx hy
        rcases hy with hy | hy
        · have := hb.range y hy; omega
        · omega
  | .doS b c, brk, cont, n, c', n', h => by
    obtain ⟨⟨cb, n1⟩, h3, h2⟩ := Option.bind_eq_some_iff.1 h
    obtain ⟨cc, h1, h4⟩ := Option.map_eq_some_iff.1 h2
    cases h4
    have hb := lowerS_own b h3
    have e : labels ([Ir.label n] ++ cb ++ [.label (n + 1)] ++ cc ++ [.label (n + 2)]) = [n] ++ (labels cb ++ ([n + 1] ++ [n + 2])) := by
      simp only [labels_append, labels_jump h1, List.append_assoc, List.nil_append]; rfl
    have l2 := hb.le
    refine ⟨by omega, ?_, ?_⟩ <;> rw [e]
    · intro l hl
      simp only [List.mem_append, List.mem_singleton] at hl
      rcases hl with hl | hl | hl | hl
      · omega
      · have := hb.range l hl; omega
      · omega
      · omega
    · refine List.nodup_append.2 ⟨by simp, List.nodup_append.2 ⟨hb.nodup, by simp, fun x hx y hy => ?_⟩, fun x hx y hy => ?_⟩
      · have := hb.range x hx
        simp only [List.mem_append, List.mem_singleton] at hy
        omega
      · simp only [List.mem_append, List.mem_singleton] at hx hy
        rcases hy with hy | hy | hy
        · have := hb.range y hy; omega
        · omega
        · omega
  | .forS i c inc b, brk, cont, n, c', n', h => by
    obtain ⟨ci, g1, g2⟩ := Option.bind_eq_some_iff.1 h
    obtain ⟨cc, h1, h2⟩ := Option.bind_eq_some_iff.1 g2
    obtain ⟨⟨cb, n1⟩, h3, h4⟩ := Option.bind_eq_some_iff.1 h2
    obtain ⟨cn, g3, g4⟩ := Option.map_eq_some_iff.1 h4
    cases g4
    have hb := lowerS_own b h3
    have e : labels (ci ++ [Ir.label n] ++ cc ++ cb ++ [.label (n + 1)] ++ cn ++ [.jump n, .label (n + 2)]) = [n] ++ (labels cb ++ ([n + 1] ++ [n + 2])) := by
      simp only [labels_append, labels_jump h1, labels_actOpt g1, labels_actOpt g3, List.append_assoc, List.nil_append]; rfl
    have l2 := hb.le
    refine ⟨by omega, ?_, ?_⟩ <;> rw [e]
    · intro l hl
      simp only [List.mem_append, List.mem_singleton] at hl
      rcases hl with hl | hl | hl | hl
      · omega
      · have := hb.range l hl; omega
      · omega
      · omega
    · refine List.nodup_append.2 ⟨by simp, List.nodup_append.2 ⟨hb.nodup, by simp, fun x hx y hy => ?_⟩, fun x hx y hy => ?_⟩
      · have := hb.range x hx
        simp only [List.mem_append, List.mem_singleton] at hy
        omega
      · simp only [List.mem_append, List.mem_singleton] at hx hy
        rcases hy with hy | hy | hy
        · have := hb.range y hy; omega
        · omega
        · omega
  | .brk, brk, _, n, c, n', h => by
    obtain ⟨l, h1, h2⟩ := Option.map_eq_some_iff.1 h
    cases h2
    exact ⟨Nat.le_refl _, (fun _ h => by cases h), List.nodup_nil⟩
  | .cont, _, cont, n, c, n', h => by
    obtain ⟨l, h1, h2⟩ := Option.map_eq_some_iff.1 h
    cases h2
    exact ⟨Nat.le_refl _, (fun _ h => by cases h), List.nodup_nil⟩
  | .ret none, _, _, n, c, n', h => by
    change (if t = none then _ else _) = _ at h
    split at h <;> cases h
    exact ⟨Nat.le_refl _, (fun _ h => by cases h), List.nodup_nil⟩
  | .ret (some e), _, _, n, c, n', h => by
    obtain ⟨t, h1, h2⟩ := Option.bind_eq_some_iff.1 h
    obtain ⟨c, h3, h4⟩ := Option.map_eq_some_iff.1 h2
    cases h4
    have := labels_return h3
    exact ⟨Nat.le_refl _, by simp [this], by simp [this]⟩

theorem find_none {l} : ∀ {code : List Ir}, l ∉ labels code → find l code = none
  | [], _ => rfl
  | ir :: rest, h => by
    have e : labels (ir :: rest) = labels [ir] ++ labels rest := labels_append [ir] rest
    rw [e] at h
    rw [find, find_none (fun hx => h (List.mem_append.2 (.inr hx)))]
    refine if_neg fun e => h ?_
    subst e
    exact List.mem_append.2 (.inl (List.mem_singleton.2 rfl))

theorem labels_mem {l} : ∀ {code : List Ir} {p : Nat}, code[p]? = some (.label l) → l ∈ labels code := by
  intro code p h
  exact List.mem_filterMap.2 ⟨_, List.mem_of_getElem? h, rfl⟩

theorem find_eq {l} : ∀ {code : List Ir} {p : Nat}, (labels code).Nodup → code[p]? = some (.label l) → find l code = some p
  | [], p, _, h => by simp at h
  | ir :: rest, 0, hn, h => by
    cases Option.some.inj h
    have : labels (Ir.label l :: rest) = l :: labels rest := rfl
    rw [this, List.nodup_cons] at hn
    rw [find, find_none hn.1]
    exact if_pos rfl
  | ir :: rest, p + 1, hn, h => by
    have hn' : (labels rest).Nodup := by
      have : labels (ir :: rest) = labels [ir] ++ labels rest := labels_append [ir] rest
      rw [this] at hn
      exact (List.nodup_append.1 hn).2.1
    rw [find, find_eq hn' (p := p) (by simpa using h)]

/-- The labels that the code jumps to. -/
def jump? : Ir → Option Nat
  | .jump l => some l
  | .jumpIf _ l => some l
  | _ => none

def jumps (c : List Ir) : List Nat := c.filterMap jump?

theorem jumps_append (a b : List Ir) : jumps (a ++ b) = jumps a ++ jumps b := List.filterMap_append

theorem jumps_straight {c : List Ir} (h : ∀ ir ∈ c, straight ir = true) : jumps c = [] := by
  refine List.filterMap_eq_nil_iff.2 fun ir hir => ?_
  have := h ir hir
  cases ir <;> first | (cases this; done) | rfl

theorem jumps_act {a c} (h : lowerAct a = some c) : jumps c = [] := by
  cases a with
  | assign s =>
    obtain ⟨⟨t, cl⟩, f1, f2⟩ := Option.bind_eq_some_iff.1 h
    obtain ⟨low, f3, f4⟩ := Option.map_eq_some_iff.1 f2
    subst f4
    rw [jumps_append, jumps_append, jumps_straight (lvalue_S f1), jumps_straight (castLow_S (lower_S _ f3))]
    rfl
  | expr e =>
    obtain ⟨low, f1, f2⟩ := Option.map_eq_some_iff.1 h
    subst f2
    rw [jumps_append, jumps_straight (lower_S _ f1)]
    rfl

theorem jumps_actOpt {a c} (h : lowerActOpt a = some c) : jumps c = [] := by
  cases a with
  | none => cases h; rfl
  | some a => exact jumps_act h

theorem jumps_jump {b l e c} (h : lowerJump b l e = some c) : jumps c = [l] := by
  obtain ⟨low, f1, f2⟩ := Option.map_eq_some_iff.1 h
  subst f2
  rw [jumps_append, jumps_straight (lower_S _ f1)]
  rfl

theorem jumps_return {t e c} (h : lowerReturn t e = some c) : jumps c = [] := by
  obtain ⟨low, f1, f2⟩ := Option.map_eq_some_iff.1 h
  subst f2
  rw [jumps_append, jumps_straight (castLow_S (lower_S _ f1))]
  rfl

theorem jumps_label {l} : jumps [.label l] = [] := rfl
theorem labels_label {l} : labels [.label l] = [l] := rfl
theorem jumps_goto {l r} : jumps (.jump l :: r) = l :: jumps r := rfl
theorem labels_goto {l r} : labels (.jump l :: r) = labels r := rfl

/-- Every jump goes to a label of the code, or to the labels for `break` and `continue`. -/
theorem lowerS_jumps {t} : ∀ (s : S) {brk cont n c n'}, lowerS t s brk cont n = some (c, n') → ∀ l ∈ jumps c, l ∈ labels c ∨ brk = some l ∨ cont = some l
  | .skip, _, _, n, c, n', h => by cases h; intro l h; cases h
  | .act a, _, _, n, c, n', h => by
    obtain ⟨c, h1, h2⟩ := Option.map_eq_some_iff.1 h
    cases h2
    rw [jumps_act h1]
    intro l h; cases h
  | .seq a b, brk, cont, n, c, n', h => by
    obtain ⟨⟨ca, n1⟩, h1, h2⟩ := Option.bind_eq_some_iff.1 h
    obtain ⟨⟨cb, n2⟩, h3, h4⟩ := Option.map_eq_some_iff.1 h2
    cases h4
    intro l hl
    have ha := lowerS_jumps a h1 l
    have hb := lowerS_jumps b h3 l
    simp only [jumps_append, labels_append, List.mem_append] at hl ⊢
    rcases hl with hl | hl
    · rcases ha hl with h | h <;> simp [h]
    · rcases hb hl with h | h <;> simp [h]
  | .ifThen c a, brk, cont, n, c', n', h => by
    obtain ⟨cc, h1, h2⟩ := Option.bind_eq_some_iff.1 h
    obtain ⟨⟨ca, n1⟩, h3, h4⟩ := Option.map_eq_some_iff.1 h2
    cases h4
    intro l hl
    have ha := lowerS_jumps a h3 l
    simp only [jumps_append, labels_append, List.mem_append, jumps_jump h1, jumps_label, labels_label, List.mem_singleton, List.not_mem_nil, or_false] at hl ⊢
    rcases hl with hl | hl
    · simp [hl]
    · rcases ha hl with h | h <;> simp [h]
  | .ifElse c a b, brk, cont, n, c', n', h => by
    obtain ⟨cc, h1, h2⟩ := Option.bind_eq_some_iff.1 h
    obtain ⟨⟨ca, e⟩, h3, h4⟩ := Option.bind_eq_some_iff.1 h2
    obtain ⟨⟨cb, n1⟩, h5, h6⟩ := Option.map_eq_some_iff.1 h4
    cases h6
    intro l hl
    have ha := lowerS_jumps a h3 l
    have hb := lowerS_jumps b h5 l
    simp only [jumps_append, labels_append, List.mem_append, jumps_jump h1, jumps_label, labels_label, jumps_goto, labels_goto, List.mem_singleton, List.mem_cons,
      List.not_mem_nil, or_false] at hl ⊢
    rcases hl with ((hl | hl) | hl) | hl
    · simp [hl]
    · rcases ha hl with h | h <;> simp [h]
    · simp [hl]
    · rcases hb hl with h | h <;> simp [h]
  | .whileS c b, brk, cont, n, c', n', h => by
    obtain ⟨cc, h1, h2⟩ := Option.bind_eq_some_iff.1 h
    obtain ⟨⟨cb, n1⟩, h3, h4⟩ := Option.map_eq_some_iff.1 h2
    cases h4
    intro l hl
    have hb := lowerS_jumps b h3 l
    simp only [jumps_append, labels_append, List.mem_append, jumps_jump h1, jumps_label, labels_label, jumps_goto, labels_goto, List.mem_singleton, List.mem_cons,
      List.not_mem_nil, or_false, false_or, Option.some.injEq] at hl hb ⊢
    rcases hl with (hl | hl) | hl
    · simp [hl]
    · rcases hb hl with h | h | h <;> simp [h]
    · simp [hl]
  | .doS b c, brk, cont, n, c', n', h => by
    obtain ⟨⟨cb, n1⟩, h3, h2⟩ := Option.bind_eq_some_iff.1 h
    obtain ⟨cc, h1, h4⟩ := Option.map_eq_some_iff.1 h2
    cases h4
    intro l hl
    have hb := lowerS_jumps b h3 l
    simp only [jumps_append, labels_append, List.mem_append, jumps_jump h1, jumps_label, labels_label, List.mem_singleton,
      List.not_mem_nil, or_false, false_or, Option.some.injEq] at hl hb ⊢
    rcases hl with hl | hl
    · rcases hb hl with h | h | h <;> simp [h]
    · simp [hl]
  | .forS i c inc b, brk, cont, n, c', n', h => by
    obtain ⟨ci, g1, g2⟩ := Option.bind_eq_some_iff.1 h
    obtain ⟨cc, h1, h2⟩ := Option.bind_eq_some_iff.1 g2
    obtain ⟨⟨cb, n1⟩, h3, h4⟩ := Option.bind_eq_some_iff.1 h2
    obtain ⟨cn, g3, g4⟩ := Option.map_eq_some_iff.1 h4
    cases g4
    intro l hl
    have hb := lowerS_jumps b h3 l
    simp only [jumps_append, labels_append, List.mem_append, jumps_jump h1, jumps_actOpt g1, jumps_actOpt g3, jumps_label, labels_label, jumps_goto, labels_goto, List.mem_singleton,
      List.mem_cons, List.not_mem_nil, or_false, false_or, Option.some.injEq] at hl hb ⊢
    rcases hl with (hl | hl) | hl
    · simp [hl]
    · rcases hb hl with h | h | h <;> simp [h]
    · simp [hl]
  | .brk, brk, _, n, c, n', h => by
    obtain ⟨l, h1, h2⟩ := Option.map_eq_some_iff.1 h
    cases h2
    intro x hx
    cases List.mem_singleton.1 hx
    exact .inr (.inl h1)
  | .cont, _, cont, n, c, n', h => by
    obtain ⟨l, h1, h2⟩ := Option.map_eq_some_iff.1 h
    cases h2
    intro x hx
    cases List.mem_singleton.1 hx
    exact .inr (.inr h1)
  | .ret none, _, _, n, c, n', h => by
    change (if t = none then _ else _) = _ at h
    split at h <;> cases h
    intro x hx
    cases hx
  | .ret (some e), _, _, n, c, n', h => by
    obtain ⟨t, h1, h2⟩ := Option.bind_eq_some_iff.1 h
    obtain ⟨c, h3, h4⟩ := Option.map_eq_some_iff.1 h2
    cases h4
    rw [jumps_return h3]
    intro x hx
    cases hx

/-! ## Types -/

theorem actT {a c} (ht : TypedAct a) (hn : needAct a ≤ 256) (h : lowerAct a = some c) : StmtT c := by
  cases a with
  | assign s => exact assignT ht.1 ht.2 hn h
  | expr e =>
    obtain ⟨low, h1, rfl⟩ := Option.map_eq_some_iff.1 h
    exact exprT ht hn h1

theorem actOptT {a c} (ht : Opt TypedAct a) (hn : Opt (fun a => needAct a ≤ 256) a) (h : lowerActOpt a = some c) : StmtT c := by
  cases a with
  | none => cases h; exact fun _ _ h => h
  | some a => exact actT ht hn h

theorem condT {b l e c} (ht : Typed e) (hn : need e ≤ 256) (h : lowerJump b l e = some c) : StmtT c := by
  obtain ⟨low, h1, rfl⟩ := Option.map_eq_some_iff.1 h
  exact jumpT ht hn h1

theorem seqT {a b} (ha : StmtT a) (hb : StmtT b) : StmtT (a ++ b) := fun rest es' h => by
  rw [List.append_assoc]
  exact ha _ _ (hb _ _ h)

theorem labelT {l} : StmtT [.label l] := fun _ _ h => .cons .label h
theorem gotoT {l} : StmtT [.jump l] := fun _ _ h => .cons .jump h

theorem condOr1_need {c} (h : Opt (fun c => need c ≤ 256) c) : need (condOr1 c) ≤ 256 := by
  cases c with
  | none => decide
  | some c => exact h
theorem condOr1_typed {c} (h : Opt Typed c) : Typed (condOr1 c) := by
  cases c with
  | none => exact (show isInteger Ty.s32 by decide)
  | some c => exact h

theorem lowerS_T {t : Option Ty} (hty : ∀ u, t = some u → isInteger u) : ∀ (s : S) {brk cont n c n'}, TypedS s → Fits s → lowerS t s brk cont n = some (c, n') → StmtT c
  | .skip, _, _, n, c, n', ht, hf, h => by cases h; exact fun _ _ h => h
  | .act a, _, _, n, c, n', ht, hf, h => by
    obtain ⟨c, h1, h2⟩ := Option.map_eq_some_iff.1 h
    cases h2
    exact actT ht hf h1
  | .seq a b, brk, cont, n, c, n', ht, hf, h => by
    obtain ⟨⟨ca, n1⟩, h1, h2⟩ := Option.bind_eq_some_iff.1 h
    obtain ⟨⟨cb, n2⟩, h3, h4⟩ := Option.map_eq_some_iff.1 h2
    cases h4
    exact seqT (lowerS_T hty a ht.1 hf.1 h1) (lowerS_T hty b ht.2 hf.2 h3)
  | .ifThen c a, brk, cont, n, c', n', ht, hf, h => by
    obtain ⟨cc, h1, h2⟩ := Option.bind_eq_some_iff.1 h
    obtain ⟨⟨ca, n1⟩, h3, h4⟩ := Option.map_eq_some_iff.1 h2
    cases h4
    exact seqT (seqT (condT ht.1 hf.1 h1) (lowerS_T hty a ht.2 hf.2 h3)) labelT
  | .ifElse c a b, brk, cont, n, c', n', ht, hf, h => by
    obtain ⟨cc, h1, h2⟩ := Option.bind_eq_some_iff.1 h
    obtain ⟨⟨ca, e⟩, h3, h4⟩ := Option.bind_eq_some_iff.1 h2
    obtain ⟨⟨cb, n1⟩, h5, h6⟩ := Option.map_eq_some_iff.1 h4
    cases h6
    exact seqT (seqT (seqT (seqT (condT ht.1 hf.1 h1) (lowerS_T hty a ht.2.1 hf.2.1 h3)) (seqT (a := [_]) gotoT labelT)) (lowerS_T hty b ht.2.2 hf.2.2 h5)) labelT
  | .whileS c b, brk, cont, n, c', n', ht, hf, h => by
    obtain ⟨cc, h1, h2⟩ := Option.bind_eq_some_iff.1 h
    obtain ⟨⟨cb, n1⟩, h3, h4⟩ := Option.map_eq_some_iff.1 h2
    cases h4
    exact seqT (seqT (seqT labelT (condT ht.1 hf.1 h1)) (lowerS_T hty b ht.2 hf.2 h3)) (seqT (a := [_]) gotoT labelT)
  | .doS b c, brk, cont, n, c', n', ht, hf, h => by
    obtain ⟨⟨cb, n1⟩, h3, h2⟩ := Option.bind_eq_some_iff.1 h
    obtain ⟨cc, h1, h4⟩ := Option.map_eq_some_iff.1 h2
    cases h4
    exact seqT (seqT (seqT (seqT labelT (lowerS_T hty b ht.1 hf.1 h3)) labelT) (condT ht.2 hf.2 h1)) labelT
  | .forS i c inc b, brk, cont, n, c', n', ht, hf, h => by
    obtain ⟨ci, g1, g2⟩ := Option.bind_eq_some_iff.1 h
    obtain ⟨cc, h1, h2⟩ := Option.bind_eq_some_iff.1 g2
    obtain ⟨⟨cb, n1⟩, h3, h4⟩ := Option.bind_eq_some_iff.1 h2
    obtain ⟨cn, g3, g4⟩ := Option.map_eq_some_iff.1 h4
    cases g4
    exact seqT (seqT (seqT (seqT (seqT (seqT (actOptT ht.1 hf.1 g1) labelT) (condT (condOr1_typed ht.2.1) (condOr1_need hf.2.1) h1))
      (lowerS_T hty b ht.2.2.2 hf.2.2.2 h3)) labelT) (actOptT ht.2.2.1 hf.2.2.1 g3)) (seqT (a := [_]) gotoT labelT)
  | .brk, brk, _, n, c, n', ht, hf, h => by
    obtain ⟨l, h1, h2⟩ := Option.map_eq_some_iff.1 h
    cases h2
    exact gotoT
  | .cont, _, cont, n, c, n', ht, hf, h => by
    obtain ⟨l, h1, h2⟩ := Option.map_eq_some_iff.1 h
    cases h2
    exact gotoT
  | .ret none, _, _, n, c, n', ht, hf, h => by
    change (if t = none then _ else _) = _ at h
    split at h <;> cases h
    exact fun _ _ h => .cons .retVoid h
  | .ret (some e), _, _, n, c, n', ht, hf, h => by
    obtain ⟨u, h1, h2⟩ := Option.bind_eq_some_iff.1 h
    obtain ⟨c, h3, h4⟩ := Option.map_eq_some_iff.1 h2
    cases h4
    exact returnT (hty u h1) ht hf h3

/-! ## Running -/

/-- How the code of a statement ends. -/
def Ends (t : Option Ty) (code : List Ir) (sts : List St) (brk cont : Option Nat) (pc : Nat) (c : Contents) (pc' : Nat) (c' : Contents) : Res → Prop
  | .normal => Bound sts pc' ∧ Steps code sts pc c pc' c'
  | .brk => ∃ l, brk = some l ∧ ∀ p, find l code = some p → Steps code sts pc c p c'
  | .cont => ∃ l, cont = some l ∧ ∀ p, find l code = some p → Steps code sts pc c p c'
  | .ret v => Steps code sts pc c code.length c' ∧ ∀ u w, t = some u → v = some w → (2 ^ u.bits : Int) ∣ (c'.regs rax : Int) - w

theorem Ends.after {t code sts brk cont pc c pc1 c1 pc' c'} {r : Res} (hs : Steps code sts pc c pc1 c1) (h : Ends t code sts brk cont pc1 c1 pc' c' r) :
    Ends t code sts brk cont pc c pc' c' r := by
  cases r with
  | normal => exact ⟨h.1, hs.trans h.2⟩
  | brk => obtain ⟨l, h1, h2⟩ := h; exact ⟨l, h1, fun p hp => hs.trans (h2 p hp)⟩
  | cont => obtain ⟨l, h1, h2⟩ := h; exact ⟨l, h1, fun p hp => hs.trans (h2 p hp)⟩
  | ret v => exact ⟨hs.trans h.1, h.2⟩

/-- Only a normal end depends on where the code of the statement ends. -/
theorem Ends.other {t code sts brk cont pc c pc1 pc' c'} {r : Res} (h : Ends t code sts brk cont pc c pc1 c' r) (hr : r ≠ .normal) :
    Ends t code sts brk cont pc c pc' c' r := by
  cases r with
  | normal => exact absurd rfl hr
  | brk => exact h
  | cont => exact h
  | ret v => exact h

section
variable {t : Option Ty} {code : List Ir} {sts : List St}

/-- A condition that is true goes on, one that is false jumps. -/
theorem cond_true (hem : Emits code sts) {pc e cc c l} (hb : Bound sts pc) (hat : At code pc cc) (hl : lowerJump false l e = some cc) (hn : need e ≤ 256)
    (hv : True' c.bytes e) : Bound sts (pc + cc.length) ∧ ∃ c', c'.bytes = c.bytes ∧ Steps code sts pc c (pc + cc.length) c' := by
  obtain ⟨u, v, h1, h2⟩ := hv
  obtain ⟨k1, c', k2, k3⟩ := cond_steps hem hb hat hl hn h1
  rw [if_neg (fun h => by simpa using h.1 h2)] at k3
  exact ⟨k1, c', k2, k3⟩

theorem cond_false (hem : Emits code sts) {pc e cc c l} (hb : Bound sts pc) (hat : At code pc cc) (hl : lowerJump false l e = some cc) (hn : need e ≤ 256)
    (hv : False' c.bytes e) : Bound sts (pc + cc.length) ∧ ∃ c', c'.bytes = c.bytes ∧ ∀ p, find l code = some p → Steps code sts pc c p c' := by
  obtain ⟨u, h1⟩ := hv
  obtain ⟨k1, c', k2, k3⟩ := cond_steps hem hb hat hl hn h1
  rw [if_pos (by simp)] at k3
  exact ⟨k1, c', k2, k3⟩

theorem do_true (hem : Emits code sts) {pc e cc c l} (hb : Bound sts pc) (hat : At code pc cc) (hl : lowerJump true l e = some cc) (hn : need e ≤ 256)
    (hv : True' c.bytes e) : Bound sts (pc + cc.length) ∧ ∃ c', c'.bytes = c.bytes ∧ ∀ p, find l code = some p → Steps code sts pc c p c' := by
  obtain ⟨u, v, h1, h2⟩ := hv
  obtain ⟨k1, c', k2, k3⟩ := cond_steps hem hb hat hl hn h1
  rw [if_pos (by simp [h2])] at k3
  exact ⟨k1, c', k2, k3⟩

theorem do_false (hem : Emits code sts) {pc e cc c l} (hb : Bound sts pc) (hat : At code pc cc) (hl : lowerJump true l e = some cc) (hn : need e ≤ 256)
    (hv : False' c.bytes e) : Bound sts (pc + cc.length) ∧ ∃ c', c'.bytes = c.bytes ∧ Steps code sts pc c (pc + cc.length) c' := by
  obtain ⟨u, h1⟩ := hv
  obtain ⟨k1, c', k2, k3⟩ := cond_steps hem hb hat hl hn h1
  rw [if_neg (by simp)] at k3
  exact ⟨k1, c', k2, k3⟩

theorem trueOr1 {m c} (h : TrueOpt m c) : True' m (condOr1 c) := by
  cases c with
  | none => exact ⟨.s32, 1, .lit (show isInteger Ty.s32 by decide) (by decide), by decide⟩
  | some c => exact h

/-- A statement whose code ends with a label. -/
theorem finish_label (hem : Emits code sts) {brk cont pc c p l p' c' m' r} (hp : code[p]? = some (.label l)) (hp' : p' = p + 1)
    (h : Ends t code sts brk cont pc c p c' r) (hm : c'.bytes = m') : ∃ c', c'.bytes = m' ∧ Ends t code sts brk cont pc c p' c' r := by
  subst hp'
  cases r with
  | normal =>
    obtain ⟨h1, h2⟩ := h
    obtain ⟨k1, c2, k2, k3⟩ := label_steps c' hem h1 hp
    exact ⟨c2, k2.trans hm, k1, h2.trans k3⟩
  | _ => exact ⟨c', hm, h⟩

/-- A statement whose code ends with a jump. -/
theorem finish_jump (hem : Emits code sts) {brk cont pc c p l p' c' m' r} (hp : code[p]? = some (.jump l)) (hp' : find l code = some p') (hb : Bound sts p')
    (h : Ends t code sts brk cont pc c p c' r) (hm : c'.bytes = m') : ∃ c', c'.bytes = m' ∧ Ends t code sts brk cont pc c p' c' r := by
  cases r with
  | normal =>
    obtain ⟨h1, h2⟩ := h
    obtain ⟨k1, c2, k2, k3⟩ := jump_steps c' hem h1 hp
    exact ⟨c2, k2.trans hm, hb, h2.trans (k3 _ hp')⟩
  | _ => exact ⟨c', hm, h⟩

/-- The end of the body of a loop, or `continue`. -/
theorem do_continue (hem : Emits code sts) (hfind : ∀ (p l : Nat), code[p]? = some (.label l) → find l code = some p)
    (hlab : ∀ (p l : Nat), code[p]? = some (.label l) → Bound sts p) {brk pc c p p' l c' m' r} (hp : code[p]? = some (.label l)) (hp' : p = p')
    (hr : r = .normal ∨ r = .cont) (h : Ends t code sts brk (some l) pc c p' c' r) (hm : c'.bytes = m') :
    Bound sts (p + 1) ∧ ∃ c', c'.bytes = m' ∧ Steps code sts pc c (p + 1) c' := by
  subst hp'
  have : Steps code sts pc c p c' := by
    rcases hr with rfl | rfl
    · exact h.2
    · obtain ⟨l, hl, k⟩ := h
      cases hl
      exact k _ (hfind _ _ hp)
  obtain ⟨b1, c1, e1, s1⟩ := label_steps c' hem (hlab _ _ hp) hp
  exact ⟨b1, c1, e1.trans hm, this.trans s1⟩

/-- The main simulation. -/
theorem runs_ok (hem : Emits code sts) (hfind : ∀ (p l : Nat), code[p]? = some (.label l) → find l code = some p)
    (hlab : ∀ (p l : Nat), code[p]? = some (.label l) → Bound sts p) {m s m' r} (hr : Runs t m s m' r) :
    ∀ {brk cont n cs n' pc c}, lowerS t s brk cont n = some (cs, n') → At code pc cs → Fits s → Bound sts pc → c.bytes = m →
      ∃ c', c'.bytes = m' ∧ Ends t code sts brk cont pc c (pc + cs.length) c' r := by
  induction hr with
  | skip =>
    intro brk cont n cs n' pc c h hat hf hb hc
    cases h
    exact ⟨c, hc, hb, .refl⟩
  | act hd =>
    intro brk cont n cs n' pc c h hat hf hb hc
    obtain ⟨ca, h1, h2⟩ := Option.map_eq_some_iff.1 h
    cases h2
    subst hc
    obtain ⟨k1, c', k2, k3⟩ := act_steps hem hb hat h1 hf hd
    exact ⟨c', k3, k1, k2⟩
  | seq _ _ iha ihb =>
    intro brk cont n cs n' pc c h hat hf hb hc
    obtain ⟨⟨ca, n1⟩, h1, h2⟩ := Option.bind_eq_some_iff.1 h
    obtain ⟨⟨cb, n2⟩, h3, h4⟩ := Option.map_eq_some_iff.1 h2
    cases h4
    obtain ⟨c1, k1, k2, k3⟩ := iha h1 hat.left hf.1 hb hc
    obtain ⟨c2, k4, k5⟩ := ihb h3 hat.right hf.2 k2 k1
    refine ⟨c2, k4, ?_⟩
    rw [List.length_append, ← Nat.add_assoc]
    exact k5.after k3
  | seqStop _ hne iha =>
    intro brk cont n cs n' pc c h hat hf hb hc
    obtain ⟨⟨ca, n1⟩, h1, h2⟩ := Option.bind_eq_some_iff.1 h
    obtain ⟨⟨cb, n2⟩, h3, h4⟩ := Option.map_eq_some_iff.1 h2
    cases h4
    obtain ⟨c1, k1, k2⟩ := iha h1 hat.left hf.1 hb hc
    exact ⟨c1, k1, k2.other hne⟩
  | ifThen hcond _ iha =>
    intro brk cont n cs n' pc c h hat hf hb hc
    obtain ⟨cc, h1, h2⟩ := Option.bind_eq_some_iff.1 h
    obtain ⟨⟨ca, n1⟩, h3, h4⟩ := Option.map_eq_some_iff.1 h2
    cases h4
    subst hc
    obtain ⟨b1, c1, e1, s1⟩ := cond_true hem hb hat.left.left h1 hf.1 hcond
    obtain ⟨c2, e2, k2⟩ := iha h3 hat.left.right hf.2 b1 e1
    have a1 := hat.right.head
    rw [List.length_append, ← Nat.add_assoc] at a1
    exact finish_label hem a1 (by simp only [List.length_append, List.length_cons, List.length_nil]; omega) (k2.after s1) e2
  | ifThenNot hcond =>
    intro brk cont n cs n' pc c h hat hf hb hc
    obtain ⟨cc, h1, h2⟩ := Option.bind_eq_some_iff.1 h
    obtain ⟨⟨ca, n1⟩, h3, h4⟩ := Option.map_eq_some_iff.1 h2
    cases h4
    subst hc
    obtain ⟨b1, c1, e1, s1⟩ := cond_false hem hb hat.left.left h1 hf.1 hcond
    have a1 := hat.right.head
    exact finish_label (r := .normal) hem a1 (by simp only [List.length_append, List.length_cons, List.length_nil]; omega) ⟨hlab _ _ a1, s1 _ (hfind _ _ a1)⟩ e1
  | ifElse hcond _ iha =>
    intro brk cont n cs n' pc c h hat hf hb hc
    obtain ⟨cc, h1, h2⟩ := Option.bind_eq_some_iff.1 h
    obtain ⟨⟨ca, e⟩, h3, h4⟩ := Option.bind_eq_some_iff.1 h2
    obtain ⟨⟨cb, n1⟩, h5, h6⟩ := Option.map_eq_some_iff.1 h4
    cases h6
    subst hc
    obtain ⟨b1, c1, e1, s1⟩ := cond_true hem hb hat.left.left.left.left h1 hf.1 hcond
    obtain ⟨c2, e2, k2⟩ := iha h3 hat.left.left.left.right hf.2.1 b1 e1
    have a1 := hat.left.left.right.head
    rw [List.length_append, ← Nat.add_assoc] at a1
    have a2 := hat.right.head
    obtain ⟨c3, e3, k3⟩ := finish_jump hem a1 (hfind _ _ a2) (hlab _ _ a2) (k2.after s1) e2
    exact finish_label hem a2 (by simp only [List.length_append, List.length_cons, List.length_nil]; omega) k3 e3
  | ifElseNot hcond _ ihb =>
    intro brk cont n cs n' pc c h hat hf hb hc
    obtain ⟨cc, h1, h2⟩ := Option.bind_eq_some_iff.1 h
    obtain ⟨⟨ca, e⟩, h3, h4⟩ := Option.bind_eq_some_iff.1 h2
    obtain ⟨⟨cb, n1⟩, h5, h6⟩ := Option.map_eq_some_iff.1 h4
    cases h6
    subst hc
    obtain ⟨b1, c1, e1, s1⟩ := cond_false hem hb hat.left.left.left.left h1 hf.1 hcond
    have a1 := hat.left.left.right.tail.head
    obtain ⟨b2, c2, e2, s2⟩ := label_steps c1 hem (hlab _ _ a1) a1
    have a3 := hat.left.right
    have e0 : pc + (cc ++ ca ++ [Ir.jump e, Ir.label n]).length = pc + (cc ++ ca).length + 1 + 1 := by simp [Nat.add_assoc]
    rw [e0] at a3
    obtain ⟨c3, e3, k3⟩ := ihb h5 a3 hf.2.2 b2 (e2.trans e1)
    have a2 := hat.right.head
    rw [List.length_append, ← Nat.add_assoc, e0] at a2
    exact finish_label hem a2 (by simp only [List.length_append, List.length_cons, List.length_nil]; omega) (k3.after ((s1 _ (hfind _ _ a1)).trans s2)) e3
  | whileEnd hcond =>
    intro brk cont n cs n' pc c h hat hf hb hc
    obtain ⟨cc, h1, h2⟩ := Option.bind_eq_some_iff.1 h
    obtain ⟨⟨cb, n1⟩, h3, h4⟩ := Option.map_eq_some_iff.1 h2
    cases h4
    subst hc
    obtain ⟨b1, c1, e1, s1⟩ := label_steps c hem hb hat.left.left.left.head
    rw [← e1] at hcond
    obtain ⟨b2, c2, e2, s2⟩ := cond_false hem b1 hat.left.left.right h1 hf.1 hcond
    have a1 := hat.right.tail.head
    exact finish_label (r := .normal) hem a1 (by simp only [List.length_append, List.length_cons, List.length_nil]; omega) ⟨hlab _ _ a1, s1.trans (s2 _ (hfind _ _ a1))⟩ (e2.trans e1)
  | whileBreak hcond _ ihb =>
    intro brk cont n cs n' pc c h hat hf hb hc
    obtain ⟨cc, h1, h2⟩ := Option.bind_eq_some_iff.1 h
    obtain ⟨⟨cb, n1⟩, h3, h4⟩ := Option.map_eq_some_iff.1 h2
    cases h4
    subst hc
    obtain ⟨b1, c1, e1, s1⟩ := label_steps c hem hb hat.left.left.left.head
    rw [← e1] at hcond
    obtain ⟨b2, c2, e2, s2⟩ := cond_true hem b1 hat.left.left.right h1 hf.1 hcond
    have a2 := hat.left.right
    rw [List.length_append, ← Nat.add_assoc] at a2
    obtain ⟨c3, e3, l, hl, k3⟩ := ihb h3 a2 hf.2 b2 (e2.trans e1)
    cases hl
    have a1 := hat.right.tail.head
    exact finish_label (r := .normal) hem a1 (by simp only [List.length_append, List.length_cons, List.length_nil]; omega) ⟨hlab _ _ a1, (s1.trans s2).trans (k3 _ (hfind _ _ a1))⟩ e3
  | whileReturn hcond _ ihb =>
    intro brk cont n cs n' pc c h hat hf hb hc
    obtain ⟨cc, h1, h2⟩ := Option.bind_eq_some_iff.1 h
    obtain ⟨⟨cb, n1⟩, h3, h4⟩ := Option.map_eq_some_iff.1 h2
    cases h4
    subst hc
    obtain ⟨b1, c1, e1, s1⟩ := label_steps c hem hb hat.left.left.left.head
    rw [← e1] at hcond
    obtain ⟨b2, c2, e2, s2⟩ := cond_true hem b1 hat.left.left.right h1 hf.1 hcond
    have a2 := hat.left.right
    rw [List.length_append, ← Nat.add_assoc] at a2
    obtain ⟨c3, e3, k3⟩ := ihb h3 a2 hf.2 b2 (e2.trans e1)
    exact ⟨c3, e3, (s1.trans s2).trans k3.1, k3.2⟩
  | whileNext hcond _ hres _ ihb ihw =>
    intro brk cont n cs n' pc c h hat hf hb hc
    have h0 := h
    obtain ⟨cc, h1, h2⟩ := Option.bind_eq_some_iff.1 h
    obtain ⟨⟨cb, n1⟩, h3, h4⟩ := Option.map_eq_some_iff.1 h2
    cases h4
    subst hc
    have a0 := hat.left.left.left.head
    obtain ⟨b1, c1, e1, s1⟩ := label_steps c hem hb a0
    rw [← e1] at hcond
    obtain ⟨b2, c2, e2, s2⟩ := cond_true hem b1 hat.left.left.right h1 hf.1 hcond
    have a2 := hat.left.right
    rw [List.length_append, ← Nat.add_assoc] at a2
    obtain ⟨c3, e3, k3⟩ := ihb h3 a2 hf.2 b2 (e2.trans e1)
    have a1 := hat.right.head
    have : ∃ c4, c4.bytes = c3.bytes ∧ Steps code sts pc c pc c4 := by
      rcases hres with rfl | rfl
      · rw [List.length_append, List.length_append, ← Nat.add_assoc, ← Nat.add_assoc] at a1
        obtain ⟨b3, c4, e4, s4⟩ := jump_steps c3 hem k3.1 a1
        exact ⟨c4, e4, ((s1.trans s2).trans k3.2).trans (s4 _ (hfind _ _ a0))⟩
      · obtain ⟨l, hl, k4⟩ := k3
        cases hl
        exact ⟨c3, rfl, (s1.trans s2).trans (k4 _ (hfind _ _ a0))⟩
    obtain ⟨c4, e4, s4⟩ := this
    obtain ⟨c5, e5, k5⟩ := ihw h0 hat hf hb (e4.trans e3)
    exact ⟨c5, e5, k5.after s4⟩
  | doBreak _ ihb =>
    intro brk cont n cs n' pc c h hat hf hb hc
    have h0 := h
    obtain ⟨⟨cb, n1⟩, h3, h2⟩ := Option.bind_eq_some_iff.1 h
    obtain ⟨cc, h1, h4⟩ := Option.map_eq_some_iff.1 h2
    cases h4
    subst hc
    have a0 := hat.left.left.left.left.head
    obtain ⟨b1, c1, e1, s1⟩ := label_steps c hem hb a0
    obtain ⟨c2, e2, k2⟩ := ihb h3 hat.left.left.left.right hf.1 b1 e1
    obtain ⟨l, hl, k3⟩ := k2
    cases hl
    have a1 := hat.right.head
    exact finish_label (r := .normal) hem a1 (by simp only [List.length_append, List.length_cons, List.length_nil]; omega) ⟨hlab _ _ a1, s1.trans (k3 _ (hfind _ _ a1))⟩ e2
  | doReturn _ ihb =>
    intro brk cont n cs n' pc c h hat hf hb hc
    have h0 := h
    obtain ⟨⟨cb, n1⟩, h3, h2⟩ := Option.bind_eq_some_iff.1 h
    obtain ⟨cc, h1, h4⟩ := Option.map_eq_some_iff.1 h2
    cases h4
    subst hc
    have a0 := hat.left.left.left.left.head
    obtain ⟨b1, c1, e1, s1⟩ := label_steps c hem hb a0
    obtain ⟨c2, e2, k2⟩ := ihb h3 hat.left.left.left.right hf.1 b1 e1
    exact ⟨c2, e2, s1.trans k2.1, k2.2⟩
  | doEnd _ hres hcond ihb =>
    intro brk cont n cs n' pc c h hat hf hb hc
    have h0 := h
    obtain ⟨⟨cb, n1⟩, h3, h2⟩ := Option.bind_eq_some_iff.1 h
    obtain ⟨cc, h1, h4⟩ := Option.map_eq_some_iff.1 h2
    cases h4
    subst hc
    have a0 := hat.left.left.left.left.head
    obtain ⟨b1, c1, e1, s1⟩ := label_steps c hem hb a0
    obtain ⟨c2, e2, k2⟩ := ihb h3 hat.left.left.left.right hf.1 b1 e1
    have a1 := hat.left.left.right.head
    obtain ⟨b3, c3, e3, s3⟩ := do_continue hem hfind hlab a1 (by simp only [List.length_append, List.length_cons, List.length_nil]; omega) hres k2 e2
    rw [← e3] at hcond
    have a3 := hat.left.right
    rw [List.length_append, List.length_singleton, ← Nat.add_assoc] at a3
    obtain ⟨b4, c4, e4, s4⟩ := do_false hem b3 a3 h1 hf.2 hcond
    have a4 := hat.right.head
    rw [List.length_append, List.length_append, List.length_singleton, ← Nat.add_assoc, ← Nat.add_assoc] at a4
    exact finish_label (r := .normal) hem a4 (by simp only [List.length_append, List.length_cons, List.length_nil]; omega)
      ⟨hlab _ _ a4, (s1.trans s3).trans s4⟩ (e4.trans e3)
  | doNext _ hres hcond _ ihb ihw =>
    intro brk cont n cs n' pc c h hat hf hb hc
    have h0 := h
    obtain ⟨⟨cb, n1⟩, h3, h2⟩ := Option.bind_eq_some_iff.1 h
    obtain ⟨cc, h1, h4⟩ := Option.map_eq_some_iff.1 h2
    cases h4
    subst hc
    have a0 := hat.left.left.left.left.head
    obtain ⟨b1, c1, e1, s1⟩ := label_steps c hem hb a0
    obtain ⟨c2, e2, k2⟩ := ihb h3 hat.left.left.left.right hf.1 b1 e1
    have a1 := hat.left.left.right.head
    obtain ⟨b3, c3, e3, s3⟩ := do_continue hem hfind hlab a1 (by simp only [List.length_append, List.length_cons, List.length_nil]; omega) hres k2 e2
    rw [← e3] at hcond
    have a3 := hat.left.right
    rw [List.length_append, List.length_singleton, ← Nat.add_assoc] at a3
    obtain ⟨b4, c4, e4, s4⟩ := do_true hem b3 a3 h1 hf.2 hcond
    obtain ⟨c5, e5, k5⟩ := ihw h0 hat hf hb (e4.trans e3)
    exact ⟨c5, e5, k5.after ((s1.trans s3).trans (s4 _ (hfind _ _ a0)))⟩
  | @forInit m i cnd inc b m1 m2 r hi _ ihf =>
    intro brk cont n cs n' pc c h hat hf hb hc
    obtain ⟨ci, g1, g2⟩ := Option.bind_eq_some_iff.1 h
    obtain ⟨cc, h1, h2⟩ := Option.bind_eq_some_iff.1 g2
    obtain ⟨⟨cb, n1⟩, h3, h4⟩ := Option.bind_eq_some_iff.1 h2
    obtain ⟨cn, g3, g4⟩ := Option.map_eq_some_iff.1 h4
    cases g4
    subst hc
    simp only [List.append_assoc] at hat ⊢
    obtain ⟨b1, c1, s1, e1⟩ := act_steps hem hb hat.left g1 hf.1 hi
    have hl : lowerS t (.forS none cnd inc b) brk cont n = some ([Ir.label n] ++ (cc ++ (cb ++ ([.label (n + 1)] ++ (cn ++ [.jump n, .label (n + 2)])))), n') := by
      rw [lowerS, h1, h3, g3]
      simp [lowerActOpt]
    obtain ⟨c2, e2, k2⟩ := ihf hl hat.right ⟨trivial, hf.2⟩ b1 e1
    refine ⟨c2, e2, ?_⟩
    rw [List.length_append, ← Nat.add_assoc]
    exact k2.after s1
  | forEnd hcond =>
    intro brk cont n cs n' pc c h hat hf hb hc
    obtain ⟨ci, g1, g2⟩ := Option.bind_eq_some_iff.1 h
    obtain ⟨cc, h1, h2⟩ := Option.bind_eq_some_iff.1 g2
    obtain ⟨⟨cb, n1⟩, h3, h4⟩ := Option.bind_eq_some_iff.1 h2
    obtain ⟨cn, g3, g4⟩ := Option.map_eq_some_iff.1 h4
    cases g4
    cases g1
    subst hc
    rw [List.nil_append] at hat
    have a0 := hat.left.left.left.left.left.head
    obtain ⟨b1, c1, e1, s1⟩ := label_steps c hem hb a0
    rw [← e1] at hcond
    obtain ⟨b2, c2, e2, s2⟩ := cond_false hem b1 hat.left.left.left.left.right h1 (condOr1_need hf.2.1) hcond
    have a1 := hat.right.tail.head
    exact finish_label (r := .normal) hem a1 (by simp only [List.length_append, List.length_cons, List.length_nil]; omega)
      ⟨hlab _ _ a1, s1.trans (s2 _ (hfind _ _ a1))⟩ (e2.trans e1)
  | forBreak hcond _ ihb =>
    intro brk cont n cs n' pc c h hat hf hb hc
    obtain ⟨ci, g1, g2⟩ := Option.bind_eq_some_iff.1 h
    obtain ⟨cc, h1, h2⟩ := Option.bind_eq_some_iff.1 g2
    obtain ⟨⟨cb, n1⟩, h3, h4⟩ := Option.bind_eq_some_iff.1 h2
    obtain ⟨cn, g3, g4⟩ := Option.map_eq_some_iff.1 h4
    cases g4
    cases g1
    subst hc
    rw [List.nil_append] at hat
    have a0 := hat.left.left.left.left.left.head
    obtain ⟨b1, c1, e1, s1⟩ := label_steps c hem hb a0
    rw [← e1] at hcond
    obtain ⟨b2, c2, e2, s2⟩ := cond_true hem b1 hat.left.left.left.left.right h1 (condOr1_need hf.2.1) (trueOr1 hcond)
    have a2 := hat.left.left.left.right
    rw [List.length_append, ← Nat.add_assoc] at a2
    obtain ⟨c3, e3, k3⟩ := ihb h3 a2 hf.2.2.2 b2 (e2.trans e1)
    obtain ⟨l, hl, k4⟩ := k3
    cases hl
    have a1 := hat.right.tail.head
    exact finish_label (r := .normal) hem a1 (by simp only [List.length_append, List.length_cons, List.length_nil]; omega)
      ⟨hlab _ _ a1, (s1.trans s2).trans (k4 _ (hfind _ _ a1))⟩ e3
  | forReturn hcond _ ihb =>
    intro brk cont n cs n' pc c h hat hf hb hc
    obtain ⟨ci, g1, g2⟩ := Option.bind_eq_some_iff.1 h
    obtain ⟨cc, h1, h2⟩ := Option.bind_eq_some_iff.1 g2
    obtain ⟨⟨cb, n1⟩, h3, h4⟩ := Option.bind_eq_some_iff.1 h2
    obtain ⟨cn, g3, g4⟩ := Option.map_eq_some_iff.1 h4
    cases g4
    cases g1
    subst hc
    rw [List.nil_append] at hat
    have a0 := hat.left.left.left.left.left.head
    obtain ⟨b1, c1, e1, s1⟩ := label_steps c hem hb a0
    rw [← e1] at hcond
    obtain ⟨b2, c2, e2, s2⟩ := cond_true hem b1 hat.left.left.left.left.right h1 (condOr1_need hf.2.1) (trueOr1 hcond)
    have a2 := hat.left.left.left.right
    rw [List.length_append, ← Nat.add_assoc] at a2
    obtain ⟨c3, e3, k3⟩ := ihb h3 a2 hf.2.2.2 b2 (e2.trans e1)
    exact ⟨c3, e3, (s1.trans s2).trans k3.1, k3.2⟩
  | forNext hcond _ hres hinc _ ihb ihw =>
    intro brk cont n cs n' pc c h hat hf hb hc
    have h0 := h
    obtain ⟨ci, g1, g2⟩ := Option.bind_eq_some_iff.1 h
    obtain ⟨cc, h1, h2⟩ := Option.bind_eq_some_iff.1 g2
    obtain ⟨⟨cb, n1⟩, h3, h4⟩ := Option.bind_eq_some_iff.1 h2
    obtain ⟨cn, g3, g4⟩ := Option.map_eq_some_iff.1 h4
    cases g4
    cases g1
    subst hc
    have hat0 := hat
    rw [List.nil_append] at hat
    have a0 := hat.left.left.left.left.left.head
    obtain ⟨b1, c1, e1, s1⟩ := label_steps c hem hb a0
    rw [← e1] at hcond
    obtain ⟨b2, c2, e2, s2⟩ := cond_true hem b1 hat.left.left.left.left.right h1 (condOr1_need hf.2.1) (trueOr1 hcond)
    have a2 := hat.left.left.left.right
    rw [List.length_append, ← Nat.add_assoc] at a2
    obtain ⟨c3, e3, k3⟩ := ihb h3 a2 hf.2.2.2 b2 (e2.trans e1)
    have a1 := hat.left.left.right.head
    obtain ⟨b4, c4, e4, s4⟩ := do_continue hem hfind hlab a1 (by simp only [List.length_append, List.length_cons, List.length_nil]; omega) hres k3 e3
    rw [← e4] at hinc
    have a3 := hat.left.right
    rw [List.length_append, List.length_singleton, ← Nat.add_assoc] at a3
    obtain ⟨b5, c5, s5, e5⟩ := actOpt_steps hem b4 a3 g3 hf.2.2.1 hinc
    have a4 := hat.right.head
    rw [List.length_append, List.length_append, List.length_singleton, ← Nat.add_assoc, ← Nat.add_assoc] at a4
    obtain ⟨b6, c6, e6, s6⟩ := jump_steps c5 hem b5 a4
    obtain ⟨c7, e7, k7⟩ := ihw h0 hat0 hf hb (e6.trans e5)
    exact ⟨c7, e7, k7.after ((((s1.trans s2).trans s4).trans s5).trans (s6 _ (hfind _ _ a0)))⟩
  | brk =>
    intro brk cont n cs n' pc c h hat hf hb hc
    obtain ⟨l, h1, h2⟩ := Option.map_eq_some_iff.1 h
    cases h2
    obtain ⟨b1, c1, e1, s1⟩ := jump_steps c hem hb hat.head
    exact ⟨c1, e1.trans hc, l, h1, s1⟩
  | cont =>
    intro brk cont n cs n' pc c h hat hf hb hc
    obtain ⟨l, h1, h2⟩ := Option.map_eq_some_iff.1 h
    cases h2
    obtain ⟨b1, c1, e1, s1⟩ := jump_steps c hem hb hat.head
    exact ⟨c1, e1.trans hc, l, h1, s1⟩
  | retVoid ht =>
    intro brk cont n cs n' pc c h hat hf hb hc
    change (if t = none then _ else _) = _ at h
    rw [if_pos ht] at h
    cases h
    obtain ⟨b1, c1, e1, s1⟩ := retVoid_steps c hem hb hat.head
    exact ⟨c1, e1.trans hc, s1, fun _ _ _ h => by cases h⟩
  | ret ht hi he hw =>
    intro brk cont n cs n' pc c h hat hf hb hc
    subst ht
    obtain ⟨c2, h3, h4⟩ := Option.map_eq_some_iff.1 (show (lowerReturn _ _).map _ = _ from h)
    cases h4
    subst hc
    obtain ⟨b1, c1, s1, e1, v1⟩ := ret_steps hem hb hat h3 hi hf he hw
    refine ⟨c1, e1, s1, fun u w hu hv => ?_⟩
    cases hu
    cases hv
    exact v1

/-! ## Running on -/

/-- At least `n` nodes are executed. -/
inductive Long (code : List Ir) (sts : List St) : Nat → Nat → Contents → Prop
  | zero {pc c} : Long code sts 0 pc c
  | step {n pc c pc1 c1} (h : stepAt code sts pc c = some (pc1, c1)) (hl : Long code sts n pc1 c1) : Long code sts (n + 1) pc c

theorem Long.less {n pc c} (h : Long code sts (n + 1) pc c) : Long code sts n pc c := by
  induction n generalizing pc c with
  | zero => exact .zero
  | succ n ih =>
    cases h with
    | step h hl => exact .step h (ih hl)

theorem Long.after {n pc c pc1 c1} (hs : Steps code sts pc c pc1 c1) (h : Long code sts n pc1 c1) : Long code sts n pc c := by
  induction hs with
  | refl => exact h
  | cons hh _ ih => exact .less (.step hh (ih h))

theorem Long.strict {n pc c pc1 c1} (hs : Steps code sts pc c pc1 c1) (hp : pc ≠ pc1) (h : Long code sts n pc1 c1) : Long code sts (n + 1) pc c := by
  cases hs with
  | refl => exact absurd rfl hp
  | cons hh hs => exact .step hh (h.after hs)

theorem Long.get {n pc c} (h : Long code sts n pc c) : ∀ {k}, k ≤ n → ∃ pc' c', Verif.ExprCode.after code sts k pc c = some (pc', c') := by
  induction h with
  | zero =>
    intro k hk
    cases Nat.le_zero.1 hk
    exact ⟨_, _, rfl⟩
  | step h hl ih =>
    intro k hk
    cases k with
    | zero => exact ⟨_, _, rfl⟩
    | succ k =>
      obtain ⟨pc', c', he⟩ := ih (Nat.le_of_succ_le_succ hk)
      refine ⟨pc', c', ?_⟩
      rw [Verif.ExprCode.after, h]
      exact he

theorem going_ok (hem : Emits code sts) (hfind : ∀ (p l : Nat), code[p]? = some (.label l) → find l code = some p)
    (hlab : ∀ (p l : Nat), code[p]? = some (.label l) → Bound sts p) {k m s} (hr : Going t k m s) :
    ∀ {brk cont n cs n' pc c}, lowerS t s brk cont n = some (cs, n') → At code pc cs → Fits s → Bound sts pc → c.bytes = m → Long code sts k pc c := by
  induction hr with
  | start => intros; exact .zero
  | seqFirst _ ih =>
    intro brk cont n cs n' pc c h hat hf hb hc
    obtain ⟨⟨ca, n1⟩, h1, h2⟩ := Option.bind_eq_some_iff.1 h
    obtain ⟨⟨cb, n2⟩, h3, h4⟩ := Option.map_eq_some_iff.1 h2
    cases h4
    exact ih h1 hat.left hf.1 hb hc
  | seqSecond ha _ ih =>
    intro brk cont n cs n' pc c h hat hf hb hc
    obtain ⟨⟨ca, n1⟩, h1, h2⟩ := Option.bind_eq_some_iff.1 h
    obtain ⟨⟨cb, n2⟩, h3, h4⟩ := Option.map_eq_some_iff.1 h2
    cases h4
    obtain ⟨c1, k1, k2, k3⟩ := runs_ok hem hfind hlab ha h1 hat.left hf.1 hb hc
    exact (ih h3 hat.right hf.2 k2 k1).after k3
  | ifThen hcond _ ih =>
    intro brk cont n cs n' pc c h hat hf hb hc
    obtain ⟨cc, h1, h2⟩ := Option.bind_eq_some_iff.1 h
    obtain ⟨⟨ca, n1⟩, h3, h4⟩ := Option.map_eq_some_iff.1 h2
    cases h4
    subst hc
    obtain ⟨b1, c1, e1, s1⟩ := cond_true hem hb hat.left.left h1 hf.1 hcond
    exact (ih h3 hat.left.right hf.2 b1 e1).after s1
  | ifElse hcond _ ih =>
    intro brk cont n cs n' pc c h hat hf hb hc
    obtain ⟨cc, h1, h2⟩ := Option.bind_eq_some_iff.1 h
    obtain ⟨⟨ca, e⟩, h3, h4⟩ := Option.bind_eq_some_iff.1 h2
    obtain ⟨⟨cb, n1⟩, h5, h6⟩ := Option.map_eq_some_iff.1 h4
    cases h6
    subst hc
    obtain ⟨b1, c1, e1, s1⟩ := cond_true hem hb hat.left.left.left.left h1 hf.1 hcond
    exact (ih h3 hat.left.left.left.right hf.2.1 b1 e1).after s1
  | ifElseNot hcond _ ih =>
    intro brk cont n cs n' pc c h hat hf hb hc
    obtain ⟨cc, h1, h2⟩ := Option.bind_eq_some_iff.1 h
    obtain ⟨⟨ca, e⟩, h3, h4⟩ := Option.bind_eq_some_iff.1 h2
    obtain ⟨⟨cb, n1⟩, h5, h6⟩ := Option.map_eq_some_iff.1 h4
    cases h6
    subst hc
    obtain ⟨b1, c1, e1, s1⟩ := cond_false hem hb hat.left.left.left.left h1 hf.1 hcond
    have a1 := hat.left.left.right.tail.head
    obtain ⟨b2, c2, e2, s2⟩ := label_steps c1 hem (hlab _ _ a1) a1
    have a3 := hat.left.right
    have e0 : pc + (cc ++ ca ++ [Ir.jump e, Ir.label n]).length = pc + (cc ++ ca).length + 1 + 1 := by simp [Nat.add_assoc]
    rw [e0] at a3
    exact (ih h5 a3 hf.2.2 b2 (e2.trans e1)).after ((s1 _ (hfind _ _ a1)).trans s2)
  | whileBody hcond _ ih =>
    intro brk cont n cs n' pc c h hat hf hb hc
    have h0 := h
    obtain ⟨cc, h1, h2⟩ := Option.bind_eq_some_iff.1 h
    obtain ⟨⟨cb, n1⟩, h3, h4⟩ := Option.map_eq_some_iff.1 h2
    cases h4
    subst hc
    have a0 := hat.left.left.left.head
    obtain ⟨b1, c1, e1, s1⟩ := label_steps c hem hb a0
    rw [← e1] at hcond
    obtain ⟨b2, c2, e2, s2⟩ := cond_true hem b1 hat.left.left.right h1 hf.1 hcond
    have a2 := hat.left.right
    rw [List.length_append, ← Nat.add_assoc] at a2
    exact (ih h3 a2 hf.2 b2 (e2.trans e1)).after (s1.trans s2)
  | whileNext hcond hbody hres _ ih =>
    intro brk cont n cs n' pc c h hat hf hb hc
    have h0 := h
    obtain ⟨cc, h1, h2⟩ := Option.bind_eq_some_iff.1 h
    obtain ⟨⟨cb, n1⟩, h3, h4⟩ := Option.map_eq_some_iff.1 h2
    cases h4
    subst hc
    have a0 := hat.left.left.left.head
    obtain ⟨b1, c1, e1, s1⟩ := label_steps c hem hb a0
    rw [← e1] at hcond
    obtain ⟨b2, c2, e2, s2⟩ := cond_true hem b1 hat.left.left.right h1 hf.1 hcond
    have a2 := hat.left.right
    rw [List.length_append, ← Nat.add_assoc] at a2
    obtain ⟨c3, e3, k3⟩ := runs_ok hem hfind hlab hbody h3 a2 hf.2 b2 (e2.trans e1)
    have a1 := hat.right.head
    have : ∃ c4, c4.bytes = c3.bytes ∧ Steps code sts (pc + 1) c1 pc c4 := by
      rcases hres with rfl | rfl
      · rw [List.length_append, List.length_append, ← Nat.add_assoc, ← Nat.add_assoc] at a1
        obtain ⟨b3, c4, e4, s4⟩ := jump_steps c3 hem k3.1 a1
        exact ⟨c4, e4, (s2.trans k3.2).trans (s4 _ (hfind _ _ a0))⟩
      · obtain ⟨l, hl, k4⟩ := k3
        cases hl
        exact ⟨c3, rfl, s2.trans (k4 _ (hfind _ _ a0))⟩
    obtain ⟨c4, e4, s4⟩ := this
    exact .strict s1 (by omega) ((ih h0 hat hf hb (e4.trans e3)).after s4)
  | doBody _ ih =>
    intro brk cont n cs n' pc c h hat hf hb hc
    have h0 := h
    obtain ⟨⟨cb, n1⟩, h3, h2⟩ := Option.bind_eq_some_iff.1 h
    obtain ⟨cc, h1, h4⟩ := Option.map_eq_some_iff.1 h2
    cases h4
    subst hc
    have a0 := hat.left.left.left.left.head
    obtain ⟨b1, c1, e1, s1⟩ := label_steps c hem hb a0
    exact (ih h3 hat.left.left.left.right hf.1 b1 e1).after s1
  | doNext hbody hres hcond _ ih =>
    intro brk cont n cs n' pc c h hat hf hb hc
    have h0 := h
    obtain ⟨⟨cb, n1⟩, h3, h2⟩ := Option.bind_eq_some_iff.1 h
    obtain ⟨cc, h1, h4⟩ := Option.map_eq_some_iff.1 h2
    cases h4
    subst hc
    have a0 := hat.left.left.left.left.head
    obtain ⟨b1, c1, e1, s1⟩ := label_steps c hem hb a0
    obtain ⟨c2, e2, k2⟩ := runs_ok hem hfind hlab hbody h3 hat.left.left.left.right hf.1 b1 e1
    have a1 := hat.left.left.right.head
    obtain ⟨b3, c3, e3, s3⟩ := do_continue hem hfind hlab a1 (by simp only [List.length_append, List.length_cons, List.length_nil]; omega) hres k2 e2
    rw [← e3] at hcond
    have a3 := hat.left.right
    rw [List.length_append, List.length_singleton, ← Nat.add_assoc] at a3
    obtain ⟨b4, c4, e4, s4⟩ := do_true hem b3 a3 h1 hf.2 hcond
    exact .strict s1 (by omega) ((ih h0 hat hf hb (e4.trans e3)).after (s3.trans (s4 _ (hfind _ _ a0))))
  | @forInit k m i cnd inc b m1 hi _ ih =>
    intro brk cont n cs n' pc c h hat hf hb hc
    obtain ⟨ci, g1, g2⟩ := Option.bind_eq_some_iff.1 h
    obtain ⟨cc, h1, h2⟩ := Option.bind_eq_some_iff.1 g2
    obtain ⟨⟨cb, n1⟩, h3, h4⟩ := Option.bind_eq_some_iff.1 h2
    obtain ⟨cn, g3, g4⟩ := Option.map_eq_some_iff.1 h4
    cases g4
    subst hc
    simp only [List.append_assoc] at hat
    obtain ⟨b1, c1, s1, e1⟩ := act_steps hem hb hat.left g1 hf.1 hi
    have hl : lowerS t (.forS none cnd inc b) brk cont n = some ([Ir.label n] ++ (cc ++ (cb ++ ([.label (n + 1)] ++ (cn ++ [.jump n, .label (n + 2)])))), n') := by
      rw [lowerS, h1, h3, g3]
      simp [lowerActOpt]
    exact (ih hl hat.right ⟨trivial, hf.2⟩ b1 e1).after s1
  | forBody hcond _ ih =>
    intro brk cont n cs n' pc c h hat hf hb hc
    have h0 := h
    obtain ⟨ci, g1, g2⟩ := Option.bind_eq_some_iff.1 h
    obtain ⟨cc, h1, h2⟩ := Option.bind_eq_some_iff.1 g2
    obtain ⟨⟨cb, n1⟩, h3, h4⟩ := Option.bind_eq_some_iff.1 h2
    obtain ⟨cn, g3, g4⟩ := Option.map_eq_some_iff.1 h4
    cases g4
    cases g1
    subst hc
    have hat0 := hat
    rw [List.nil_append] at hat
    have a0 := hat.left.left.left.left.left.head
    obtain ⟨b1, c1, e1, s1⟩ := label_steps c hem hb a0
    rw [← e1] at hcond
    obtain ⟨b2, c2, e2, s2⟩ := cond_true hem b1 hat.left.left.left.left.right h1 (condOr1_need hf.2.1) (trueOr1 hcond)
    have a2 := hat.left.left.left.right
    rw [List.length_append, ← Nat.add_assoc] at a2
    exact (ih h3 a2 hf.2.2.2 b2 (e2.trans e1)).after (s1.trans s2)
  | forNext hcond hbody hres hinc _ ih =>
    intro brk cont n cs n' pc c h hat hf hb hc
    have h0 := h
    obtain ⟨ci, g1, g2⟩ := Option.bind_eq_some_iff.1 h
    obtain ⟨cc, h1, h2⟩ := Option.bind_eq_some_iff.1 g2
    obtain ⟨⟨cb, n1⟩, h3, h4⟩ := Option.bind_eq_some_iff.1 h2
    obtain ⟨cn, g3, g4⟩ := Option.map_eq_some_iff.1 h4
    cases g4
    cases g1
    subst hc
    have hat0 := hat
    rw [List.nil_append] at hat
    have a0 := hat.left.left.left.left.left.head
    obtain ⟨b1, c1, e1, s1⟩ := label_steps c hem hb a0
    rw [← e1] at hcond
    obtain ⟨b2, c2, e2, s2⟩ := cond_true hem b1 hat.left.left.left.left.right h1 (condOr1_need hf.2.1) (trueOr1 hcond)
    have a2 := hat.left.left.left.right
    rw [List.length_append, ← Nat.add_assoc] at a2
    obtain ⟨c3, e3, k3⟩ := runs_ok hem hfind hlab hbody h3 a2 hf.2.2.2 b2 (e2.trans e1)
    have a1 := hat.left.left.right.head
    obtain ⟨b4, c4, e4, s4⟩ := do_continue hem hfind hlab a1 (by simp only [List.length_append, List.length_cons, List.length_nil]; omega) hres k3 e3
    rw [← e4] at hinc
    have a3 := hat.left.right
    rw [List.length_append, List.length_singleton, ← Nat.add_assoc] at a3
    obtain ⟨b5, c5, s5, e5⟩ := actOpt_steps hem b4 a3 g3 hf.2.2.1 hinc
    have a4 := hat.right.head
    rw [List.length_append, List.length_append, List.length_singleton, ← Nat.add_assoc, ← Nat.add_assoc] at a4
    obtain ⟨b6, c6, e6, s6⟩ := jump_steps c5 hem b5 a4
    exact .strict s1 (by omega) ((ih h0 hat0 hf hb (e6.trans e5)).after (((s2.trans s4).trans s5).trans (s6 _ (hfind _ _ a0))))

end
end Verif.Lemmas.FuncCode
