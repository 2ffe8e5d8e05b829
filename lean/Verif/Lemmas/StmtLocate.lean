import Verif.Lemmas.StmtDec

/-! # Lemmas for C59: labels, cases and defaults lead to the statement they label -/
namespace Verif.Lemmas.Stmt
open Verif.ShortCircuit Verif.Stmt Verif.Spec.ShortCircuit Verif.Spec.Stmt Verif.Props.ShortCircuit

variable {prog : List I} {tbl : List (Nat × Nat)} {fin : Nat} {brk cont : Option Nat} {st st' : St} {pc pc2 : Nat}

/-- The node that control is transferred to. -/
def lookup (st : St) : Target → Option I
  | .labelT n => (st.table.find? (·.1 == n)).map fun x => .label x.2
  | .caseT v => st.switch.bind fun c => (c.1.find? (·.1 == v)).map fun x => .case x.2
  | .dfltT => st.switch.bind fun c => c.2.map .label

theorem lookup_eq {st st' : St} (h1 : st'.table = st.table) (h2 : st'.switch = st.switch) (t : Target) : lookup st' t = lookup st t := by
  cases t <;> simp only [lookup, h1, h2]

/-- The result of looking for `t` in a statement, against the tables before and after it. -/
def Found (prog : List I) (tbl : List (Nat × Nat)) (fin : Nat) (st st' : St) (t : Target) : Option (S × K) → Prop
  | some (s', k') => ∃ i p, lookup st' t = some i ∧ prog[p]? = some i ∧ prog.findIdx (· == i) = p ∧ MS prog tbl fin s' k' (p + 1)
  | none => lookup st' t = lookup st t

theorem Found.mono {st0 st1 st2 : St} {t : Target} {o : Option (S × K)} (h : Found prog tbl fin st0 st1 t o) (hm : ∀ t i, lookup st1 t = some i → lookup st2 t = some i)
    (hn : o.isSome) : Found prog tbl fin st0 st2 t o := by
  cases o with
  | none => cases hn
  | some x => obtain ⟨i, p, h1, h2⟩ := h; exact ⟨i, p, hm t i h1, h2⟩

theorem Found.seq {st0 st1 st2 : St} {t : Target} {o1 o2 : Option (S × K)} (h1 : Found prog tbl fin st0 st1 t o1) (h2 : Found prog tbl fin st1 st2 t o2)
    (hm : ∀ t i, lookup st1 t = some i → lookup st2 t = some i) : Found prog tbl fin st0 st2 t (o1.or o2) := by
  cases o1 with
  | some x => exact h1.mono hm rfl
  | none =>
    cases o2 with
    | some x => exact h2
    | none => show lookup st2 t = lookup st0 t; rw [show lookup st2 t = lookup st1 t from h2]; exact h1

theorem Found.cast {st0 st0' st1 st1' : St} {t : Target} {o : Option (S × K)} (h : Found prog tbl fin st0 st1 t o)
    (h1 : lookup st0' t = lookup st0 t) (h2 : lookup st1' t = lookup st1 t) : Found prog tbl fin st0' st1' t o := by
  cases o with
  | some x => obtain ⟨i, p, a, b⟩ := h; exact ⟨i, p, by rw [h2, a], b⟩
  | none => show lookup st1' t = lookup st0' t; rw [h1, h2]; exact h

theorem find_append_ne (cs : List (Nat × Nat)) (v w k : Nat) (h : v ≠ w) : (cs ++ [(v, k)]).find? (·.1 == w) = cs.find? (·.1 == w) := by
  rw [List.find?_append]
  cases cs.find? (·.1 == w) <;> simp [h]

theorem find_append_new (cs : List (Nat × Nat)) (v k : Nat) (h : cs.any (·.1 == v) = false) : (cs ++ [(v, k)]).find? (·.1 == v) = some (v, k) := by
  have : cs.find? (·.1 == v) = none := by
    rw [List.find?_eq_none]
    intro x hx hv
    rw [List.any_eq_false] at h
    exact h x hx hv
  rw [List.find?_append, this]; simp

theorem locate_none (t : Target) (s : S) (k : K) (h : ∀ (st st' : St) brk cont code, compileS s brk cont st = some (code, st') → st'.table = st.table ∧ st'.switch = st.switch)
    (hl : locate t s k = none) (hA : AtX prog tbl s brk cont st st' pc pc2) : Found prog tbl fin st st' t (locate t s k) := by
  obtain ⟨code, hc, _⟩ := hA
  rw [hl]
  exact lookup_eq (h _ _ _ _ _ hc).1 (h _ _ _ _ _ hc).2 t

theorem mono_simple (s : S) (h : ∀ (st st' : St) brk cont code, compileS s brk cont st = some (code, st') → st'.table = st.table ∧ st'.switch = st.switch)
    (hA : AtX prog tbl s brk cont st st' pc pc2) : ∀ t i, lookup st t = some i → lookup st' t = some i := by
  obtain ⟨code, hc, _⟩ := hA
  intro t i hi
  rw [lookup_eq (h _ _ _ _ _ hc).1 (h _ _ _ _ _ hc).2 t]; exact hi

theorem locate_spec (s : S) : ∀ brk cont st st' pc pc2, AtX prog tbl s brk cont st st' pc pc2 →
    (∀ t i, lookup st t = some i → lookup st' t = some i) ∧
    ∀ t k, MK prog tbl fin k brk cont pc2 → Found prog tbl fin st st' t (locate t s k) := by
  have simple : ∀ s : S, (∀ (st st' : St) brk cont code, compileS s brk cont st = some (code, st') → st'.table = st.table ∧ st'.switch = st.switch) →
      (∀ t k, locate t s k = none) → ∀ brk cont st st' pc pc2, AtX prog tbl s brk cont st st' pc pc2 →
      (∀ t i, lookup st t = some i → lookup st' t = some i) ∧
      ∀ t k, MK prog tbl fin k brk cont pc2 → Found prog tbl fin st st' t (locate t s k) :=
    fun s h hl _ _ _ _ _ _ hA => ⟨mono_simple s h hA, fun t k _ => locate_none t s k h (hl t k) hA⟩
  induction s with
  | skip => exact simple _ (by intro st st' brk cont code h; simp only [compileS, Option.some.injEq, Prod.mk.injEq] at h; rw [← h.2]; exact ⟨rfl, rfl⟩) (fun _ _ => rfl)
  | expr e => exact simple _ (by intro st st' brk cont code h; simp only [compileS, Option.some.injEq, Prod.mk.injEq] at h; rw [← h.2]; exact ⟨rfl, rfl⟩) (fun _ _ => rfl)
  | goto n => exact simple _ (by intro st st' brk cont code h; simp only [compileS, Option.some.injEq, Prod.mk.injEq] at h; rw [← h.2]; exact ⟨rfl, rfl⟩) (fun _ _ => rfl)
  | ret e => exact simple _ (by intro st st' brk cont code h; cases e <;> simp only [compileS, Option.some.injEq, Prod.mk.injEq] at h <;> rw [← h.2] <;> exact ⟨rfl, rfl⟩) (fun _ _ => rfl)
  | brk => exact simple _ (by intro st st' brk cont code h; simp only [compileS, Option.map_eq_some_iff, Prod.mk.injEq] at h; obtain ⟨_, _, _, rfl⟩ := h; exact ⟨rfl, rfl⟩) (fun _ _ => rfl)
  | cont => exact simple _ (by intro st st' brk cont code h; simp only [compileS, Option.map_eq_some_iff, Prod.mk.injEq] at h; obtain ⟨_, _, _, rfl⟩ := h; exact ⟨rfl, rfl⟩) (fun _ _ => rfl)
  | seq a b iha ihb =>
    intro brk cont st st' pc pc2 h
    obtain ⟨st1, pc1, hA, hB⟩ := dec_seq h
    have ia := iha _ _ _ _ _ _ hA
    have ib := ihb _ _ _ _ _ _ hB
    exact ⟨fun t i hi => ib.1 t i (ia.1 t i hi), fun t k hk => Found.seq (ia.2 t (.seq b k) (.seq hB.at hk)) (ib.2 t k hk) ib.1⟩
  | ifThen c a iha =>
    intro brk cont st st' pc pc2 h
    obtain ⟨st1, l, q, q2, _, _, _, _, t1, t2, hA, hl, _, rfl⟩ := dec_ifThen h
    have ia := iha _ _ _ _ _ _ hA
    refine ⟨fun t i hi => ia.1 t i (by rw [lookup_eq t1 t2]; exact hi), fun t k hk => ?_⟩
    exact (ia.2 t k (.label hl hk)).cast (lookup_eq t1 t2 t).symm rfl
  | ifElse c a b iha ihb =>
    intro brk cont st st' pc pc2 h
    obtain ⟨st1, st2, st3, l, e, q, q2, q3, _, _, _, _, t1, t2, hA, hj, _, _, t3, t4, hB, he, hf, rfl⟩ := dec_ifElse h
    have ia := iha _ _ _ _ _ _ hA
    have ib := ihb _ _ _ _ _ _ hB
    have m : ∀ t i, lookup st2 t = some i → lookup st' t = some i := fun t i hi => ib.1 t i (by rw [lookup_eq t3 t4]; exact hi)
    refine ⟨fun t i hi => m t i (ia.1 t i (by rw [lookup_eq t1 t2]; exact hi)), fun t k hk => ?_⟩
    exact Found.seq ((ia.2 t k (.jump hj hf (.label he hk))).cast (lookup_eq t1 t2 t).symm rfl) ((ib.2 t k (.label he hk)).cast (lookup_eq t3 t4 t).symm rfl) m
  | whileS c b ihb =>
    intro brk cont st st' pc pc2 h
    obtain ⟨st1, lc, lb, q, q2, _, _, _, _, _, _, t1, t2, hB, _, _, _, hK⟩ := dec_while (fin := fin) h
    have ib := ihb _ _ _ _ _ _ hB
    exact ⟨fun t i hi => ib.1 t i (by rw [lookup_eq t1 t2]; exact hi), fun t k hk => (ib.2 t _ (hK k hk)).cast (lookup_eq t1 t2 t).symm rfl⟩
  | doS b c ihb =>
    intro brk cont st st' pc pc2 h
    obtain ⟨st1, st2, ll, lc, lb, q, _, _, t1, t2, hB, t3, t4, _, _, _, _, hK⟩ := dec_do (fin := fin) h
    have ib := ihb _ _ _ _ _ _ hB
    exact ⟨fun t i hi => by rw [lookup_eq t3 t4]; exact ib.1 t i (by rw [lookup_eq t1 t2]; exact hi),
      fun t k hk => (ib.2 t _ (hK k hk)).cast (lookup_eq t1 t2 t).symm (lookup_eq t3 t4 t)⟩
  | forS i c n b ihb =>
    intro brk cont st st' pc pc2 h
    obtain ⟨st0, st1, st2, lf, lc, lb, q0, q, q2, _, _, _, _, _, _, _, _, _, t1, t2, hB, t3, t4, _, _, _, _, hK⟩ := dec_for (fin := fin) h
    have ib := ihb _ _ _ _ _ _ hB
    exact ⟨fun t i hi => by rw [lookup_eq t3 t4]; exact ib.1 t i (by rw [lookup_eq t1 t2]; exact hi),
      fun t k hk => (ib.2 t _ (hK k hk)).cast (lookup_eq t1 t2 t).symm (lookup_eq t3 t4 t)⟩
  | switchS e b ihb =>
    intro brk cont st st' pc pc2 h
    obtain ⟨st2, st3, lb, cs, d, q, q2, _, _, _, _, t1, t2, hB, t3, t4, t5, _, _, _, hK⟩ := dec_switch (fin := fin) h
    have ib := ihb _ _ _ _ _ _ hB
    have hn : ∀ t, (∀ n, t ≠ .labelT n) → lookup st' t = lookup st t := by
      intro t ht
      cases t with
      | labelT n => exact absurd rfl (ht n)
      | caseT v => simp only [lookup, t5]
      | dfltT => simp only [lookup, t5]
    have hl : ∀ n, lookup st' (.labelT n) = lookup st3 (.labelT n) ∧ lookup st2 (.labelT n) = lookup st (.labelT n) := by
      intro n; simp only [lookup, t4, t1, and_self]
    refine ⟨fun t i hi => ?_, fun t k hk => ?_⟩
    · cases t with
      | labelT n => rw [(hl n).1]; exact ib.1 _ i (by rw [(hl n).2]; exact hi)
      | caseT v => rw [hn _ (by simp)]; exact hi
      | dfltT => rw [hn _ (by simp)]; exact hi
    · cases t with
      | labelT n => exact (ib.2 (.labelT n) _ (hK k hk)).cast (hl n).2.symm (hl n).1
      | caseT v => exact hn _ (by simp)
      | dfltT => exact hn _ (by simp)
  | caseS v s ih =>
    intro brk cont st st' pc pc2 h
    obtain ⟨cs, d, e0, hn, h1, h2, hA⟩ := dec_case h
    have ia := ih _ _ _ _ _ _ hA
    have hmono : ∀ t i, lookup st t = some i → lookup { st with cases := st.cases + 1, switch := some (cs ++ [(v, st.cases)], d) } t = some i := by
      intro t i hi
      cases t with
      | labelT n => exact hi
      | dfltT => simp only [lookup, e0] at hi ⊢; exact hi
      | caseT w =>
        simp only [lookup, e0, Option.bind_some, List.find?_append] at hi ⊢
        cases hf : cs.find? (·.1 == w) with
        | none => rw [hf] at hi; cases hi
        | some x => rw [hf] at hi; exact hi
    refine ⟨fun t i hi => ia.1 t i (hmono t i hi), fun t k hk => ?_⟩
    by_cases ht : t = .caseT v
    · subst ht
      simp only [locate, if_true]
      refine ⟨.case st.cases, pc, ia.1 _ _ ?_, h1, h2, .code _ _ _ hA.at hk⟩
      simp only [lookup, Option.bind_some, find_append_new cs v st.cases hn, Option.map_some]
    · simp only [locate, if_neg ht]
      refine (ia.2 t k hk).cast ?_ rfl
      cases t with
      | labelT n => rfl
      | dfltT => simp only [lookup, e0]; rfl
      | caseT w =>
        have : v ≠ w := fun e => ht (by rw [e])
        simp only [lookup, e0, Option.bind_some, find_append_ne cs v w st.cases this]
  | dfltS s ih =>
    intro brk cont st st' pc pc2 h
    obtain ⟨cs, e0, h1, h2, hA⟩ := dec_dflt h
    have ia := ih _ _ _ _ _ _ hA
    have hne : ∀ t, t ≠ .dfltT → lookup st t = lookup { st with labels := st.labels + 1, switch := some (cs, some st.labels) } t := by
      intro t ht
      cases t with
      | labelT n => rfl
      | dfltT => exact absurd rfl ht
      | caseT w => simp only [lookup, e0]; rfl
    refine ⟨fun t i hi => ?_, fun t k hk => ?_⟩
    · by_cases ht : t = .dfltT
      · subst ht; simp [lookup, e0] at hi
      · exact ia.1 t i (by rw [← hne t ht]; exact hi)
    · by_cases ht : t = .dfltT
      · subst ht
        simp only [locate, if_true]
        exact ⟨.label st.labels, pc, ia.1 _ _ (by simp [lookup]), h1, h2, .code _ _ _ hA.at hk⟩
      · simp only [locate, if_neg ht]
        exact (ia.2 t k hk).cast (hne t ht) rfl
  | label n s ih =>
    intro brk cont st st' pc pc2 h
    obtain ⟨hn, h1, h2, hA⟩ := dec_label h
    have ia := ih _ _ _ _ _ _ hA
    have hmono : ∀ t i, lookup st t = some i → lookup { st with labels := st.labels + 1, table := st.table ++ [(n, st.labels)] } t = some i := by
      intro t i hi
      cases t with
      | caseT v => exact hi
      | dfltT => exact hi
      | labelT w =>
        simp only [lookup, List.find?_append] at hi ⊢
        cases hf : st.table.find? (·.1 == w) with
        | none => rw [hf] at hi; cases hi
        | some x => rw [hf] at hi; exact hi
    refine ⟨fun t i hi => ia.1 t i (hmono t i hi), fun t k hk => ?_⟩
    by_cases ht : t = .labelT n
    · subst ht
      simp only [locate, if_true]
      refine ⟨.label st.labels, pc, ia.1 _ _ ?_, h1, h2, .code _ _ _ hA.at hk⟩
      simp only [lookup, find_append_new st.table n st.labels hn, Option.map_some]
    · simp only [locate, if_neg ht]
      refine (ia.2 t k hk).cast ?_ rfl
      cases t with
      | caseT v => rfl
      | dfltT => rfl
      | labelT w =>
        have : n ≠ w := fun e => ht (by rw [e])
        simp only [lookup, find_append_ne st.table n w st.labels this]

end Verif.Lemmas.Stmt
