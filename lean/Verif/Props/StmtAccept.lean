import Verif.Props.Stmt

/-!
# C41, C55, C59: which function bodies are accepted
-/
namespace Verif.Props.Stmt
open Verif.ShortCircuit Verif.Stmt Verif.Spec.ShortCircuit Verif.Spec.Stmt Verif.Props.ShortCircuit Verif.Lemmas.Stmt

/-- Names in `label_list`. -/
def names (st : St) : List Nat := st.table.map (·.1)
/-- Values in `case_list` and the number of defaults of the current switch. -/
def values (st : St) : List Nat := match st.switch with | some (cs, _) => cs.map (·.1) | none => []
def defaults (st : St) : Nat := match st.switch with | some (_, some _) => 1 | _ => 0

/-- What a statement adds to the context. -/
structure Adds (s : S) (code : List I) (st st' : St) : Prop where
  names : names st' = names st ++ labelsOf s
  values : values st' = values st ++ casesOf s
  defaults : defaults st' = defaults st + dfltsOf s
  switch : st'.switch.isSome = st.switch.isSome
  gotos : ∀ n, .goto n ∈ code ↔ n ∈ gotosOf s

/-- What is needed for it to be accepted. -/
structure Ok (s : S) (brk cont : Option Nat) (st : St) : Prop where
  placed : Placed brk.isSome cont.isSome st.switch.isSome s
  labels : (labelsOf s).Nodup
  labels_new : ∀ n ∈ labelsOf s, n ∉ names st
  cases : (casesOf s).Nodup
  cases_new : ∀ v ∈ casesOf s, v ∉ values st
  dflts : defaults st + dfltsOf s ≤ 1

theorem defaults_le (st : St) : defaults st ≤ 1 := by simp only [defaults]; split <;> omega

theorem goto_expr (e : E) (st : St) (n : Nat) : I.goto n ∉ (exprCode e st).1 := fun h => (expr_no_case e _ _ _ h).2 n rfl
theorem goto_opt (e : Option E) (st : St) (n : Nat) : I.goto n ∉ (optExprCode e st).1 := by
  cases e with
  | none => simp [optExprCode]
  | some e => simpa [optExprCode] using goto_expr e st n
theorem goto_cond (e : Option E) (st : St) (n : Nat) : I.goto n ∉ (condCode e st).1 := by
  cases e with
  | none => simp [condCode]
  | some e => exact goto_expr e st n

theorem any_false {cs : List (Nat × Nat)} {v : Nat} : cs.any (·.1 == v) = false ↔ v ∉ cs.map (·.1) := by
  rw [List.any_eq_false]
  simp only [List.mem_map, not_exists, not_and, beq_iff_eq]

theorem eqs {st st1 : St} (h1 : st1.table = st.table) (h2 : st1.switch = st.switch) : names st1 = names st ∧ values st1 = values st ∧ defaults st1 = defaults st := by
  simp only [names, values, defaults, h1, h2, and_self]

theorem not_switch (s : S) : ∀ b l, Placed b l false s → casesOf s = [] ∧ dfltsOf s = 0 := by
  induction s with
  | seq a b iha ihb => intro x l h; simp [casesOf, dfltsOf, iha x l h.1, ihb x l h.2]
  | ifThen c a iha => intro x l h; simp [casesOf, dfltsOf, iha x l h]
  | ifElse c a b iha ihb => intro x l h; simp [casesOf, dfltsOf, iha x l h.1, ihb x l h.2]
  | whileS c b ih => intro x l h; simp [casesOf, dfltsOf, ih _ _ h]
  | doS b c ih => intro x l h; simp [casesOf, dfltsOf, ih _ _ h]
  | forS i c n b ih => intro x l h; simp [casesOf, dfltsOf, ih _ _ h]
  | caseS v s ih => intro x l h; cases h.1
  | dfltS s ih => intro x l h; cases h.1
  | label n s ih => intro x l h; simp [casesOf, dfltsOf, ih _ _ h]
  | _ => intro x l h; exact ⟨rfl, rfl⟩

theorem adds_simple {s : S} {code : List I} {st st' : St} (h1 : st'.table = st.table) (h2 : st'.switch = st.switch) (hl : labelsOf s = []) (hc : casesOf s = [])
    (hd : dfltsOf s = 0) (hg : ∀ n, I.goto n ∈ code ↔ n ∈ gotosOf s) : Adds s code st st' := by
  have := eqs h1 h2
  exact ⟨by rw [hl, this.1]; simp, by rw [hc, this.2.1]; simp, by rw [hd, this.2.2]; rfl, by rw [h2], hg⟩

theorem ok_simple {s : S} {brk cont} {st : St} (h : Placed brk.isSome cont.isSome st.switch.isSome s) (hl : labelsOf s = []) (hc : casesOf s = [])
    (hd : dfltsOf s = 0) : Ok s brk cont st :=
  ⟨h, by rw [hl]; exact .nil, by rw [hl]; simp, by rw [hc]; exact .nil, by rw [hc]; simp, by rw [hd]; exact defaults_le st⟩

/-- Two statements one after the other. -/
theorem ok_two {s a b : S} {brk cont} {st st1 : St} {code : List I} (hA : Adds a code st st1)
    (hp : Placed brk.isSome cont.isSome st.switch.isSome s ↔ Placed brk.isSome cont.isSome st.switch.isSome a ∧ Placed brk.isSome cont.isSome st.switch.isSome b)
    (hl : labelsOf s = labelsOf a ++ labelsOf b) (hc : casesOf s = casesOf a ++ casesOf b) (hd : dfltsOf s = dfltsOf a + dfltsOf b) :
    Ok s brk cont st ↔ Ok a brk cont st ∧ Ok b brk cont st1 := by
  have e1 := hA.names
  have e2 := hA.values
  have e3 := hA.defaults
  have e4 := hA.switch
  constructor
  · intro h
    obtain ⟨h1, h2, h3, h4, h5, h6⟩ := h
    rw [hl] at h2 h3
    rw [hc] at h4 h5
    rw [hd] at h6
    rw [List.nodup_append] at h2 h4
    refine ⟨⟨(hp.mp h1).1, h2.1, fun n hn => h3 n (by simp [hn]), h4.1, fun n hn => h5 n (by simp [hn]), by omega⟩,
      ⟨by rw [e4]; exact (hp.mp h1).2, h2.2.1, fun n hn => ?_, h4.2.1, fun n hn => ?_, by omega⟩⟩
    · rw [e1, List.mem_append, not_or]
      exact ⟨h3 n (by simp [hn]), fun hn' => h2.2.2 n hn' n hn rfl⟩
    · rw [e2, List.mem_append, not_or]
      exact ⟨h5 n (by simp [hn]), fun hn' => h4.2.2 n hn' n hn rfl⟩
  · rintro ⟨⟨a1, a2, a3, a4, a5, a6⟩, ⟨b1, b2, b3, b4, b5, b6⟩⟩
    rw [e4] at b1
    rw [e1] at b3
    rw [e2] at b5
    rw [e3] at b6
    refine ⟨hp.mpr ⟨a1, b1⟩, ?_, ?_, ?_, ?_, by omega⟩
    · rw [hl, List.nodup_append]
      exact ⟨a2, b2, fun n hn m hm e => b3 m hm (by simp [← e, hn])⟩
    · rw [hl]
      intro n hn
      rw [List.mem_append] at hn
      rcases hn with hn | hn
      · exact a3 n hn
      · have := b3 n hn; simp only [List.mem_append, not_or] at this; exact this.1
    · rw [hc, List.nodup_append]
      exact ⟨a4, b4, fun n hn m hm e => b5 m hm (by simp [← e, hn])⟩
    · rw [hc]
      intro n hn
      rw [List.mem_append] at hn
      rcases hn with hn | hn
      · exact a5 n hn
      · have := b5 n hn; simp only [List.mem_append, not_or] at this; exact this.1

theorem adds_two {s a b : S} {st st1 st2 : St} {ca cb code : List I} (hA : Adds a ca st st1) (hB : Adds b cb st1 st2)
    (hl : labelsOf s = labelsOf a ++ labelsOf b) (hc : casesOf s = casesOf a ++ casesOf b) (hd : dfltsOf s = dfltsOf a + dfltsOf b)
    (hg : gotosOf s = gotosOf a ++ gotosOf b) (hcode : ∀ n, I.goto n ∈ code ↔ I.goto n ∈ ca ∨ I.goto n ∈ cb) : Adds s code st st2 :=
  ⟨by rw [hB.names, hA.names, hl, List.append_assoc], by rw [hB.values, hA.values, hc, List.append_assoc],
    by rw [hB.defaults, hA.defaults, hd]; omega, by rw [hB.switch, hA.switch],
    fun n => by rw [hcode, hg, List.mem_append, hA.gotos, hB.gotos]⟩

/-- A statement with one part. -/
theorem ok_one {s a : S} {brk cont brk' cont'} {st st1 : St} (h1 : st1.table = st.table) (h2 : st1.switch = st.switch)
    (hp : Placed brk.isSome cont.isSome st.switch.isSome s ↔ Placed brk'.isSome cont'.isSome st.switch.isSome a)
    (hl : labelsOf s = labelsOf a) (hc : casesOf s = casesOf a) (hd : dfltsOf s = dfltsOf a) : Ok s brk cont st ↔ Ok a brk' cont' st1 := by
  have e := eqs h1 h2
  constructor
  · intro ⟨a1, a2, a3, a4, a5, a6⟩
    exact ⟨by rw [h2]; exact hp.mp a1, by rw [← hl]; exact a2, by rw [← hl, e.1]; exact a3, by rw [← hc]; exact a4, by rw [← hc, e.2.1]; exact a5, by rw [← hd, e.2.2]; exact a6⟩
  · intro ⟨a1, a2, a3, a4, a5, a6⟩
    exact ⟨hp.mpr (by rw [← h2]; exact a1), by rw [hl]; exact a2, by rw [hl, ← e.1]; exact a3, by rw [hc]; exact a4, by rw [hc, ← e.2.1]; exact a5, by rw [hd, ← e.2.2]; exact a6⟩

theorem adds_one {s a : S} {st st1 st2 st3 : St} {ca code : List I} (hA : Adds a ca st1 st2) (h1 : st1.table = st.table) (h2 : st1.switch = st.switch)
    (h3 : st3.table = st2.table) (h4 : st3.switch = st2.switch)
    (hl : labelsOf s = labelsOf a) (hc : casesOf s = casesOf a) (hd : dfltsOf s = dfltsOf a)
    (hg : gotosOf s = gotosOf a) (hcode : ∀ n, I.goto n ∈ code ↔ I.goto n ∈ ca) : Adds s code st st3 := by
  have e := eqs h1 h2
  have e' := eqs h3 h4
  exact ⟨by rw [e'.1, hA.names, e.1, hl], by rw [e'.2.1, hA.values, e.2.1, hc], by rw [e'.2.2, hA.defaults, e.2.2, hd], by rw [h4, hA.switch, h2],
    fun n => by rw [hcode, hg, hA.gotos]⟩

/-- Accepted, adding to the context what it should, or not acceptable. -/
def Acc (s : S) (brk cont : Option Nat) (st : St) : Option (List I × St) → Prop
  | some (code, st') => Ok s brk cont st ∧ Adds s code st st'
  | none => ¬ Ok s brk cont st

theorem accept (s : S) : ∀ brk cont st, Acc s brk cont st (compileS s brk cont st) := by
  induction s with
  | skip => intro brk cont st; exact ⟨ok_simple trivial rfl rfl rfl, adds_simple rfl rfl rfl rfl rfl (by simp [gotosOf])⟩
  | expr e => intro brk cont st; exact ⟨ok_simple trivial rfl rfl rfl, adds_simple rfl rfl rfl rfl rfl (by simp [gotosOf, goto_expr])⟩
  | goto n => intro brk cont st; exact ⟨ok_simple trivial rfl rfl rfl, adds_simple rfl rfl rfl rfl rfl (by simp [gotosOf])⟩
  | ret e =>
    intro brk cont st
    cases e with
    | none => exact ⟨ok_simple trivial rfl rfl rfl, adds_simple rfl rfl rfl rfl rfl (by simp [gotosOf])⟩
    | some e => exact ⟨ok_simple trivial rfl rfl rfl, adds_simple rfl rfl rfl rfl rfl (by simp [gotosOf, goto_expr])⟩
  | brk =>
    intro brk cont st
    cases brk with
    | none => intro h; cases h.placed
    | some l => exact ⟨ok_simple rfl rfl rfl rfl, adds_simple rfl rfl rfl rfl rfl (by simp [gotosOf])⟩
  | cont =>
    intro brk cont st
    cases cont with
    | none => intro h; cases h.placed
    | some l => exact ⟨ok_simple rfl rfl rfl rfl, adds_simple rfl rfl rfl rfl rfl (by simp [gotosOf])⟩
  | seq a b iha ihb =>
    intro brk cont st
    have ha := iha brk cont st
    simp only [compileS]
    cases hca : compileS a brk cont st with
    | none =>
      rw [hca] at ha
      intro h
      refine ha ⟨h.placed.1, (List.nodup_append.mp h.labels).1, fun n hn => h.labels_new n (by simp [labelsOf, hn]), (List.nodup_append.mp h.cases).1,
        fun n hn => h.cases_new n (by simp [casesOf, hn]), ?_⟩
      have := h.dflts; simp only [dfltsOf] at this; omega
    | some x =>
      obtain ⟨ca, st1⟩ := x
      rw [hca] at ha
      have hb := ihb brk cont st1
      have hok : Ok (.seq a b) brk cont st ↔ _ := ok_two ha.2 Iff.rfl rfl rfl rfl
      simp only
      cases hcb : compileS b brk cont st1 with
      | none => rw [hcb] at hb; intro h; exact hb (hok.mp h).2
      | some y =>
        obtain ⟨cb, st2⟩ := y
        rw [hcb] at hb
        exact ⟨hok.mpr ⟨ha.1, hb.1⟩, adds_two ha.2 hb.2 rfl rfl rfl rfl (by simp)⟩
  | ifThen c a iha =>
    intro brk cont st
    have ha := iha brk cont (exprCode c { st with labels := st.labels + 1 }).2
    have hok : Ok (.ifThen c a) brk cont st ↔ Ok a brk cont (exprCode c { st with labels := st.labels + 1 }).2 := ok_one rfl rfl Iff.rfl rfl rfl rfl
    simp only [compileS]
    cases hca : compileS a brk cont (exprCode c { st with labels := st.labels + 1 }).2 with
    | none => rw [hca] at ha; exact fun h => ha (hok.mp h)
    | some x =>
      obtain ⟨ca, st1⟩ := x
      rw [hca] at ha
      exact ⟨hok.mpr ha.1, adds_one ha.2 rfl rfl rfl rfl rfl rfl rfl rfl (by simp [goto_expr])⟩
  | ifElse c a b iha ihb =>
    intro brk cont st
    have ha := iha brk cont (exprCode c { st with labels := st.labels + 1 }).2
    simp only [compileS]
    cases hca : compileS a brk cont (exprCode c { st with labels := st.labels + 1 }).2 with
    | none =>
      rw [hca] at ha
      intro h
      refine ha ⟨h.placed.1, (List.nodup_append.mp h.labels).1, fun n hn => h.labels_new n (by simp [labelsOf, hn]), (List.nodup_append.mp h.cases).1,
        fun n hn => h.cases_new n (by simp [casesOf, hn]), ?_⟩
      have := h.dflts
      have e := (eqs (st := st) (st1 := (exprCode c { st with labels := st.labels + 1 }).2) rfl rfl).2.2
      simp only [dfltsOf] at this; omega
    | some x =>
      obtain ⟨ca, st1⟩ := x
      rw [hca] at ha
      have hb := ihb brk cont { st1 with labels := st1.labels + 1 }
      have hA : Adds a ca st { st1 with labels := st1.labels + 1 } := adds_one (st := st) ha.2 rfl rfl rfl rfl rfl rfl rfl rfl (fun _ => Iff.rfl)
      have hok : Ok (.ifElse c a b) brk cont st ↔ Ok a brk cont st ∧ _ := ok_two hA Iff.rfl rfl rfl rfl
      have hoa : Ok a brk cont st ↔ Ok a brk cont (exprCode c { st with labels := st.labels + 1 }).2 := ok_one rfl rfl Iff.rfl rfl rfl rfl
      simp only
      cases hcb : compileS b brk cont { st1 with labels := st1.labels + 1 } with
      | none => rw [hcb] at hb; intro h; exact hb (hok.mp h).2
      | some y =>
        obtain ⟨cb, st2⟩ := y
        rw [hcb] at hb
        exact ⟨hok.mpr ⟨hoa.mpr ha.1, hb.1⟩, adds_two hA hb.2 rfl rfl rfl rfl (by simp [goto_expr])⟩
  | whileS c b ihb =>
    intro brk cont st
    have hb := ihb (some (st.labels + 1)) (some st.labels) (exprCode c { st with labels := st.labels + 2 }).2
    have hok : Ok (.whileS c b) brk cont st ↔ Ok b (some (st.labels + 1)) (some st.labels) (exprCode c { st with labels := st.labels + 2 }).2 := ok_one rfl rfl Iff.rfl rfl rfl rfl
    simp only [compileS]
    cases hcb : compileS b (some (st.labels + 1)) (some st.labels) (exprCode c { st with labels := st.labels + 2 }).2 with
    | none => rw [hcb] at hb; exact fun h => hb (hok.mp h)
    | some x =>
      obtain ⟨cb, st1⟩ := x
      rw [hcb] at hb
      exact ⟨hok.mpr hb.1, adds_one hb.2 rfl rfl rfl rfl rfl rfl rfl rfl (by simp [goto_expr])⟩
  | doS b c ihb =>
    intro brk cont st
    have hb := ihb (some (st.labels + 2)) (some (st.labels + 1)) { st with labels := st.labels + 3 }
    have hok : Ok (.doS b c) brk cont st ↔ Ok b (some (st.labels + 2)) (some (st.labels + 1)) { st with labels := st.labels + 3 } := ok_one rfl rfl Iff.rfl rfl rfl rfl
    simp only [compileS]
    cases hcb : compileS b (some (st.labels + 2)) (some (st.labels + 1)) { st with labels := st.labels + 3 } with
    | none => rw [hcb] at hb; exact fun h => hb (hok.mp h)
    | some x =>
      obtain ⟨cb, st1⟩ := x
      rw [hcb] at hb
      exact ⟨hok.mpr hb.1, adds_one hb.2 rfl rfl (exprCode_snd c st1).1 (exprCode_snd c st1).2 rfl rfl rfl rfl (by simp [goto_expr])⟩
  | forS i c n b ihb =>
    intro brk cont st
    have ti := optExprCode_snd i st
    have tc := condCode_snd c { (optExprCode i st).2 with labels := (optExprCode i st).2.labels + 3 }
    have hb := ihb (some ((optExprCode i st).2.labels + 2)) (some ((optExprCode i st).2.labels + 1)) (condCode c { (optExprCode i st).2 with labels := (optExprCode i st).2.labels + 3 }).2
    have hok : Ok (.forS i c n b) brk cont st ↔ Ok b (some ((optExprCode i st).2.labels + 2)) (some ((optExprCode i st).2.labels + 1)) (condCode c { (optExprCode i st).2 with labels := (optExprCode i st).2.labels + 3 }).2 :=
      ok_one (tc.1.trans ti.1) (tc.2.trans ti.2) Iff.rfl rfl rfl rfl
    simp only [compileS]
    cases hcb : compileS b (some ((optExprCode i st).2.labels + 2)) (some ((optExprCode i st).2.labels + 1)) (condCode c { (optExprCode i st).2 with labels := (optExprCode i st).2.labels + 3 }).2 with
    | none => rw [hcb] at hb; exact fun h => hb (hok.mp h)
    | some x =>
      obtain ⟨cb, st1⟩ := x
      rw [hcb] at hb
      have tn := optExprCode_snd n st1
      exact ⟨hok.mpr hb.1, adds_one hb.2 (tc.1.trans ti.1) (tc.2.trans ti.2) tn.1 tn.2 rfl rfl rfl rfl (by simp [goto_opt, goto_cond])⟩
  | switchS e b ihb =>
    intro brk cont st
    have hb := ihb (some (exprCode e st).2.labels) cont { (exprCode e st).2 with labels := (exprCode e st).2.labels + 1, switch := some ([], none) }
    have hok : Ok (.switchS e b) brk cont st ↔ Ok b (some (exprCode e st).2.labels) cont { (exprCode e st).2 with labels := (exprCode e st).2.labels + 1, switch := some ([], none) } := by
      constructor
      · intro h
        exact ⟨h.placed.1, h.labels, h.labels_new, h.placed.2.1, by simp [values], by simpa [defaults] using h.placed.2.2⟩
      · intro h
        refine ⟨⟨h.placed, h.cases, by simpa [defaults] using h.dflts⟩, h.labels, h.labels_new, .nil, by simp [casesOf], ?_⟩
        exact defaults_le st
    simp only [compileS]
    cases hcb : compileS b (some (exprCode e st).2.labels) cont { (exprCode e st).2 with labels := (exprCode e st).2.labels + 1, switch := some ([], none) } with
    | none => rw [hcb] at hb; exact fun h => hb (hok.mp h)
    | some x =>
      obtain ⟨cb, st1⟩ := x
      rw [hcb] at hb
      simp only
      cases hsw : st1.switch with
      | none => have := hb.2.switch; rw [hsw] at this; cases this
      | some y =>
        obtain ⟨cs, d⟩ := y
        refine ⟨hok.mpr hb.1, hb.2.names, by simp [values, casesOf], rfl, rfl, fun n => ?_⟩
        simp [goto_expr, hb.2.gotos, gotosOf]
  | caseS v s ih =>
    intro brk cont st
    simp only [compileS]
    cases hsw : st.switch with
    | none => intro h; have := h.placed.1; rw [hsw] at this; cases this
    | some y =>
      obtain ⟨cs, d⟩ := y
      have hv : values st = cs.map (·.1) := by simp [values, hsw]
      simp only
      by_cases hany : cs.any (·.1 == v) = true
      · rw [if_pos hany]
        intro h
        refine h.cases_new v (by simp [casesOf]) ?_
        rw [hv]
        exact Classical.byContradiction fun hn => by rw [any_false.mpr hn] at hany; cases hany
      · rw [if_neg hany]
        have hnew := any_false.mp (Bool.eq_false_iff.mpr hany)
        have hi := ih brk cont { st with cases := st.cases + 1, switch := some (cs ++ [(v, st.cases)], d) }
        have hv' : values { st with cases := st.cases + 1, switch := some (cs ++ [(v, st.cases)], d) } = values st ++ [v] := by simp [values, hsw]
        have hd' : defaults { st with cases := st.cases + 1, switch := some (cs ++ [(v, st.cases)], d) } = defaults st := by cases d <;> simp [defaults, hsw]
        have hok : Ok (.caseS v s) brk cont st ↔ Ok s brk cont { st with cases := st.cases + 1, switch := some (cs ++ [(v, st.cases)], d) } := by
          constructor
          · intro h
            have hc := h.cases
            simp only [casesOf, List.nodup_cons] at hc
            refine ⟨by have := h.placed.2; rw [hsw] at this; exact this, h.labels, h.labels_new, hc.2, fun w hw => ?_, by rw [hd']; exact h.dflts⟩
            rw [hv', List.mem_append, not_or]
            refine ⟨h.cases_new w (by simp [casesOf, hw]), fun e => ?_⟩
            simp only [List.mem_singleton] at e
            subst e; exact hc.1 hw
          · intro h
            have hc := h.cases_new
            rw [hv'] at hc
            refine ⟨⟨by rw [hsw]; rfl, by rw [hsw]; exact h.placed⟩, h.labels, h.labels_new, ?_, fun w hw => ?_, by have := h.dflts; rw [hd'] at this; exact this⟩
            · simp only [casesOf, List.nodup_cons]
              exact ⟨fun hm => hc v hm (by simp), h.cases⟩
            · simp only [casesOf, List.mem_cons] at hw
              rcases hw with rfl | hw
              · rw [hv]; exact hnew
              · exact fun hm => hc w hw (by simp [hm])
        cases hcs : compileS s brk cont { st with cases := st.cases + 1, switch := some (cs ++ [(v, st.cases)], d) } with
        | none => rw [hcs] at hi; exact fun h => hi (hok.mp h)
        | some x =>
          obtain ⟨code, st'⟩ := x
          rw [hcs] at hi
          refine ⟨hok.mpr hi.1, hi.2.names, ?_, by rw [hi.2.defaults, hd']; rfl, by rw [hi.2.switch, hsw]; rfl, fun n => by simp [hi.2.gotos, gotosOf]⟩
          rw [hi.2.values, hv', casesOf, List.append_assoc]; rfl
  | dfltS s ih =>
    intro brk cont st
    simp only [compileS]
    cases hsw : st.switch with
    | none => intro h; have := h.placed.1; rw [hsw] at this; cases this
    | some y =>
      obtain ⟨cs, d⟩ := y
      simp only
      cases d with
      | some l =>
        intro h
        have := h.dflts
        simp only [defaults, hsw, dfltsOf] at this
        omega
      | none =>
        have hd0 : defaults st = 0 := by simp [defaults, hsw]
        have hi := ih brk cont { st with labels := st.labels + 1, switch := some (cs, some st.labels) }
        have hv' : values { st with labels := st.labels + 1, switch := some (cs, some st.labels) } = values st := by simp [values, hsw]
        have hd' : defaults { st with labels := st.labels + 1, switch := some (cs, some st.labels) } = 1 := by simp [defaults]
        have hok : Ok (.dfltS s) brk cont st ↔ Ok s brk cont { st with labels := st.labels + 1, switch := some (cs, some st.labels) } := by
          constructor
          · intro h
            refine ⟨by have := h.placed.2; rw [hsw] at this; exact this, h.labels, h.labels_new, h.cases, by rw [hv']; exact h.cases_new, ?_⟩
            have := h.dflts; simp only [dfltsOf] at this; omega
          · intro h
            refine ⟨⟨by rw [hsw]; rfl, by rw [hsw]; exact h.placed⟩, h.labels, h.labels_new, h.cases, by have := h.cases_new; rw [hv'] at this; exact this, ?_⟩
            have := h.dflts; simp only [dfltsOf]; omega
        simp only [Option.isSome_none, Bool.false_eq_true, if_false]
        cases hcs : compileS s brk cont { st with labels := st.labels + 1, switch := some (cs, some st.labels) } with
        | none => rw [hcs] at hi; exact fun h => hi (hok.mp h)
        | some x =>
          obtain ⟨code, st'⟩ := x
          rw [hcs] at hi
          refine ⟨hok.mpr hi.1, hi.2.names, by rw [hi.2.values, hv']; rfl, ?_, by rw [hi.2.switch, hsw]; rfl, fun n => by simp [hi.2.gotos, gotosOf]⟩
          rw [hi.2.defaults, hd', hd0, dfltsOf]; omega
  | label n s ih =>
    intro brk cont st
    simp only [compileS]
    by_cases hany : st.table.any (·.1 == n) = true
    · rw [if_pos hany]
      intro h
      refine h.labels_new n (by simp [labelsOf]) ?_
      exact Classical.byContradiction fun hn => by rw [any_false.mpr hn] at hany; cases hany
    · rw [if_neg hany]
      have hnew := any_false.mp (Bool.eq_false_iff.mpr hany)
      have hi := ih brk cont { st with labels := st.labels + 1, table := st.table ++ [(n, st.labels)] }
      have hn' : names { st with labels := st.labels + 1, table := st.table ++ [(n, st.labels)] } = names st ++ [n] := by simp [names]
      have hok : Ok (.label n s) brk cont st ↔ Ok s brk cont { st with labels := st.labels + 1, table := st.table ++ [(n, st.labels)] } := by
        constructor
        · intro h
          have hc := h.labels
          simp only [labelsOf, List.nodup_cons] at hc
          refine ⟨h.placed, hc.2, fun w hw => ?_, h.cases, h.cases_new, h.dflts⟩
          rw [hn', List.mem_append, not_or]
          refine ⟨h.labels_new w (by simp [labelsOf, hw]), fun e => ?_⟩
          simp only [List.mem_singleton] at e
          subst e; exact hc.1 hw
        · intro h
          have hc := h.labels_new
          rw [hn'] at hc
          refine ⟨h.placed, ?_, fun w hw => ?_, h.cases, h.cases_new, h.dflts⟩
          · simp only [labelsOf, List.nodup_cons]
            exact ⟨fun hm => hc n hm (by simp), h.labels⟩
          · simp only [labelsOf, List.mem_cons] at hw
            rcases hw with rfl | hw
            · exact hnew
            · exact fun hm => hc w hw (by simp [hm])
      cases hcs : compileS s brk cont { st with labels := st.labels + 1, table := st.table ++ [(n, st.labels)] } with
      | none => rw [hcs] at hi; exact fun h => hi (hok.mp h)
      | some x =>
        obtain ⟨code, st'⟩ := x
        rw [hcs] at hi
        refine ⟨hok.mpr hi.1, ?_, hi.2.values, hi.2.defaults, hi.2.switch, fun n => by simp [hi.2.gotos, gotosOf]⟩
        rw [hi.2.names, hn', labelsOf, List.append_assoc]; rfl

/-- C59, C41, C55: a function body is accepted exactly when it meets the constraints of the C
standard: duplicate cases, defaults and labels, undefined labels and misplaced `break`, `continue`,
`case` and `default` are rejected, everything else is accepted. -/
theorem C59_accepted_iff (body : S) (isMain : Bool) : (compileFunction body isMain).isSome = true ↔ WellFormed body := by
  have ha := accept body none none ⟨0, 0, 0, [], none⟩
  have hok : Ok body none none ⟨0, 0, 0, [], none⟩ ↔ Placed false false false body ∧ (labelsOf body).Nodup := by
    constructor
    · intro h; exact ⟨h.placed, h.labels⟩
    · intro h
      have := not_switch body _ _ h.1
      exact ⟨h.1, h.2, by simp [names], by rw [this.1]; exact .nil, by simp [values], by rw [this.2]; exact Nat.le_of_lt (by decide)⟩
  simp only [compileFunction, WellFormed]
  cases hc : compileS body none none ⟨0, 0, 0, [], none⟩ with
  | none =>
    rw [hc] at ha
    simp only [Option.isSome_none, Bool.false_eq_true, false_iff]
    exact fun h => ha (hok.mpr ⟨h.1, h.2.1⟩)
  | some x =>
    obtain ⟨code, st⟩ := x
    rw [hc] at ha
    have hn : st.table.map (·.1) = labelsOf body := by simpa [names] using ha.2.names
    have hp := hok.mp ha.1
    have hfind : ∀ n, st.table.find? (·.1 == n) = none ↔ n ∉ labelsOf body := by
      intro n
      rw [← hn, ← any_false, List.find?_eq_none, List.any_eq_false]
    simp only
    split
    · rename_i hg
      simp only [Option.isSome_none, Bool.false_eq_true, false_iff]
      intro h
      rw [List.any_map, List.any_eq_true] at hg
      obtain ⟨i, hi, hgi⟩ := hg
      cases i with
      | goto n =>
        have hl := h.2.2 n ((ha.2.gotos n).mp hi)
        simp only [Function.comp, patch] at hgi
        cases hf : st.table.find? (·.1 == n) with
        | none => exact (hfind n).mp hf hl
        | some y => rw [hf] at hgi; cases hgi
      | _ => simp [patch] at hgi
    · rename_i hg
      simp only [Option.isSome_some, true_iff]
      refine ⟨hp.1, hp.2, fun n hn' => ?_⟩
      have hm := (ha.2.gotos n).mpr hn'
      refine Classical.byContradiction fun hc' => hg ?_
      rw [List.any_map, List.any_eq_true]
      refine ⟨.goto n, hm, ?_⟩
      simp only [Function.comp, patch, (hfind n).mpr hc']

theorem or_isSome {α : Type} (a b : Option α) : (a.or b).isSome = true ↔ a.isSome = true ∨ b.isSome = true := by
  cases a <;> simp

theorem locate_case (v : Nat) (s : S) : ∀ k, (locate (.caseT v) s k).isSome = true ↔ v ∈ casesOf s := by
  induction s with
  | seq a b iha ihb => intro k; simp only [locate, casesOf, or_isSome, iha, ihb, List.mem_append]
  | ifThen c a iha => intro k; simp only [locate, casesOf, iha]
  | ifElse c a b iha ihb => intro k; simp only [locate, casesOf, or_isSome, iha, ihb, List.mem_append]
  | whileS c b ihb => intro k; simp only [locate, casesOf, ihb]
  | doS b c ihb => intro k; simp only [locate, casesOf, ihb]
  | forS i c n b ihb => intro k; simp only [locate, casesOf, ihb]
  | caseS w s ih =>
    intro k
    simp only [locate, casesOf, List.mem_cons, Target.caseT.injEq]
    split
    · rename_i h; simp [h]
    · rename_i h; rw [ih]; simp [h]
  | dfltS s ih => intro k; simp [locate, casesOf, ih]
  | label n s ih => intro k; simp [locate, casesOf, ih]
  | _ => intro k; simp [locate, casesOf]

theorem locate_dflt (s : S) : ∀ k, (locate .dfltT s k).isSome = true ↔ dfltsOf s ≠ 0 := by
  induction s with
  | seq a b iha ihb => intro k; simp only [locate, dfltsOf, or_isSome, iha, ihb]; omega
  | ifThen c a iha => intro k; simp only [locate, dfltsOf, iha]
  | ifElse c a b iha ihb => intro k; simp only [locate, dfltsOf, or_isSome, iha, ihb]; omega
  | whileS c b ihb => intro k; simp only [locate, dfltsOf, ihb]
  | doS b c ihb => intro k; simp only [locate, dfltsOf, ihb]
  | forS i c n b ihb => intro k; simp only [locate, dfltsOf, ihb]
  | caseS w s ih => intro k; simp [locate, dfltsOf, ih]
  | dfltS s ih => intro k; simp [locate, dfltsOf]
  | label n s ih => intro k; simp [locate, dfltsOf, ih]
  | _ => intro k; simp [locate, dfltsOf]

theorem locate_label (n : Nat) (s : S) : ∀ k, (locate (.labelT n) s k).isSome = true ↔ n ∈ labelsOf s := by
  induction s with
  | seq a b iha ihb => intro k; simp only [locate, labelsOf, or_isSome, iha, ihb, List.mem_append]
  | ifThen c a iha => intro k; simp only [locate, labelsOf, iha]
  | ifElse c a b iha ihb => intro k; simp only [locate, labelsOf, or_isSome, iha, ihb, List.mem_append]
  | whileS c b ihb => intro k; simp only [locate, labelsOf, ihb]
  | doS b c ihb => intro k; simp only [locate, labelsOf, ihb]
  | forS i c n b ihb => intro k; simp only [locate, labelsOf, ihb]
  | switchS e b ihb => intro k; simp only [locate, labelsOf, ihb]
  | caseS w s ih => intro k; simp [locate, labelsOf, ih]
  | dfltS s ih => intro k; simp [locate, labelsOf, ih]
  | label m s ih =>
    intro k
    simp only [locate, labelsOf, List.mem_cons, Target.labelT.injEq]
    split
    · rename_i h; simp [h]
    · rename_i h; rw [ih]; simp [h]
  | _ => intro k; simp [locate, labelsOf]

/-- C41: if the value of the controlling expression is one of the cases of the switch, the code goes on
as the source does at that case, wherever it is in the body; otherwise at the default, if there is
one; otherwise it goes past the switch. -/
theorem C41_switch {σ : Type} {act : Nat → σ → Nat × σ} (e : E) (b : S) (prog : List I) (h : compileFunction (.switchS e b) false = some prog)
    (temps : Nat → Nat) (x : σ) (o : Outcome) (x' : σ) :
    ((eval act e x).1 ∈ casesOf b → ∃ s k, locate (.caseT (eval act e x).1) b (.switchK .stop) = some (s, k) ∧
      (Executes act prog temps x o x' ↔ Runs act (.switchS e b) s k (eval act e x).2 o x')) ∧
    ((eval act e x).1 ∉ casesOf b → dfltsOf b ≠ 0 → ∃ s k, locate .dfltT b (.switchK .stop) = some (s, k) ∧
      (Executes act prog temps x o x' ↔ Runs act (.switchS e b) s k (eval act e x).2 o x')) ∧
    ((eval act e x).1 ∉ casesOf b → dfltsOf b = 0 → (Executes act prog temps x o x' ↔ o = .fellOff ∧ x' = (eval act e x).2)) := by
  have hcalls : Calls act (.switchS e b) false x o x' ↔ Runs act (.switchS e b) (.switchS e b) .stop x o x' := by
    simp [Calls]
  rw [C59_statements _ _ h, hcalls]
  have hnext : ∀ s k, (locate (.caseT (eval act e x).1) b (.switchK .stop)).or (locate .dfltT b (.switchK .stop)) = some (s, k) →
      (Runs act (.switchS e b) (.switchS e b) .stop x o x' ↔ Runs act (.switchS e b) s k (eval act e x).2 o x') := by
    intro s k hl
    have hs : step act (.switchS e b) (.switchS e b) .stop x = .next s k (eval act e x).2 := by simp only [Spec.Stmt.step, hl]
    constructor
    · intro hr
      cases hr with
      | done _ _ _ _ _ hd => rw [hs] at hd; cases hd
      | next _ _ _ _ _ _ _ _ hd hr => rw [hs] at hd; cases hd; exact hr
    · exact fun hr => .next _ _ _ _ _ _ _ _ hs hr
  refine ⟨fun hv => ?_, fun hv hd => ?_, fun hv hd => ?_⟩
  · have hi := (locate_case (eval act e x).1 b (.switchK .stop)).mpr hv
    obtain ⟨⟨s, k⟩, hl⟩ := Option.isSome_iff_exists.mp hi
    exact ⟨s, k, hl, hnext s k (by rw [hl]; rfl)⟩
  · have hi := (locate_dflt b (.switchK .stop)).mpr hd
    obtain ⟨⟨s, k⟩, hl⟩ := Option.isSome_iff_exists.mp hi
    have hn : locate (.caseT (eval act e x).1) b (.switchK .stop) = none := by
      rw [← Option.not_isSome_iff_eq_none, locate_case]; exact hv
    exact ⟨s, k, hl, hnext s k (by rw [hn, hl]; rfl)⟩
  · have hn : locate (.caseT (eval act e x).1) b (.switchK .stop) = none := by
      rw [← Option.not_isSome_iff_eq_none, locate_case]; exact hv
    have hn' : locate .dfltT b (.switchK .stop) = none := by
      rw [← Option.not_isSome_iff_eq_none, locate_dflt]; simpa using hd
    have hs : step act (.switchS e b) (.switchS e b) .stop x = .next .skip .stop (eval act e x).2 := by simp only [Spec.Stmt.step, hn, hn']; rfl
    constructor
    · intro hr
      cases hr with
      | done _ _ _ _ _ hd => rw [hs] at hd; cases hd
      | next _ _ _ _ _ _ _ _ hd hr =>
        rw [hs] at hd; cases hd
        cases hr with
        | done _ _ _ _ _ hd => simp only [Spec.Stmt.step] at hd; cases hd; exact ⟨rfl, rfl⟩
        | next _ _ _ _ _ _ _ _ hd _ => cases hd
    · rintro ⟨rfl, rfl⟩
      exact .next _ _ _ _ _ _ _ _ hs (.done _ _ _ _ _ rfl)

/-- C41: a switch with two equal cases or two defaults is rejected. -/
theorem C41_duplicates (e : E) (b : S) (isMain : Bool) (h : ¬ (casesOf b).Nodup ∨ 1 < dfltsOf b) : compileFunction (.switchS e b) isMain = none := by
  rw [← Option.not_isSome_iff_eq_none, C59_accepted_iff]
  intro hw
  have := hw.1
  rcases h with h | h
  · exact h this.2.1
  · have := this.2.2; omega

/-- C55: in an accepted function each label is defined once and every `goto` goes on at the label
with its name. A function with a `goto` without label, or with a label twice, is rejected. -/
theorem C55_goto {σ : Type} {act : Nat → σ → Nat × σ} (body : S) (isMain : Bool) :
    (∀ n ∈ gotosOf body, n ∉ labelsOf body → compileFunction body isMain = none) ∧
    (¬ (labelsOf body).Nodup → compileFunction body isMain = none) ∧
    ∀ prog, compileFunction body isMain = some prog → (labelsOf body).Nodup ∧ ∀ n ∈ gotosOf body, ∃ s k, locate (.labelT n) body .stop = some (s, k) ∧
      ∀ k' (x : σ), step act body (.goto n) k' x = .next s k x := by
  refine ⟨fun n hg hl => ?_, fun hn => ?_, fun prog h => ?_⟩
  · rw [← Option.not_isSome_iff_eq_none, C59_accepted_iff]
    exact fun hw => hl (hw.2.2 n hg)
  · rw [← Option.not_isSome_iff_eq_none, C59_accepted_iff]
    exact fun hw => hn hw.2.1
  · have hw := (C59_accepted_iff body isMain).mp (by rw [h]; rfl)
    refine ⟨hw.2.1, fun n hn => ?_⟩
    obtain ⟨⟨s, k⟩, hl⟩ := Option.isSome_iff_exists.mp ((locate_label n body .stop).mpr (hw.2.2 n hn))
    exact ⟨s, k, hl, fun k' x => by simp only [Spec.Stmt.step, hl]⟩

/-! ## Examples -/

/-- `i = 0; do { switch(a){ case 1: if(b) case 2: f(); else break; default: l: g(); continue; } goto l; } while(c); return d;` -/
def sample : S :=
  .seq (.expr (.leaf 0)) (.seq (.doS (.seq (.switchS (.leaf 1) (.seq (.caseS 1 (.ifElse (.leaf 2) (.caseS 2 (.expr (.leaf 3))) .brk))
    (.seq (.dfltS (.label 7 (.expr (.leaf 4)))) .cont))) (.goto 7)) (.leaf 5)) (.ret (some (.andE (.leaf 6) (.leaf 7)))))

example : WellFormed sample := (C59_accepted_iff sample false).mp (by decide)

example : ∃ prog, compileFunction sample false = some prog ∧ 20 < prog.length := ⟨_, rfl, by decide⟩

/-- The state is the list of leaves evaluated so far. -/
def trace (n : Nat) (x : List Nat) : Nat × List Nat := (if n = 5 ∧ 8 ≤ x.length then 0 else n % 3, x ++ [n])

/-- Twice through the loop, into case 1, through case 2 and the default, then `return`. -/
example : ∃ prog, compileFunction sample false = some prog ∧
    ∀ temps, Executes trace prog temps [] (.returned (some 0)) [0, 1, 2, 3, 4, 5, 1, 2, 3, 4, 5, 6] := by
  refine ⟨_, rfl, fun temps => (C59_statements sample false rfl temps [] _ _).mpr ⟨.returned (some 0), ?_, by decide⟩⟩
  repeat (first | exact .done _ _ _ _ _ rfl | refine .next _ _ _ _ _ _ _ _ rfl ?_)

/-- An endless loop has no outcome. -/
example : ∃ prog, compileFunction (.whileS (.lit 1) .cont) false = some prog ∧ ∀ temps o x', ¬ Executes trace prog temps [] o x' := by
  refine ⟨_, rfl, fun temps o x' h => ?_⟩
  obtain ⟨o', h, -⟩ := (C59_statements (.whileS (.lit 1) .cont) false rfl temps [] _ _).mp h
  have : ∀ s k x o x', Runs trace (.whileS (.lit 1) .cont) s k x o x' → ¬ (s = .whileS (.lit 1) .cont ∧ k = .stop) ∧ ¬ (s = .cont ∧ k = .whileK (.lit 1) .cont .stop) := by
    intro s k x o x' h
    induction h with
    | done _ _ _ _ _ hd => constructor <;> (rintro ⟨rfl, rfl⟩; cases hd)
    | next _ _ _ _ _ _ _ _ hd _ ih =>
      constructor
      · rintro ⟨rfl, rfl⟩; cases hd; exact ih.2 ⟨rfl, rfl⟩
      · rintro ⟨rfl, rfl⟩; cases hd; exact ih.1 ⟨rfl, rfl⟩
  exact (this _ _ _ _ _ h).1 ⟨rfl, rfl⟩

example : casesOf (.seq (.caseS 3 .brk) (.whileS (.leaf 0) (.caseS 4 .skip))) = [3, 4] := rfl
example : compileFunction (.seq (.goto 1) (.whileS (.leaf 0) (.label 2 .skip))) false = none := by decide

end Verif.Props.Stmt
