import Verif.Lemmas.StmtSim

/-! # Lemmas for C59: the parts of the code of a statement -/
namespace Verif.Lemmas.Stmt
open Verif.ShortCircuit Verif.Stmt Verif.Spec.ShortCircuit Verif.Spec.Stmt Verif.Props.ShortCircuit

variable {prog : List I} {tbl : List (Nat × Nat)} {fin : Nat} {brk cont : Option Nat} {st st' : St} {pc pc2 : Nat}

/-- `At` with the counters. -/
def AtX (prog : List I) (tbl : List (Nat × Nat)) (s : S) (brk cont : Option Nat) (st st' : St) (pc pc2 : Nat) : Prop :=
  ∃ code, compileS s brk cont st = some (code, st') ∧ sub prog pc (code.map (patch tbl)) ∧ pc2 = pc + code.length ∧
    Below prog pc st.labels st.cases

theorem AtX.at {s : S} (h : AtX prog tbl s brk cont st st' pc pc2) : At prog tbl s brk cont pc pc2 :=
  let ⟨code, h1, h2, h3, h4⟩ := h
  ⟨st, st', code, h1, h2, h3, h4⟩

theorem AtX.bounds {s : S} (h : AtX prog tbl s brk cont st st' pc pc2) : Below prog pc2 st'.labels st'.cases ∧ st.labels ≤ st'.labels ∧ st.cases ≤ st'.cases := by
  obtain ⟨code, h1, h2, rfl, h4⟩ := h
  have hb := Verif.Lemmas.Stmt.bounds s _ _ _ _ _ h1
  exact ⟨h4.bounds h2 hb, hb.1, hb.2⟩

theorem below_label {nl nc l : Nat} (h : Below prog pc nl nc) (hi : prog[pc]? = some (.label l)) (hl : l < nl) : Below prog (pc + 1) nl nc :=
  h.one hi (fun l' e => by cases e; exact hl) (fun k e => by cases e)

theorem below_other {nl nc : Nat} {i : I} (h : Below prog pc nl nc) (hi : prog[pc]? = some i) (h1 : ∀ l, i ≠ .label l) (h2 : ∀ l, i ≠ .case l) : Below prog (pc + 1) nl nc :=
  h.one hi (fun l' e => absurd e (h1 l')) (fun k e => absurd e (h2 k))

theorem below_expr {e : E} {st : St} {nc : Nat} (h : Below prog pc st.labels nc) (hs : sub prog pc (exprCode e st).1) :
    Below prog (pc + (exprCode e st).1.length) (exprCode e st).2.labels nc := by
  have hb := bounds_expr e st
  exact h.code (tbl := []) (by rw [patch_expr]; exact hs) hb.1 (Nat.le_refl _) (fun l hl => (hb.3 l hl).2) (fun k hk => absurd rfl ((expr_no_case e _ _ _ hk).1 k))

theorem below_opt {e : Option E} {st : St} {nc : Nat} (h : Below prog pc st.labels nc) (hs : sub prog pc (optExprCode e st).1) :
    Below prog (pc + (optExprCode e st).1.length) (optExprCode e st).2.labels nc := by
  have hb := bounds_opt e st
  refine h.code (tbl := []) (by rw [patch_opt]; exact hs) hb.1 (Nat.le_refl _) (fun l hl => (hb.3 l hl).2) (fun k hk => ?_)
  cases e with
  | none => simp [optExprCode] at hk
  | some e => exact absurd rfl ((expr_no_case e _ _ _ (show _ ∈ (exprCode e st).1 by simpa [optExprCode] using hk)).1 k)

theorem below_cond {e : Option E} {st : St} {nc : Nat} (h : Below prog pc st.labels nc) (hs : sub prog pc (condCode e st).1) :
    Below prog (pc + (condCode e st).1.length) (condCode e st).2.labels nc := by
  have hb := bounds_cond e st
  refine h.code (tbl := []) (by rw [patch_cond]; exact hs) hb.1 (Nat.le_refl _) (fun l hl => (hb.3 l hl).2) (fun k hk => ?_)
  cases e with
  | none => simp [condCode] at hk
  | some e => exact absurd rfl ((expr_no_case e _ _ _ hk).1 k)

theorem dec_seq {a b : S} (h : AtX prog tbl (.seq a b) brk cont st st' pc pc2) :
    ∃ st1 pc1, AtX prog tbl a brk cont st st1 pc pc1 ∧ AtX prog tbl b brk cont st1 st' pc1 pc2 := by
  obtain ⟨code, h1, hs, rfl, hb⟩ := h
  simp only [compileS] at h1
  split at h1
  · cases h1
  · rename_i ca st1 e1
    split at h1
    · cases h1
    · rename_i cb st2 e2
      simp only [Option.some.injEq, Prod.mk.injEq] at h1; obtain ⟨rfl, rfl⟩ := h1
      rw [List.map_append, sub_append, List.length_map] at hs
      have hA : AtX prog tbl a brk cont st st1 pc (pc + ca.length) := ⟨ca, e1, hs.1, rfl, hb⟩
      exact ⟨st1, _, hA, cb, e2, hs.2, by simp; omega, hA.bounds.1⟩

theorem dec_ifThen {c : E} {a : S} (h : AtX prog tbl (.ifThen c a) brk cont st st' pc pc2) :
    ∃ st1 l q q2, sub prog pc (exprCode c st1).1 ∧ Below prog pc st1.labels st1.cases ∧ q = pc + (exprCode c st1).1.length ∧
      prog[q]? = some (.jumpIfFalse l) ∧ (exprCode c st1).2.table = st.table ∧ (exprCode c st1).2.switch = st.switch ∧
      AtX prog tbl a brk cont (exprCode c st1).2 st' (q + 1) q2 ∧ prog[q2]? = some (.label l) ∧ find l prog = q2 ∧ pc2 = q2 + 1 := by
  obtain ⟨code, h1, hs, rfl, hb⟩ := h
  simp only [compileS] at h1
  split at h1
  · cases h1
  · rename_i ca st1 e1
    simp only [Option.some.injEq, Prod.mk.injEq] at h1; obtain ⟨rfl, rfl⟩ := h1
    have hs0 := hs
    simp only [List.map_append, List.map_cons, List.map_nil, sub_append, sub_cons, patch_expr, List.length_map] at hs
    obtain ⟨x1, x2, x3, x4, _⟩ := hs
    have b1 : Below prog pc (st.labels + 1) st.cases := hb.mono (by omega) (by omega)
    have b2 := below_other (below_expr (st := { st with labels := st.labels + 1 }) b1 x1) x2 (by simp [patch]) (by simp [patch])
    have hA : AtX prog tbl a brk cont _ st1 _ _ := ⟨ca, e1, x3, rfl, b2⟩
    have bb := Verif.Lemmas.Stmt.bounds a _ _ _ _ _ e1
    have be := bounds_expr c { st with labels := st.labels + 1 }
    have f := find_in (i := .label st.labels) (X := (exprCode c { st with labels := st.labels + 1 }).1 ++ .jumpIfFalse st.labels :: ca) (Y := []) hb (tbl := tbl)
      (by simpa using hs0) (Or.inl ⟨_, rfl, by omega⟩) (by
        simp only [List.mem_append, List.mem_cons, reduceCtorEq, false_or, not_or]
        refine ⟨fun hm => ?_, fun hm => ?_⟩
        · have := be.3 _ hm; simp only at this; omega
        · have := bb.3 _ hm; have := be.1; simp only at this; omega)
    refine ⟨{ st with labels := st.labels + 1 }, st.labels, _, _, x1, b1, rfl, x2, rfl, rfl, hA, x4, ?_, by simp; omega⟩
    rw [find, f.2]; simp; omega

theorem dec_ifElse {c : E} {a b : S} (h : AtX prog tbl (.ifElse c a b) brk cont st st' pc pc2) :
    ∃ st1 st2 st3 l e q q2 q3, sub prog pc (exprCode c st1).1 ∧ Below prog pc st1.labels st1.cases ∧ q = pc + (exprCode c st1).1.length ∧
      prog[q]? = some (.jumpIfFalse l) ∧ (exprCode c st1).2.table = st.table ∧ (exprCode c st1).2.switch = st.switch ∧
      AtX prog tbl a brk cont (exprCode c st1).2 st2 (q + 1) q2 ∧ prog[q2]? = some (.jump e) ∧ prog[q2 + 1]? = some (.label l) ∧
      find l prog = q2 + 1 ∧ st3.table = st2.table ∧ st3.switch = st2.switch ∧ AtX prog tbl b brk cont st3 st' (q2 + 2) q3 ∧
      prog[q3]? = some (.label e) ∧ find e prog = q3 ∧ pc2 = q3 + 1 := by
  obtain ⟨code, h1, hs, rfl, hb⟩ := h
  simp only [compileS] at h1
  split at h1
  · cases h1
  · rename_i ca st1 e1
    split at h1
    · cases h1
    · rename_i cb st2 e2
      simp only [Option.some.injEq, Prod.mk.injEq] at h1; obtain ⟨rfl, rfl⟩ := h1
      have hs0 := hs
      simp only [List.map_append, List.map_cons, List.map_nil, sub_append, sub_cons, patch_expr, List.length_map] at hs
      obtain ⟨x1, x2, x3, x4, x5, x6, x7, _⟩ := hs
      have b1 : Below prog pc (st.labels + 1) st.cases := hb.mono (by omega) (by omega)
      have b2 := below_other (below_expr (st := { st with labels := st.labels + 1 }) b1 x1) x2 (by simp [patch]) (by simp [patch])
      have hA : AtX prog tbl a brk cont _ st1 _ _ := ⟨ca, e1, x3, rfl, b2⟩
      have ba := Verif.Lemmas.Stmt.bounds a _ _ _ _ _ e1
      have bb := Verif.Lemmas.Stmt.bounds b _ _ _ _ _ e2
      have be := bounds_expr c { st with labels := st.labels + 1 }
      have y1 := ba.1; have y2 := bb.1; have y3 := be.1
      simp only at y2 y3
      have b3 := below_label (below_other hA.bounds.1 x4 (by simp [patch]) (by simp [patch])) x5 (by omega)
      have hB : AtX prog tbl b brk cont _ st2 _ _ := ⟨cb, e2, x6, rfl, b3.mono (by simp) (by simp)⟩
      have f := find_in (i := .label st.labels) (X := (exprCode c { st with labels := st.labels + 1 }).1 ++ .jumpIfFalse st.labels :: ca ++ [.jump st1.labels]) (Y := cb ++ [.label st1.labels]) hb (tbl := tbl)
        (by simpa using hs0) (Or.inl ⟨_, rfl, by omega⟩) (by
          simp only [List.mem_append, List.mem_cons, reduceCtorEq, false_or, not_or, List.not_mem_nil, or_false]
          refine ⟨fun hm => ?_, fun hm => ?_⟩
          · have := be.3 _ hm; simp only at this; omega
          · have := ba.3 _ hm; omega)
      have g := find_in (i := .label st1.labels) (X := (exprCode c { st with labels := st.labels + 1 }).1 ++ .jumpIfFalse st.labels :: ca ++ [.jump st1.labels, .label st.labels] ++ cb) (Y := []) hb (tbl := tbl)
        (by simpa using hs0) (Or.inl ⟨_, rfl, by omega⟩) (by
          simp only [List.mem_append, List.mem_cons, reduceCtorEq, false_or, not_or, List.not_mem_nil, or_false, I.label.injEq]
          refine ⟨⟨⟨fun hm => ?_, fun hm => ?_⟩, by omega⟩, fun hm => ?_⟩
          · have := be.3 _ hm; simp only at this; omega
          · have := ba.3 _ hm; omega
          · have := bb.3 _ hm; simp only at this; omega)
      refine ⟨{ st with labels := st.labels + 1 }, st1, { st1 with labels := st1.labels + 1 }, st.labels, st1.labels, _, _, _, x1, b1, rfl, x2, rfl, rfl, hA, x4, x5, ?_, rfl, rfl, hB, x7, ?_, by simp; omega⟩
      · rw [find, f.2]; simp; omega
      · rw [find, g.2]; simp; omega

theorem dec_while {c : E} {b : S} (h : AtX prog tbl (.whileS c b) brk cont st st' pc pc2) :
    ∃ st1 lc lb q q2, prog[pc]? = some (.label lc) ∧ find lc prog = pc ∧ sub prog (pc + 1) (exprCode c st1).1 ∧ Below prog (pc + 1) st1.labels st1.cases ∧
      q = pc + 1 + (exprCode c st1).1.length ∧ prog[q]? = some (.jumpIfFalse lb) ∧
      (exprCode c st1).2.table = st.table ∧ (exprCode c st1).2.switch = st.switch ∧
      AtX prog tbl b (some lb) (some lc) (exprCode c st1).2 st' (q + 1) q2 ∧ prog[q2 + 1]? = some (.label lb) ∧ find lb prog = q2 + 1 ∧ pc2 = q2 + 2 ∧
      ∀ k, MK prog tbl fin k brk cont pc2 → MK prog tbl fin (.whileK c b k) (some lb) (some lc) q2 := by
  have hAt := h.at
  obtain ⟨code, h1, hs, rfl, hb⟩ := h
  simp only [compileS] at h1
  split at h1
  · cases h1
  · rename_i cb st1 e1
    simp only [Option.some.injEq, Prod.mk.injEq] at h1; obtain ⟨rfl, rfl⟩ := h1
    have hs0 := hs
    simp only [List.map_append, List.map_cons, List.map_nil, sub_append, sub_cons, patch_expr, List.length_map] at hs
    obtain ⟨x0, x1, x2, x3, x4, x5, _⟩ := hs
    have bb := Verif.Lemmas.Stmt.bounds b _ _ _ _ _ e1
    have be := bounds_expr c { st with labels := st.labels + 2 }
    have y1 := bb.1; have y3 := be.1
    simp only at y3
    have b1 : Below prog (pc + 1) (st.labels + 2) st.cases := below_label (hb.mono (by omega) (by omega)) x0 (by omega)
    have b2 := below_other (below_expr (st := { st with labels := st.labels + 2 }) b1 x1) x2 (by simp [patch]) (by simp [patch])
    have hA : AtX prog tbl b (some (st.labels + 1)) (some st.labels) _ st1 _ _ := ⟨cb, e1, x3, rfl, b2⟩
    have f := find_in (i := .label st.labels) (X := []) (Y := (exprCode c { st with labels := st.labels + 2 }).1 ++ .jumpIfFalse (st.labels + 1) :: (cb ++ [.jump st.labels, .label (st.labels + 1)])) hb (tbl := tbl)
      (by simpa using hs0) (Or.inl ⟨_, rfl, by omega⟩) (by simp)
    have g := find_in (i := .label (st.labels + 1)) (X := .label st.labels :: (exprCode c { st with labels := st.labels + 2 }).1 ++ .jumpIfFalse (st.labels + 1) :: (cb ++ [.jump st.labels])) (Y := []) hb (tbl := tbl)
      (by simpa using hs0) (Or.inl ⟨_, rfl, by omega⟩) (by
        simp only [List.mem_append, List.mem_cons, reduceCtorEq, false_or, not_or, List.not_mem_nil, or_false, I.label.injEq]
        refine ⟨⟨by omega, fun hm => ?_⟩, fun hm => ?_⟩
        · have := be.3 _ hm; simp only at this; omega
        · have := bb.3 _ hm; omega)
    have f2 : find st.labels prog = pc := f.2
    have g2 : find (st.labels + 1) prog = pc + 1 + (exprCode c { st with labels := st.labels + 2 }).1.length + 1 + cb.length + 1 := by
      rw [find, g.2]; simp; omega
    have hpc : pc + (I.label st.labels :: ((exprCode c { st with labels := st.labels + 2 }).1 ++ I.jumpIfFalse (st.labels + 1) :: (cb ++ [I.jump st.labels, I.label (st.labels + 1)]))).length
      = pc + 1 + (exprCode c { st with labels := st.labels + 2 }).1.length + 1 + cb.length + 2 := by simp; omega
    rw [hpc] at hAt ⊢
    refine ⟨{ st with labels := st.labels + 2 }, st.labels, st.labels + 1, _, _, x0, f2, x1, b1, rfl, x2, rfl, rfl, hA, x5, g2, rfl, fun k hk => ?_⟩
    exact MK.whileK x4 f2 x5 g2 hAt hk

theorem dec_do {c : E} {b : S} (h : AtX prog tbl (.doS b c) brk cont st st' pc pc2) :
    ∃ st1 st2 ll lc lb q, prog[pc]? = some (.label ll) ∧ find ll prog = pc ∧ st1.table = st.table ∧ st1.switch = st.switch ∧
      AtX prog tbl b (some lb) (some lc) st1 st2 (pc + 1) q ∧ st'.table = st2.table ∧ st'.switch = st2.switch ∧ find lc prog = q ∧
      prog[pc2 - 1]? = some (.label lb) ∧ find lb prog = pc2 - 1 ∧ 1 ≤ pc2 ∧
      ∀ k, MK prog tbl fin k brk cont pc2 → MK prog tbl fin (.doK b c k) (some lb) (some lc) q := by
  have hAt := h.at
  obtain ⟨code, h1, hs, rfl, hb⟩ := h
  simp only [compileS] at h1
  split at h1
  · cases h1
  · rename_i cb st1 e1
    simp only [Option.some.injEq, Prod.mk.injEq] at h1; obtain ⟨rfl, rfl⟩ := h1
    have hs0 := hs
    simp only [List.map_append, List.map_cons, List.map_nil, sub_append, sub_cons, patch_expr, List.length_map] at hs
    obtain ⟨x0, x1, x2, x3, x4, x5, _⟩ := hs
    have bb := Verif.Lemmas.Stmt.bounds b _ _ _ _ _ e1
    have be := bounds_expr c st1
    have y1 := bb.1; have y3 := be.1
    simp only at y1
    have b1 : Below prog (pc + 1) (st.labels + 3) st.cases := below_label (hb.mono (by omega) (by omega)) x0 (by omega)
    have hA : AtX prog tbl b (some (st.labels + 2)) (some (st.labels + 1)) { st with labels := st.labels + 3 } st1 _ _ := ⟨cb, e1, x1, rfl, b1⟩
    have b2 := below_label hA.bounds.1 x2 (by omega)
    have f := find_in (i := .label st.labels) (X := []) (Y := cb ++ .label (st.labels + 1) :: ((exprCode c st1).1 ++ [.jumpIfTrue st.labels, .label (st.labels + 2)])) hb (tbl := tbl)
      (by simpa using hs0) (Or.inl ⟨_, rfl, by omega⟩) (by simp)
    have g := find_in (i := .label (st.labels + 1)) (X := .label st.labels :: cb) (Y := (exprCode c st1).1 ++ [.jumpIfTrue st.labels, .label (st.labels + 2)]) hb (tbl := tbl)
      (by simpa using hs0) (Or.inl ⟨_, rfl, by omega⟩) (by
        simp only [List.mem_cons, not_or, I.label.injEq]
        refine ⟨by omega, fun hm => ?_⟩
        have := bb.3 _ hm; simp only at this; omega)
    have u := find_in (i := .label (st.labels + 2)) (X := .label st.labels :: cb ++ .label (st.labels + 1) :: ((exprCode c st1).1 ++ [.jumpIfTrue st.labels])) (Y := []) hb (tbl := tbl)
      (by simpa using hs0) (Or.inl ⟨_, rfl, by omega⟩) (by
        simp only [List.mem_append, List.mem_cons, reduceCtorEq, not_or, List.not_mem_nil, or_false, I.label.injEq]
        refine ⟨⟨by omega, fun hm => ?_⟩, by omega, fun hm => ?_⟩
        · have := bb.3 _ hm; simp only at this; omega
        · have := be.3 _ hm; omega)
    have f2 : find st.labels prog = pc := f.2
    have g2 : find (st.labels + 1) prog = pc + 1 + cb.length := by
      rw [find, g.2]; simp; omega
    have u2 : find (st.labels + 2) prog = pc + 1 + cb.length + 1 + (exprCode c st1).1.length + 1 := by
      rw [find, u.2]; simp; omega
    have hpc : pc + (I.label st.labels :: (cb ++ I.label (st.labels + 1) :: ((exprCode c st1).1 ++ [I.jumpIfTrue st.labels, I.label (st.labels + 2)]))).length
      = pc + 1 + cb.length + 1 + (exprCode c st1).1.length + 2 := by simp; omega
    rw [hpc] at hAt ⊢
    refine ⟨{ st with labels := st.labels + 3 }, st1, st.labels, st.labels + 1, st.labels + 2, _, x0, f2, rfl, rfl, hA, rfl, rfl, g2, x5, u2, by omega, fun k hk => ?_⟩
    exact MK.doK x2 g2 x3 b2 rfl x4 f2 x5 u2 hAt hk

theorem dec_for {i c n : Option E} {b : S} (h : AtX prog tbl (.forS i c n b) brk cont st st' pc pc2) :
    ∃ st0 st1 st2 lf lc lb q0 q q2, sub prog pc (optExprCode i st).1 ∧ Below prog pc st.labels st.cases ∧ q0 = pc + (optExprCode i st).1.length ∧
      AtX prog tbl (.forS none c n b) brk cont st0 st' q0 pc2 ∧
      prog[q0]? = some (.label lf) ∧ sub prog (q0 + 1) (condCode c st1).1 ∧ Below prog (q0 + 1) st1.labels st1.cases ∧
      q = q0 + 1 + (condCode c st1).1.length ∧ prog[q]? = some (.jumpIfFalse lb) ∧
      (condCode c st1).2.table = st.table ∧ (condCode c st1).2.switch = st.switch ∧
      AtX prog tbl b (some lb) (some lc) (condCode c st1).2 st2 (q + 1) q2 ∧ st'.table = st2.table ∧ st'.switch = st2.switch ∧ find lc prog = q2 ∧
      prog[pc2 - 1]? = some (.label lb) ∧ find lb prog = pc2 - 1 ∧ 1 ≤ pc2 ∧
      ∀ k, MK prog tbl fin k brk cont pc2 → MK prog tbl fin (.forK c n b k) (some lb) (some lc) q2 := by
  obtain ⟨code, h1, hs, rfl, hb⟩ := h
  simp only [compileS] at h1
  split at h1
  · cases h1
  · rename_i cb st2 e1
    simp only [Option.some.injEq, Prod.mk.injEq] at h1; obtain ⟨rfl, rfl⟩ := h1
    have hi0 := hs
    rw [List.map_append, patch_opt, sub_append] at hi0
    have bi := bounds_opt i st
    have hb0 : Below prog (pc + (optExprCode i st).1.length) (optExprCode i st).2.labels st.cases := below_opt hb hi0.1
    have ti := optExprCode_snd i st
    have hci : (optExprCode i st).2.cases = st.cases := by cases i <;> rfl
    have hlen : pc + ((optExprCode i st).1 ++ I.label (optExprCode i st).2.labels :: ((condCode c { (optExprCode i st).2 with labels := (optExprCode i st).2.labels + 3 }).1 ++ I.jumpIfFalse ((optExprCode i st).2.labels + 2) :: (cb ++ I.label ((optExprCode i st).2.labels + 1) :: ((optExprCode n st2).1 ++ [I.jump (optExprCode i st).2.labels, I.label ((optExprCode i st).2.labels + 2)])))).length
      = (pc + (optExprCode i st).1.length) + (I.label (optExprCode i st).2.labels :: ((condCode c { (optExprCode i st).2 with labels := (optExprCode i st).2.labels + 3 }).1 ++ I.jumpIfFalse ((optExprCode i st).2.labels + 2) :: (cb ++ I.label ((optExprCode i st).2.labels + 1) :: ((optExprCode n st2).1 ++ [I.jump (optExprCode i st).2.labels, I.label ((optExprCode i st).2.labels + 2)])))).length := by
      rw [List.length_append]; omega
    rw [hlen]
    refine ⟨(optExprCode i st).2, ?_⟩
    have hX := hi0.1
    have hs0 := hi0.2
    rw [hci.symm] at hb0
    have hgen : AtX prog tbl (.forS none c n b) brk cont (optExprCode i st).2 (optExprCode n st2).2 (pc + (optExprCode i st).1.length)
        ((pc + (optExprCode i st).1.length) + (I.label (optExprCode i st).2.labels :: ((condCode c { (optExprCode i st).2 with labels := (optExprCode i st).2.labels + 3 }).1 ++ I.jumpIfFalse ((optExprCode i st).2.labels + 2) :: (cb ++ I.label ((optExprCode i st).2.labels + 1) :: ((optExprCode n st2).1 ++ [I.jump (optExprCode i st).2.labels, I.label ((optExprCode i st).2.labels + 2)])))).length) := by
      refine ⟨_, ?_, hs0, rfl, hb0⟩
      simp only [compileS]
      rw [show optExprCode none (optExprCode i st).2 = ([], (optExprCode i st).2) from rfl]
      simp only [e1, List.nil_append]
    rw [← ti.1, ← ti.2]
    generalize pc + (optExprCode i st).1.length = p0 at *
    generalize (optExprCode i st).2 = s0 at *
    have hs := hs0
    simp only [List.map_append, List.map_cons, List.map_nil, sub_append, sub_cons, patch_opt, patch_cond, List.length_map] at hs
    obtain ⟨x0, x1, x2, x3, x4, x5, x6, x7, _⟩ := hs
    have bb := Verif.Lemmas.Stmt.bounds b _ _ _ _ _ e1
    have be := bounds_cond c { s0 with labels := s0.labels + 3 }
    have bn := bounds_opt n st2
    have y1 := bb.1; have y3 := be.1
    simp only at y3
    have b1 : Below prog (p0 + 1) (s0.labels + 3) s0.cases := below_label (hb0.mono (by omega) (by omega)) x0 (by omega)
    have b2 := below_other (below_cond (st := { s0 with labels := s0.labels + 3 }) b1 x1) x2 (by simp [patch]) (by simp [patch])
    have hcc : (condCode c { s0 with labels := s0.labels + 3 }).2.cases = s0.cases := by cases c <;> rfl
    have hA : AtX prog tbl b (some (s0.labels + 2)) (some (s0.labels + 1)) _ st2 _ _ := ⟨cb, e1, x3, rfl, by rw [hcc]; exact b2⟩
    have b3 := below_label hA.bounds.1 x4 (by omega)
    have f := find_in (i := .label s0.labels) (X := []) (Y := (condCode c { s0 with labels := s0.labels + 3 }).1 ++ .jumpIfFalse (s0.labels + 2) :: (cb ++ .label (s0.labels + 1) :: ((optExprCode n st2).1 ++ [.jump s0.labels, .label (s0.labels + 2)]))) hb0 (tbl := tbl) (by simpa using hs0) (Or.inl ⟨_, rfl, by omega⟩) (by simp)
    have g := find_in (i := .label (s0.labels + 1)) (X := .label s0.labels :: ((condCode c { s0 with labels := s0.labels + 3 }).1 ++ .jumpIfFalse (s0.labels + 2) :: cb)) (Y := (optExprCode n st2).1 ++ [.jump s0.labels, .label (s0.labels + 2)]) hb0 (tbl := tbl)
      (by simpa using hs0) (Or.inl ⟨_, rfl, by omega⟩) (by
        simp only [List.mem_append, List.mem_cons, reduceCtorEq, false_or, not_or, I.label.injEq]
        refine ⟨by omega, fun hm => ?_, fun hm => ?_⟩
        · have := be.3 _ hm; simp only at this; omega
        · have := bb.3 _ hm; omega)
    have u := find_in (i := .label (s0.labels + 2)) (X := .label s0.labels :: ((condCode c { s0 with labels := s0.labels + 3 }).1 ++ .jumpIfFalse (s0.labels + 2) :: cb) ++ .label (s0.labels + 1) :: ((optExprCode n st2).1 ++ [.jump s0.labels])) (Y := []) hb0 (tbl := tbl)
      (by simpa using hs0) (Or.inl ⟨_, rfl, by omega⟩) (by
        simp only [List.mem_append, List.mem_cons, reduceCtorEq, false_or, not_or, I.label.injEq, List.not_mem_nil, or_false]
        refine ⟨⟨by omega, fun hm => ?_, fun hm => ?_⟩, by omega, fun hm => ?_⟩
        · have := be.3 _ hm; simp only at this; omega
        · have := bb.3 _ hm; omega
        · have := bn.3 _ hm; omega)
    have f2 : find s0.labels prog = p0 := f.2
    have g2 : find (s0.labels + 1) prog = p0 + 1 + (condCode c { s0 with labels := s0.labels + 3 }).1.length + 1 + cb.length := by
      rw [find, g.2]; simp; omega
    have u2 : find (s0.labels + 2) prog = p0 + 1 + (condCode c { s0 with labels := s0.labels + 3 }).1.length + 1 + cb.length + 1 + (optExprCode n st2).1.length + 1 := by
      rw [find, u.2]; simp; omega
    have hpc : p0 + (I.label s0.labels :: ((condCode c { s0 with labels := s0.labels + 3 }).1 ++ I.jumpIfFalse (s0.labels + 2) :: (cb ++ I.label (s0.labels + 1) :: ((optExprCode n st2).1 ++ [I.jump s0.labels, I.label (s0.labels + 2)])))).length
      = p0 + 1 + (condCode c { s0 with labels := s0.labels + 3 }).1.length + 1 + cb.length + 1 + (optExprCode n st2).1.length + 2 := by simp; omega
    rw [hpc] at hgen ⊢
    have tc := condCode_snd c { s0 with labels := s0.labels + 3 }
    have tn := optExprCode_snd n st2
    refine ⟨{ s0 with labels := s0.labels + 3 }, st2, s0.labels, s0.labels + 1, s0.labels + 2, p0, _, _, hX, hb, rfl, hgen, x0, x1, b1, rfl, x2, tc.1, tc.2, hA, tn.1, tn.2, g2, x7, u2, by omega, fun k hk => ?_⟩
    exact MK.forK x4 g2 x5 b3 rfl x6 f2 x7 u2 hgen.at hk

theorem dec_switch {e : E} {b : S} (h : AtX prog tbl (.switchS e b) brk cont st st' pc pc2) :
    ∃ st2 st3 lb cs d q q2, sub prog pc (exprCode e st).1 ∧ Below prog pc st.labels st.cases ∧ q = pc + (exprCode e st).1.length ∧
      prog[q]? = some (.switch cs (d.getD lb)) ∧ st2.table = st.table ∧ st2.switch = some ([], none) ∧
      AtX prog tbl b (some lb) cont st2 st3 (q + 1) q2 ∧ st3.switch = some (cs, d) ∧ st'.table = st3.table ∧ st'.switch = st.switch ∧
      prog[q2]? = some (.label lb) ∧ find lb prog = q2 ∧ pc2 = q2 + 1 ∧
      ∀ k, MK prog tbl fin k brk cont pc2 → MK prog tbl fin (.switchK k) (some lb) cont q2 := by
  obtain ⟨code, h1, hs, rfl, hb⟩ := h
  simp only [compileS] at h1
  split at h1
  · cases h1
  · rename_i cb st3 e1
    split at h1
    · cases h1
    · rename_i cs d e2
      simp only [Option.some.injEq, Prod.mk.injEq] at h1; obtain ⟨rfl, rfl⟩ := h1
      have hs0 := hs
      simp only [List.map_append, List.map_cons, List.map_nil, sub_append, sub_cons, patch_expr, List.length_map] at hs
      obtain ⟨x1, x2, x3, x4, _⟩ := hs
      have b2 := below_other (below_expr hb x1) x2 (by simp [patch]) (by simp [patch])
      have hA : AtX prog tbl b (some (exprCode e st).2.labels) cont { (exprCode e st).2 with labels := (exprCode e st).2.labels + 1, switch := some ([], none) } st3 _ _ :=
        ⟨cb, e1, x3, rfl, b2.mono (by simp) (Nat.le_refl _)⟩
      have bb := Verif.Lemmas.Stmt.bounds b _ _ _ _ _ e1
      have be := bounds_expr e st
      have y := be.1
      have f := find_in (i := .label (exprCode e st).2.labels) (X := (exprCode e st).1 ++ .switch cs (d.getD (exprCode e st).2.labels) :: cb) (Y := []) hb (tbl := tbl)
        (by simpa using hs0) (Or.inl ⟨_, rfl, by omega⟩) (by
          simp only [List.mem_append, List.mem_cons, reduceCtorEq, false_or, not_or]
          refine ⟨fun hm => ?_, fun hm => ?_⟩
          · have := be.3 _ hm; omega
          · have := bb.3 _ hm; simp only at this; omega)
      have f2 : find (exprCode e st).2.labels prog = pc + (exprCode e st).1.length + 1 + cb.length := by
        rw [find, f.2]; simp; omega
      have hpc : pc + ((exprCode e st).1 ++ I.switch cs (d.getD (exprCode e st).2.labels) :: (cb ++ [I.label (exprCode e st).2.labels])).length
        = pc + (exprCode e st).1.length + 1 + cb.length + 1 := by simp; omega
      rw [hpc]
      refine ⟨{ (exprCode e st).2 with labels := (exprCode e st).2.labels + 1, switch := some ([], none) }, st3, _, cs, d, _, _, x1, hb, rfl, x2, rfl, rfl, hA, e2, rfl, rfl, x4, f2, rfl, fun k hk => MK.switchK x4 f2 hk⟩

theorem dec_case {v : Nat} {s : S} (h : AtX prog tbl (.caseS v s) brk cont st st' pc pc2) :
    ∃ cs d, st.switch = some (cs, d) ∧ cs.any (·.1 == v) = false ∧ prog[pc]? = some (.case st.cases) ∧ prog.findIdx (· == .case st.cases) = pc ∧
      AtX prog tbl s brk cont { st with cases := st.cases + 1, switch := some (cs ++ [(v, st.cases)], d) } st' (pc + 1) pc2 := by
  obtain ⟨code, h1, hs, rfl, hb⟩ := h
  simp only [compileS] at h1
  split at h1
  · cases h1
  · rename_i cs d e0
    split at h1
    · cases h1
    · rename_i hn
      split at h1
      · cases h1
      · rename_i cc st1 e1
        simp only [Option.some.injEq, Prod.mk.injEq] at h1; obtain ⟨rfl, rfl⟩ := h1
        have f := find_in (i := .case st.cases) (X := []) (Y := cc) hb (tbl := tbl) (by simpa using hs) (Or.inr ⟨_, rfl, by omega⟩) (by simp)
        rw [List.map_cons, sub_cons] at hs
        refine ⟨cs, d, e0, Bool.eq_false_iff.mpr hn, hs.1, f.2, cc, e1, hs.2, by simp; omega, ?_⟩
        exact (hb.mono (Nat.le_refl _) (Nat.le_succ _)).one hs.1 (fun l e => by cases e) (fun k e => by cases e; simp)

theorem dec_dflt {s : S} (h : AtX prog tbl (.dfltS s) brk cont st st' pc pc2) :
    ∃ cs, st.switch = some (cs, none) ∧ prog[pc]? = some (.label st.labels) ∧ prog.findIdx (· == .label st.labels) = pc ∧
      AtX prog tbl s brk cont { st with labels := st.labels + 1, switch := some (cs, some st.labels) } st' (pc + 1) pc2 := by
  obtain ⟨code, h1, hs, rfl, hb⟩ := h
  simp only [compileS] at h1
  split at h1
  · cases h1
  · rename_i cs d e0
    split at h1
    · cases h1
    · rename_i hn
      split at h1
      · cases h1
      · rename_i cc st1 e1
        simp only [Option.some.injEq, Prod.mk.injEq] at h1; obtain ⟨rfl, rfl⟩ := h1
        have f := find_in (i := .label st.labels) (X := []) (Y := cc) hb (tbl := tbl) (by simpa using hs) (Or.inl ⟨_, rfl, by omega⟩) (by simp)
        rw [List.map_cons, sub_cons] at hs
        have hd : d = none := by simpa using hn
        subst hd
        refine ⟨cs, e0, hs.1, f.2, cc, e1, hs.2, by simp; omega, ?_⟩
        exact below_label (hb.mono (Nat.le_succ _) (Nat.le_refl _)) hs.1 (Nat.lt_succ_self _)

theorem dec_label {n : Nat} {s : S} (h : AtX prog tbl (.label n s) brk cont st st' pc pc2) :
    st.table.any (·.1 == n) = false ∧ prog[pc]? = some (.label st.labels) ∧ prog.findIdx (· == .label st.labels) = pc ∧
      AtX prog tbl s brk cont { st with labels := st.labels + 1, table := st.table ++ [(n, st.labels)] } st' (pc + 1) pc2 := by
  obtain ⟨code, h1, hs, rfl, hb⟩ := h
  simp only [compileS] at h1
  split at h1
  · cases h1
  · rename_i hn
    split at h1
    · cases h1
    · rename_i cc st1 e1
      simp only [Option.some.injEq, Prod.mk.injEq] at h1; obtain ⟨rfl, rfl⟩ := h1
      have f := find_in (i := .label st.labels) (X := []) (Y := cc) hb (tbl := tbl) (by simpa using hs) (Or.inl ⟨_, rfl, by omega⟩) (by simp)
      rw [List.map_cons, sub_cons] at hs
      refine ⟨Bool.eq_false_iff.mpr hn, hs.1, f.2, cc, e1, hs.2, by simp; omega, ?_⟩
      exact below_label (hb.mono (Nat.le_succ _) (Nat.le_refl _)) hs.1 (Nat.lt_succ_self _)

end Verif.Lemmas.Stmt
