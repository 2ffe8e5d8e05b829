import Verif.Lemmas.StmtLocate

/-!
# C59, C41, C55: statements keep their meaning
-/
namespace Verif.Props.Stmt
open Verif.ShortCircuit Verif.Stmt Verif.Spec.ShortCircuit Verif.Spec.Stmt Verif.Props.ShortCircuit Verif.Lemmas.Stmt

variable {σ : Type} {act : Nat → σ → Nat × σ} {prog : List I} {tbl : List (Nat × Nat)} {fin : Nat}

def sizeS : S → Nat
  | .seq a b => 1 + sizeS a + sizeS b
  | _ => 1

theorem sizeS_pos (s : S) : 0 < sizeS s := by cases s <;> simp [sizeS] <;> omega

def sizeK : K → Nat
  | .stop => 0
  | .seq s k => sizeS s + sizeK k
  | .whileK _ _ k => 1 + sizeK k
  | .doK _ _ k => 1 + sizeK k
  | .forK _ _ _ k => 1 + sizeK k
  | .switchK k => 1 + sizeK k

/-- What the machine does for a step of the source. -/
def SimR (act : Nat → σ → Nat × σ) (prog : List I) (tbl : List (Nat × Nat)) (fin : Nat) (c : Cfg σ) (m : Nat) : Res σ → Prop
  | .next s' k' x' => ∃ n pc' temps', StepsN act prog n c ⟨pc', [], temps', x'⟩ ∧ MS prog tbl fin s' k' pc' ∧ (0 < n ∨ sizeS s' + sizeK k' < m)
  | .done .fellOff x' => ∃ n temps', StepsN act prog n c ⟨fin, [], temps', x'⟩
  | .done (.returned v) x' => ∃ n c', StepsN act prog n c c' ∧ Final prog c' (.returned v) x'
  | .stuck => False

theorem SimR.next {c : Cfg σ} {m : Nat} {s' k' x'} {n pc' : Nat} {temps' : Nat → Nat} (h1 : StepsN act prog n c ⟨pc', [], temps', x'⟩) (h2 : MS prog tbl fin s' k' pc')
    (h3 : 0 < n ∨ sizeS s' + sizeK k' < m) : SimR act prog tbl fin c m (.next s' k' x') := ⟨n, pc', temps', h1, h2, h3⟩

/-- Where `goto` leads. -/
def Gotos (prog : List I) (tbl : List (Nat × Nat)) (fin : Nat) (body : S) : Prop :=
  ∀ n, match locate (.labelT n) body .stop with
    | some (s', k') => ∃ l p, (tbl.find? (·.1 == n)).map (·.2) = some l ∧ prog[p]? = some (.label l) ∧ find l prog = p ∧ MS prog tbl fin s' k' (p + 1)
    | none => tbl.find? (·.1 == n) = none

theorem at_skip {brk cont pc pc2} (h : At prog tbl .skip brk cont pc pc2) : pc2 = pc := by
  obtain ⟨st, st', code, h1, _, h3, _⟩ := h
  simp only [compileS, Option.some.injEq, Prod.mk.injEq] at h1
  rw [h3, ← h1.1]; simp

theorem at_x {s : S} {brk cont pc pc2} (h : At prog tbl s brk cont pc pc2) : ∃ st st', AtX prog tbl s brk cont st st' pc pc2 :=
  let ⟨st, st', code, h⟩ := h
  ⟨st, st', code, h⟩

theorem step_label {pc l : Nat} (h : prog[pc]? = some (.label l)) (s : List Entry) (temps : Nat → Nat) (x : σ) :
    StepsN act prog 1 ⟨pc, s, temps, x⟩ ⟨pc + 1, s, temps, x⟩ := .one h rfl

theorem step_jump {pc l p : Nat} (h : prog[pc]? = some (.jump l)) (hp : find l prog = p) (s : List Entry) (temps : Nat → Nat) (x : σ) :
    StepsN act prog 1 ⟨pc, s, temps, x⟩ ⟨p, s, temps, x⟩ := .one h (by simp only [exec, hp])

theorem step_jif_taken {pc l p : Nat} (h : prog[pc]? = some (.jumpIfFalse l)) (hp : find l prog = p) (e : Entry) (s : List Entry) (temps : Nat → Nat) (x : σ)
    (h0 : deref temps e = 0) : StepsN act prog 1 ⟨pc, e :: s, temps, x⟩ ⟨p, s, temps, x⟩ := .one h (by simp only [exec, hp, if_pos h0])

theorem step_jif_not {pc l : Nat} (h : prog[pc]? = some (.jumpIfFalse l)) (e : Entry) (s : List Entry) (temps : Nat → Nat) (x : σ)
    (h0 : ¬ deref temps e = 0) : StepsN act prog 1 ⟨pc, e :: s, temps, x⟩ ⟨pc + 1, s, temps, x⟩ := .one h (by simp only [exec, if_neg h0])

theorem step_jit_taken {pc l p : Nat} (h : prog[pc]? = some (.jumpIfTrue l)) (hp : find l prog = p) (e : Entry) (s : List Entry) (temps : Nat → Nat) (x : σ)
    (h0 : ¬ deref temps e = 0) : StepsN act prog 1 ⟨pc, e :: s, temps, x⟩ ⟨p, s, temps, x⟩ := .one h (by simp only [exec, hp, if_neg h0])

theorem step_jit_not {pc l : Nat} (h : prog[pc]? = some (.jumpIfTrue l)) (e : Entry) (s : List Entry) (temps : Nat → Nat) (x : σ)
    (h0 : deref temps e = 0) : StepsN act prog 1 ⟨pc, e :: s, temps, x⟩ ⟨pc + 1, s, temps, x⟩ := .one h (by simp only [exec, if_pos h0])

/-- After `break` or the end of a loop: the label, then the rest. -/
theorem ms_skip {k brk cont pc} (h : MK prog tbl fin k brk cont pc) : MS prog tbl fin .skip k pc := MS.skip' h

theorem sim_skip {k pc} (body : S) (h : MS prog tbl fin .skip k pc) (temps : Nat → Nat) (x : σ) :
    SimR act prog tbl fin ⟨pc, [], temps, x⟩ (sizeS .skip + sizeK k) (Spec.Stmt.step act body .skip k x) := by
  obtain ⟨brk, cont, pc2, hA, hK⟩ := h
  rw [at_skip hA] at hK
  obtain ⟨pc', hs, hh⟩ := hK.norm
  obtain ⟨n, hn⟩ := hs.steps (act := act) [] temps x
  cases k with
  | stop => obtain ⟨_, _, rfl⟩ := hh; exact ⟨n, temps, hn⟩
  | seq s k =>
    obtain ⟨pc2, h1, h2⟩ := hh
    exact .next hn (.code _ _ _ h1 h2) (Or.inr (by simp [sizeK, sizeS]))
  | whileK c b k =>
    obtain ⟨brk', cont', pw, lc, lb, rfl, rfl, h1, h2, h3, h4, h5, h6⟩ := hh
    exact .next (hn.trans (step_jump h1 h2 _ _ _)) (.code _ _ _ h5 h6) (Or.inl (by omega))
  | doK b c k =>
    obtain ⟨brk', cont', pl, q, lc, lb, ll, st, nc, rfl, rfl, h1, h2, h3, h4, rfl, h6, h7, h8, h9, h10, h11⟩ := hh
    obtain ⟨m, temps', top, _, hm, hd⟩ := eval_at (act := act) h3 h4 [] temps x
    have h12 := (hn.trans (step_label h1 [] temps x)).trans hm
    simp only [Spec.Stmt.step]
    by_cases h0 : (eval act c x).1 = 0
    · rw [if_pos h0]
      exact .next ((h12.trans (step_jit_not h6 top [] temps' _ (by rw [hd]; exact h0))).trans (step_label h8 _ _ _)) (ms_skip h11) (Or.inl (by omega))
    · rw [if_neg h0]
      exact .next (h12.trans (step_jit_taken h6 h7 top [] temps' _ (by rw [hd]; exact h0))) (.code _ _ _ h10 h11) (Or.inl (by omega))
  | forK c e b k =>
    obtain ⟨brk', cont', pf, q, lc, lb, lf, st, nc, rfl, rfl, h1, h2, h3, h4, rfl, h6, h7, h8, h9, h10, h11⟩ := hh
    obtain ⟨m, temps', hm, _⟩ := opt_at (act := act) h3 h4 [] temps x
    exact .next (((hn.trans (step_label h1 [] temps x)).trans hm).trans (step_jump h6 h7 _ _ _)) (.code _ _ _ h10 h11) (Or.inl (by omega))
  | switchK k =>
    obtain ⟨brk', lb, rfl, h1, h2, h3⟩ := hh
    exact .next (hn.trans (step_label h1 _ _ _)) (ms_skip h3) (Or.inl (by omega))

theorem ms_brk {k pc} (h : MS prog tbl fin .brk k pc) : ∃ l cont pc2, prog[pc]? = some (.jump l) ∧ MK prog tbl fin k (some l) cont pc2 := by
  cases h with
  | code brk cont pc2 hA hK =>
    obtain ⟨st, st', code, h1, h2, _⟩ := hA
    simp only [compileS, Option.map_eq_some_iff, Prod.mk.injEq] at h1
    obtain ⟨l, rfl, rfl, rfl⟩ := h1
    exact ⟨l, cont, pc2, (sub_cons.mp h2).1, hK⟩
  | brk l cont pc2 h1 h2 => exact ⟨l, cont, pc2, h1, h2⟩

theorem ms_cont {k pc} (h : MS prog tbl fin .cont k pc) : ∃ l brk pc2, prog[pc]? = some (.jump l) ∧ MK prog tbl fin k brk (some l) pc2 := by
  cases h with
  | code brk cont pc2 hA hK =>
    obtain ⟨st, st', code, h1, h2, _⟩ := hA
    simp only [compileS, Option.map_eq_some_iff, Prod.mk.injEq] at h1
    obtain ⟨l, rfl, rfl, rfl⟩ := h1
    exact ⟨l, brk, pc2, (sub_cons.mp h2).1, hK⟩
  | cont l cont pc2 h1 h2 => exact ⟨l, cont, pc2, h1, h2⟩

theorem sim_brk {k pc} (body : S) (h : MS prog tbl fin .brk k pc) (temps : Nat → Nat) (x : σ) :
    SimR act prog tbl fin ⟨pc, [], temps, x⟩ (sizeS .brk + sizeK k) (Spec.Stmt.step act body .brk k x) := by
  obtain ⟨l, cont, pc2, hj, hK⟩ := ms_brk h
  obtain ⟨pc', hs, hh⟩ := hK.norm
  cases k with
  | stop => cases hh.1
  | seq s k =>
    obtain ⟨pc3, h1, h2⟩ := hh
    exact .next (.zero _) (.brk l cont pc3 hj h2) (Or.inr (by have := sizeS_pos s; simp only [sizeK, sizeS]; omega))
  | whileK c b k =>
    obtain ⟨brk', cont', pw, lc, lb, e1, rfl, h1, h2, h3, h4, h5, h6⟩ := hh
    cases e1
    exact .next ((step_jump hj h4 _ _ _).trans (step_label h3 _ _ _)) (ms_skip h6) (Or.inl (by omega))
  | doK b c k =>
    obtain ⟨brk', cont', pl, q, lc, lb, ll, st, nc, e1, rfl, h1, h2, h3, h4, rfl, h6, h7, h8, h9, h10, h11⟩ := hh
    cases e1
    exact .next ((step_jump hj h9 _ _ _).trans (step_label h8 _ _ _)) (ms_skip h11) (Or.inl (by omega))
  | forK c e b k =>
    obtain ⟨brk', cont', pf, q, lc, lb, lf, st, nc, e1, rfl, h1, h2, h3, h4, rfl, h6, h7, h8, h9, h10, h11⟩ := hh
    cases e1
    exact .next ((step_jump hj h9 _ _ _).trans (step_label h8 _ _ _)) (ms_skip h11) (Or.inl (by omega))
  | switchK k =>
    obtain ⟨brk', lb, e1, h1, h2, h3⟩ := hh
    cases e1
    exact .next ((step_jump hj h2 _ _ _).trans (step_label h1 _ _ _)) (ms_skip h3) (Or.inl (by omega))

theorem sim_cont {k pc} (body : S) (h : MS prog tbl fin .cont k pc) (temps : Nat → Nat) (x : σ) :
    SimR act prog tbl fin ⟨pc, [], temps, x⟩ (sizeS .cont + sizeK k) (Spec.Stmt.step act body .cont k x) := by
  obtain ⟨l, brk, pc2, hj, hK⟩ := ms_cont h
  obtain ⟨pc', hs, hh⟩ := hK.norm
  cases k with
  | stop => cases hh.2.1
  | seq s k =>
    obtain ⟨pc3, h1, h2⟩ := hh
    exact .next (.zero _) (.cont l brk pc3 hj h2) (Or.inr (by have := sizeS_pos s; simp only [sizeK, sizeS]; omega))
  | whileK c b k =>
    obtain ⟨brk', cont', pw, lc, lb, rfl, e1, h1, h2, h3, h4, h5, h6⟩ := hh
    cases e1
    exact .next (step_jump hj h2 _ _ _) (.code _ _ _ h5 h6) (Or.inl (by omega))
  | doK b c k =>
    obtain ⟨brk', cont', pl, q, lc, lb, ll, st, nc, rfl, e1, h1, h2, h3, h4, rfl, h6, h7, h8, h9, h10, h11⟩ := hh
    cases e1
    exact .next (step_jump hj h2 _ _ _) (ms_skip (.doK h1 h2 h3 h4 rfl h6 h7 h8 h9 h10 h11)) (Or.inl (by omega))
  | forK c e b k =>
    obtain ⟨brk', cont', pf, q, lc, lb, lf, st, nc, rfl, e1, h1, h2, h3, h4, rfl, h6, h7, h8, h9, h10, h11⟩ := hh
    cases e1
    exact .next (step_jump hj h2 _ _ _) (ms_skip (.forK h1 h2 h3 h4 rfl h6 h7 h8 h9 h10 h11)) (Or.inl (by omega))
  | switchK k =>
    obtain ⟨brk', lb, rfl, h1, h2, h3⟩ := hh
    exact .next (.zero _) (.cont l brk' (pc' + 1) hj h3) (Or.inr (by simp only [sizeK, sizeS]; omega))

theorem step_switch {pc p : Nat} {cs d} (h : prog[pc]? = some (.switch cs d)) (e : Entry) (s : List Entry) (temps : Nat → Nat) (x : σ)
    (hp : (match cs.find? (·.1 == deref temps e) with | some y => prog.findIdx (· == .case y.2) | none => find d prog) = p) :
    StepsN act prog 1 ⟨pc, e :: s, temps, x⟩ ⟨p, s, temps, x⟩ := by
  refine .one h ?_
  simp only [exec]
  split at hp
  · rename_i y hy; rw [hy]; simp only [hp]
  · rename_i hy; rw [hy]; simp only [hp]

/-- The node a switch jumps to: the first case of that value, else the default, else the end. -/
theorem sim_switch {e : E} {b : S} {k pc} (body : S) (h : MS prog tbl fin (.switchS e b) k pc) (temps : Nat → Nat) (x : σ) :
    SimR act prog tbl fin ⟨pc, [], temps, x⟩ (sizeS (.switchS e b) + sizeK k) (Spec.Stmt.step act body (.switchS e b) k x) := by
  obtain ⟨brk, cont, pc2, hA, hK⟩ := h
  obtain ⟨st, st', hA⟩ := at_x hA
  obtain ⟨st2, st3, lb, cs, d, q, q2, h1, h2, rfl, h4, t1, t2, hB, t3, t4, t5, h6, h7, rfl, hS⟩ := dec_switch (fin := fin) hA
  obtain ⟨m, temps', top, _, hm, hd⟩ := eval_at (act := act) h1 h2 [] temps x
  have F := fun t => (locate_spec b _ _ _ _ _ _ hB).2 t (.switchK k) (hS k hK)
  have fc := F (.caseT (eval act e x).1)
  have fd := F .dfltT
  simp only [Spec.Stmt.step]
  -- tables of the switch
  have lc : lookup st3 (.caseT (eval act e x).1) = (cs.find? (·.1 == (eval act e x).1)).map fun y => .case y.2 := by
    simp only [lookup, t3, Option.bind_some]
  have ld : lookup st3 .dfltT = d.map .label := by simp only [lookup, t3, Option.bind_some]
  have nc : lookup st2 (.caseT (eval act e x).1) = none := by simp [lookup, t2]
  have nd : lookup st2 .dfltT = none := by simp [lookup, t2]
  cases hc : locate (.caseT (eval act e x).1) b (.switchK k) with
  | some y =>
    obtain ⟨s', k'⟩ := y
    rw [hc] at fc
    obtain ⟨i, p, f1, f2, f3, f4⟩ := fc
    rw [lc, Option.map_eq_some_iff] at f1
    obtain ⟨y, f1, rfl⟩ := f1
    simp only [Option.some_or]
    refine .next ((hm.trans (step_switch h4 top [] temps' _ (p := p) ?_)).trans (.one f2 rfl)) f4 (Or.inl (by omega))
    rw [hd, f1]; exact f3
  | none =>
    rw [hc] at fc
    have f1 : cs.find? (·.1 == (eval act e x).1) = none := by
      have : lookup st3 (.caseT (eval act e x).1) = none := by rw [show lookup st3 _ = lookup st2 _ from fc]; exact nc
      rw [lc] at this; simpa using this
    simp only [Option.none_or]
    cases hdf : locate .dfltT b (.switchK k) with
    | some y =>
      obtain ⟨s', k'⟩ := y
      rw [hdf] at fd
      obtain ⟨i, p, g1, g2, g3, g4⟩ := fd
      rw [ld, Option.map_eq_some_iff] at g1
      obtain ⟨l, rfl, rfl⟩ := g1
      refine .next ((hm.trans (step_switch h4 top [] temps' _ (p := p) ?_)).trans (.one g2 rfl)) g4 (Or.inl (by omega))
      rw [hd, f1]; exact g3
    | none =>
      rw [hdf] at fd
      have g1 : d = none := by
        have : lookup st3 .dfltT = none := by rw [show lookup st3 _ = lookup st2 _ from fd]; exact nd
        rw [ld] at this; simpa using this
      subst g1
      refine .next ((hm.trans (step_switch h4 top [] temps' _ (p := q2) ?_)).trans (step_label h6 _ _ _)) (ms_skip hK) (Or.inl (by omega))
      rw [hd, f1]; exact h7

theorem sim {s k pc} {body : S} (hG : Gotos prog tbl fin body) (hng : ∀ n, .goto n ∉ prog) (h : MS prog tbl fin s k pc) (temps : Nat → Nat) (x : σ) :
    SimR act prog tbl fin ⟨pc, [], temps, x⟩ (sizeS s + sizeK k) (Spec.Stmt.step act body s k x) := by
  cases s with
  | skip => exact sim_skip body h temps x
  | brk => exact sim_brk body h temps x
  | cont => exact sim_cont body h temps x
  | switchS e b => exact sim_switch body h temps x
  | expr e =>
    obtain ⟨brk, cont, pc2, hA, hK⟩ := h
    obtain ⟨st, st', code, h1, h2, rfl, h4⟩ := hA
    simp only [compileS, Option.some.injEq, Prod.mk.injEq] at h1
    obtain ⟨rfl, rfl⟩ := h1
    simp only [List.map_append, patch_expr, List.map_cons, sub_append, sub_cons] at h2
    obtain ⟨m, temps', top, _, hm, _⟩ := eval_at (act := act) h2.1 h4 [] temps x
    refine .next (hm.trans (.one (i := .pop) h2.2.1 (c' := ⟨pc + (exprCode e st).1.length + 1, [], temps', (eval act e x).2⟩) rfl)) (ms_skip (brk := brk) (cont := cont) ?_) (Or.inl (by omega))
    simpa [Nat.add_assoc] using hK
  | seq a b =>
    obtain ⟨brk, cont, pc2, hA, hK⟩ := h
    obtain ⟨st, st', hA⟩ := at_x hA
    obtain ⟨st1, pc1, h1, h2⟩ := dec_seq hA
    exact .next (.zero _) (.code _ _ _ h1.at (.seq h2.at hK)) (Or.inr (by simp only [sizeS, sizeK]; omega))
  | ifThen c a =>
    obtain ⟨brk, cont, pc2, hA, hK⟩ := h
    obtain ⟨st, st', hA⟩ := at_x hA
    obtain ⟨st1, l, q, q2, h1, h2, rfl, h3, _, _, hB, hl, hf, rfl⟩ := dec_ifThen hA
    obtain ⟨m, temps', top, _, hm, hd⟩ := eval_at (act := act) h1 h2 [] temps x
    simp only [Spec.Stmt.step]
    by_cases h0 : (eval act c x).1 = 0
    · rw [if_pos h0]
      exact .next ((hm.trans (step_jif_taken h3 hf top [] temps' _ (by rw [hd]; exact h0))).trans (step_label hl _ _ _)) (ms_skip hK) (Or.inl (by omega))
    · rw [if_neg h0]
      exact .next (hm.trans (step_jif_not h3 top [] temps' _ (by rw [hd]; exact h0))) (.code _ _ _ hB.at (.label hl hK)) (Or.inl (by omega))
  | ifElse c a b =>
    obtain ⟨brk, cont, pc2, hA, hK⟩ := h
    obtain ⟨st, st', hA⟩ := at_x hA
    obtain ⟨st1, st2, st3, l, e, q, q2, q3, h1, h2, rfl, h3, t1, t2, hC, hj, hl, hfl, t3, t4, hB, he, hfe, rfl⟩ := dec_ifElse hA
    obtain ⟨m, temps', top, _, hm, hd⟩ := eval_at (act := act) h1 h2 [] temps x
    simp only [Spec.Stmt.step]
    by_cases h0 : (eval act c x).1 = 0
    · rw [if_pos h0]
      exact .next ((hm.trans (step_jif_taken h3 hfl top [] temps' _ (by rw [hd]; exact h0))).trans (step_label hl _ _ _)) (.code _ _ _ hB.at (.label he hK)) (Or.inl (by omega))
    · rw [if_neg h0]
      exact .next (hm.trans (step_jif_not h3 top [] temps' _ (by rw [hd]; exact h0))) (.code _ _ _ hC.at (.jump hj hfe (.label he hK))) (Or.inl (by omega))
  | whileS c b =>
    obtain ⟨brk, cont, pc2, hA, hK⟩ := h
    obtain ⟨st, st', hA⟩ := at_x hA
    obtain ⟨st1, lc, lb, q, q2, h0l, _, h1, h2, rfl, h3, _, _, hB, hl, hf, rfl, hW⟩ := dec_while (fin := fin) hA
    obtain ⟨m, temps', top, _, hm, hd⟩ := eval_at (act := act) h1 h2 [] temps x
    have hm := (step_label h0l [] temps x).trans hm
    simp only [Spec.Stmt.step]
    by_cases h0 : (eval act c x).1 = 0
    · rw [if_pos h0]
      exact .next ((hm.trans (step_jif_taken h3 hf top [] temps' _ (by rw [hd]; exact h0))).trans (step_label hl _ _ _)) (ms_skip hK) (Or.inl (by omega))
    · rw [if_neg h0]
      exact .next (hm.trans (step_jif_not h3 top [] temps' _ (by rw [hd]; exact h0))) (.code _ _ _ hB.at (hW k hK)) (Or.inl (by omega))
  | doS b c =>
    obtain ⟨brk, cont, pc2, hA, hK⟩ := h
    obtain ⟨st, st', hA⟩ := at_x hA
    obtain ⟨st1, st2, ll, lc, lb, q, h0l, _, _, _, hB, _, _, _, _, _, _, hD⟩ := dec_do (fin := fin) hA
    exact .next (step_label h0l _ _ _) (.code _ _ _ hB.at (hD k hK)) (Or.inl (by omega))
  | forS i c n b =>
    obtain ⟨brk, cont, pc2, hA, hK⟩ := h
    obtain ⟨st, st', hA⟩ := at_x hA
    obtain ⟨st0, st1, st2, lf, lc, lb, q0, q, q2, hi, hbi, rfl, hfor, h0l, h1, h2, rfl, h3, _, _, hB, _, _, _, hl, hf, hp, hF⟩ := dec_for (fin := fin) hA
    cases i with
    | some e =>
      obtain ⟨m, temps', hm, hpos⟩ := opt_at (act := act) hi hbi [] temps x
      refine .next hm (.code _ _ _ hfor.at hK) (Or.inl ?_)
      rcases hpos with h | h
      · exact h
      · cases h
    | none =>
      simp only [optExprCode, List.length_nil, Nat.add_zero] at h0l h1 h2 h3 hB
      obtain ⟨m, temps', top, _, hm, hd⟩ := cond_at (act := act) h1 h2 [] temps x
      have hm := (step_label h0l [] temps x).trans hm
      simp only [Spec.Stmt.step]
      by_cases h0 : (evalOpt act c x).1 = 0
      · rw [if_pos h0]
        refine .next ((hm.trans (step_jif_taken h3 hf top [] temps' _ (by rw [hd]; exact h0))).trans (step_label hl _ _ _)) ?_ (Or.inl (by omega))
        rw [show pc2 - 1 + 1 = pc2 by omega]
        exact ms_skip hK
      · rw [if_neg h0]
        exact .next (hm.trans (step_jif_not h3 top [] temps' _ (by rw [hd]; exact h0))) (.code _ _ _ hB.at (hF k hK)) (Or.inl (by omega))
  | caseS v s =>
    obtain ⟨brk, cont, pc2, hA, hK⟩ := h
    obtain ⟨st, st', hA⟩ := at_x hA
    obtain ⟨cs, d, _, _, h1, _, hB⟩ := dec_case hA
    exact .next (.one h1 rfl) (.code _ _ _ hB.at hK) (Or.inl (by omega))
  | dfltS s =>
    obtain ⟨brk, cont, pc2, hA, hK⟩ := h
    obtain ⟨st, st', hA⟩ := at_x hA
    obtain ⟨cs, _, h1, _, hB⟩ := dec_dflt hA
    exact .next (.one h1 rfl) (.code _ _ _ hB.at hK) (Or.inl (by omega))
  | label n s =>
    obtain ⟨brk, cont, pc2, hA, hK⟩ := h
    obtain ⟨st, st', hA⟩ := at_x hA
    obtain ⟨_, h1, _, hB⟩ := dec_label hA
    exact .next (.one h1 rfl) (.code _ _ _ hB.at hK) (Or.inl (by omega))
  | goto n =>
    obtain ⟨brk, cont, pc2, hA, hK⟩ := h
    obtain ⟨st, st', code, h1, h2, rfl, h4⟩ := hA
    simp only [compileS, Option.some.injEq, Prod.mk.injEq] at h1
    obtain ⟨rfl, rfl⟩ := h1
    have hi := (sub_cons.mp h2).1
    have hg := hG n
    simp only [Spec.Stmt.step]
    cases hl : locate (.labelT n) body .stop with
    | some y =>
      obtain ⟨s', k'⟩ := y
      rw [hl] at hg
      obtain ⟨l, p, g1, g2, g3, g4⟩ := hg
      rw [Option.map_eq_some_iff] at g1
      obtain ⟨y, g1, rfl⟩ := g1
      simp only [patch, g1] at hi
      exact .next ((step_jump hi g3 _ _ _).trans (step_label g2 _ _ _)) g4 (Or.inl (by omega))
    | none =>
      rw [hl] at hg
      simp only at hg
      simp only [patch, hg] at hi
      exact absurd (List.mem_of_getElem? hi) (hng n)
  | ret e =>
    obtain ⟨brk, cont, pc2, hA, hK⟩ := h
    obtain ⟨st, st', code, h1, h2, rfl, h4⟩ := hA
    cases e with
    | none =>
      simp only [compileS, Option.some.injEq, Prod.mk.injEq] at h1
      obtain ⟨rfl, rfl⟩ := h1
      exact ⟨0, _, .zero _, rfl, (sub_cons.mp h2).1⟩
    | some e =>
      simp only [compileS, Option.some.injEq, Prod.mk.injEq] at h1
      obtain ⟨rfl, rfl⟩ := h1
      simp only [List.map_append, patch_expr, List.map_cons, sub_append, sub_cons] at h2
      obtain ⟨m, temps', top, _, hm, hd⟩ := eval_at (act := act) h2.1 h4 [] temps x
      exact ⟨m, _, hm, rfl, h2.2.1, top, [], rfl, hd⟩

/-! ## Whole functions -/

theorem final_stops {c : Cfg σ} {o : Outcome} {x : σ} (h : Final prog c o x) : Spec.ShortCircuit.step act prog c = none := by
  obtain ⟨_, h⟩ := h
  cases o with
  | fellOff => simp only at h; simp [Spec.ShortCircuit.step, h]
  | returned v =>
    cases v with
    | none => simp only at h; simp [Spec.ShortCircuit.step, h, exec]
    | some v => simp only at h; simp [Spec.ShortCircuit.step, h.1, exec]

theorem final_unique {c : Cfg σ} {o o' : Outcome} {x x' : σ} (h : Final prog c o x) (h' : Final prog c o' x') : o = o' ∧ x = x' := by
  obtain ⟨e, h⟩ := h
  obtain ⟨e', h'⟩ := h'
  refine ⟨?_, by rw [← e, ← e']⟩
  have hlen : ∀ {i}, c.pc = prog.length → prog[c.pc]? = some i → False := by
    intro i h1 h2; rw [h1] at h2; simp at h2
  cases o with
  | fellOff =>
    cases o' with
    | fellOff => rfl
    | returned v => cases v with
      | none => exact (hlen h h').elim
      | some v => exact (hlen h h'.1).elim
  | returned v =>
    cases v with
    | none =>
      cases o' with
      | fellOff => exact (hlen h' h).elim
      | returned v' => cases v' with
        | none => rfl
        | some v' => simp only at h h'; rw [h] at h'; simp at h'
    | some v =>
      cases o' with
      | fellOff => exact (hlen h' h.1).elim
      | returned v' => cases v' with
        | none => simp only at h h'; rw [h'] at h; simp at h
        | some v' =>
          obtain ⟨_, e1, s1, k1, d1⟩ := h
          obtain ⟨_, e2, s2, k2, d2⟩ := h'
          rw [k1] at k2; cases k2
          rw [← d1, ← d2]

/-- The set-up of a compiled function. -/
structure Ready (prog : List I) (tbl : List (Nat × Nat)) (fin : Nat) (body : S) (isMain : Bool) : Prop where
  gotos : Gotos prog tbl fin body
  no_goto : ∀ n, .goto n ∉ prog
  start : MS prog tbl fin body .stop 0
  fin : if isMain then prog[fin]? = some (.lit 0) ∧ prog[fin + 1]? = some (.ret true) else fin = prog.length

theorem any_goto {code : List I} (h : (code.any fun | .goto _ => true | _ => false) = false) (n : Nat) : I.goto n ∉ code := by
  intro hm
  rw [List.any_eq_false] at h
  exact h _ hm rfl

theorem ready {body : S} {isMain : Bool} (h : compileFunction body isMain = some prog) : ∃ tbl fin, Ready prog tbl fin body isMain := by
  simp only [compileFunction] at h
  split at h
  · cases h
  · rename_i code st hc
    split at h
    · cases h
    · rename_i hg
      simp only [Option.some.injEq] at h
      have hs : sub prog 0 (code.map (patch st.table)) := by
        rw [← h]
        intro i hi
        rw [Nat.zero_add, List.getElem?_append_left hi]
      have hA : AtX prog st.table body none none ⟨0, 0, 0, [], none⟩ st 0 code.length := by
        refine ⟨code, hc, hs, by omega, ?_⟩
        intro j x hj; omega
      refine ⟨st.table, code.length, ?_, ?_, .code none none _ hA.at .stop, ?_⟩
      · intro n
        have := (locate_spec (fin := code.length) body _ _ _ _ _ _ hA).2 (.labelT n) .stop .stop
        split
        · rename_i s' k' hl
          rw [hl] at this
          obtain ⟨i, p, h1, h2, h3, h4⟩ := this
          simp only [lookup, Option.map_eq_some_iff] at h1
          obtain ⟨y, h1, rfl⟩ := h1
          exact ⟨y.2, p, by rw [h1]; rfl, h2, h3, h4⟩
        · rename_i hl
          rw [hl] at this
          simpa [Found, lookup] using this
      · intro n hm
        rw [← h, List.mem_append] at hm
        rcases hm with hm | hm
        · exact any_goto (Bool.eq_false_iff.mpr hg) n hm
        · cases isMain <;> simp at hm
      · cases isMain with
        | false => simp only [Bool.false_eq_true, if_false, List.append_nil] at h ⊢; rw [← h]; simp
        | true =>
          simp only [if_true] at h ⊢
          rw [← h]
          constructor
          · rw [List.getElem?_append_right (by simp)]; simp
          · rw [List.getElem?_append_right (by simp)]; simp

/-- The outcome of the call for the outcome of the body. -/
def outcome (isMain : Bool) (o : Outcome) : Outcome := if isMain ∧ o = .fellOff then .returned (some 0) else o

theorem end_final {body : S} {isMain : Bool} (hR : Ready prog tbl fin body isMain) (temps : Nat → Nat) (x : σ) :
    ∃ n c, StepsN act prog n ⟨fin, [], temps, x⟩ c ∧ Final prog c (outcome isMain .fellOff) x := by
  have hf := hR.fin
  cases isMain with
  | false =>
    simp only [Bool.false_eq_true, if_false] at hf
    exact ⟨0, _, .zero _, rfl, hf⟩
  | true =>
    simp only [if_true] at hf
    refine ⟨1, ⟨fin + 1, [.val 0], temps, x⟩, .one hf.1 rfl, rfl, hf.2, .val 0, [], rfl, rfl⟩

/-- What the simulation gives for one source step, as a dichotomy. -/
theorem sim_done {s k pc} {body : S} {isMain : Bool} (hR : Ready prog tbl fin body isMain) (h : MS prog tbl fin s k pc) (temps : Nat → Nat) (x : σ) {o x'}
    (hd : Spec.Stmt.step act body s k x = .done o x') : ∃ n c, StepsN act prog n ⟨pc, [], temps, x⟩ c ∧ Final prog c (outcome isMain o) x' := by
  have hs := sim (act := act) hR.gotos hR.no_goto h temps x
  rw [hd] at hs
  cases o with
  | fellOff =>
    obtain ⟨n, temps', hn⟩ := hs
    obtain ⟨m, c, hm, hf⟩ := end_final (act := act) hR temps' x'
    exact ⟨n + m, c, hn.trans hm, hf⟩
  | returned v =>
    obtain ⟨n, c, hn, hf⟩ := hs
    exact ⟨n, c, hn, by simpa [outcome] using hf⟩

theorem forward {body : S} {isMain : Bool} (hR : Ready prog tbl fin body isMain) {s k x o x'} (h : Runs act body s k x o x') :
    ∀ pc temps, MS prog tbl fin s k pc → ∃ n c, StepsN act prog n ⟨pc, [], temps, x⟩ c ∧ Final prog c (outcome isMain o) x' := by
  induction h with
  | done s k st o st' hd => intro pc temps hS; exact sim_done hR hS temps st hd
  | next s k st s' k' st' o st'' hn _ ih =>
    intro pc temps hS
    have hs := sim (act := act) hR.gotos hR.no_goto hS temps st
    rw [hn] at hs
    obtain ⟨n, pc', temps', h1, h2, _⟩ := hs
    obtain ⟨m, c, h3, h4⟩ := ih pc' temps' h2
    exact ⟨n + m, c, h1.trans h3, h4⟩

/-- If the machine ends, so does the source. -/
theorem backward {body : S} {isMain : Bool} (hR : Ready prog tbl fin body isMain) :
    ∀ (N m : Nat) s k pc temps x (d : Cfg σ), sizeS s + sizeK k ≤ m → MS prog tbl fin s k pc → StepsN act prog N ⟨pc, [], temps, x⟩ d →
      Spec.ShortCircuit.step act prog d = none → ∃ o x', Runs act body s k x o x' := by
  intro N
  induction N using Nat.strongRecOn with
  | ind N ihN =>
    intro m
    induction m with
    | zero => intro s k pc temps x d hm; have := sizeS_pos s; omega
    | succ m ihm =>
      intro s k pc temps x d hm hS hN hd
      have hs := sim (act := act) hR.gotos hR.no_goto hS temps x
      cases hst : Spec.Stmt.step act body s k x with
      | stuck => rw [hst] at hs; exact hs.elim
      | done o x' => exact ⟨o, x', .done _ _ _ _ _ hst⟩
      | next s' k' x' =>
        rw [hst] at hs
        obtain ⟨n, pc', temps', h1, h2, h3⟩ := hs
        obtain ⟨hle, hrest⟩ := h1.split hN hd
        have : ∃ o x'', Runs act body s' k' x' o x'' := by
          by_cases hn : 0 < n
          · exact ihN (N - n) (by omega) _ s' k' pc' temps' x' d (Nat.le_refl _) h2 hrest hd
          · have : n = 0 := by omega
            subst this
            exact ihm s' k' pc' temps' x' d (by omega) h2 hrest hd
        obtain ⟨o, x'', hr⟩ := this
        exact ⟨o, x'', .next _ _ _ _ _ _ _ _ hst hr⟩

/-- The machine runs for any number of steps, or ends. -/
theorem progress {body : S} {isMain : Bool} (hR : Ready prog tbl fin body isMain) :
    ∀ (N m : Nat) s k pc temps x, sizeS s + sizeK k ≤ m → MS prog tbl fin s k pc →
      (∃ n c, N ≤ n ∧ StepsN act prog n ⟨pc, [], temps, x⟩ c) ∨ (∃ n c o x', StepsN act prog n ⟨pc, [], temps, x⟩ c ∧ Final prog c o x') := by
  intro N
  induction N with
  | zero => intro m s k pc temps x _ _; exact Or.inl ⟨0, _, Nat.le_refl _, .zero _⟩
  | succ N ihN =>
    intro m
    induction m with
    | zero => intro s k pc temps x hm; have := sizeS_pos s; omega
    | succ m ihm =>
      intro s k pc temps x hm hS
      have hs := sim (act := act) hR.gotos hR.no_goto hS temps x
      cases hst : Spec.Stmt.step act body s k x with
      | stuck => rw [hst] at hs; exact hs.elim
      | done o x' =>
        obtain ⟨n, c, h1, h2⟩ := sim_done hR hS temps x hst
        exact Or.inr ⟨n, c, _, _, h1, h2⟩
      | next s' k' x' =>
        rw [hst] at hs
        obtain ⟨n, pc', temps', h1, h2, h3⟩ := hs
        by_cases hn : 0 < n
        · rcases ihN _ s' k' pc' temps' x' (Nat.le_refl _) h2 with ⟨m', c, hm', hc⟩ | ⟨m', c, o, x'', hc, hf⟩
          · exact Or.inl ⟨n + m', c, by omega, h1.trans hc⟩
          · exact Or.inr ⟨n + m', c, o, x'', h1.trans hc, hf⟩
        · rcases ihm s' k' pc' temps' x' (by omega) h2 with ⟨m', c, hm', hc⟩ | ⟨m', c, o, x'', hc, hf⟩
          · exact Or.inl ⟨n + m', c, by omega, h1.trans hc⟩
          · exact Or.inr ⟨n + m', c, o, x'', h1.trans hc, hf⟩

theorem stop_unique {a b c : Cfg σ} (h1 : Steps act prog a b) (h2 : Steps act prog a c) (hb : Spec.ShortCircuit.step act prog b = none)
    (hc : Spec.ShortCircuit.step act prog c = none) : b = c := by
  obtain ⟨n, h1⟩ := stepsN_of h1
  obtain ⟨m, h2⟩ := stepsN_of h2
  have h3 := h1.split h2 hc
  have h4 := h2.split h1 hb
  have : m - n = 0 := by omega
  rw [this] at h3
  cases h3.2
  rfl

/-- C59: whatever the operands of its expressions do, the code of a function ends with an outcome
in a state exactly when the body, by the C standard, does: same effects, same returned value, and
it does not end when the body does not. -/
theorem C59_statements (body : S) (isMain : Bool) (h : compileFunction body isMain = some prog) (temps : Nat → Nat) (x : σ) (o : Outcome) (x' : σ) :
    Executes act prog temps x o x' ↔ Calls act body isMain x o x' := by
  obtain ⟨tbl, fin, hR⟩ := ready h
  constructor
  · rintro ⟨c, hc, hf⟩
    obtain ⟨N, hN⟩ := stepsN_of hc
    obtain ⟨o', x'', hr⟩ := backward hR N _ _ _ _ _ _ _ (Nat.le_refl _) hR.start hN (final_stops hf)
    obtain ⟨n, c', hn, hf'⟩ := forward hR hr 0 temps hR.start
    have := stop_unique hc hn.to (final_stops hf) (final_stops hf')
    subst this
    obtain ⟨e1, e2⟩ := final_unique hf hf'
    subst e2
    exact ⟨o', hr, e1⟩
  · rintro ⟨o', hr, rfl⟩
    obtain ⟨n, c', hn, hf'⟩ := forward hR hr 0 temps hR.start
    exact ⟨c', hn.to, hf'⟩

/-- C59: the code never gets stuck: in any reachable configuration it can go on or has ended. -/
theorem C59_never_stuck (body : S) (isMain : Bool) (h : compileFunction body isMain = some prog) (temps : Nat → Nat) (x : σ) (c : Cfg σ)
    (hc : Steps act prog ⟨0, [], temps, x⟩ c) : (∃ c', Spec.ShortCircuit.step act prog c = some c') ∨ ∃ o x', Final prog c o x' := by
  obtain ⟨tbl, fin, hR⟩ := ready h
  cases hs : Spec.ShortCircuit.step act prog c with
  | some c' => exact Or.inl ⟨c', rfl⟩
  | none =>
    obtain ⟨j, hj⟩ := stepsN_of hc
    rcases progress (act := act) hR (j + 1) _ _ _ _ temps x (Nat.le_refl _) hR.start with ⟨n, c', hn, hc'⟩ | ⟨n, c', o, x', hc', hf⟩
    · have := (hc'.split hj hs).1; omega
    · have := stop_unique hc hc'.to hs (final_stops hf)
      subst this
      exact Or.inr ⟨o, x', hf⟩

end Verif.Props.Stmt
