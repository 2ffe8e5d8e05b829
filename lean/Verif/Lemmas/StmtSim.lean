import Verif.Lemmas.Stmt

/-! # Lemmas for C59: the code runs in step with the source -/
namespace Verif.Lemmas.Stmt
open Verif.ShortCircuit Verif.Stmt Verif.Spec.ShortCircuit Verif.Spec.Stmt Verif.Props.ShortCircuit

/-- `frag` is in `prog` at `pc`. -/
def sub (prog : List I) (pc : Nat) (frag : List I) : Prop := ∀ i, i < frag.length → prog[pc + i]? = frag[i]?

theorem sub_cons {prog : List I} {pc : Nat} {x : I} {xs : List I} : sub prog pc (x :: xs) ↔ prog[pc]? = some x ∧ sub prog (pc + 1) xs := by
  constructor
  · intro h
    refine ⟨by simpa using h 0 (by simp), fun i hi => ?_⟩
    have := h (i + 1) (by simpa using hi)
    rw [show pc + 1 + i = pc + (i + 1) by omega, this]; simp
  · intro ⟨h1, h2⟩ i hi
    cases i with
    | zero => simpa using h1
    | succ i =>
      have := h2 i (by simpa using hi)
      rw [show pc + (i + 1) = pc + 1 + i by omega, this]; simp

theorem sub_append {prog : List I} {pc : Nat} {a b : List I} : sub prog pc (a ++ b) ↔ sub prog pc a ∧ sub prog (pc + a.length) b := by
  constructor
  · intro h
    refine ⟨fun i hi => ?_, fun i hi => ?_⟩
    · rw [h i (by simp; omega), List.getElem?_append_left hi]
    · rw [Nat.add_assoc, h (a.length + i) (by simp; omega), List.getElem?_append_right (by omega)]
      congr 1; omega
  · intro ⟨h1, h2⟩ i hi
    by_cases hc : i < a.length
    · rw [h1 i hc, List.getElem?_append_left hc]
    · rw [List.getElem?_append_right (by omega), ← h2 (i - a.length) (by simp at hi; omega)]
      congr 1; omega

theorem sub_nil {prog : List I} {pc : Nat} : sub prog pc [] := fun i hi => by simp at hi

/-- All labels and case nodes before `pc` have smaller numbers. -/
def Below (prog : List I) (pc nl nc : Nat) : Prop :=
  ∀ j x, j < pc → prog[j]? = some x → (∀ l, x = .label l → l < nl) ∧ (∀ k, x = .case k → k < nc)

theorem Below.mono {prog : List I} {pc nl nc nl' nc' : Nat} (h : Below prog pc nl nc) (h1 : nl ≤ nl') (h2 : nc ≤ nc') : Below prog pc nl' nc' := by
  intro j x hj hx
  exact ⟨fun l hl => by have := (h j x hj hx).1 l hl; omega, fun l hl => by have := (h j x hj hx).2 l hl; omega⟩

theorem Below.one {prog : List I} {pc nl nc : Nat} (h : Below prog pc nl nc) {i : I} (hi : prog[pc]? = some i)
    (hl : ∀ l, i = .label l → l < nl) (hk : ∀ k, i = .case k → k < nc) : Below prog (pc + 1) nl nc := by
  intro j x hj hx
  by_cases hc : j < pc
  · exact h j x hc hx
  · have : j = pc := by omega
    subst this
    rw [hi] at hx
    cases hx
    exact ⟨hl, hk⟩

theorem Below.code {prog : List I} {pc nl nc nl' nc' : Nat} {tbl} {code : List I} (h : Below prog pc nl nc) (hs : sub prog pc (code.map (patch tbl)))
    (h1 : nl ≤ nl') (h2 : nc ≤ nc') (hl : ∀ l, .label l ∈ code → l < nl') (hk : ∀ k, .case k ∈ code → k < nc') :
    Below prog (pc + code.length) nl' nc' := by
  intro j x hj hx
  by_cases hc : j < pc
  · exact (h.mono h1 h2) j x hc hx
  · have hi := hs (j - pc) (by simp; omega)
    rw [show pc + (j - pc) = j by omega, hx, List.getElem?_map, eq_comm, Option.map_eq_some_iff] at hi
    obtain ⟨y, hy, hyx⟩ := hi
    have hm := List.mem_of_getElem? hy
    subst hyx
    exact ⟨fun l e => hl l (by rw [patch_label] at e; exact e ▸ hm), fun l e => hk l (by rw [patch_case] at e; exact e ▸ hm)⟩

theorem Below.bounds {prog : List I} {pc : Nat} {tbl} {code : List I} {st st' : St} (h : Below prog pc st.labels st.cases)
    (hs : sub prog pc (code.map (patch tbl))) (hb : Bounds code st st') : Below prog (pc + code.length) st'.labels st'.cases :=
  h.code hs hb.1 hb.2 (fun l hl => (hb.3 l hl).2) (fun l hl => (hb.4 l hl).2)

theorem idx_of {prog : List I} {p : Nat} {i : I} (h : prog[p]? = some i) (hn : ∀ j, j < p → prog[j]? ≠ some i) :
    prog.findIdx (· == i) = p := by
  have hp : p < prog.length := by
    rcases Nat.lt_or_ge p prog.length with h' | h'
    · exact h'
    · rw [List.getElem?_eq_none h'] at h; cases h
  rw [List.findIdx_eq hp]
  constructor
  · rw [List.getElem?_eq_getElem hp] at h; cases h; simp
  · intro j hj
    have := hn j hj
    rw [List.getElem?_eq_getElem (by omega)] at this
    simpa using this

/-- A label or case node is found where it was put, if its number was allocated for it. -/
theorem find_in {prog : List I} {pc nl nc : Nat} {tbl} {X Y : List I} {i : I} (hb : Below prog pc nl nc)
    (hs : sub prog pc ((X ++ i :: Y).map (patch tbl)))
    (hi : (∃ l, i = .label l ∧ nl ≤ l) ∨ (∃ k, i = .case k ∧ nc ≤ k)) (hX : i ∉ X) :
    prog[pc + X.length]? = some i ∧ prog.findIdx (· == i) = pc + X.length := by
  have hp : patch tbl i = i := by rcases hi with ⟨l, rfl, _⟩ | ⟨l, rfl, _⟩ <;> rfl
  have h1 : prog[pc + X.length]? = some i := by
    rw [hs X.length (by simp), List.getElem?_map, List.getElem?_append_right (by omega)]
    simp [hp]
  refine ⟨h1, idx_of h1 fun j hj hx => ?_⟩
  by_cases hc : j < pc
  · have := hb j i hc hx
    rcases hi with ⟨l, rfl, hl⟩ | ⟨l, rfl, hl⟩
    · have := this.1 l rfl; omega
    · have := this.2 l rfl; omega
  · have h2 := hs (j - pc) (by simp; omega)
    rw [show pc + (j - pc) = j by omega, hx, List.getElem?_map, List.getElem?_append_left (by omega), eq_comm, Option.map_eq_some_iff] at h2
    obtain ⟨y, hy, hyx⟩ := h2
    have hm := List.mem_of_getElem? hy
    apply hX
    rcases hi with ⟨l, rfl, hl⟩ | ⟨l, rfl, hl⟩
    · rw [patch_label] at hyx; exact hyx ▸ hm
    · rw [patch_case] at hyx; exact hyx ▸ hm

/-! ## Counted steps -/

variable {σ : Type} {act : Nat → σ → Nat × σ}

inductive StepsN (act : Nat → σ → Nat × σ) (prog : List I) : Nat → Cfg σ → Cfg σ → Prop
  | zero (c : Cfg σ) : StepsN act prog 0 c c
  | succ (n : Nat) (a b c : Cfg σ) : Spec.ShortCircuit.step act prog a = some b → StepsN act prog n b c → StepsN act prog (n + 1) a c

theorem StepsN.trans {prog : List I} {n m : Nat} {a b c : Cfg σ} (h1 : StepsN act prog n a b) (h2 : StepsN act prog m b c) : StepsN act prog (n + m) a c := by
  induction h1 with
  | zero _ => simpa using h2
  | succ n x y z hs _ ih => rw [show n + 1 + m = n + m + 1 by omega]; exact .succ _ x y _ hs (ih h2)

theorem StepsN.one {prog : List I} {c c' : Cfg σ} {i : I} (h : prog[c.pc]? = some i) (hx : exec act prog c i = some c') : StepsN act prog 1 c c' :=
  .succ 0 _ _ _ (by simp [Spec.ShortCircuit.step, h, hx]) (.zero _)

theorem stepsN_of {prog : List I} {a b : Cfg σ} (h : Steps act prog a b) : ∃ n, StepsN act prog n a b := by
  induction h with
  | refl c => exact ⟨0, .zero c⟩
  | cons a b c hs _ ih => obtain ⟨n, hn⟩ := ih; exact ⟨n + 1, .succ n a b c hs hn⟩

theorem StepsN.to {prog : List I} {n : Nat} {a b : Cfg σ} (h : StepsN act prog n a b) : Steps act prog a b := by
  induction h with
  | zero c => exact .refl c
  | succ n a b c hs _ ih => exact .cons a b c hs ih

/-- The machine is deterministic. -/
theorem StepsN.split {prog : List I} {n : Nat} {a b : Cfg σ} (h : StepsN act prog n a b) :
    ∀ {m d}, StepsN act prog m a d → Spec.ShortCircuit.step act prog d = none → n ≤ m ∧ StepsN act prog (m - n) b d := by
  induction h with
  | zero c => intro m d hd _; exact ⟨by omega, by simpa using hd⟩
  | succ n x y z hs _ ih =>
    intro m d hd hf
    cases hd with
    | zero _ => rw [hs] at hf; cases hf
    | succ m x y' z hs' hd' =>
      rw [hs] at hs'
      cases hs'
      obtain ⟨h1, h2⟩ := ih hd' hf
      exact ⟨by omega, by rw [show m + 1 - (n + 1) = m - n by omega]; exact h2⟩

/-- The code of an expression evaluates it. -/
theorem eval_at {prog : List I} {pc nc : Nat} {e : E} {st : St} (hs : sub prog pc (exprCode e st).1) (hb : Below prog pc st.labels nc)
    (s : List Entry) (temps : Nat → Nat) (x : σ) : ∃ n temps' top, 0 < n ∧
    StepsN act prog n ⟨pc, s, temps, x⟩ ⟨pc + (exprCode e st).1.length, top :: s, temps', (eval act e x).2⟩ ∧
    deref temps' top = (eval act e x).1 := by
  have hlen := expr_nonempty e st.labels st.temps
  have hE : (exprCode e st).1 = (ShortCircuit.compile e st.labels st.temps).code := rfl
  rw [hE] at hs ⊢
  have hC := correct e σ act st.labels st.temps
  generalize (ShortCircuit.compile e st.labels st.temps).code = code at *
  have hlt : pc + code.length ≤ prog.length := by
    have h := hs (code.length - 1) (by omega)
    rw [List.getElem?_eq_getElem (l := code) (by omega)] at h
    rcases Nat.lt_or_ge (pc + (code.length - 1)) prog.length with h' | h'
    · omega
    · rw [List.getElem?_eq_none h'] at h; cases h
  have hpl : (prog.take pc).length = pc := by rw [List.length_take]; omega
  have hprog : prog.take pc ++ (code ++ prog.drop (pc + code.length)) = prog := by
    apply List.ext_getElem?
    intro i
    by_cases h1 : i < pc
    · rw [List.getElem?_append_left (by omega), List.getElem?_take_of_lt h1]
    · rw [List.getElem?_append_right (by omega), hpl]
      by_cases h2 : i - pc < code.length
      · have := hs _ h2
        rw [List.getElem?_append_left h2, ← this]
        congr 1; omega
      · rw [List.getElem?_append_right (by omega), List.getElem?_drop]
        congr 1
        omega
  obtain ⟨temps', top, h1, h2, _⟩ := hC (prog.take pc) (prog.drop (pc + code.length))
    (fun l hl => by
      rw [mem_placed] at hl
      obtain ⟨j, hj, hjl⟩ := List.getElem_of_mem hl
      have hj' : j < pc := by omega
      refine (hb j (.label l) hj' ?_).1 l rfl
      rw [← List.getElem?_take_of_lt hj', List.getElem?_eq_getElem hj, hjl]) s temps x
  rw [hprog, hpl] at h1
  obtain ⟨n, hn⟩ := stepsN_of h1
  refine ⟨n, temps', top, ?_, hn, h2⟩
  rcases Nat.eq_zero_or_pos n with h0 | h0
  · subst h0
    generalize hc1 : (⟨pc, s, temps, x⟩ : Cfg σ) = c1 at hn
    generalize hc2 : (⟨_, top :: s, temps', _⟩ : Cfg σ) = c2 at hn
    cases hn
    subst hc1
    have := congrArg Cfg.pc hc2
    simp only at this
    omega
  · exact h0

theorem cond_at {prog : List I} {pc nc : Nat} {e : Option E} {st : St} (hs : sub prog pc (condCode e st).1) (hb : Below prog pc st.labels nc)
    (s : List Entry) (temps : Nat → Nat) (x : σ) : ∃ n temps' top, 0 < n ∧
    StepsN act prog n ⟨pc, s, temps, x⟩ ⟨pc + (condCode e st).1.length, top :: s, temps', (evalOpt act e x).2⟩ ∧
    deref temps' top = (evalOpt act e x).1 := by
  cases e with
  | none => exact ⟨1, temps, .val 1, by omega, .one (i := .lit 1) (sub_cons.mp hs).1 rfl, rfl⟩
  | some e => exact eval_at hs hb s temps x

theorem opt_at {prog : List I} {pc nc : Nat} {e : Option E} {st : St} (hs : sub prog pc (optExprCode e st).1) (hb : Below prog pc st.labels nc)
    (s : List Entry) (temps : Nat → Nat) (x : σ) : ∃ n temps',
    StepsN act prog n ⟨pc, s, temps, x⟩ ⟨pc + (optExprCode e st).1.length, s, temps', (evalOpt act e x).2⟩ ∧ (0 < n ∨ e = none) := by
  cases e with
  | none => exact ⟨0, temps, .zero _, Or.inr rfl⟩
  | some e =>
    simp only [optExprCode, sub_append, sub_cons] at hs
    obtain ⟨n, temps', top, hn, h1, _⟩ := eval_at (act := act) hs.1 hb s temps x
    refine ⟨n + 1, temps', h1.trans (.one (i := .pop) hs.2.1 ?_), Or.inl (by omega)⟩
    simp only [exec, optExprCode, List.length_append, List.length_singleton, Nat.add_assoc]
    rfl

/-! ## Code of a statement and of what remains to be done -/

/-- The code of `s`, compiled with these labels of the enclosing statements, is in `prog` from
`pc` to `pc2`. -/
def At (prog : List I) (tbl : List (Nat × Nat)) (s : S) (brk cont : Option Nat) (pc pc2 : Nat) : Prop :=
  ∃ st st' code, compileS s brk cont st = some (code, st') ∧ sub prog pc (code.map (patch tbl)) ∧ pc2 = pc + code.length ∧
    Below prog pc st.labels st.cases

/-- `pc` is where `k` is continued, and the labels lead where `break` and `continue` go. -/
inductive MK (prog : List I) (tbl : List (Nat × Nat)) (fin : Nat) : K → Option Nat → Option Nat → Nat → Prop
  | stop : MK prog tbl fin .stop none none fin
  | seq {s k brk cont pc pc2} : At prog tbl s brk cont pc pc2 → MK prog tbl fin k brk cont pc2 → MK prog tbl fin (.seq s k) brk cont pc
  | whileK {c b k brk cont pc pw lc lb} : prog[pc]? = some (.jump lc) → find lc prog = pw → prog[pc + 1]? = some (.label lb) → find lb prog = pc + 1 →
      At prog tbl (.whileS c b) brk cont pw (pc + 2) → MK prog tbl fin k brk cont (pc + 2) → MK prog tbl fin (.whileK c b k) (some lb) (some lc) pc
  | doK {c b k brk cont pc pl q lc lb ll st nc} : prog[pc]? = some (.label lc) → find lc prog = pc → sub prog (pc + 1) (exprCode c st).1 →
      Below prog (pc + 1) st.labels nc → q = pc + 1 + (exprCode c st).1.length → prog[q]? = some (.jumpIfTrue ll) → find ll prog = pl →
      prog[q + 1]? = some (.label lb) → find lb prog = q + 1 →
      At prog tbl (.doS b c) brk cont pl (q + 2) → MK prog tbl fin k brk cont (q + 2) → MK prog tbl fin (.doK b c k) (some lb) (some lc) pc
  | forK {c n b k brk cont pc pf q lc lb lf st nc} : prog[pc]? = some (.label lc) → find lc prog = pc → sub prog (pc + 1) (optExprCode n st).1 →
      Below prog (pc + 1) st.labels nc → q = pc + 1 + (optExprCode n st).1.length → prog[q]? = some (.jump lf) → find lf prog = pf →
      prog[q + 1]? = some (.label lb) → find lb prog = q + 1 →
      At prog tbl (.forS none c n b) brk cont pf (q + 2) → MK prog tbl fin k brk cont (q + 2) → MK prog tbl fin (.forK c n b k) (some lb) (some lc) pc
  | switchK {k brk cont pc lb} : prog[pc]? = some (.label lb) → find lb prog = pc → MK prog tbl fin k brk cont (pc + 1) →
      MK prog tbl fin (.switchK k) (some lb) cont pc
  | label {k brk cont pc l} : prog[pc]? = some (.label l) → MK prog tbl fin k brk cont (pc + 1) → MK prog tbl fin k brk cont pc
  | jump {k brk cont pc l p} : prog[pc]? = some (.jump l) → find l prog = p → MK prog tbl fin k brk cont p → MK prog tbl fin k brk cont pc

/-- Labels and jumps only. -/
inductive Silent (prog : List I) : Nat → Nat → Prop
  | refl (pc : Nat) : Silent prog pc pc
  | label {pc pc' l : Nat} : prog[pc]? = some (.label l) → Silent prog (pc + 1) pc' → Silent prog pc pc'
  | jump {pc pc' p l : Nat} : prog[pc]? = some (.jump l) → find l prog = p → Silent prog p pc' → Silent prog pc pc'

theorem Silent.steps {prog : List I} {pc pc' : Nat} (h : Silent prog pc pc') (s : List Entry) (temps : Nat → Nat) (x : σ) :
    ∃ n, StepsN act prog n ⟨pc, s, temps, x⟩ ⟨pc', s, temps, x⟩ := by
  induction h with
  | refl pc => exact ⟨0, .zero _⟩
  | @label pc pc' l h1 _ ih =>
    obtain ⟨n, hn⟩ := ih
    exact ⟨_, (StepsN.one (act := act) (c := ⟨pc, s, temps, x⟩) (c' := ⟨pc + 1, s, temps, x⟩) h1 rfl).trans hn⟩
  | @jump pc pc' p l h1 h2 _ ih =>
    obtain ⟨n, hn⟩ := ih
    exact ⟨_, (StepsN.one (act := act) (c := ⟨pc, s, temps, x⟩) (c' := ⟨p, s, temps, x⟩) h1 (by simp only [exec, h2])).trans hn⟩

/-- What `MK` says of a given `k`, after labels and jumps. -/
def MKH (prog : List I) (tbl : List (Nat × Nat)) (fin : Nat) (brk cont : Option Nat) (pc : Nat) : K → Prop
  | .stop => brk = none ∧ cont = none ∧ pc = fin
  | .seq s k => ∃ pc2, At prog tbl s brk cont pc pc2 ∧ MK prog tbl fin k brk cont pc2
  | .whileK c b k => ∃ brk' cont' pw lc lb, brk = some lb ∧ cont = some lc ∧ prog[pc]? = some (.jump lc) ∧ find lc prog = pw ∧
      prog[pc + 1]? = some (.label lb) ∧ find lb prog = pc + 1 ∧ At prog tbl (.whileS c b) brk' cont' pw (pc + 2) ∧ MK prog tbl fin k brk' cont' (pc + 2)
  | .doK b c k => ∃ brk' cont' pl q lc lb ll st nc, brk = some lb ∧ cont = some lc ∧ prog[pc]? = some (.label lc) ∧ find lc prog = pc ∧ sub prog (pc + 1) (exprCode c st).1 ∧
      Below prog (pc + 1) st.labels nc ∧ q = pc + 1 + (exprCode c st).1.length ∧ prog[q]? = some (.jumpIfTrue ll) ∧ find ll prog = pl ∧
      prog[q + 1]? = some (.label lb) ∧ find lb prog = q + 1 ∧ At prog tbl (.doS b c) brk' cont' pl (q + 2) ∧ MK prog tbl fin k brk' cont' (q + 2)
  | .forK c n b k => ∃ brk' cont' pf q lc lb lf st nc, brk = some lb ∧ cont = some lc ∧ prog[pc]? = some (.label lc) ∧ find lc prog = pc ∧ sub prog (pc + 1) (optExprCode n st).1 ∧
      Below prog (pc + 1) st.labels nc ∧ q = pc + 1 + (optExprCode n st).1.length ∧ prog[q]? = some (.jump lf) ∧ find lf prog = pf ∧
      prog[q + 1]? = some (.label lb) ∧ find lb prog = q + 1 ∧ At prog tbl (.forS none c n b) brk' cont' pf (q + 2) ∧ MK prog tbl fin k brk' cont' (q + 2)
  | .switchK k => ∃ brk' lb, brk = some lb ∧ prog[pc]? = some (.label lb) ∧ find lb prog = pc ∧ MK prog tbl fin k brk' cont (pc + 1)

theorem MK.norm {prog : List I} {tbl fin k brk cont pc} (h : MK prog tbl fin k brk cont pc) : ∃ pc', Silent prog pc pc' ∧ MKH prog tbl fin brk cont pc' k := by
  induction h with
  | stop => exact ⟨_, .refl _, rfl, rfl, rfl⟩
  | seq h1 h2 _ => exact ⟨_, .refl _, _, h1, h2⟩
  | whileK h1 h2 h3 h4 h5 h6 _ => exact ⟨_, .refl _, _, _, _, _, _, rfl, rfl, h1, h2, h3, h4, h5, h6⟩
  | doK h1 h2 h3 h4 h5 h6 h7 h8 h9 h10 h11 _ => exact ⟨_, .refl _, _, _, _, _, _, _, _, _, _, rfl, rfl, h1, h2, h3, h4, h5, h6, h7, h8, h9, h10, h11⟩
  | forK h1 h2 h3 h4 h5 h6 h7 h8 h9 h10 h11 _ => exact ⟨_, .refl _, _, _, _, _, _, _, _, _, _, rfl, rfl, h1, h2, h3, h4, h5, h6, h7, h8, h9, h10, h11⟩
  | switchK h1 h2 h3 _ => exact ⟨_, .refl _, _, _, rfl, h1, h2, h3⟩
  | label h1 _ ih => obtain ⟨pc', hs, hh⟩ := ih; exact ⟨pc', .label h1 hs, hh⟩
  | jump h1 h2 _ ih => obtain ⟨pc', hs, hh⟩ := ih; exact ⟨pc', .jump h1 h2 hs, hh⟩

/-- `pc` is where `s` followed by `k` is run. For `break` and `continue` it does not matter which
code follows. -/
inductive MS (prog : List I) (tbl : List (Nat × Nat)) (fin : Nat) : S → K → Nat → Prop
  | code {s k pc} (brk cont : Option Nat) (pc2 : Nat) : At prog tbl s brk cont pc pc2 → MK prog tbl fin k brk cont pc2 → MS prog tbl fin s k pc
  | brk {k pc} (l : Nat) (cont : Option Nat) (pc2 : Nat) : prog[pc]? = some (.jump l) → MK prog tbl fin k (some l) cont pc2 → MS prog tbl fin .brk k pc
  | cont {k pc} (l : Nat) (brk : Option Nat) (pc2 : Nat) : prog[pc]? = some (.jump l) → MK prog tbl fin k brk (some l) pc2 → MS prog tbl fin .cont k pc

theorem MS.skip {prog : List I} {tbl fin k brk cont pc} (h : MK prog tbl fin k brk cont pc) (hb : ∃ nl nc, Below prog pc nl nc) : MS prog tbl fin .skip k pc :=
  let ⟨nl, nc, hb⟩ := hb
  .code brk cont pc ⟨⟨nl, 0, nc, [], none⟩, _, [], rfl, sub_nil, rfl, hb⟩ h

/-- The numbers in a prefix are bounded. -/
theorem exists_below (prog : List I) (pc : Nat) : ∃ nl nc, Below prog pc nl nc := by
  induction pc with
  | zero => exact ⟨0, 0, fun j _ hj => by omega⟩
  | succ pc ih =>
    obtain ⟨nl, nc, h⟩ := ih
    cases hx : prog[pc]? with
    | none =>
      refine ⟨nl, nc, fun j x hj hjx => ?_⟩
      by_cases hc : j < pc
      · exact h j x hc hjx
      · have : j = pc := by omega
        subst this; rw [hx] at hjx; cases hjx
    | some i =>
      refine ⟨nl + (match i with | .label l => l + 1 | _ => 0), nc + (match i with | .case l => l + 1 | _ => 0), ?_⟩
      refine (h.mono (by omega) (by omega)).one hx ?_ ?_
      · intro l hl; subst hl; simp only; omega
      · intro l hl; subst hl; simp only; omega

theorem MS.skip' {prog : List I} {tbl fin k brk cont pc} (h : MK prog tbl fin k brk cont pc) : MS prog tbl fin .skip k pc :=
  MS.skip h (exists_below prog pc)

end Verif.Lemmas.Stmt
