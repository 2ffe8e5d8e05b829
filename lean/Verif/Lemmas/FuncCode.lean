import Verif.Lemmas.ExprSame
import Verif.Lemmas.ExprType
import Verif.Model.FuncCode

/-!
# Lemmas: the code of functions

The emitted code, executed any number of times and with any contents of registers and memory, does what the emitter's model did once.
-/
namespace Verif.Lemmas.FuncCode
open Verif.IntType Verif.RegAlloc Verif.ExprCode Verif.Spec.ExprCode Verif.Spec.IntType Verif.Spec.FuncCode Verif.Props.RegAlloc
open Verif.Lemmas.ExprCode Verif.Lemmas.ExprRun Verif.Lemmas.ExprSafe Verif.Lemmas.ExprSame Verif.Lemmas.ExprType
open Verif.Spec.RegAlloc (Values)

/-! ## Filling in contents -/

theorem fill_same (st : St) (c : Contents) : SameSt (fill st c) st := ⟨⟨rfl, rfl, rfl, rfl, rfl, rfl⟩, rfl⟩

theorem fill_contents {st st' : St} (h : SameSt st' st) : fill st (contents st') = st' := by
  obtain ⟨⟨⟨_, _, _, _, _, _, _, _⟩, _, _⟩, _, _⟩ := st
  obtain ⟨⟨⟨_, _, _, _, _, _, _, _⟩, _, _⟩, _, _⟩ := st'
  obtain ⟨⟨h1, h2, h3, h4, h5, h6⟩, h7⟩ := h
  dsimp only at h1 h2 h3 h4 h5 h6 h7
  subst h1; subst h2; subst h3; subst h4; subst h5; subst h6; subst h7
  rfl

/-- Where no register is in use, the contents do not matter. -/
theorem refill {st A} (c : Contents) (hg : Good [] st.m A) (hi : Idle st.m) : ∃ A', Good [] (fill st c).m A' ∧ Idle (fill st c).m := by
  refine ⟨{ A with value := fun id => match st.m.s.locs id with
    | some ⟨.stack o, size, _, _⟩ => load c.mem o size
    | _ => A.value id }, ⟨?_, hg.pow, hg.unl, hg.short, hg.known⟩, hi⟩
  refine ⟨hg.inv.count, hg.inv.fresh, hg.inv.size, hg.inv.mapped, ?_, ?_, hg.inv.apart⟩
  · intro id l r hl hp
    have := (hg.inv.loaded id l r hl hp).1
    rw [hi r] at this
    cases this
  · intro id l o hl hp
    obtain ⟨h1, h2, h3, _⟩ := hg.inv.slot id l o hl hp
    refine ⟨h1, h2, h3, ?_⟩
    dsimp only
    have hl' : st.m.s.locs id = some l := hl
    rw [hl']
    obtain ⟨p, s, a, b⟩ := l
    cases hp
    rfl

/-! ## Emission -/

/-- The states between the nodes. -/
def Emits (code : List Ir) (sts : List St) : Prop :=
  ∀ pc ir, code[pc]? = some ir → ∃ st st', sts[pc]? = some st ∧ sts[pc + 1]? = some st' ∧
    emitWith (fun _ _ _ _ _ _ => some (0, 0)) code[pc + 1]? ir st = some st'

theorem layout_emits : ∀ {code st sts}, layout code st = some sts → Emits code sts ∧ sts[0]? = some st ∧ sts.length = code.length + 1
  | [], st, sts, h => by
    cases h
    exact ⟨fun pc ir h => by simp at h, rfl, rfl⟩
  | ir :: rest, st, sts, h => by
    obtain ⟨st', h1, h2⟩ := Option.bind_eq_some_iff.1 h
    obtain ⟨sts', h3, h4⟩ := Option.map_eq_some_iff.1 h2
    subst h4
    obtain ⟨e1, e2, e3⟩ := layout_emits h3
    refine ⟨fun pc ir' hp => ?_, rfl, by simp [e3]⟩
    cases pc with
    | zero =>
      cases Option.some.inj hp
      refine ⟨st, st', rfl, by simpa using e2, ?_⟩
      rw [← h1]
      cases rest <;> rfl
    | succ pc => exact e1 pc ir' (by simpa using hp)

/-- Well-typed code can be emitted; the stack of locations is empty at every label. -/
theorem layout_total : ∀ {code es es' st A}, Checks code es es' → Safe st.m A st.stack es →
    ∃ sts, layout code st = some sts ∧ ∀ (pc l : Nat), code[pc]? = some (.label l) → ∃ st A, sts[pc]? = some st ∧ st.stack = [] ∧ Good [] st.m A ∧ Idle st.m
  | [], es, es', st, A, h, hs => ⟨_, rfl, fun pc l h => by simp at h⟩
  | ir :: rest, es, es', ⟨m, os, taken⟩, A, h, hs => by
    cases h with
    | cons ht hr =>
      obtain ⟨st', A', h1, h2⟩ := takes_total (inst := fun _ _ _ _ _ _ => some (0, 0)) (fun _ _ _ _ _ _ => ⟨_, rfl⟩) taken ht hs
      obtain ⟨sts, h3, h4⟩ := layout_total hr h2
      refine ⟨⟨m, os, taken⟩ :: sts, ?_, fun pc l hp => ?_⟩
      · show (emitWith _ _ _ _).bind _ = _
        rw [h1]
        show (layout rest st').map _ = _
        rw [h3]
        rfl
      · cases pc with
        | zero =>
          cases Option.some.inj hp
          cases ht
          have := Ops.nil hs.ops
          dsimp only at this
          subst this
          exact ⟨_, A, rfl, rfl, hs.good, hs.idle⟩
        | succ pc => exact h4 pc l (by simpa using hp)

/-! ## Steps -/

inductive Steps (code : List Ir) (sts : List St) : Nat → Contents → Nat → Contents → Prop
  | refl {pc c} : Steps code sts pc c pc c
  | cons {pc c pc1 c1 pc2 c2} (h : stepAt code sts pc c = some (pc1, c1)) (hs : Steps code sts pc1 c1 pc2 c2) : Steps code sts pc c pc2 c2

theorem Steps.trans {code sts pc c pc1 c1 pc2 c2} (h : Steps code sts pc c pc1 c1) (h' : Steps code sts pc1 c1 pc2 c2) : Steps code sts pc c pc2 c2 := by
  induction h with
  | refl => exact h'
  | cons h _ ih => exact .cons h (ih h')

theorem Steps.exec {code sts pc c pc' c'} (h : Steps code sts pc c pc' c') (hp : pc' = code.length) : ∃ fuel, exec code sts fuel pc c = some c' := by
  induction h with
  | refl => exact ⟨0, by rw [Verif.ExprCode.exec, if_pos hp]⟩
  | @cons pc c pc1 c1 pc2 c2 h _ ih =>
    obtain ⟨fuel, hf⟩ := ih hp
    by_cases e : pc = code.length
    · unfold stepAt at h
      rw [e, List.getElem?_eq_none (Nat.le_refl _)] at h
      cases h
    · refine ⟨fuel + 1, ?_⟩
      rw [Verif.ExprCode.exec, if_neg e, h]
      exact hf

/-- The nodes `c` are at `pc`. -/
def At (code : List Ir) (pc : Nat) (c : List Ir) : Prop := ∃ pre post, code = pre ++ (c ++ post) ∧ pre.length = pc

theorem At.left {code pc a b} (h : At code pc (a ++ b)) : At code pc a := by
  obtain ⟨pre, post, rfl, rfl⟩ := h
  exact ⟨pre, b ++ post, by simp, rfl⟩
theorem At.right {code pc a b} (h : At code pc (a ++ b)) : At code (pc + a.length) b := by
  obtain ⟨pre, post, rfl, rfl⟩ := h
  exact ⟨pre ++ a, post, by simp, by simp⟩
theorem At.tail {code pc a b} (h : At code pc (a :: b)) : At code (pc + 1) b := At.right (a := [a]) h
theorem At.head {code pc a b} (h : At code pc (a :: b)) : code[pc]? = some a := by
  obtain ⟨pre, post, rfl, rfl⟩ := h
  simp
theorem At.get {code pc c} (h : At code pc c) (i : Nat) (hi : i < c.length) : code[pc + i]? = c[i]? := by
  obtain ⟨pre, post, rfl, rfl⟩ := h
  rw [List.getElem?_append_right (by omega), List.getElem?_append_left (by omega)]
  congr 1
  omega

/-- Control goes on to the next node. -/
def straight : Ir → Bool
  | .ret | .retVoid | .jump _ | .jumpIf _ _ | .label _ => false
  | _ => true

/-- The code emitted does not depend on the next node. -/
def indep : Ir → Bool
  | .compare _ | .logicalNot => false
  | _ => true

theorem emit_indep {ir next next' st} (h : indep ir = true) : emit next ir st = emit next' ir st := by
  obtain ⟨m, os, t⟩ := st
  cases ir with
  | compare => cases h
  | logicalNot => cases h
  | cast lhs k => match lhs, os with
    | false, [] | false, _ :: _ | true, [] | true, [_] | true, _ :: _ :: _ => rfl
  | _ => first | rfl | (match os with | [] => rfl | [_] => rfl | _ :: _ :: _ => rfl)

/-- Executing the code of one node. -/
theorem one {code sts pc ir st c st'} (hem : Emits code sts) (hir : code[pc]? = some ir) (hst : sts[pc]? = some st)
    (h : emit code[pc + 1]? ir (fill st c) = some st') :
    ∃ st1, sts[pc + 1]? = some st1 ∧ SameSt st' st1 ∧
      ∀ pc', target code ir pc st'.taken = some pc' → stepAt code sts pc c = some (pc', contents st') := by
  obtain ⟨s, s1, e1, e2, e3⟩ := hem pc ir hir
  rw [hst] at e1
  cases e1
  refine ⟨s1, e2, emit_same (fill_same st c) _ _ h e3, fun pc' ht => ?_⟩
  unfold stepAt
  rw [hir, hst]
  show (emit _ _ _).bind _ = _
  rw [h]
  show (target _ _ _ _).map _ = _
  rw [ht]
  rfl

/-- Executing straight-line code up to its last node. -/
theorem segment {code sts last} (hem : Emits code sts) (hl : indep last = true) : ∀ (body : List Ir) {pc st c st2}, At code pc (body ++ [last]) →
    (∀ ir ∈ body, straight ir = true) → sts[pc]? = some st → run (body ++ [last]) (fill st c) = some st2 →
    ∃ st1 c1, sts[pc + body.length]? = some st1 ∧ Steps code sts pc c (pc + body.length) c1 ∧ emit code[pc + body.length + 1]? last (fill st1 c1) = some st2
  | [], pc, st, c, st2, hat, hs, hst, hr => by
    refine ⟨st, c, hst, .refl, ?_⟩
    obtain ⟨x, h1, h2⟩ := Option.bind_eq_some_iff.1 hr
    cases Option.some.inj h2
    rw [emit_indep hl]
    exact h1
  | ir :: body, pc, st, c, st2, hat, hs, hst, hr => by
    obtain ⟨x, h1, h2⟩ := Option.bind_eq_some_iff.1 hr
    have hn : (body ++ [last]).head? = code[pc + 1]? := by
      have := hat.tail.get 0 (by simp)
      simp only [Nat.add_zero] at this
      rw [this]
      cases body <;> rfl
    change emit (body ++ [last]).head? ir _ = _ at h1
    rw [hn] at h1
    obtain ⟨st1, k1, k2, k3⟩ := one hem hat.head hst h1
    have ht : target code ir pc x.taken = some (pc + 1) := by
      have := hs ir (by simp)
      cases ir <;> first | (cases this; done) | rfl
    obtain ⟨s, c1, f1, f2, f3⟩ := segment hem hl body (pc := pc + 1) (st := st1) (c := contents x) (st2 := st2) hat.tail (fun i hi => hs i (by simp [hi])) k1
      (by rw [fill_contents k2]; exact h2)
    have e : pc + (ir :: body).length = pc + 1 + body.length := by simp only [List.length_cons]; omega
    rw [e]
    exact ⟨s, c1, f1, .cons (k3 _ ht) f2, f3⟩

/-- A place between statements. -/
def Bound (sts : List St) (pc : Nat) : Prop := ∃ st A, sts[pc]? = some st ∧ st.stack = [] ∧ Good [] st.m A ∧ Idle st.m

/-! ## Expressions are straight-line code -/

theorem castIr_straight {lhs s t} : ∀ ir ∈ castIr lhs s t, straight ir = true := by
  unfold castIr
  split <;> simp [straight]

def LowS (low : Low) : Prop := ∀ ir ∈ low.irs, straight ir = true

theorem castLow_S {t low} (h : LowS low) : LowS (castLow t low) := by
  cases low with
  | lit => simp [LowS, castLow, Low.irs, straight]
  | code s c =>
    intro ir hir
    simp only [castLow, Low.irs, List.mem_append] at hir
    exact hir.elim (h ir) (castIr_straight ir)

theorem convert_S {lhs t low} (h : LowS low) : (∀ ir ∈ (convert lhs t low).1, straight ir = true) ∧ ∀ ir ∈ (convert lhs t low).2, straight ir = true := by
  cases low with
  | lit => simp [convert, straight]
  | code s c => exact ⟨h, castIr_straight⟩

theorem arithIr_S {op t} : straight (arithIr op t) = true := by cases op <;> rfl

theorem ofOut_S {o low} (h : ofOut o = some low) : LowS low := by
  unfold ofOut at h
  split at h
  · cases h; simp [LowS, Low.irs, straight]
  · cases h

theorem binary_S {ir res l r low} (hl : LowS l) (hr : LowS r) (hi : ∀ c, straight (ir c) = true) (h : lowerBinary ir res l r = some low) : LowS low := by
  obtain ⟨c, _, h2⟩ := Option.map_eq_some_iff.1 h
  subst h2
  intro i hm
  simp only [Low.irs, List.mem_append, List.mem_singleton] at hm
  rcases hm with (((hm | hm) | hm) | hm) | rfl
  · exact (convert_S hl).1 i hm
  · exact (convert_S hr).1 i hm
  · exact (convert_S hl).2 i hm
  · exact (convert_S hr).2 i hm
  · exact hi c

theorem shift_S {op l r low} (hl : LowS l) (hr : LowS r) (h : lowerShift op l r = some low) : LowS low := by
  unfold lowerShift at h
  dsimp only at h
  split at h
  · split at h
    · cases h
    · split at h
      · cases h
      · cases Option.some.inj h
        intro i hm
        simp only [Low.irs, List.mem_append, List.mem_singleton] at hm
        rcases hm with ((hm | rfl) | hm) | rfl
        · exact (convert_S hl).1 i hm
        · rfl
        · exact (convert_S hl).2 i hm
        · exact arithIr_S
  · cases Option.some.inj h
    intro i hm
    simp only [Low.irs, List.mem_append, List.mem_singleton] at hm
    rcases hm with ((((hm | hm) | hm) | hm) | hm) | rfl
    · exact (convert_S hl).1 i hm
    · exact (convert_S hr).1 i hm
    · exact (convert_S hl).2 i hm
    · exact (convert_S hr).2 i hm
    · exact castIr_straight i hm
    · exact arithIr_S

theorem unary_S {op l low} (hl : LowS l) (h : lowerUnary op l = some low) : LowS low := by
  cases l with
  | lit l =>
    cases op
    · exact ofOut_S (o := Fold.foldPlus l) h
    · exact ofOut_S (o := Fold.foldNegate l) h
    · exact ofOut_S (o := Fold.foldNot l) h
    · exact ofOut_S (o := Fold.foldLogicalNot l) h
  | code s c =>
    cases op <;> cases Option.some.inj h <;> intro i hm <;> simp only [Low.irs, List.mem_append, List.mem_singleton] at hm
    · exact hm.elim (hl i) (castIr_straight i)
    · rcases hm with (hm | hm) | rfl
      · exact hl i hm
      · exact castIr_straight i hm
      · rfl
    · rcases hm with (hm | hm) | rfl
      · exact hl i hm
      · exact castIr_straight i hm
      · rfl
    · rcases hm with (hm | hm) | rfl
      · exact hl i hm
      · exact castIr_straight i hm
      · rfl

theorem deref_S {t l} (hl : LowS l) : LowS (lowerDeref t l) := by
  cases l with
  | lit l => simp [LowS, lowerDeref, Low.irs, straight]
  | code s c =>
    intro i hm
    simp only [lowerDeref, Low.irs, List.mem_append, List.mem_singleton] at hm
    rcases hm with (hm | hm) | rfl
    · exact hl i hm
    · exact castIr_straight i hm
    · rfl

theorem lower_S : ∀ (e : Expr) {low}, lower e = some low → LowS low
  | .lit t v, low, h => by cases Option.some.inj h; simp [LowS, Low.irs, straight]
  | .var t a, low, h => by cases Option.some.inj h; simp [LowS, Low.irs, straight]
  | .deref t e, low, h => by
    obtain ⟨l, h1, rfl⟩ := Option.map_eq_some_iff.1 h
    exact deref_S (lower_S e h1)
  | .cast t e, low, h => by
    obtain ⟨l, h1, rfl⟩ := Option.map_eq_some_iff.1 h
    exact castLow_S (lower_S e h1)
  | .un op e, low, h => by
    obtain ⟨l, h1, h2⟩ := Option.bind_eq_some_iff.1 h
    exact unary_S (lower_S e h1) h2
  | .bin (.arith op) l r, low, h => by
    obtain ⟨a, h1, h2⟩ := Option.bind_eq_some_iff.1 h
    obtain ⟨b, h3, h4⟩ := Option.bind_eq_some_iff.1 h2
    have ha := lower_S l h1
    have hb := lower_S r h3
    unfold lowerArith at h4
    split at h4
    · exact ofOut_S h4
    · split at h4
      · exact shift_S ha hb h4
      · exact binary_S ha hb (fun _ => arithIr_S) h4
  | .bin (.compare op) l r, low, h => by
    obtain ⟨a, h1, h2⟩ := Option.bind_eq_some_iff.1 h
    obtain ⟨b, h3, h4⟩ := Option.bind_eq_some_iff.1 h2
    unfold lowerCompare at h4
    split at h4
    · exact ofOut_S h4
    · exact binary_S (lower_S l h1) (lower_S r h3) (fun _ => rfl) h4

theorem lvalue_S {lv t c} (h : lowerLValue lv = some (t, c)) : ∀ ir ∈ c, straight ir = true := by
  cases lv with
  | var t a => cases Option.some.inj h; simp [straight]
  | deref t e =>
    obtain ⟨l, h1, h2⟩ := Option.map_eq_some_iff.1 h
    cases h2
    exact deref_S (lower_S e h1)

/-! ## Statements -/

/-- Dropping the value of an expression. -/
theorem expr_ok {bytes e t v low m A taken} (h : Eval bytes e t v) (hl : lower e = some low) (hn : need e ≤ 256)
    (hg : Good [] m A) (hi : Idle m) (hb : m.bytes = bytes) :
    ∃ m' A', run (low.irs ++ [.pop]) ⟨m, [], taken⟩ = some ⟨m', [], taken⟩ ∧ Good [] m' A' ∧ Idle m' ∧ m'.bytes = bytes := by
  have hok := lower_ok h hl
  have hp : ∃ imm, Pushes bytes low.irs t v (need e) imm := by
    cases low with
    | lit l => exact ⟨true, lit_pushes hok (need_pos e)⟩
    | code s c => obtain ⟨rfl, hc⟩ := hok; exact ⟨false, hc.pushes⟩
  obtain ⟨imm, hp⟩ := hp
  obtain ⟨o, m1, A1, h1, h2, _⟩ := hp.2 [.pop] m A [] taken hg hb (by simpa using hn) (plain_cons rfl)
  obtain ⟨m2, k1, k2, k3, k4, k5, k6⟩ := release_total o h2.good h2.val.usable.live
  refine ⟨m2, A1, ?_, k2, ?_, by rw [k3.bytes, h2.frame.bytes, hb]⟩
  · rw [h1]
    show ((release m1 o).map _).bind _ = _
    rw [k1]
    rfl
  · intro i
    cases hj : m2.s.map i with
    | none => rfl
    | some j =>
      obtain ⟨q1, q2⟩ := k4 i j hj
      rcases h2.occ i j q1 with e | e
      · exact absurd e q2
      · rw [hi i] at e; cases e

/-- Straight-line code that ends with a node that does not depend on the next one. -/
def Segment (c : List Ir) : Prop := ∃ body last, c = body ++ [last] ∧ (∀ ir ∈ body, straight ir = true) ∧ indep last = true

theorem bound_fill {sts pc} (h : Bound sts pc) (c : Contents) :
    ∃ st A, sts[pc]? = some st ∧ fill st c = ⟨(fill st c).m, [], c.taken⟩ ∧ Good [] (fill st c).m A ∧ Idle (fill st c).m := by
  obtain ⟨st, A, h1, h2, h3, h4⟩ := h
  obtain ⟨A', h5, h6⟩ := refill c h3 h4
  refine ⟨st, A', h1, ?_, h5, h6⟩
  unfold fill
  rw [h2]

theorem idle_same {m m'} (h : Same m m') (hi : Idle m) : Idle m' := fun r => by rw [← h.map]; exact hi r

/-- After code that leaves the stack empty. -/
theorem bound_of {sts pc} {st st' : St} {A} (h : sts[pc]? = some st') (hs : SameSt st st') (hk : st.stack = []) (hg : Good [] st.m A) (hi : Idle st.m) : Bound sts pc := by
  have hi' := idle_same hs.1 hi
  refine ⟨st', { A with value := fun id => match st'.m.s.locs id with
    | some ⟨.stack o, size, _, _⟩ => load st'.m.s.mem o size
    | _ => A.value id }, h, by rw [← hs.2, hk], ⟨?_, ?_, ?_, hg.short, hg.known⟩, hi'⟩
  · obtain ⟨⟨e1, e2, e3, e4, e5, e6⟩, _⟩ := hs
    refine ⟨by rw [← e4]; exact hg.inv.count, by rw [← e4, ← e3]; exact hg.inv.fresh, by rw [← e3]; exact hg.inv.size,
      by rw [← e1, ← e3]; exact hg.inv.mapped, ?_, ?_, by rw [← e3]; exact hg.inv.apart⟩
    · intro id l r hl hp
      rw [← e3] at hl
      have := (hg.inv.loaded id l r hl hp).1
      rw [hi r] at this
      cases this
    · intro id l o hl hp
      have hl' := hl
      rw [← e3] at hl
      obtain ⟨h1, h2, h3, _⟩ := hg.inv.slot id l o hl hp
      refine ⟨by rw [← e5]; exact h1, by rw [← e5, ← e6]; exact h2, h3, ?_⟩
      dsimp only
      rw [hl']
      obtain ⟨p, s, a, b⟩ := l
      cases hp
      rfl
  · intro id l hl
    rw [← hs.1.locs] at hl
    exact hg.pow id l hl
  · intro id l hl
    rw [← hs.1.locs] at hl
    exact hg.unl id l hl

/-- Code between two statements, of which the last node goes on to `pc'`. -/
theorem exec_segment {code sts pc body last c m' A' t'} (hem : Emits code sts) (hat : At code pc (body ++ [last])) (hs : ∀ ir ∈ body, straight ir = true)
    (hl : indep last = true) {st} (hst : sts[pc]? = some st) (hr : run (body ++ [last]) (fill st c) = some ⟨m', [], t'⟩) (hg : Good [] m' A') (hi : Idle m') :
    Bound sts (pc + (body ++ [last]).length) ∧
      ∀ pc', target code last (pc + body.length) t' = some pc' → Steps code sts pc c pc' (contents ⟨m', [], t'⟩) := by
  obtain ⟨st1, c1, h1, h2, h3⟩ := segment hem hl body hat hs hst hr
  have hlast : code[pc + body.length]? = some last := hat.right.head
  obtain ⟨st2, k1, k2, k3⟩ := one hem hlast h1 h3
  have e : pc + (body ++ [last]).length = pc + body.length + 1 := by simp; omega
  rw [e]
  exact ⟨bound_of k1 k2 rfl hg hi, fun pc' ht => h2.trans (.cons (k3 pc' ht) .refl)⟩

theorem act_steps {code sts pc a ca c bytes'} (hem : Emits code sts) (hb : Bound sts pc) (hat : At code pc ca) (hl : lowerAct a = some ca) (hn : needAct a ≤ 256)
    (hd : Done c.bytes a bytes') : Bound sts (pc + ca.length) ∧ ∃ c', Steps code sts pc c (pc + ca.length) c' ∧ c'.bytes = bytes' := by
  obtain ⟨st, A, h1, h2, h3, h4⟩ := bound_fill hb c
  cases a with
  | assign s =>
    obtain ⟨m', A', k1, k2, k3, k4⟩ := stmt_ok (rest := []) (taken := c.taken) hd hl hn h3 h4 rfl
    rw [List.append_nil] at k1
    obtain ⟨⟨t, cl⟩, f1, f2⟩ := Option.bind_eq_some_iff.1 hl
    obtain ⟨low, f3, f4⟩ := Option.map_eq_some_iff.1 f2
    subst f4
    have e : cl ++ (castLow t low).irs ++ [Ir.store, .pop] = (cl ++ (castLow t low).irs ++ [Ir.store]) ++ [.pop] := by simp
    change At code pc (cl ++ (castLow t low).irs ++ [Ir.store, .pop]) at hat
    rw [e] at hat k1 ⊢
    have hstr : ∀ ir ∈ cl ++ (castLow t low).irs ++ [Ir.store], straight ir = true := by
      intro ir hir
      simp only [List.mem_append, List.mem_singleton] at hir
      rcases hir with (hir | hir) | rfl
      · exact lvalue_S f1 ir hir
      · exact castLow_S (lower_S _ f3) ir hir
      · rfl
    obtain ⟨g1, g2⟩ := exec_segment (c := c) hem hat hstr rfl h1 (by rw [h2]; exact k1) k2 k3
    refine ⟨g1, _, g2 _ ?_, k4⟩
    show some _ = some _
    simp [Nat.add_assoc]
  | expr e =>
    obtain ⟨⟨t, v, hv⟩, rfl⟩ := hd
    obtain ⟨low, f1, f2⟩ := Option.map_eq_some_iff.1 hl
    subst f2
    obtain ⟨m', A', k1, k2, k3, k4⟩ := expr_ok (taken := c.taken) hv f1 hn h3 h4 rfl
    obtain ⟨g1, g2⟩ := exec_segment (c := c) hem hat (lower_S _ f1) rfl h1 (by rw [h2]; exact k1) k2 k3
    refine ⟨g1, _, g2 _ ?_, k4⟩
    show some _ = some _
    simp [Nat.add_assoc]

theorem actOpt_steps {code sts pc a ca c bytes'} (hem : Emits code sts) (hb : Bound sts pc) (hat : At code pc ca) (hl : lowerActOpt a = some ca)
    (hn : Opt (fun a => needAct a ≤ 256) a) (hd : DoneOpt c.bytes a bytes') :
    Bound sts (pc + ca.length) ∧ ∃ c', Steps code sts pc c (pc + ca.length) c' ∧ c'.bytes = bytes' := by
  cases a with
  | none =>
    cases hl
    cases hd
    exact ⟨hb, c, .refl, rfl⟩
  | some a => exact act_steps hem hb hat hl hn hd

/-- A condition and its jump. -/
theorem cond_steps {code sts pc e cc c t v onTrue l} (hem : Emits code sts) (hb : Bound sts pc) (hat : At code pc cc) (hl : lowerJump onTrue l e = some cc)
    (hn : need e ≤ 256) (hv : Eval c.bytes e t v) :
    Bound sts (pc + cc.length) ∧ ∃ c', c'.bytes = c.bytes ∧
      if (v ≠ 0 ↔ onTrue = true) then ∀ p, find l code = some p → Steps code sts pc c p c' else Steps code sts pc c (pc + cc.length) c' := by
  obtain ⟨st, A, h1, h2, h3, h4⟩ := bound_fill hb c
  obtain ⟨low, f1, f2⟩ := Option.map_eq_some_iff.1 hl
  subst f2
  obtain ⟨m', A', k1, k2, k3, k4⟩ := jump_ok (taken := c.taken) onTrue l hv f1 hn h3 h4 rfl
  obtain ⟨g1, g2⟩ := exec_segment (c := c) hem hat (lower_S _ f1) rfl h1 (by rw [h2]; exact k1) k2 k3
  refine ⟨g1, contents ⟨m', [], some (if v ≠ 0 then onTrue else !onTrue)⟩, k4, ?_⟩
  have ht : (if v ≠ 0 then onTrue else !onTrue) = true ↔ (v ≠ 0 ↔ onTrue = true) := by
    by_cases hv : v = 0 <;> cases onTrue <;> simp [hv]
  split
  · rename_i hc
    intro p hp
    refine g2 p ?_
    show (if _ then _ else _) = _
    rw [if_pos (by rw [ht.2 hc])]
    exact hp
  · rename_i hc
    refine g2 _ ?_
    show (if _ then _ else _) = _
    rw [if_neg (fun h => hc (ht.1 (Option.some.inj h)))]
    simp [Nat.add_assoc]

theorem ret_steps {code sts pc e cc c t u v w} (hem : Emits code sts) (hb : Bound sts pc) (hat : At code pc cc) (hl : lowerReturn t e = some cc) (ht : isInteger t)
    (hn : need e ≤ 256) (hv : Eval c.bytes e u v) (hw : Converts t v w) :
    Bound sts (pc + cc.length) ∧ ∃ c', Steps code sts pc c code.length c' ∧ c'.bytes = c.bytes ∧ (2 ^ t.bits : Int) ∣ (c'.regs rax : Int) - w := by
  obtain ⟨st, A, h1, h2, h3, h4⟩ := bound_fill hb c
  obtain ⟨m', A', k1, k2, k3, k4, k5⟩ := ret_ok (taken := c.taken) hv hl ht hw hn h3 h4 rfl
  obtain ⟨low, f1, f2⟩ := Option.map_eq_some_iff.1 hl
  subst f2
  obtain ⟨g1, g2⟩ := exec_segment (c := c) hem hat (castLow_S (lower_S _ f1)) rfl h1 (by rw [h2]; exact k1) k2 k3
  exact ⟨g1, _, g2 _ rfl, k4, k5.2.2⟩

/-- Nodes without operands. -/
theorem node_steps {code sts pc ir st c} (hem : Emits code sts) (hst : sts[pc]? = some st) (hir : code[pc]? = some ir)
    (hn : ∀ next st, emit next ir st = some st ∨ emit next ir st = some { st with taken := some true }) (hk : st.stack = []) {A} (hg : Good [] st.m A) (hi : Idle st.m) :
    Bound sts (pc + 1) ∧ ∃ c', c'.bytes = c.bytes ∧ ∀ pc', (∀ t, target code ir pc t = some pc') → Steps code sts pc c pc' c' := by
  obtain ⟨A', h5, h6⟩ := refill c hg hi
  rcases hn code[pc + 1]? (fill st c) with h | h
  · obtain ⟨st1, k1, k2, k3⟩ := one hem hir hst h
    exact ⟨bound_of k1 k2 hk h5 h6, contents (fill st c), rfl, fun pc' ht => .cons (k3 pc' (ht _)) .refl⟩
  · obtain ⟨st1, k1, k2, k3⟩ := one hem hir hst h
    exact ⟨bound_of k1 k2 hk h5 h6, contents { fill st c with taken := some true }, rfl, fun pc' ht => .cons (k3 pc' (ht _)) .refl⟩

theorem label_steps {code sts pc l} (c : Contents) (hem : Emits code sts) (hb : Bound sts pc) (hir : code[pc]? = some (.label l)) :
    Bound sts (pc + 1) ∧ ∃ c', c'.bytes = c.bytes ∧ Steps code sts pc c (pc + 1) c' := by
  obtain ⟨st, A, h1, h2, h3, h4⟩ := hb
  obtain ⟨k1, c', k2, k3⟩ := node_steps (c := c) hem h1 hir (fun _ _ => .inl rfl) h2 h3 h4
  exact ⟨k1, c', k2, k3 _ fun _ => rfl⟩

theorem jump_steps {code sts pc l} (c : Contents) (hem : Emits code sts) (hb : Bound sts pc) (hir : code[pc]? = some (.jump l)) :
    Bound sts (pc + 1) ∧ ∃ c', c'.bytes = c.bytes ∧ ∀ p, find l code = some p → Steps code sts pc c p c' := by
  obtain ⟨st, A, h1, h2, h3, h4⟩ := hb
  obtain ⟨k1, c', k2, k3⟩ := node_steps (c := c) hem h1 hir (fun _ _ => .inr rfl) h2 h3 h4
  exact ⟨k1, c', k2, fun p hp => k3 p fun _ => hp⟩

theorem retVoid_steps {code sts pc} (c : Contents) (hem : Emits code sts) (hb : Bound sts pc) (hir : code[pc]? = some .retVoid) :
    Bound sts (pc + 1) ∧ ∃ c', c'.bytes = c.bytes ∧ Steps code sts pc c code.length c' := by
  obtain ⟨st, A, h1, h2, h3, h4⟩ := hb
  obtain ⟨k1, c', k2, k3⟩ := node_steps (c := c) hem h1 hir (fun _ _ => .inl rfl) h2 h3 h4
  exact ⟨k1, c', k2, k3 _ fun _ => rfl⟩

end Verif.Lemmas.FuncCode
