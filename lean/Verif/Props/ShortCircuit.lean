import Verif.Spec.ShortCircuit

/-!
# C56: `&&`, `||`, `!`, `?:` and `,` evaluate the operands C says and yield their C value
-/
namespace Verif.Props.ShortCircuit
open Verif.ShortCircuit Verif.Spec.ShortCircuit

variable {σ : Type} {act : Nat → σ → Nat × σ}

theorem Steps.trans {prog : List I} {a b c : Cfg σ} (h1 : Steps act prog a b) (h2 : Steps act prog b c) : Steps act prog a c := by
  induction h1 with
  | refl _ => exact h2
  | cons x y z hs _ ih => exact .cons x y _ hs (ih h2)

theorem lit_spec (e : E) : ∀ nl nt v, (compile e nl nt).lit = some v →
    (compile e nl nt).code = [.lit v] ∧ ∀ (σ : Type) (act : Nat → σ → Nat × σ) (s : σ), eval act e s = (v, s) := by
  induction e with
  | leaf n => intro nl nt v h; cases h
  | lit w => intro nl nt v h; cases h; exact ⟨rfl, fun _ _ _ => rfl⟩
  | not e ih =>
    intro nl nt v h
    simp only [compile] at h ⊢
    cases he : (compile e nl nt).lit with
    | none => simp [he] at h
    | some w =>
      simp only [he, Option.some.injEq] at h ⊢
      subst h
      exact ⟨rfl, fun σ act s => by simp only [eval, (ih nl nt w he).2]⟩
  | andE a b iha ihb =>
    intro nl nt v h
    simp only [compile] at h ⊢
    cases ha : (compile a nl nt).lit with
    | none => simp [ha] at h
    | some x =>
      cases hb : (compile b ((compile a nl nt).labels + 1) (compile a nl nt).temps).lit with
      | none => simp [ha, hb] at h
      | some y =>
        simp only [ha, hb, Option.some.injEq] at h ⊢
        subst h
        refine ⟨rfl, fun σ act s => ?_⟩
        simp only [eval, (iha nl nt x ha).2, (ihb _ _ y hb).2]
        by_cases h1 : x = 0 <;> by_cases h2 : y = 0 <;> simp [h1, h2]
  | orE a b iha ihb =>
    intro nl nt v h
    simp only [compile] at h ⊢
    cases ha : (compile a nl nt).lit with
    | none => simp [ha] at h
    | some x =>
      cases hb : (compile b ((compile a nl nt).labels + 1) (compile a nl nt).temps).lit with
      | none => simp [ha, hb] at h
      | some y =>
        simp only [ha, hb, Option.some.injEq] at h ⊢
        subst h
        refine ⟨rfl, fun σ act s => ?_⟩
        simp only [eval, (iha nl nt x ha).2, (ihb _ _ y hb).2]
        by_cases h1 : x = 0 <;> by_cases h2 : y = 0 <;> simp [h1, h2]
  | cond c a b ihc iha ihb =>
    intro nl nt v h
    simp only [compile] at h ⊢
    cases hc : (compile c nl nt).lit with
    | none => simp [hc] at h
    | some w =>
      simp only [hc] at h ⊢
      by_cases hw : w = 0
      · simp only [ne_eq, hw, not_true_eq_false, if_false] at h ⊢
        refine ⟨(ihb _ _ v h).1, fun σ act s => ?_⟩
        simp only [eval, (ihc _ _ w hc).2, (ihb _ _ v h).2, hw, ne_eq, not_true_eq_false, if_false]
      · simp only [ne_eq, hw, not_false_eq_true, if_true] at h ⊢
        refine ⟨(iha _ _ v h).1, fun σ act s => ?_⟩
        simp only [eval, (ihc _ _ w hc).2, (iha _ _ v h).2, hw, ne_eq, not_false_eq_true, if_true]
  | comma a b iha ihb => intro nl nt v h; simp [compile] at h

theorem placed_append (a b : List I) : placed (a ++ b) = placed a ++ placed b := by simp [placed]
theorem placed_cons (i : I) (b : List I) : placed (i :: b) = (match i with | .label l => [l] | _ => []) ++ placed b := by
  cases i <;> simp [placed]
theorem placed_nil : placed [] = [] := rfl

/-- Labels placed are those allocated, each once; the counters only grow. -/
theorem labels_spec (e : E) : ∀ nl nt, nl ≤ (compile e nl nt).labels ∧ nt ≤ (compile e nl nt).temps ∧
    (∀ l ∈ placed (compile e nl nt).code, nl ≤ l ∧ l < (compile e nl nt).labels) ∧ (placed (compile e nl nt).code).Nodup := by
  induction e with
  | leaf n => intro nl nt; simp [compile, placed]
  | lit w => intro nl nt; simp [compile, placed]
  | not e ih =>
    intro nl nt
    have h := ih nl nt
    simp only [compile]
    cases he : (compile e nl nt).lit with
    | none => simpa [placed_append, placed_cons, placed_nil] using h
    | some w => simp [placed, h.1, h.2.1]
  | andE a b iha ihb =>
    intro nl nt
    have ha := iha nl nt
    have hb := ihb ((compile a nl nt).labels + 1) (compile a nl nt).temps
    simp only [compile]
    split
    · simp only [placed]; refine ⟨by omega, by omega, by simp, by simp⟩
    · simp only [placed_append, placed_cons, placed_nil, List.append_nil, List.nil_append]
      refine ⟨by omega, by omega, ?_, ?_⟩
      · intro l hl
        simp only [List.mem_append, List.mem_singleton] at hl
        rcases hl with hl | hl | hl | hl
        · have := ha.2.2.1 l hl; omega
        · have := hb.2.2.1 l hl; omega
        · omega
        · omega
      · refine List.nodup_append.2 ⟨ha.2.2.2, List.nodup_append.2 ⟨hb.2.2.2, ?_, ?_⟩, ?_⟩
        · simp; omega
        · intro x hx y hy
          have := hb.2.2.1 x hx
          simp only [List.mem_append, List.mem_singleton] at hy
          omega
        · intro x hx y hy
          have h1 := ha.2.2.1 x hx
          simp only [List.mem_append, List.mem_singleton] at hy
          rcases hy with hy | hy | hy
          · have := hb.2.2.1 y hy; omega
          · omega
          · omega
  | orE a b iha ihb =>
    intro nl nt
    have ha := iha nl nt
    have hb := ihb ((compile a nl nt).labels + 1) (compile a nl nt).temps
    simp only [compile]
    split
    · simp only [placed]; refine ⟨by omega, by omega, by simp, by simp⟩
    · simp only [placed_append, placed_cons, placed_nil, List.append_nil, List.nil_append]
      refine ⟨by omega, by omega, ?_, ?_⟩
      · intro l hl
        simp only [List.mem_append, List.mem_singleton] at hl
        rcases hl with hl | hl | hl | hl
        · have := ha.2.2.1 l hl; omega
        · have := hb.2.2.1 l hl; omega
        · omega
        · omega
      · refine List.nodup_append.2 ⟨ha.2.2.2, List.nodup_append.2 ⟨hb.2.2.2, ?_, ?_⟩, ?_⟩
        · simp; omega
        · intro x hx y hy
          have := hb.2.2.1 x hx
          simp only [List.mem_append, List.mem_singleton] at hy
          omega
        · intro x hx y hy
          have h1 := ha.2.2.1 x hx
          simp only [List.mem_append, List.mem_singleton] at hy
          rcases hy with hy | hy | hy
          · have := hb.2.2.1 y hy; omega
          · omega
          · omega
  | cond c a b ihc iha ihb =>
    intro nl nt
    have hc := ihc nl nt
    simp only [compile]
    cases he : (compile c nl nt).lit with
    | some v =>
      have ha := iha (compile c nl nt).labels (compile c nl nt).temps
      have hb := ihb (compile a (compile c nl nt).labels (compile c nl nt).temps).labels (compile a (compile c nl nt).labels (compile c nl nt).temps).temps
      simp only
      split
      · refine ⟨by simp only; omega, by simp only; omega, ?_, ha.2.2.2⟩
        intro l hl
        have := ha.2.2.1 l hl
        simp only; omega
      · refine ⟨by simp only; omega, by simp only; omega, ?_, hb.2.2.2⟩
        intro l hl
        have := hb.2.2.1 l hl
        simp only; omega
    | none =>
      have ha := iha ((compile c nl nt).labels + 1) (compile c nl nt).temps
      have hb := ihb ((compile a ((compile c nl nt).labels + 1) (compile c nl nt).temps).labels + 1) (compile a ((compile c nl nt).labels + 1) (compile c nl nt).temps).temps
      simp only [placed_append, placed_cons, placed_nil, List.append_nil, List.nil_append]
      refine ⟨by omega, by omega, ?_, ?_⟩
      · intro l hl
        simp only [List.mem_append, List.mem_singleton] at hl
        rcases hl with hl | hl | hl | hl | hl
        · have := hc.2.2.1 l hl; omega
        · have := ha.2.2.1 l hl; omega
        · omega
        · have := hb.2.2.1 l hl; omega
        · omega
      · refine List.nodup_append.2 ⟨hc.2.2.2, List.nodup_append.2 ⟨ha.2.2.2, List.nodup_append.2 ⟨by simp, List.nodup_append.2 ⟨hb.2.2.2, by simp, ?_⟩, ?_⟩, ?_⟩, ?_⟩
        · intro x hx y hy
          have := hb.2.2.1 x hx
          simp only [List.mem_singleton] at hy
          omega
        · intro x hx y hy
          simp only [List.mem_append, List.mem_singleton] at hx hy
          rcases hy with hy | hy
          · have := hb.2.2.1 y hy; omega
          · omega
        · intro x hx y hy
          have h1 := ha.2.2.1 x hx
          simp only [List.mem_append, List.mem_singleton] at hy
          rcases hy with hy | hy | hy
          · omega
          · have := hb.2.2.1 y hy; omega
          · omega
        · intro x hx y hy
          have h1 := hc.2.2.1 x hx
          simp only [List.mem_append, List.mem_singleton] at hy
          rcases hy with hy | hy | hy | hy
          · have := ha.2.2.1 y hy; omega
          · omega
          · have := hb.2.2.1 y hy; omega
          · omega
  | comma a b iha ihb =>
    intro nl nt
    have ha := iha nl nt
    have hb := ihb (compile a nl nt).labels (compile a nl nt).temps
    simp only [compile, placed_append, placed_cons, placed_nil, List.append_nil, List.nil_append]
    refine ⟨by omega, by omega, ?_, ?_⟩
    · intro l hl
      simp only [List.mem_append] at hl
      rcases hl with hl | hl
      · have := ha.2.2.1 l hl; omega
      · have := hb.2.2.1 l hl; omega
    · refine List.nodup_append.2 ⟨ha.2.2.2, hb.2.2.2, ?_⟩
      intro x hx y hy
      have h1 := ha.2.2.1 x hx
      have h2 := hb.2.2.1 y hy
      omega

theorem get_at (A T post : List I) (k : Nat) (i : I) (h : T[k]? = some i) : (A ++ (T ++ post))[A.length + k]? = some i := by
  have hk : k < T.length := by
    rcases Nat.lt_or_ge k T.length with h1 | h1
    · exact h1
    · rw [List.getElem?_eq_none (by omega)] at h; cases h
  rw [List.getElem?_append_right (by omega), Nat.add_sub_cancel_left, List.getElem?_append_left hk, h]

theorem mem_placed (l : Nat) (A : List I) : l ∈ placed A ↔ .label l ∈ A := by
  simp only [placed, List.mem_filterMap]
  constructor
  · rintro ⟨i, hi, h⟩
    cases i <;> simp at h
    subst h; exact hi
  · intro h; exact ⟨_, h, rfl⟩

theorem find_at (l : Nat) (A T post : List I) (hA : l ∉ placed A) (hT : .label l ∈ T) :
    find l (A ++ (T ++ post)) = A.length + T.findIdx (· == .label l) := by
  unfold find
  rw [List.findIdx_append, if_neg, List.findIdx_append, if_pos]
  · omega
  · exact List.findIdx_lt_length_of_exists ⟨_, hT, by simp⟩
  · rw [Nat.not_lt]
    apply Nat.le_of_eq
    symm
    apply List.findIdx_eq_length_of_false
    intro x hx
    simp only [beq_eq_false_iff_ne]
    rintro rfl
    exact hA ((mem_placed l A).2 hx)

theorem stepk {A T post : List I} {prog : List I} (hp : prog = A ++ (T ++ post)) (k : Nat) (i : I) (hT : T[k]? = some i)
    (c c' d : Cfg σ) (hpc : c.pc = A.length + k) (hx : exec act prog c i = some c') (hrest : Steps act prog c' d) : Steps act prog c d := by
  refine .cons c c' d ?_ hrest
  unfold step
  rw [hpc]
  rw [show prog[A.length + k]? = some i by rw [hp]; exact get_at A T post k i hT]
  exact hx

/-- The claim of C56 for one expression. -/
def Correct (e : E) : Prop := ∀ (σ : Type) (act : Nat → σ → Nat × σ) (nl nt : Nat) (pre post : List I), (∀ l ∈ placed pre, l < nl) →
  ∀ (s : List Entry) (temps : Nat → Nat) (st : σ), ∃ temps' top,
    Steps act (pre ++ ((compile e nl nt).code ++ post)) ⟨pre.length, s, temps, st⟩
      ⟨pre.length + (compile e nl nt).code.length, top :: s, temps', (eval act e st).2⟩ ∧
    deref temps' top = (eval act e st).1 ∧ ∀ k, k < nt ∨ (compile e nl nt).temps ≤ k → temps' k = temps k

theorem correct_lit (v : Nat) (s : List Entry) (temps : Nat → Nat) (st : σ) (pre post : List I) :
    Steps act (pre ++ ([I.lit v] ++ post)) ⟨pre.length, s, temps, st⟩ ⟨pre.length + 1, .val v :: s, temps, st⟩ :=
  stepk rfl 0 (.lit v) rfl _ _ _ rfl rfl (.refl _)

theorem nb (i : I) (l : Nat) (h : ∀ k, i ≠ .label k) : (i == I.label l) = false := by simp [h l]
theorem nbl (k l : Nat) : (I.label k == I.label l) = decide (k = l) := by
  by_cases h : k = l <;> simp [h]

/-- The tail of `&&` and `||`: `x` is stored on falling through, `y` at the label. -/
def tail (jmp : I) (x y t l e : Nat) : List I :=
  [jmp, .temp t, .lit x, .store, .pop, .jump e, .label l, .temp t, .lit y, .store, .pop, .label e, .temp t]

theorem tail_label (jmp : I) (hj : ∀ k, jmp ≠ .label k) (x y t l e : Nat) (hle : l ≠ e) (A post : List I) (hl : l ∉ placed A) (he : e ∉ placed A) :
    find l (A ++ (tail jmp x y t l e ++ post)) = A.length + 6 ∧ find e (A ++ (tail jmp x y t l e ++ post)) = A.length + 11 := by
  have h1 : (jmp == I.label l) = false := by simp [hj l]
  have h2 : (jmp == I.label e) = false := by simp [hj e]
  constructor
  · rw [find_at l A _ post hl (by simp [tail])]
    simp [tail, List.findIdx_cons, h1, nb, nbl]
  · rw [find_at e A _ post he (by simp [tail])]
    simp [tail, List.findIdx_cons, h2, hle, nb, nbl]

theorem tail_fall (jmp : I) (hj : ∀ k, jmp ≠ .label k) (x y t l e : Nat) (hle : l ≠ e) (A post : List I) (hl : l ∉ placed A) (he : e ∉ placed A)
    (s : List Entry) (temps : Nat → Nat) (st : σ) :
    Steps act (A ++ (tail jmp x y t l e ++ post)) ⟨A.length + 1, s, temps, st⟩
      ⟨A.length + 13, .loc t :: s, fun j => if j = t then x else temps j, st⟩ := by
  have hf := (tail_label jmp hj x y t l e hle A post hl he).2
  refine stepk rfl 1 (.temp t) rfl _ ⟨A.length + 2, .loc t :: s, temps, st⟩ _ rfl rfl ?_
  refine stepk rfl 2 (.lit x) rfl _ ⟨A.length + 3, .val x :: .loc t :: s, temps, st⟩ _ rfl rfl ?_
  refine stepk rfl 3 .store rfl _ ⟨A.length + 4, .loc t :: s, fun j => if j = t then x else temps j, st⟩ _ rfl rfl ?_
  refine stepk rfl 4 .pop rfl _ ⟨A.length + 5, s, fun j => if j = t then x else temps j, st⟩ _ rfl rfl ?_
  refine stepk rfl 5 (.jump e) rfl _ ⟨A.length + 11, s, fun j => if j = t then x else temps j, st⟩ _ rfl (by simp only [exec, hf]) ?_
  refine stepk rfl 11 (.label e) rfl _ ⟨A.length + 12, s, fun j => if j = t then x else temps j, st⟩ _ rfl rfl ?_
  refine stepk rfl 12 (.temp t) rfl _ ⟨A.length + 13, .loc t :: s, fun j => if j = t then x else temps j, st⟩ _ rfl rfl (.refl _)

theorem tail_taken (jmp : I) (x y t l e : Nat) (A post : List I) (s : List Entry) (temps : Nat → Nat) (st : σ) :
    Steps act (A ++ (tail jmp x y t l e ++ post)) ⟨A.length + 6, s, temps, st⟩
      ⟨A.length + 13, .loc t :: s, fun j => if j = t then y else temps j, st⟩ := by
  refine stepk rfl 6 (.label l) rfl _ ⟨A.length + 7, s, temps, st⟩ _ rfl rfl ?_
  refine stepk rfl 7 (.temp t) rfl _ ⟨A.length + 8, .loc t :: s, temps, st⟩ _ rfl rfl ?_
  refine stepk rfl 8 (.lit y) rfl _ ⟨A.length + 9, .val y :: .loc t :: s, temps, st⟩ _ rfl rfl ?_
  refine stepk rfl 9 .store rfl _ ⟨A.length + 10, .loc t :: s, fun j => if j = t then y else temps j, st⟩ _ rfl rfl ?_
  refine stepk rfl 10 .pop rfl _ ⟨A.length + 11, s, fun j => if j = t then y else temps j, st⟩ _ rfl rfl ?_
  refine stepk rfl 11 (.label e) rfl _ ⟨A.length + 12, s, fun j => if j = t then y else temps j, st⟩ _ rfl rfl ?_
  refine stepk rfl 12 (.temp t) rfl _ ⟨A.length + 13, .loc t :: s, fun j => if j = t then y else temps j, st⟩ _ rfl rfl (.refl _)

theorem correct_and (a b : E) (iha : Correct a) (ihb : Correct b) : Correct (.andE a b) := by
  intro σ act nl nt pre post hpre s temps st
  have la := labels_spec a nl nt
  have lb := labels_spec b ((compile a nl nt).labels + 1) (compile a nl nt).temps
  by_cases hfold : ∃ v w, (compile a nl nt).lit = some v ∧ (compile b ((compile a nl nt).labels + 1) (compile a nl nt).temps).lit = some w
  · obtain ⟨v, w, hv, hw⟩ := hfold
    have hc : compile (.andE a b) nl nt = ⟨[.lit (if v ≠ 0 ∧ w ≠ 0 then 1 else 0)], some (if v ≠ 0 ∧ w ≠ 0 then 1 else 0),
        (compile b ((compile a nl nt).labels + 1) (compile a nl nt).temps).labels, (compile b ((compile a nl nt).labels + 1) (compile a nl nt).temps).temps⟩ := by
      simp only [compile, hv, hw]
    have hl := (lit_spec (.andE a b) nl nt (if v ≠ 0 ∧ w ≠ 0 then 1 else 0) (by rw [hc])).2 σ act st
    rw [hl, hc]
    exact ⟨temps, _, correct_lit _ s temps st pre post, rfl, fun _ _ => rfl⟩
  · let l := (compile a nl nt).labels
    let oa := compile a nl nt
    let ob := compile b (l + 1) oa.temps
    have hc : compile (.andE a b) nl nt = ⟨oa.code ++ .jumpIfFalse l :: (ob.code ++ tail (.jumpIfFalse l) 1 0 ob.temps l ob.labels), none, ob.labels + 1, ob.temps + 1⟩ := by
      simp only [compile, tail, oa, ob, l]
      split
      · rename_i v w hv hw
        exact absurd ⟨v, w, hv, hw⟩ hfold
      · rfl
    rw [hc]
    -- the program, cut at each point of interest
    have p1 : pre ++ ((oa.code ++ .jumpIfFalse l :: (ob.code ++ tail (.jumpIfFalse l) 1 0 ob.temps l ob.labels)) ++ post) =
        pre ++ (oa.code ++ (.jumpIfFalse l :: (ob.code ++ tail (.jumpIfFalse l) 1 0 ob.temps l ob.labels) ++ post)) := by simp
    have p2 : pre ++ ((oa.code ++ .jumpIfFalse l :: (ob.code ++ tail (.jumpIfFalse l) 1 0 ob.temps l ob.labels)) ++ post) =
        (pre ++ oa.code) ++ ([.jumpIfFalse l] ++ (ob.code ++ tail (.jumpIfFalse l) 1 0 ob.temps l ob.labels ++ post)) := by simp
    have p3 : pre ++ ((oa.code ++ .jumpIfFalse l :: (ob.code ++ tail (.jumpIfFalse l) 1 0 ob.temps l ob.labels)) ++ post) =
        (pre ++ oa.code ++ [.jumpIfFalse l]) ++ (ob.code ++ (tail (.jumpIfFalse l) 1 0 ob.temps l ob.labels ++ post)) := by simp
    have p4 : pre ++ ((oa.code ++ .jumpIfFalse l :: (ob.code ++ tail (.jumpIfFalse l) 1 0 ob.temps l ob.labels)) ++ post) =
        (pre ++ oa.code ++ .jumpIfFalse l :: ob.code) ++ (tail (.jumpIfFalse l) 1 0 ob.temps l ob.labels ++ post) := by simp
    generalize hprog : pre ++ ((oa.code ++ .jumpIfFalse l :: (ob.code ++ tail (.jumpIfFalse l) 1 0 ob.temps l ob.labels)) ++ post) = prog at *
    -- labels are not placed before
    have hla : ∀ k ∈ placed (pre ++ oa.code), k < l := by
      intro k hk
      rw [placed_append, List.mem_append] at hk
      rcases hk with hk | hk
      · have := hpre k hk; show k < (compile a nl nt).labels; omega
      · exact (la.2.2.1 k hk).2
    have hla' : ∀ k ∈ placed (pre ++ oa.code ++ [.jumpIfFalse l]), k < l + 1 := by
      intro k hk
      rw [placed_append, List.mem_append] at hk
      rcases hk with hk | hk
      · have := hla k hk; omega
      · simp [placed] at hk
    have hlen4 : (pre ++ oa.code ++ .jumpIfFalse l :: ob.code).length = pre.length + oa.code.length + 1 + ob.code.length := by simp; omega
    have hpl4 : ∀ k ∈ placed (pre ++ oa.code ++ .jumpIfFalse l :: ob.code), k < l ∨ (l + 1 ≤ k ∧ k < ob.labels) := by
      intro k hk
      rw [placed_append, List.mem_append] at hk
      rcases hk with hk | hk
      · exact Or.inl (hla k hk)
      · simp only [placed_cons, List.nil_append] at hk
        exact Or.inr (lb.2.2.1 k hk)
    have hlt : l + 1 ≤ ob.labels := lb.1
    have hnl : l ∉ placed (pre ++ oa.code ++ .jumpIfFalse l :: ob.code) := fun h => by have := hpl4 l h; omega
    have hne : ob.labels ∉ placed (pre ++ oa.code ++ .jumpIfFalse l :: ob.code) := fun h => by have := hpl4 _ h; omega
    have hj : ∀ k, I.jumpIfFalse l ≠ .label k := fun k h => by cases h
    have hfl := (tail_label (.jumpIfFalse l) hj 1 0 ob.temps l ob.labels (by omega) _ post hnl hne).1
    rw [← p4] at hfl
    have htt : oa.temps ≤ ob.temps := lb.2.1
    have hta : nt ≤ oa.temps := la.2.1
    obtain ⟨t1, top1, s1, d1, f1⟩ := iha σ act nl nt pre (.jumpIfFalse l :: (ob.code ++ tail (.jumpIfFalse l) 1 0 ob.temps l ob.labels) ++ post) hpre s temps st
    have s1' : Steps act prog ⟨pre.length, s, temps, st⟩ ⟨pre.length + oa.code.length, top1 :: s, t1, (eval act a st).2⟩ := by rw [p1]; exact s1
    by_cases ha0 : (eval act a st).1 = 0
    · -- short circuit
      refine ⟨fun j => if j = ob.temps then 0 else t1 j, .loc ob.temps, ?_, ?_, ?_⟩
      · refine Steps.trans s1' ?_
        have hev : (eval act (.andE a b) st).2 = (eval act a st).2 := by simp only [eval, if_pos ha0]
        rw [hev]
        refine stepk (σ := σ) p2 0 (.jumpIfFalse l) rfl _ ⟨(pre ++ oa.code ++ .jumpIfFalse l :: ob.code).length + 6, s, t1, (eval act a st).2⟩ _ (by simp) ?_ ?_
        · simp only [exec, d1, if_pos ha0, hfl]
        · have := tail_taken (act := act) (.jumpIfFalse l) 1 0 ob.temps l ob.labels (pre ++ oa.code ++ .jumpIfFalse l :: ob.code) post s t1 (eval act a st).2
          rw [← p4] at this
          have e : pre.length + (oa.code ++ I.jumpIfFalse l :: (ob.code ++ tail (.jumpIfFalse l) 1 0 ob.temps l ob.labels)).length =
              (pre ++ oa.code ++ .jumpIfFalse l :: ob.code).length + 13 := by simp [tail]; omega
          rw [e]; exact this
      · simp [deref, eval, ha0]
      · intro k hk
        have hne' : k ≠ ob.temps := by simp only at hk; omega
        simp only [if_neg hne']
        exact f1 k (by simp only at hk; show k < nt ∨ oa.temps ≤ k; omega)
    · obtain ⟨t2, top2, s2, d2, f2⟩ := ihb σ act (l + 1) oa.temps (pre ++ oa.code ++ [.jumpIfFalse l]) (tail (.jumpIfFalse l) 1 0 ob.temps l ob.labels ++ post) hla' s t1 (eval act a st).2
      have s2' : Steps act prog ⟨pre.length + oa.code.length + 1, s, t1, (eval act a st).2⟩
          ⟨(pre ++ oa.code ++ .jumpIfFalse l :: ob.code).length, top2 :: s, t2, (eval act b (eval act a st).2).2⟩ := by
        rw [p3]
        have e1 : pre.length + oa.code.length + 1 = (pre ++ oa.code ++ [I.jumpIfFalse l]).length := by simp; omega
        have e2 : (pre ++ oa.code ++ I.jumpIfFalse l :: ob.code).length = (pre ++ oa.code ++ [I.jumpIfFalse l]).length + ob.code.length := by simp; omega
        rw [e1, e2]; exact s2
      have hev2 : (eval act (.andE a b) st).2 = (eval act b (eval act a st).2).2 := by simp only [eval, if_neg ha0]
      have hev1 : (eval act (.andE a b) st).1 = if (eval act b (eval act a st).2).1 = 0 then 0 else 1 := by simp only [eval, if_neg ha0]
      have e : pre.length + (oa.code ++ I.jumpIfFalse l :: (ob.code ++ tail (.jumpIfFalse l) 1 0 ob.temps l ob.labels)).length =
          (pre ++ oa.code ++ .jumpIfFalse l :: ob.code).length + 13 := by simp [tail]; omega
      refine ⟨fun j => if j = ob.temps then (if (eval act b (eval act a st).2).1 = 0 then 0 else 1) else t2 j, .loc ob.temps, ?_, ?_, ?_⟩
      · refine Steps.trans s1' ?_
        rw [hev2, e]
        refine stepk (σ := σ) p2 0 (.jumpIfFalse l) rfl _ ⟨pre.length + oa.code.length + 1, s, t1, (eval act a st).2⟩ _ (by simp) ?_ ?_
        · simp only [exec, d1, if_neg ha0]
        refine Steps.trans s2' ?_
        by_cases hb0 : (eval act b (eval act a st).2).1 = 0
        · simp only [hb0, if_true]
          refine stepk (σ := σ) p4 0 (.jumpIfFalse l) rfl _ ⟨(pre ++ oa.code ++ .jumpIfFalse l :: ob.code).length + 6, s, t2, (eval act b (eval act a st).2).2⟩ _ rfl ?_ ?_
          · simp only [exec, d2, if_pos hb0, hfl]
          · have := tail_taken (act := act) (.jumpIfFalse l) 1 0 ob.temps l ob.labels (pre ++ oa.code ++ .jumpIfFalse l :: ob.code) post s t2 (eval act b (eval act a st).2).2
            rw [← p4] at this; exact this
        · simp only [hb0, if_false]
          refine stepk (σ := σ) p4 0 (.jumpIfFalse l) rfl _ ⟨(pre ++ oa.code ++ .jumpIfFalse l :: ob.code).length + 1, s, t2, (eval act b (eval act a st).2).2⟩ _ rfl ?_ ?_
          · simp only [exec, d2, if_neg hb0]
          · have := tail_fall (act := act) (.jumpIfFalse l) hj 1 0 ob.temps l ob.labels (by omega) (pre ++ oa.code ++ .jumpIfFalse l :: ob.code) post hnl hne s t2 (eval act b (eval act a st).2).2
            rw [← p4] at this; exact this
      · rw [hev1]; simp [deref]
      · intro k hk
        have hne' : k ≠ ob.temps := by simp only at hk; omega
        simp only [if_neg hne']
        rw [f2 k (by simp only at hk; show k < oa.temps ∨ ob.temps ≤ k; omega)]
        exact f1 k (by simp only at hk; show k < nt ∨ oa.temps ≤ k; omega)

theorem correct_or (a b : E) (iha : Correct a) (ihb : Correct b) : Correct (.orE a b) := by
  intro σ act nl nt pre post hpre s temps st
  have la := labels_spec a nl nt
  have lb := labels_spec b ((compile a nl nt).labels + 1) (compile a nl nt).temps
  by_cases hfold : ∃ v w, (compile a nl nt).lit = some v ∧ (compile b ((compile a nl nt).labels + 1) (compile a nl nt).temps).lit = some w
  · obtain ⟨v, w, hv, hw⟩ := hfold
    have hc : compile (.orE a b) nl nt = ⟨[.lit (if v ≠ 0 ∨ w ≠ 0 then 1 else 0)], some (if v ≠ 0 ∨ w ≠ 0 then 1 else 0),
        (compile b ((compile a nl nt).labels + 1) (compile a nl nt).temps).labels, (compile b ((compile a nl nt).labels + 1) (compile a nl nt).temps).temps⟩ := by
      simp only [compile, hv, hw]
    have hl := (lit_spec (.orE a b) nl nt (if v ≠ 0 ∨ w ≠ 0 then 1 else 0) (by rw [hc])).2 σ act st
    rw [hl, hc]
    exact ⟨temps, _, correct_lit _ s temps st pre post, rfl, fun _ _ => rfl⟩
  · let l := (compile a nl nt).labels
    let oa := compile a nl nt
    let ob := compile b (l + 1) oa.temps
    have hc : compile (.orE a b) nl nt = ⟨oa.code ++ .jumpIfTrue l :: (ob.code ++ tail (.jumpIfTrue l) 0 1 ob.temps l ob.labels), none, ob.labels + 1, ob.temps + 1⟩ := by
      simp only [compile, tail, oa, ob, l]
      split
      · rename_i v w hv hw
        exact absurd ⟨v, w, hv, hw⟩ hfold
      · rfl
    rw [hc]
    -- the program, cut at each point of interest
    have p1 : pre ++ ((oa.code ++ .jumpIfTrue l :: (ob.code ++ tail (.jumpIfTrue l) 0 1 ob.temps l ob.labels)) ++ post) =
        pre ++ (oa.code ++ (.jumpIfTrue l :: (ob.code ++ tail (.jumpIfTrue l) 0 1 ob.temps l ob.labels) ++ post)) := by simp
    have p2 : pre ++ ((oa.code ++ .jumpIfTrue l :: (ob.code ++ tail (.jumpIfTrue l) 0 1 ob.temps l ob.labels)) ++ post) =
        (pre ++ oa.code) ++ ([.jumpIfTrue l] ++ (ob.code ++ tail (.jumpIfTrue l) 0 1 ob.temps l ob.labels ++ post)) := by simp
    have p3 : pre ++ ((oa.code ++ .jumpIfTrue l :: (ob.code ++ tail (.jumpIfTrue l) 0 1 ob.temps l ob.labels)) ++ post) =
        (pre ++ oa.code ++ [.jumpIfTrue l]) ++ (ob.code ++ (tail (.jumpIfTrue l) 0 1 ob.temps l ob.labels ++ post)) := by simp
    have p4 : pre ++ ((oa.code ++ .jumpIfTrue l :: (ob.code ++ tail (.jumpIfTrue l) 0 1 ob.temps l ob.labels)) ++ post) =
        (pre ++ oa.code ++ .jumpIfTrue l :: ob.code) ++ (tail (.jumpIfTrue l) 0 1 ob.temps l ob.labels ++ post) := by simp
    generalize hprog : pre ++ ((oa.code ++ .jumpIfTrue l :: (ob.code ++ tail (.jumpIfTrue l) 0 1 ob.temps l ob.labels)) ++ post) = prog at *
    -- labels are not placed before
    have hla : ∀ k ∈ placed (pre ++ oa.code), k < l := by
      intro k hk
      rw [placed_append, List.mem_append] at hk
      rcases hk with hk | hk
      · have := hpre k hk; show k < (compile a nl nt).labels; omega
      · exact (la.2.2.1 k hk).2
    have hla' : ∀ k ∈ placed (pre ++ oa.code ++ [.jumpIfTrue l]), k < l + 1 := by
      intro k hk
      rw [placed_append, List.mem_append] at hk
      rcases hk with hk | hk
      · have := hla k hk; omega
      · simp [placed] at hk
    have hlen4 : (pre ++ oa.code ++ .jumpIfTrue l :: ob.code).length = pre.length + oa.code.length + 1 + ob.code.length := by simp; omega
    have hpl4 : ∀ k ∈ placed (pre ++ oa.code ++ .jumpIfTrue l :: ob.code), k < l ∨ (l + 1 ≤ k ∧ k < ob.labels) := by
      intro k hk
      rw [placed_append, List.mem_append] at hk
      rcases hk with hk | hk
      · exact Or.inl (hla k hk)
      · simp only [placed_cons, List.nil_append] at hk
        exact Or.inr (lb.2.2.1 k hk)
    have hlt : l + 1 ≤ ob.labels := lb.1
    have hnl : l ∉ placed (pre ++ oa.code ++ .jumpIfTrue l :: ob.code) := fun h => by have := hpl4 l h; omega
    have hne : ob.labels ∉ placed (pre ++ oa.code ++ .jumpIfTrue l :: ob.code) := fun h => by have := hpl4 _ h; omega
    have hj : ∀ k, I.jumpIfTrue l ≠ .label k := fun k h => by cases h
    have hfl := (tail_label (.jumpIfTrue l) hj 0 1 ob.temps l ob.labels (by omega) _ post hnl hne).1
    rw [← p4] at hfl
    have htt : oa.temps ≤ ob.temps := lb.2.1
    have hta : nt ≤ oa.temps := la.2.1
    obtain ⟨t1, top1, s1, d1, f1⟩ := iha σ act nl nt pre (.jumpIfTrue l :: (ob.code ++ tail (.jumpIfTrue l) 0 1 ob.temps l ob.labels) ++ post) hpre s temps st
    have s1' : Steps act prog ⟨pre.length, s, temps, st⟩ ⟨pre.length + oa.code.length, top1 :: s, t1, (eval act a st).2⟩ := by rw [p1]; exact s1
    by_cases ha0 : (eval act a st).1 ≠ 0
    · -- short circuit
      refine ⟨fun j => if j = ob.temps then 1 else t1 j, .loc ob.temps, ?_, ?_, ?_⟩
      · refine Steps.trans s1' ?_
        have hev : (eval act (.orE a b) st).2 = (eval act a st).2 := by simp only [eval, if_pos ha0]
        rw [hev]
        refine stepk (σ := σ) p2 0 (.jumpIfTrue l) rfl _ ⟨(pre ++ oa.code ++ .jumpIfTrue l :: ob.code).length + 6, s, t1, (eval act a st).2⟩ _ (by simp) ?_ ?_
        · simp only [exec, d1, if_neg ha0, hfl]
        · have := tail_taken (act := act) (.jumpIfTrue l) 0 1 ob.temps l ob.labels (pre ++ oa.code ++ .jumpIfTrue l :: ob.code) post s t1 (eval act a st).2
          rw [← p4] at this
          have e : pre.length + (oa.code ++ I.jumpIfTrue l :: (ob.code ++ tail (.jumpIfTrue l) 0 1 ob.temps l ob.labels)).length =
              (pre ++ oa.code ++ .jumpIfTrue l :: ob.code).length + 13 := by simp [tail]; omega
          rw [e]; exact this
      · simp [deref, eval, ha0]
      · intro k hk
        have hne' : k ≠ ob.temps := by simp only at hk; omega
        simp only [if_neg hne']
        exact f1 k (by simp only at hk; show k < nt ∨ oa.temps ≤ k; omega)
    · obtain ⟨t2, top2, s2, d2, f2⟩ := ihb σ act (l + 1) oa.temps (pre ++ oa.code ++ [.jumpIfTrue l]) (tail (.jumpIfTrue l) 0 1 ob.temps l ob.labels ++ post) hla' s t1 (eval act a st).2
      have s2' : Steps act prog ⟨pre.length + oa.code.length + 1, s, t1, (eval act a st).2⟩
          ⟨(pre ++ oa.code ++ .jumpIfTrue l :: ob.code).length, top2 :: s, t2, (eval act b (eval act a st).2).2⟩ := by
        rw [p3]
        have e1 : pre.length + oa.code.length + 1 = (pre ++ oa.code ++ [I.jumpIfTrue l]).length := by simp; omega
        have e2 : (pre ++ oa.code ++ I.jumpIfTrue l :: ob.code).length = (pre ++ oa.code ++ [I.jumpIfTrue l]).length + ob.code.length := by simp; omega
        rw [e1, e2]; exact s2
      have hev2 : (eval act (.orE a b) st).2 = (eval act b (eval act a st).2).2 := by simp only [eval, if_neg ha0]
      have hev1 : (eval act (.orE a b) st).1 = if (eval act b (eval act a st).2).1 = 0 then 0 else 1 := by simp only [eval, if_neg ha0]
      have e : pre.length + (oa.code ++ I.jumpIfTrue l :: (ob.code ++ tail (.jumpIfTrue l) 0 1 ob.temps l ob.labels)).length =
          (pre ++ oa.code ++ .jumpIfTrue l :: ob.code).length + 13 := by simp [tail]; omega
      refine ⟨fun j => if j = ob.temps then (if (eval act b (eval act a st).2).1 = 0 then 0 else 1) else t2 j, .loc ob.temps, ?_, ?_, ?_⟩
      · refine Steps.trans s1' ?_
        rw [hev2, e]
        refine stepk (σ := σ) p2 0 (.jumpIfTrue l) rfl _ ⟨pre.length + oa.code.length + 1, s, t1, (eval act a st).2⟩ _ (by simp) ?_ ?_
        · simp only [exec, d1]; rw [if_pos (by simpa using ha0)]
        refine Steps.trans s2' ?_
        by_cases hb0 : ¬ (eval act b (eval act a st).2).1 = 0
        · simp only [hb0, if_false]
          refine stepk (σ := σ) p4 0 (.jumpIfTrue l) rfl _ ⟨(pre ++ oa.code ++ .jumpIfTrue l :: ob.code).length + 6, s, t2, (eval act b (eval act a st).2).2⟩ _ rfl ?_ ?_
          · simp only [exec, d2, if_neg hb0, hfl]
          · have := tail_taken (act := act) (.jumpIfTrue l) 0 1 ob.temps l ob.labels (pre ++ oa.code ++ .jumpIfTrue l :: ob.code) post s t2 (eval act b (eval act a st).2).2
            rw [← p4] at this; exact this
        · have hb0 := Decidable.not_not.1 hb0
          simp only [hb0, if_true]
          refine stepk (σ := σ) p4 0 (.jumpIfTrue l) rfl _ ⟨(pre ++ oa.code ++ .jumpIfTrue l :: ob.code).length + 1, s, t2, (eval act b (eval act a st).2).2⟩ _ rfl ?_ ?_
          · simp only [exec, d2, if_pos hb0]
          · have := tail_fall (act := act) (.jumpIfTrue l) hj 0 1 ob.temps l ob.labels (by omega) (pre ++ oa.code ++ .jumpIfTrue l :: ob.code) post hnl hne s t2 (eval act b (eval act a st).2).2
            rw [← p4] at this; exact this
      · rw [hev1]; simp [deref]
      · intro k hk
        have hne' : k ≠ ob.temps := by simp only at hk; omega
        simp only [if_neg hne']
        rw [f2 k (by simp only at hk; show k < oa.temps ∨ ob.temps ≤ k; omega)]
        exact f1 k (by simp only at hk; show k < nt ∨ oa.temps ≤ k; omega)

theorem correct_not (a : E) (iha : Correct a) : Correct (.not a) := by
  intro σ act nl nt pre post hpre s temps st
  cases hv : (compile a nl nt).lit with
  | some v =>
    have hc : compile (.not a) nl nt = ⟨[.lit (if v = 0 then 1 else 0)], some (if v = 0 then 1 else 0), (compile a nl nt).labels, (compile a nl nt).temps⟩ := by
      simp only [compile, hv]
    have hl := (lit_spec (.not a) nl nt (if v = 0 then 1 else 0) (by rw [hc])).2 σ act st
    rw [hl, hc]
    exact ⟨temps, _, correct_lit _ s temps st pre post, rfl, fun _ _ => rfl⟩
  | none =>
    have hc : compile (.not a) nl nt = ⟨(compile a nl nt).code ++ [.logicalNot], none, (compile a nl nt).labels, (compile a nl nt).temps⟩ := by
      simp only [compile, hv]
    rw [hc]
    obtain ⟨t1, top1, s1, d1, f1⟩ := iha σ act nl nt pre ([.logicalNot] ++ post) hpre s temps st
    refine ⟨t1, .val (if (eval act a st).1 = 0 then 1 else 0), ?_, rfl, f1⟩
    have p1 : pre ++ (((compile a nl nt).code ++ [.logicalNot]) ++ post) = pre ++ ((compile a nl nt).code ++ ([.logicalNot] ++ post)) := by simp
    have p2 : pre ++ (((compile a nl nt).code ++ [.logicalNot]) ++ post) = (pre ++ (compile a nl nt).code) ++ ([.logicalNot] ++ post) := by simp
    generalize pre ++ (((compile a nl nt).code ++ [.logicalNot]) ++ post) = prog at *
    rw [← p1] at s1
    refine Steps.trans s1 ?_
    refine stepk (σ := σ) p2 0 .logicalNot rfl _ ⟨pre.length + (compile a nl nt).code.length + 1, .val (if (eval act a st).1 = 0 then 1 else 0) :: s, t1, (eval act a st).2⟩ _ (by simp) (by simp only [exec, d1]) ?_
    have e : pre.length + ((compile a nl nt).code ++ [I.logicalNot]).length = pre.length + (compile a nl nt).code.length + 1 := by simp; omega
    rw [e]
    exact .refl _

theorem correct_comma (a b : E) (iha : Correct a) (ihb : Correct b) : Correct (.comma a b) := by
  intro σ act nl nt pre post hpre s temps st
  have la := labels_spec a nl nt
  have lb := labels_spec b (compile a nl nt).labels (compile a nl nt).temps
  let oa := compile a nl nt
  let ob := compile b oa.labels oa.temps
  have hc : compile (.comma a b) nl nt = ⟨oa.code ++ .pop :: (ob.code ++ [.nop]), none, ob.labels, ob.temps⟩ := rfl
  rw [hc]
  have p1 : pre ++ ((oa.code ++ .pop :: (ob.code ++ [.nop])) ++ post) = pre ++ (oa.code ++ (.pop :: (ob.code ++ [.nop]) ++ post)) := by simp
  have p2 : pre ++ ((oa.code ++ .pop :: (ob.code ++ [.nop])) ++ post) = (pre ++ oa.code) ++ ([.pop] ++ (ob.code ++ [.nop] ++ post)) := by simp
  have p3 : pre ++ ((oa.code ++ .pop :: (ob.code ++ [.nop])) ++ post) = (pre ++ oa.code ++ [.pop]) ++ (ob.code ++ ([.nop] ++ post)) := by simp
  have p4 : pre ++ ((oa.code ++ .pop :: (ob.code ++ [.nop])) ++ post) = (pre ++ oa.code ++ .pop :: ob.code) ++ ([.nop] ++ post) := by simp
  generalize pre ++ ((oa.code ++ .pop :: (ob.code ++ [.nop])) ++ post) = prog at *
  obtain ⟨t1, top1, s1, d1, f1⟩ := iha σ act nl nt pre (.pop :: (ob.code ++ [.nop]) ++ post) hpre s temps st
  have s1' : Steps act prog ⟨pre.length, s, temps, st⟩ ⟨pre.length + oa.code.length, top1 :: s, t1, (eval act a st).2⟩ := by rw [p1]; exact s1
  have hla : ∀ k ∈ placed (pre ++ oa.code ++ [.pop]), k < oa.labels := by
    intro k hk
    simp only [placed_append, placed_cons, placed_nil, List.append_nil, List.mem_append] at hk
    rcases hk with hk | hk
    · have := hpre k hk; show k < (compile a nl nt).labels; omega
    · exact (la.2.2.1 k hk).2
  obtain ⟨t2, top2, s2, d2, f2⟩ := ihb σ act oa.labels oa.temps (pre ++ oa.code ++ [.pop]) ([.nop] ++ post) hla s t1 (eval act a st).2
  have s2' : Steps act prog ⟨pre.length + oa.code.length + 1, s, t1, (eval act a st).2⟩
      ⟨(pre ++ oa.code ++ .pop :: ob.code).length, top2 :: s, t2, (eval act b (eval act a st).2).2⟩ := by
    rw [p3]
    have e1 : pre.length + oa.code.length + 1 = (pre ++ oa.code ++ [I.pop]).length := by simp; omega
    have e2 : (pre ++ oa.code ++ I.pop :: ob.code).length = (pre ++ oa.code ++ [I.pop]).length + ob.code.length := by simp; omega
    rw [e1, e2]; exact s2
  have htt : oa.temps ≤ ob.temps := lb.2.1
  have hta : nt ≤ oa.temps := la.2.1
  refine ⟨t2, top2, ?_, d2, ?_⟩
  · refine Steps.trans s1' ?_
    refine stepk (σ := σ) p2 0 .pop rfl _ ⟨pre.length + oa.code.length + 1, s, t1, (eval act a st).2⟩ _ (by simp) rfl ?_
    refine Steps.trans s2' ?_
    refine stepk (σ := σ) p4 0 .nop rfl _ _ _ rfl rfl ?_
    have e : pre.length + (oa.code ++ I.pop :: (ob.code ++ [.nop])).length = (pre ++ oa.code ++ I.pop :: ob.code).length + 1 := by simp; omega
    rw [e]; exact .refl _
  · intro k hk
    simp only at hk
    rw [f2 k (by show k < oa.temps ∨ ob.temps ≤ k; omega)]
    exact f1 k (by show k < nt ∨ oa.temps ≤ k; omega)

/-- Labels found across two pieces. -/
theorem find_at' (l : Nat) (A : List I) (rest : List I) (hA : l ∉ placed A) : find l (A ++ .label l :: rest) = A.length := by
  have := find_at l A [.label l] rest hA (by simp)
  simpa [List.findIdx_cons] using this

theorem correct_cond (c a b : E) (ihc : Correct c) (iha : Correct a) (ihb : Correct b) : Correct (.cond c a b) := by
  intro σ act nl nt pre post hpre s temps st
  have lc := labels_spec c nl nt
  cases hv : (compile c nl nt).lit with
  | some v =>
    have la := labels_spec a (compile c nl nt).labels (compile c nl nt).temps
    have lb := labels_spec b (compile a (compile c nl nt).labels (compile c nl nt).temps).labels (compile a (compile c nl nt).labels (compile c nl nt).temps).temps
    have hl := (lit_spec c nl nt v hv).2 σ act st
    by_cases h0 : v = 0
    · have hc : compile (.cond c a b) nl nt = compile b (compile a (compile c nl nt).labels (compile c nl nt).temps).labels (compile a (compile c nl nt).labels (compile c nl nt).temps).temps := by
        simp only [compile, hv, h0, ne_eq, not_true_eq_false, if_false]
      have he : eval act (.cond c a b) st = eval act b st := by simp only [eval, hl, h0, ne_eq, not_true_eq_false, if_false]
      rw [hc, he]
      obtain ⟨t1, top1, s1, d1, f1⟩ := ihb σ act _ _ pre post (fun k hk => by have := hpre k hk; show k < (compile a (compile c nl nt).labels (compile c nl nt).temps).labels; omega) s temps st
      exact ⟨t1, top1, s1, d1, fun k hk => f1 k (by
        have h1 : nt ≤ (compile a (compile c nl nt).labels (compile c nl nt).temps).temps := by omega
        rcases hk with hk | hk
        · left; omega
        · right; exact hk)⟩
    · have hc1 : (compile (.cond c a b) nl nt).code = (compile a (compile c nl nt).labels (compile c nl nt).temps).code := by
        simp only [compile, hv, h0, ne_eq, not_false_eq_true, if_true]
      have hc2 : (compile (.cond c a b) nl nt).temps = (compile b (compile a (compile c nl nt).labels (compile c nl nt).temps).labels (compile a (compile c nl nt).labels (compile c nl nt).temps).temps).temps := by
        simp only [compile, hv, h0, ne_eq, not_false_eq_true, if_true]
      have he : eval act (.cond c a b) st = eval act a st := by simp only [eval, hl, h0, ne_eq, not_false_eq_true, if_true]
      rw [hc1, hc2, he]
      obtain ⟨t1, top1, s1, d1, f1⟩ := iha σ act _ _ pre post (fun k hk => by have := hpre k hk; show k < (compile c nl nt).labels; omega) s temps st
      exact ⟨t1, top1, s1, d1, fun k hk => f1 k (by omega)⟩
  | none =>
    let oc := compile c nl nt
    let l := oc.labels
    let oa := compile a (l + 1) oc.temps
    let e := oa.labels
    let ob := compile b (e + 1) oa.temps
    let t := ob.temps
    have la := labels_spec a (l + 1) oc.temps
    have lb := labels_spec b (e + 1) oa.temps
    have hc : compile (.cond c a b) nl nt = ⟨oc.code ++ .jumpIfFalse l :: .temp t :: (oa.code ++ .nop :: .store :: .pop :: .jump e :: .label l :: .temp t ::
          (ob.code ++ [.store, .pop, .label e, .temp t])), none, ob.labels, t + 1⟩ := by
      simp only [compile, hv]; rfl
    have hl1 : nl ≤ l := lc.1
    have hl2 : l + 1 ≤ e := la.1
    have hl3 : e + 1 ≤ ob.labels := lb.1
    have ht1 : nt ≤ oc.temps := lc.2.1
    have ht2 : oc.temps ≤ oa.temps := la.2.1
    have ht3 : oa.temps ≤ t := lb.2.1
    rw [hc]
    let M : List I := [.nop, .store, .pop, .jump e, .label l, .temp t]
    let T : List I := [.store, .pop, .label e, .temp t]
    have hshape : pre ++ ((oc.code ++ .jumpIfFalse l :: .temp t :: (oa.code ++ .nop :: .store :: .pop :: .jump e :: .label l :: .temp t ::
          (ob.code ++ [.store, .pop, .label e, .temp t]))) ++ post) = pre ++ (oc.code ++ ([.jumpIfFalse l, .temp t] ++ (oa.code ++ (M ++ (ob.code ++ (T ++ post)))))) := by
      simp [M, T]
    have hlen : pre.length + (oc.code ++ I.jumpIfFalse l :: I.temp t :: (oa.code ++ I.nop :: I.store :: I.pop :: I.jump e :: I.label l :: I.temp t ::
          (ob.code ++ [I.store, I.pop, I.label e, I.temp t]))).length = pre.length + oc.code.length + 2 + oa.code.length + 6 + ob.code.length + 4 := by
      simp; omega
    simp only [hlen, hshape]
    -- cuts
    let A2 := pre ++ oc.code
    let A3 := pre ++ oc.code ++ [.jumpIfFalse l, .temp t]
    let A4 := A3 ++ oa.code
    let A5 := A4 ++ M
    let A6 := A5 ++ ob.code
    have p2 : pre ++ (oc.code ++ ([.jumpIfFalse l, .temp t] ++ (oa.code ++ (M ++ (ob.code ++ (T ++ post)))))) = A2 ++ ([.jumpIfFalse l, .temp t] ++ (oa.code ++ (M ++ (ob.code ++ (T ++ post))))) := by simp [A2]
    have p3 : pre ++ (oc.code ++ ([.jumpIfFalse l, .temp t] ++ (oa.code ++ (M ++ (ob.code ++ (T ++ post)))))) = A3 ++ (oa.code ++ (M ++ (ob.code ++ (T ++ post)))) := by simp [A3]
    have p4 : pre ++ (oc.code ++ ([.jumpIfFalse l, .temp t] ++ (oa.code ++ (M ++ (ob.code ++ (T ++ post)))))) = A4 ++ (M ++ (ob.code ++ (T ++ post))) := by simp [A4, A3]
    have p5 : pre ++ (oc.code ++ ([.jumpIfFalse l, .temp t] ++ (oa.code ++ (M ++ (ob.code ++ (T ++ post)))))) = A5 ++ (ob.code ++ (T ++ post)) := by simp [A5, A4, A3]
    have p6 : pre ++ (oc.code ++ ([.jumpIfFalse l, .temp t] ++ (oa.code ++ (M ++ (ob.code ++ (T ++ post)))))) = A6 ++ (T ++ post) := by simp [A6, A5, A4, A3]
    have n2 : A2.length = pre.length + oc.code.length := by simp [A2]
    have n3 : A3.length = pre.length + oc.code.length + 2 := by simp [A3]; omega
    have n4 : A4.length = pre.length + oc.code.length + 2 + oa.code.length := by simp [A4, n3]
    have n5 : A5.length = pre.length + oc.code.length + 2 + oa.code.length + 6 := by simp [A5, n4, M]
    have n6 : A6.length = pre.length + oc.code.length + 2 + oa.code.length + 6 + ob.code.length := by simp [A6, n5]
    have hp3 : ∀ k ∈ placed A3, k < l := by
      intro k hk
      simp only [A3, placed_append, placed_cons, placed_nil, List.append_nil, List.mem_append] at hk
      rcases hk with hk | hk
      · have := hpre k hk; omega
      · exact (lc.2.2.1 k hk).2
    have hp4 : ∀ k ∈ placed A4, k < l ∨ (l + 1 ≤ k ∧ k < e) := by
      intro k hk
      simp only [A4, placed_append, List.mem_append] at hk
      rcases hk with hk | hk
      · exact Or.inl (hp3 k hk)
      · exact Or.inr (la.2.2.1 k hk)
    have hp5 : ∀ k ∈ placed A5, k < e := by
      intro k hk
      simp only [A5, placed_append, List.mem_append] at hk
      rcases hk with hk | hk
      · have := hp4 k hk; omega
      · simp [M, placed] at hk; omega
    have hp6 : ∀ k ∈ placed A6, k < e ∨ e + 1 ≤ k := by
      intro k hk
      simp only [A6, placed_append, List.mem_append] at hk
      rcases hk with hk | hk
      · exact Or.inl (hp5 k hk)
      · exact Or.inr (lb.2.2.1 k hk).1
    have fl : find l (pre ++ (oc.code ++ ([.jumpIfFalse l, .temp t] ++ (oa.code ++ (M ++ (ob.code ++ (T ++ post))))))) = A4.length + 4 := by
      rw [p4, find_at l A4 M _ (fun h => by have := hp4 l h; omega) (by simp [M])]
      simp [M, List.findIdx_cons, nb]
    have fe : find e (pre ++ (oc.code ++ ([.jumpIfFalse l, .temp t] ++ (oa.code ++ (M ++ (ob.code ++ (T ++ post))))))) = A6.length + 2 := by
      rw [p6, find_at e A6 T _ (fun h => by have := hp6 e h; omega) (by simp [T])]
      simp [T, List.findIdx_cons, nb]
    obtain ⟨t1, top1, s1, d1, f1⟩ := ihc σ act nl nt pre ([.jumpIfFalse l, .temp t] ++ (oa.code ++ (M ++ (ob.code ++ (T ++ post))))) hpre s temps st
    generalize hprog : pre ++ (oc.code ++ ([.jumpIfFalse l, .temp t] ++ (oa.code ++ (M ++ (ob.code ++ (T ++ post)))))) = prog at *
    have s1' : Steps act prog ⟨pre.length, s, temps, st⟩ ⟨A2.length, top1 :: s, t1, (eval act c st).2⟩ := by
      rw [n2]; exact s1
    by_cases h0 : (eval act c st).1 = 0
    · have hev : eval act (.cond c a b) st = eval act b (eval act c st).2 := by simp only [eval, h0, ne_eq, not_true_eq_false, if_false]
      rw [hev]
      obtain ⟨t2, top2, s2, d2, f2⟩ := ihb σ act (e + 1) oa.temps A5 (T ++ post) (fun k hk => by have := hp5 k hk; omega) (.loc t :: s) t1 (eval act c st).2
      have s2' : Steps act prog ⟨A5.length, .loc t :: s, t1, (eval act c st).2⟩ ⟨A6.length, top2 :: .loc t :: s, t2, (eval act b (eval act c st).2).2⟩ := by
        rw [p5, n6, ← n5]; exact s2
      refine ⟨fun j => if j = t then deref t2 top2 else t2 j, .loc t, ?_, by simp only [deref, if_true]; exact d2, ?_⟩
      · refine Steps.trans s1' ?_
        refine stepk (σ := σ) p2 0 (.jumpIfFalse l) rfl _ ⟨A4.length + 4, s, t1, (eval act c st).2⟩ _ rfl (by simp only [exec, d1, if_pos h0, fl]) ?_
        refine stepk (σ := σ) p4 4 (.label l) rfl _ ⟨A4.length + 5, s, t1, (eval act c st).2⟩ _ rfl rfl ?_
        refine stepk (σ := σ) p4 5 (.temp t) rfl _ ⟨A5.length, .loc t :: s, t1, (eval act c st).2⟩ _ rfl (by simp only [exec]; congr 2; omega) ?_
        refine Steps.trans s2' ?_
        refine stepk (σ := σ) p6 0 .store rfl _ ⟨A6.length + 1, .loc t :: s, fun j => if j = t then deref t2 top2 else t2 j, (eval act b (eval act c st).2).2⟩ _ rfl rfl ?_
        refine stepk (σ := σ) p6 1 .pop rfl _ ⟨A6.length + 2, s, fun j => if j = t then deref t2 top2 else t2 j, (eval act b (eval act c st).2).2⟩ _ rfl rfl ?_
        refine stepk (σ := σ) p6 2 (.label e) rfl _ ⟨A6.length + 3, s, fun j => if j = t then deref t2 top2 else t2 j, (eval act b (eval act c st).2).2⟩ _ rfl rfl ?_
        refine stepk (σ := σ) p6 3 (.temp t) rfl _ ⟨A6.length + 4, .loc t :: s, fun j => if j = t then deref t2 top2 else t2 j, (eval act b (eval act c st).2).2⟩ _ rfl rfl ?_
        rw [n6]; exact .refl _
      · intro k hk
        simp only [if_neg (show k ≠ t by omega)]
        rw [f2 k (by show k < oa.temps ∨ t ≤ k; omega)]
        exact f1 k (by show k < nt ∨ oc.temps ≤ k; omega)
    · have hev : eval act (.cond c a b) st = eval act a (eval act c st).2 := by simp only [eval, h0, ne_eq, not_false_eq_true, if_true]
      rw [hev]
      obtain ⟨t2, top2, s2, d2, f2⟩ := iha σ act (l + 1) oc.temps A3 (M ++ (ob.code ++ (T ++ post))) (fun k hk => by have := hp3 k hk; omega) (.loc t :: s) t1 (eval act c st).2
      have s2' : Steps act prog ⟨A3.length, .loc t :: s, t1, (eval act c st).2⟩ ⟨A4.length, top2 :: .loc t :: s, t2, (eval act a (eval act c st).2).2⟩ := by
        rw [p3, n4, ← n3]; exact s2
      refine ⟨fun j => if j = t then deref t2 top2 else t2 j, .loc t, ?_, by simp only [deref, if_true]; exact d2, ?_⟩
      · refine Steps.trans s1' ?_
        refine stepk (σ := σ) p2 0 (.jumpIfFalse l) rfl _ ⟨A2.length + 1, s, t1, (eval act c st).2⟩ _ rfl (by simp only [exec, d1, if_neg h0]) ?_
        refine stepk (σ := σ) p2 1 (.temp t) rfl _ ⟨A3.length, .loc t :: s, t1, (eval act c st).2⟩ _ rfl (by simp only [exec]; congr 2; omega) ?_
        refine Steps.trans s2' ?_
        refine stepk (σ := σ) p4 0 .nop rfl _ ⟨A4.length + 1, top2 :: .loc t :: s, t2, (eval act a (eval act c st).2).2⟩ _ rfl rfl ?_
        refine stepk (σ := σ) p4 1 .store rfl _ ⟨A4.length + 2, .loc t :: s, fun j => if j = t then deref t2 top2 else t2 j, (eval act a (eval act c st).2).2⟩ _ rfl rfl ?_
        refine stepk (σ := σ) p4 2 .pop rfl _ ⟨A4.length + 3, s, fun j => if j = t then deref t2 top2 else t2 j, (eval act a (eval act c st).2).2⟩ _ rfl rfl ?_
        refine stepk (σ := σ) p4 3 (.jump e) rfl _ ⟨A6.length + 2, s, fun j => if j = t then deref t2 top2 else t2 j, (eval act a (eval act c st).2).2⟩ _ rfl (by simp only [exec, fe]) ?_
        refine stepk (σ := σ) p6 2 (.label e) rfl _ ⟨A6.length + 3, s, fun j => if j = t then deref t2 top2 else t2 j, (eval act a (eval act c st).2).2⟩ _ rfl rfl ?_
        refine stepk (σ := σ) p6 3 (.temp t) rfl _ ⟨A6.length + 4, .loc t :: s, fun j => if j = t then deref t2 top2 else t2 j, (eval act a (eval act c st).2).2⟩ _ rfl rfl ?_
        rw [n6]; exact .refl _
      · intro k hk
        simp only [if_neg (show k ≠ t by omega)]
        rw [f2 k (by show k < oc.temps ∨ oa.temps ≤ k; omega)]
        exact f1 k (by show k < nt ∨ oc.temps ≤ k; omega)

theorem correct (e : E) : Correct e := by
  induction e with
  | leaf n =>
    intro σ act nl nt pre post _ s temps st
    exact ⟨temps, .val (act n st).1, stepk rfl 0 (.leaf n) rfl _ _ _ rfl rfl (.refl _), rfl, fun _ _ => rfl⟩
  | lit v =>
    intro σ act nl nt pre post _ s temps st
    exact ⟨temps, .val v, correct_lit v s temps st pre post, rfl, fun _ _ => rfl⟩
  | not e ih => exact correct_not e ih
  | andE a b iha ihb => exact correct_and a b iha ihb
  | orE a b iha ihb => exact correct_or a b iha ihb
  | cond c a b ihc iha ihb => exact correct_cond c a b ihc iha ihb
  | comma a b iha ihb => exact correct_comma a b iha ihb

/-- C56: the code of any nesting of `&&`, `||`, `!`, `?:` and `,` over arbitrary operands, placed
anywhere in a function (after code `pre`, whose labels were allocated before, and before code
`post`), run from its start, reaches its end having evaluated exactly the operands the C standard
says, in its order (the program state is that of the C semantics), leaves the C value on top of
the operand stack, and touches no unnamed declaration but its own. -/
theorem C56_short_circuit (e : E) (nl nt : Nat) (pre post : List I) (hpre : ∀ l ∈ placed pre, l < nl)
    (s : List Entry) (temps : Nat → Nat) (st : σ) : ∃ temps' top,
    Steps act (pre ++ (compile e nl nt).code ++ post) ⟨pre.length, s, temps, st⟩
      ⟨pre.length + (compile e nl nt).code.length, top :: s, temps', (eval act e st).2⟩ ∧
    deref temps' top = (eval act e st).1 ∧ ∀ k, k < nt ∨ (compile e nl nt).temps ≤ k → temps' k = temps k := by
  rw [List.append_assoc]
  exact correct e σ act nl nt pre post hpre s temps st

/-- C56: each label is placed at most once, and only labels allocated by the expression are
(the hypothesis of C35). -/
theorem C56_labels_unique (e : E) (nl nt : Nat) : (placed (compile e nl nt).code).Nodup ∧
    ∀ l ∈ placed (compile e nl nt).code, nl ≤ l ∧ l < (compile e nl nt).labels :=
  ⟨(labels_spec e nl nt).2.2.2, (labels_spec e nl nt).2.2.1⟩

/-- C56: folding is used only for expressions without effects, and yields the C value. -/
theorem C56_folded (e : E) (nl nt v : Nat) (h : (compile e nl nt).lit = some v) (st : σ) :
    eval act e st = (v, st) ∧ (compile e nl nt).code = [.lit v] := ⟨(lit_spec e nl nt v h).2 σ act st, (lit_spec e nl nt v h).1⟩

/-- A trace: leaf `n` is logged, leaf 0 is false, the others are true. -/
def logAct (n : Nat) (log : List Nat) : Nat × List Nat := (n, log ++ [n])
example : eval logAct (.orE (.andE (.leaf 0) (.leaf 1)) (.cond (.leaf 2) (.not (.leaf 3)) (.leaf 4))) [] = (0, [0, 2, 3]) ∧
    (compile (.andE (.lit 1) (.not (.lit 0))) 5 7).lit = some 1 ∧ (compile (.andE (.leaf 0) (.leaf 1)) 5 7).code.length = 16 ∧
    placed (compile (.andE (.leaf 0) (.orE (.leaf 1) (.leaf 2))) 5 7).code = [6, 7, 5, 8] := by decide

end Verif.Props.ShortCircuit
