import Verif.Model.ParseOrder

/-!
# C54: the order of parsing does not matter
-/
namespace Verif.Props.ParseOrder
open Verif.ParseOrder Verif.Spec.Resolve

variable {prog : Nat → Entry} {n T : Nat}

/-! ## Proofs -/

theorem set_same {α : Type} (f : Nat → α) (i : Nat) (v : α) : set f i v i = v := if_pos rfl
theorem set_ne {α : Type} (f : Nat → α) {i x : Nat} (v : α) (h : x ≠ i) : set f i v x = f x := if_neg h

/-- The entry of a thread that parses, and what is still to do. -/
def run : PC → Option (Nat × List Action)
  | .parse e r => some (e, r)
  | .wake e _ r => some (e, r)
  | .append e _ r => some (e, r)
  | _ => none

/-- The entry a thread has. -/
def holds : PC → Option Nat
  | .idle => none
  | .parse e _ => some e
  | .sleep e _ => some e
  | .wake e _ _ => some e
  | .append e _ _ => some e

/-- All names in `pre` are known. -/
def Past (reg : Nat → Bool) (pre : List Action) : Prop := (∀ k, Action.need k ∈ pre → reg k = true) ∧ ∀ k, Action.declare k ∈ pre → reg k = true

/-- The entry `e` stopped at the name `k`. -/
def Stopped (prog : Nat → Entry) (reg : Nat → Bool) (e k : Nat) : Prop := ∃ pre post, (prog e).acts = pre ++ .need k :: post ∧ Past reg pre

/-- What holds for all programs. -/
structure Inv (prog : Nat → Entry) (n T : Nat) (s : State) : Prop where
  range : ∀ t, T ≤ t → s.pc t = .idle
  held : ∀ t e, holds (s.pc t) = some e ↔ s.place e = .held t
  small : ∀ e, n ≤ e → s.place e = .absent
  present : ∀ e, e < n → s.place e ≠ .absent
  run : ∀ t e rest, run (s.pc t) = some (e, rest) → ∃ pre, (prog e).acts = pre ++ rest ∧ Past s.registered pre
  wake : ∀ t e k rest, s.pc t = .wake e k rest → s.registered k = true
  sleep : ∀ t e k, s.pc t = .sleep e k → Stopped prog s.registered e k
  asleep : ∀ e k, s.place e = .asleep k → Stopped prog s.registered e k ∧ s.woken k = false
  handed : ∀ e t k, s.place e = .handed t k → (∃ e' rest, s.pc t = .append e' k rest) ∧ s.registered k = true ∧ Stopped prog s.registered e k
  woken : ∀ k, s.woken k = true → s.registered k = true
  done : ∀ e, s.place e = .done → Past s.registered (prog e).acts

theorem inv_start : Inv prog n T (start n) := by
  constructor
  · intro t _; rfl
  · intro t e
    simp only [start, holds]
    constructor
    · intro h; cases h
    · intro h; split at h <;> cases h
  · intro e h
    exact if_neg (by omega)
  · intro e h
    simp [start, h]
  · intro t e rest h; cases h
  · intro t e k rest h; cases h
  · intro t e k h; cases h
  · intro e k h; simp only [start] at h; split at h <;> cases h
  · intro e t k h; simp only [start] at h; split at h <;> cases h
  · intro k h; cases h
  · intro e h; simp only [start] at h; split at h <;> cases h

theorem Past.mono {reg reg' : Nat → Bool} (h : ∀ k, reg k = true → reg' k = true) {pre : List Action} (hp : Past reg pre) : Past reg' pre :=
  ⟨fun k hk => h k (hp.1 k hk), fun k hk => h k (hp.2 k hk)⟩

theorem Stopped.mono {reg reg' : Nat → Bool} (h : ∀ k, reg k = true → reg' k = true) {e k : Nat} (hp : Stopped prog reg e k) : Stopped prog reg' e k :=
  let ⟨pre, post, h1, h2⟩ := hp
  ⟨pre, post, h1, h2.mono h⟩

theorem past_snoc {reg : Nat → Bool} {pre : List Action} (h : Past reg pre) {a : Action} (ha : ∀ k, a = .need k ∨ a = .declare k → reg k = true) : Past reg (pre ++ [a]) := by
  constructor
  · intro k hk
    rcases List.mem_append.mp hk with h' | h'
    · exact h.1 k h'
    · rw [List.mem_singleton] at h'
      exact ha k (.inl h'.symm)
  · intro k hk
    rcases List.mem_append.mp hk with h' | h'
    · exact h.2 k h'
    · rw [List.mem_singleton] at h'
      exact ha k (.inr h'.symm)

theorem set_true {reg : Nat → Bool} (k : Nat) : ∀ x, reg x = true → set reg k true x = true := by
  intro x hx
  unfold ParseOrder.set
  split
  · rfl
  · exact hx

/-- Steps of a thread that stays with its entry and moves no other entry. -/
theorem Inv.move {s : State} (h : Inv prog n T s) {t e : Nat} {p : PC} {reg def' : Nat → Bool} (ht : t < T) (he : holds (s.pc t) = some e) (hp : holds p = some e)
    (hreg : ∀ k, s.registered k = true → reg k = true) (ha : ∀ k e' r, s.pc t ≠ .append e' k r)
    (hrun : ∀ rest, Props.ParseOrder.run p = some (e, rest) → ∃ pre, (prog e).acts = pre ++ rest ∧ Past reg pre) (hwake : ∀ e k rest, p = .wake e k rest → reg k = true)
    (hsleep : ∀ k, p = .sleep e k → Stopped prog reg e k) : Inv prog n T { s with registered := reg, defined := def', pc := set s.pc t p } := by
  constructor
  · intro t' ht'
    show set s.pc t p t' = _
    rw [set_ne _ _ (by omega)]; exact h.range t' ht'
  · intro t' e'
    show holds (set s.pc t p t') = _ ↔ _
    by_cases hx : t' = t
    · subst hx
      rw [set_same, hp, ← he]
      exact h.held t' e'
    · rw [set_ne _ _ hx]; exact h.held t' e'
  · exact h.small
  · exact h.present
  · intro t' e' rest hr
    replace hr : Props.ParseOrder.run (set s.pc t p t') = some (e', rest) := hr
    show ∃ pre, _ ∧ Past reg pre
    by_cases hx : t' = t
    · subst hx
      rw [set_same] at hr
      have hee : e' = e := by
        have hh : holds p = some e' := by
          cases p with
          | idle => cases hr
          | sleep => cases hr
          | _ => cases hr; rfl
        rw [hp] at hh
        exact (Option.some.inj hh).symm
      subst hee
      exact hrun rest hr
    · rw [set_ne _ _ hx] at hr
      obtain ⟨pre, h1, h2⟩ := h.run t' e' rest hr
      exact ⟨pre, h1, h2.mono hreg⟩
  · intro t' e' k rest hr
    replace hr : set s.pc t p t' = _ := hr
    show reg k = true
    by_cases hx : t' = t
    · subst hx
      rw [set_same] at hr
      exact hwake e' k rest hr
    · rw [set_ne _ _ hx] at hr
      exact hreg _ (h.wake t' e' k rest hr)
  · intro t' e' k hr
    replace hr : set s.pc t p t' = _ := hr
    show Stopped prog reg e' k
    by_cases hx : t' = t
    · subst hx
      rw [set_same] at hr
      subst hr
      cases hp
      exact hsleep k rfl
    · rw [set_ne _ _ hx] at hr
      exact (h.sleep t' e' k hr).mono hreg
  · intro e' k hr
    exact ⟨(h.asleep e' k hr).1.mono hreg, (h.asleep e' k hr).2⟩
  · intro e' t' k hr
    obtain ⟨⟨e2, rest, h1⟩, h2, h3⟩ := h.handed e' t' k hr
    refine ⟨⟨e2, rest, ?_⟩, hreg _ h2, h3.mono hreg⟩
    show set s.pc t p t' = _
    by_cases hx : t' = t
    · subst hx
      exact absurd h1 (ha k e2 rest)
    · rw [set_ne _ _ hx]; exact h1
  · exact fun k hk => hreg k (h.woken k hk)
  · exact fun e' he' => (h.done e' he').mono hreg

/-- Steps of a thread that lets go of its entry. -/
theorem Inv.release {s : State} (h : Inv prog n T s) {t e : Nat} {q : Place} (he : holds (s.pc t) = some e) (ha : ∀ k e' r, s.pc t ≠ .append e' k r)
    (hq : ∀ t, q ≠ .held t) (hq2 : q ≠ .absent) (hq3 : ∀ t k, q ≠ .handed t k) (hdone : q = .done → Past s.registered (prog e).acts)
    (has : ∀ k, q = .asleep k → Stopped prog s.registered e k ∧ s.woken k = false) : Inv prog n T { s with place := set s.place e q, pc := set s.pc t .idle } := by
  have hheld := (h.held t e).mp he
  have hen : e < n := by
    rcases Nat.lt_or_ge e n with h' | h'
    · exact h'
    · rw [h.small e h'] at hheld; cases hheld
  constructor
  · intro t' ht'
    show set s.pc t _ t' = _
    unfold ParseOrder.set
    split
    · rfl
    · exact h.range t' ht'
  · intro t' e'
    show holds (set s.pc t _ t') = _ ↔ set s.place e q e' = _
    by_cases hx : e' = e
    · subst hx
      rw [set_same]
      refine ⟨fun h' => ?_, fun h' => absurd h' (hq t')⟩
      by_cases hy : t' = t
      · subst hy; rw [set_same] at h'; cases h'
      · rw [set_ne _ _ hy] at h'
        have := (h.held t' e').mp h'
        rw [hheld] at this
        cases this
        exact absurd rfl hy
    · rw [set_ne _ _ hx]
      by_cases hy : t' = t
      · subst hy
        rw [set_same]
        refine ⟨fun h' => (by cases h'), fun h' => ?_⟩
        have := (h.held t' e').mpr h'
        rw [he] at this
        exact absurd (Option.some.inj this).symm hx
      · rw [set_ne _ _ hy]; exact h.held t' e'
  · intro e' h'
    show set s.place e q e' = _
    rw [set_ne _ _ (by omega)]; exact h.small e' h'
  · intro e' h'
    show set s.place e q e' ≠ _
    by_cases hx : e' = e
    · subst hx; rw [set_same]; exact hq2
    · rw [set_ne _ _ hx]; exact h.present e' h'
  · intro t' e' rest hr
    replace hr : Props.ParseOrder.run (set s.pc t _ t') = _ := hr
    by_cases hx : t' = t
    · subst hx; rw [set_same] at hr; cases hr
    · rw [set_ne _ _ hx] at hr; exact h.run t' e' rest hr
  · intro t' e' k rest hr
    replace hr : set s.pc t _ t' = _ := hr
    by_cases hx : t' = t
    · subst hx; rw [set_same] at hr; cases hr
    · rw [set_ne _ _ hx] at hr; exact h.wake t' e' k rest hr
  · intro t' e' k hr
    replace hr : set s.pc t _ t' = _ := hr
    by_cases hx : t' = t
    · subst hx; rw [set_same] at hr; cases hr
    · rw [set_ne _ _ hx] at hr; exact h.sleep t' e' k hr
  · intro e' k hr
    replace hr : set s.place e q e' = _ := hr
    by_cases hx : e' = e
    · subst hx; rw [set_same] at hr; exact has k hr
    · rw [set_ne _ _ hx] at hr; exact h.asleep e' k hr
  · intro e' t' k hr
    replace hr : set s.place e q e' = _ := hr
    by_cases hx : e' = e
    · subst hx; rw [set_same] at hr; exact absurd hr (hq3 _ _)
    · rw [set_ne _ _ hx] at hr
      obtain ⟨⟨e2, rest, h1⟩, h2⟩ := h.handed e' t' k hr
      refine ⟨⟨e2, rest, ?_⟩, h2⟩
      show set s.pc t _ t' = _
      by_cases hy : t' = t
      · subst hy; exact absurd h1 (ha k e2 rest)
      · rw [set_ne _ _ hy]; exact h1
  · exact h.woken
  · intro e' hr
    replace hr : set s.place e q e' = _ := hr
    by_cases hx : e' = e
    · subst hx; rw [set_same] at hr; exact hdone hr
    · rw [set_ne _ _ hx] at hr; exact h.done e' hr

theorem Inv.step {s s' : State} {t : Nat} (h : Inv prog n T s) (ht : t < T) (hs : Step prog s t s') : Inv prog n T s' := by
  -- what a thread that parses knows about the part it has parsed
  have next : ∀ {e : Nat} {a : Action} {rest : List Action} {reg : Nat → Bool}, s.pc t = .parse e (a :: rest) → (∀ k, s.registered k = true → reg k = true) → (∀ k, a = .need k ∨ a = .declare k → reg k = true) →
      ∀ rest', some (e, rest) = some (e, rest') → ∃ pre, (prog e).acts = pre ++ rest' ∧ Past reg pre := by
    intro e a rest reg hpc hreg ha rest' hr
    cases hr
    obtain ⟨pre, h1, h2⟩ := h.run t e (a :: rest) (by rw [hpc]; rfl)
    exact ⟨pre ++ [a], by rw [h1, List.append_assoc]; rfl, past_snoc (h2.mono hreg) ha⟩
  cases hs with
  | take e hpc hq =>
    have hen : e < n := by
      rcases Nat.lt_or_ge e n with h' | h'
      · exact h'
      · rw [h.small e h'] at hq; cases hq
    constructor
    · intro t' ht'
      show set s.pc t _ t' = _
      rw [set_ne _ _ (by omega)]; exact h.range t' ht'
    · intro t' e'
      show holds (set s.pc t _ t') = _ ↔ set s.place e _ e' = _
      by_cases hx : t' = t
      · subst hx
        rw [set_same]
        by_cases hy : e' = e
        · subst hy; rw [set_same]; exact ⟨fun _ => rfl, fun _ => rfl⟩
        · rw [set_ne _ _ hy]
          refine ⟨fun h' => absurd (Option.some.inj h').symm hy, fun h' => ?_⟩
          have := (h.held t' e').mpr h'
          rw [hpc] at this
          cases this
      · rw [set_ne _ _ hx]
        by_cases hy : e' = e
        · subst hy
          rw [set_same]
          refine ⟨fun h' => ?_, fun h' => ?_⟩
          · have := (h.held t' e').mp h'
            rw [hq] at this
            cases this
          · cases h'
            exact absurd rfl hx
        · rw [set_ne _ _ hy]; exact h.held t' e'
    · intro e' h'
      show set s.place e _ e' = _
      rw [set_ne _ _ (by omega)]; exact h.small e' h'
    · intro e' h'
      show set s.place e _ e' ≠ _
      by_cases hx : e' = e
      · subst hx; rw [set_same]; exact fun h => by cases h
      · rw [set_ne _ _ hx]; exact h.present e' h'
    · intro t' e' rest hr
      replace hr : Props.ParseOrder.run (set s.pc t _ t') = _ := hr
      by_cases hx : t' = t
      · subst hx
        rw [set_same] at hr
        cases hr
        exact ⟨[], rfl, fun _ h => absurd h List.not_mem_nil, fun _ h => absurd h List.not_mem_nil⟩
      · rw [set_ne _ _ hx] at hr; exact h.run t' e' rest hr
    · intro t' e' k rest hr
      replace hr : set s.pc t _ t' = _ := hr
      by_cases hx : t' = t
      · subst hx; rw [set_same] at hr; cases hr
      · rw [set_ne _ _ hx] at hr; exact h.wake t' e' k rest hr
    · intro t' e' k hr
      replace hr : set s.pc t _ t' = _ := hr
      by_cases hx : t' = t
      · subst hx; rw [set_same] at hr; cases hr
      · rw [set_ne _ _ hx] at hr; exact h.sleep t' e' k hr
    · intro e' k hr
      replace hr : set s.place e _ e' = _ := hr
      by_cases hx : e' = e
      · subst hx; rw [set_same] at hr; cases hr
      · rw [set_ne _ _ hx] at hr; exact h.asleep e' k hr
    · intro e' t' k hr
      replace hr : set s.place e _ e' = _ := hr
      by_cases hx : e' = e
      · subst hx; rw [set_same] at hr; cases hr
      · rw [set_ne _ _ hx] at hr
        obtain ⟨⟨e2, rest, h1⟩, h2⟩ := h.handed e' t' k hr
        refine ⟨⟨e2, rest, ?_⟩, h2⟩
        show set s.pc t _ t' = _
        by_cases hy : t' = t
        · subst hy; rw [hpc] at h1; cases h1
        · rw [set_ne _ _ hy]; exact h1
    · exact h.woken
    · intro e' hr
      replace hr : set s.place e _ e' = _ := hr
      by_cases hx : e' = e
      · subst hx; rw [set_same] at hr; cases hr
      · rw [set_ne _ _ hx] at hr; exact h.done e' hr
  | found e k rest hpc hreg =>
    exact h.move (e := e) ht (by rw [hpc]; rfl) rfl (fun _ h => h) (fun _ _ _ => by rw [hpc]; exact fun h => by cases h)
      (next hpc (fun _ h => h) (fun k' h' => by rcases h' with h' | h' <;> cases h'; exact hreg)) (fun _ _ _ h => by cases h) (fun _ h => by cases h)
  | missing e k rest hpc hreg =>
    refine h.move (e := e) ht (by rw [hpc]; rfl) rfl (fun _ h => h) (fun _ _ _ => by rw [hpc]; exact fun h => by cases h) (fun _ h => by cases h) (fun _ _ _ h => by cases h) ?_
    intro k' hk
    cases hk
    obtain ⟨pre, h1, h2⟩ := h.run t e _ (by rw [hpc]; rfl)
    exact ⟨pre, rest, h1, h2⟩
  | drop e k rest hpc _ _ =>
    exact h.release (by rw [hpc]; rfl) (fun _ _ _ => by rw [hpc]; exact fun h => by cases h) (fun _ h => by cases h) (fun h => by cases h) (fun _ _ h => by cases h) (fun h => by cases h) (fun _ h => by cases h)
  | sleep e k hpc hw =>
    exact h.release (by rw [hpc]; rfl) (fun _ _ _ => by rw [hpc]; exact fun h => by cases h) (fun _ h => by cases h) (fun h => by cases h) (fun _ _ h => by cases h) (fun h => by cases h)
      (fun k' hk => by cases hk; exact ⟨h.sleep t e k hpc, hw⟩)
  | again e k hpc hw =>
    exact h.release (by rw [hpc]; rfl) (fun _ _ _ => by rw [hpc]; exact fun h => by cases h) (fun _ h => by cases h) (fun h => by cases h) (fun _ _ h => by cases h) (fun h => by cases h) (fun _ h => by cases h)
  | declare e k rest hpc hreg =>
    exact h.move (e := e) ht (by rw [hpc]; rfl) rfl (set_true k) (fun _ _ _ => by rw [hpc]; exact fun h => by cases h)
      (next hpc (set_true k) (fun k' h' => by rcases h' with h' | h' <;> cases h'; exact set_same _ _ _)) (fun _ _ _ h => by cases h; exact set_same _ _ _) (fun _ h => by cases h)
  | redeclare e k rest hpc hreg =>
    exact h.move (e := e) ht (by rw [hpc]; rfl) rfl (fun _ h => h) (fun _ _ _ => by rw [hpc]; exact fun h => by cases h)
      (next hpc (fun _ h => h) (fun k' h' => by rcases h' with h' | h' <;> cases h'; exact hreg)) (fun _ _ _ h => by cases h) (fun _ h => by cases h)
  | delete e k rest hpc =>
    have hreg := h.wake t e k rest hpc
    have hplace : ∀ x, hand s.place t k x = if s.place x = .asleep k then .handed t k else s.place x := fun _ => rfl
    constructor
    · intro t' ht'
      show set s.pc t _ t' = _
      rw [set_ne _ _ (by omega)]; exact h.range t' ht'
    · intro t' e'
      show holds (set s.pc t _ t') = _ ↔ hand s.place t k e' = _
      have h1 : holds (set s.pc t (.append e k rest) t') = holds (s.pc t') := by
        by_cases hx : t' = t
        · subst hx; rw [set_same, hpc]; rfl
        · rw [set_ne _ _ hx]
      rw [h1, hplace]
      split
      · rename_i ha
        refine ⟨fun h' => ?_, fun h' => by cases h'⟩
        have := (h.held t' e').mp h'
        rw [ha] at this
        cases this
      · exact h.held t' e'
    · intro e' h'
      show hand s.place t k e' = _
      rw [hplace, h.small e' h']; rfl
    · intro e' h'
      show hand s.place t k e' ≠ _
      rw [hplace]
      split
      · exact fun h => by cases h
      · exact h.present e' h'
    · intro t' e' rest' hr
      replace hr : Props.ParseOrder.run (set s.pc t _ t') = _ := hr
      by_cases hx : t' = t
      · subst hx
        rw [set_same] at hr
        exact h.run t' e' rest' (by rw [hpc]; exact hr)
      · rw [set_ne _ _ hx] at hr; exact h.run t' e' rest' hr
    · intro t' e' k' rest' hr
      replace hr : set s.pc t _ t' = _ := hr
      by_cases hx : t' = t
      · subst hx; rw [set_same] at hr; cases hr
      · rw [set_ne _ _ hx] at hr; exact h.wake t' e' k' rest' hr
    · intro t' e' k' hr
      replace hr : set s.pc t _ t' = _ := hr
      by_cases hx : t' = t
      · subst hx; rw [set_same] at hr; cases hr
      · rw [set_ne _ _ hx] at hr; exact h.sleep t' e' k' hr
    · intro e' k' hr
      replace hr : hand s.place t k e' = _ := hr
      rw [hplace] at hr
      split at hr
      · cases hr
      · rename_i hn
        refine ⟨(h.asleep e' k' hr).1, ?_⟩
        show set s.woken k true k' = false
        rw [set_ne _ _ (fun hk => hn (by rw [hr, hk]))]
        exact (h.asleep e' k' hr).2
    · intro e' t' k' hr
      replace hr : hand s.place t k e' = _ := hr
      show (∃ e2 rest2, set s.pc t _ t' = _) ∧ _
      rw [hplace] at hr
      split at hr
      · rename_i ha
        cases hr
        exact ⟨⟨e, rest, set_same _ _ _⟩, hreg, (h.asleep e' k ha).1⟩
      · obtain ⟨⟨e2, rest2, h1⟩, h2⟩ := h.handed e' t' k' hr
        refine ⟨⟨e2, rest2, ?_⟩, h2⟩
        rw [set_ne _ _ (fun hx => by rw [hx, hpc] at h1; cases h1)]
        exact h1
    · intro k' hk
      replace hk : set s.woken k true k' = true := hk
      by_cases hx : k' = k
      · subst hx; exact hreg
      · rw [set_ne _ _ hx] at hk; exact h.woken k' hk
    · intro e' hr
      replace hr : hand s.place t k e' = _ := hr
      rw [hplace] at hr
      split at hr
      · cases hr
      · exact h.done e' hr
  | append e k rest hpc =>
    have hplace : ∀ x, requeue s.place t k x = if s.place x = .handed t k then .queue else s.place x := fun _ => rfl
    constructor
    · intro t' ht'
      show set s.pc t _ t' = _
      rw [set_ne _ _ (by omega)]; exact h.range t' ht'
    · intro t' e'
      show holds (set s.pc t _ t') = _ ↔ requeue s.place t k e' = _
      have h1 : holds (set s.pc t (.parse e rest) t') = holds (s.pc t') := by
        by_cases hx : t' = t
        · subst hx; rw [set_same, hpc]; rfl
        · rw [set_ne _ _ hx]
      rw [h1, hplace]
      split
      · rename_i ha
        refine ⟨fun h' => ?_, fun h' => by cases h'⟩
        have := (h.held t' e').mp h'
        rw [ha] at this
        cases this
      · exact h.held t' e'
    · intro e' h'
      show requeue s.place t k e' = _
      rw [hplace, h.small e' h']; rfl
    · intro e' h'
      show requeue s.place t k e' ≠ _
      rw [hplace]
      split
      · exact fun h => by cases h
      · exact h.present e' h'
    · intro t' e' rest' hr
      replace hr : Props.ParseOrder.run (set s.pc t _ t') = _ := hr
      by_cases hx : t' = t
      · subst hx
        rw [set_same] at hr
        exact h.run t' e' rest' (by rw [hpc]; exact hr)
      · rw [set_ne _ _ hx] at hr; exact h.run t' e' rest' hr
    · intro t' e' k' rest' hr
      replace hr : set s.pc t _ t' = _ := hr
      by_cases hx : t' = t
      · subst hx; rw [set_same] at hr; cases hr
      · rw [set_ne _ _ hx] at hr; exact h.wake t' e' k' rest' hr
    · intro t' e' k' hr
      replace hr : set s.pc t _ t' = _ := hr
      by_cases hx : t' = t
      · subst hx; rw [set_same] at hr; cases hr
      · rw [set_ne _ _ hx] at hr; exact h.sleep t' e' k' hr
    · intro e' k' hr
      replace hr : requeue s.place t k e' = _ := hr
      rw [hplace] at hr
      split at hr
      · cases hr
      · exact h.asleep e' k' hr
    · intro e' t' k' hr
      replace hr : requeue s.place t k e' = _ := hr
      show (∃ e2 rest2, set s.pc t _ t' = _) ∧ _
      rw [hplace] at hr
      split at hr
      · cases hr
      · rename_i hn
        obtain ⟨⟨e2, rest2, h1⟩, h2⟩ := h.handed e' t' k' hr
        refine ⟨⟨e2, rest2, ?_⟩, h2⟩
        rw [set_ne _ _ (fun hx => by subst hx; rw [hpc] at h1; cases h1; exact hn hr)]
        exact h1
    · exact h.woken
    · intro e' hr
      replace hr : requeue s.place t k e' = _ := hr
      rw [hplace] at hr
      split at hr
      · cases hr
      · exact h.done e' hr
  | define e d rest hpc _ =>
    exact h.move (e := e) ht (by rw [hpc]; rfl) rfl (fun _ h => h) (fun _ _ _ => by rw [hpc]; exact fun h => by cases h)
      (next hpc (fun _ h => h) (fun k' h' => by rcases h' with h' | h' <;> cases h')) (fun _ _ _ h => by cases h) (fun _ h => by cases h)
  | redefine e d rest hpc _ =>
    exact h.release (by rw [hpc]; rfl) (fun _ _ _ => by rw [hpc]; exact fun h => by cases h) (fun _ h => by cases h) (fun h => by cases h) (fun _ _ h => by cases h) (fun h => by cases h) (fun _ h => by cases h)
  | silent e k rest hpc =>
    exact h.move (e := e) ht (by rw [hpc]; rfl) rfl (set_true k) (fun _ _ _ => by rw [hpc]; exact fun h => by cases h)
      (next hpc (set_true k) (fun k' h' => by rcases h' with h' | h' <;> cases h')) (fun _ _ _ h => by cases h) (fun _ h => by cases h)
  | finish e hpc =>
    refine h.release (by rw [hpc]; rfl) (fun _ _ _ => by rw [hpc]; exact fun h => by cases h) (fun _ h => by cases h) (fun h => by cases h) (fun _ _ h => by cases h) (fun _ => ?_) (fun _ h => by cases h)
    obtain ⟨pre, h1, h2⟩ := h.run t e [] (by rw [hpc]; rfl)
    rw [h1, List.append_nil]
    exact h2

theorem inv_exec {m : Nat} {s : State} (h : Exec prog n T m s) : Inv prog n T s := by
  induction h with
  | nil => exact inv_start
  | step _ ht hs ih => exact ih.step ht hs

/-- What holds for orderly programs. -/
structure Orderly' (prog : Nat → Entry) (n : Nat) (s : State) : Prop where
  sound : ∀ k, s.registered k = true → Resolvable prog n k
  waking : ∀ k, s.registered k = true → s.woken k = false → ∃ t e rest, s.pc t = .wake e k rest
  defs : ∀ d, s.defined d = true → ∃ e, e < n ∧ ((s.place e = .done ∧ Action.define d ∈ (prog e).acts) ∨
    ∃ t pre rest, Props.ParseOrder.run (s.pc t) = some (e, rest) ∧ (prog e).acts = pre ++ rest ∧ Action.define d ∈ pre)
  fine : ∀ e, s.place e ≠ .dropped ∧ s.place e ≠ .failed

theorem orderly_start : Orderly' prog n (start n) := by
  constructor
  · intro k h; cases h
  · intro k h; cases h
  · intro k h; cases h
  · intro e
    simp only [start]
    split <;> exact ⟨fun h => (by cases h), fun h => (by cases h)⟩

/-- The definitions made so far, after a step of the thread `t`. -/
theorem defs_step {s s' : State} {t : Nat} (h : Orderly' prog n s) (hpc : ∀ t', t' ≠ t → s'.pc t' = s.pc t') (hplace : ∀ e, s.place e = .done → s'.place e = .done)
    (ht : ∀ e pre rest d, Props.ParseOrder.run (s.pc t) = some (e, rest) → (prog e).acts = pre ++ rest → Action.define d ∈ pre →
      (s'.place e = .done ∧ rest = []) ∨ ∃ mid rest', rest = mid ++ rest' ∧ Props.ParseOrder.run (s'.pc t) = some (e, rest')) :
    ∀ d, s.defined d = true → ∃ e, e < n ∧ ((s'.place e = .done ∧ Action.define d ∈ (prog e).acts) ∨
      ∃ t pre rest, Props.ParseOrder.run (s'.pc t) = some (e, rest) ∧ (prog e).acts = pre ++ rest ∧ Action.define d ∈ pre) := by
  intro d hd
  obtain ⟨e, hen, h1 | ⟨t', pre, rest, h1, h2, h3⟩⟩ := h.defs d hd
  · exact ⟨e, hen, .inl ⟨hplace e h1.1, h1.2⟩⟩
  · refine ⟨e, hen, ?_⟩
    by_cases hx : t' = t
    · subst hx
      rcases ht e pre rest d h1 h2 h3 with ⟨h4, h5⟩ | ⟨mid, rest', h4, h5⟩
      · exact .inl ⟨h4, by rw [h2]; exact List.mem_append_left _ h3⟩
      · exact .inr ⟨t', pre ++ mid, rest', h5, by rw [h2, h4, List.append_assoc], List.mem_append_left _ h3⟩
    · exact .inr ⟨t', pre, rest, by rw [hpc t' hx]; exact h1, h2, h3⟩

theorem Orderly'.step {s s' : State} {t : Nat} (ho : Orderly prog n) (hi : Inv prog n T s) (h : Orderly' prog n s) (hs : Step prog s t s') : Orderly' prog n s' := by
  have small : ∀ {e t}, holds (s.pc t) = some e → e < n := by
    intro e t he
    have hheld := (hi.held t e).mp he
    rcases Nat.lt_or_ge e n with h' | h'
    · exact h'
    · rw [hi.small e h'] at hheld; cases hheld
  have notdone : ∀ {e t}, holds (s.pc t) = some e → ∀ {q : Place} {e'}, s.place e' = .done → set s.place e q e' = .done := by
    intro e t he q e' hd
    rw [set_ne]
    · exact hd
    · intro hx
      subst hx
      rw [(hi.held t e').mp he] at hd
      cases hd
  -- the thread that is about to wake somebody is another one
  have wakes : ∀ {p : PC}, (∀ e k r, s.pc t ≠ .wake e k r) → ∀ k, (∃ t e rest, s.pc t = .wake e k rest) → ∃ t' e rest, set s.pc t p t' = .wake e k rest := by
    rintro p hn k ⟨t', e, rest, h1⟩
    exact ⟨t', e, rest, by rw [set_ne _ _ (fun hx => hn e k rest (by rw [← hx]; exact h1))]; exact h1⟩
  -- a thread that goes on with its entry
  have goes : ∀ {e : Nat} {rest rest' : List Action} {p : PC} (mid : List Action), Props.ParseOrder.run (s.pc t) = some (e, rest) → Props.ParseOrder.run p = some (e, rest') → rest = mid ++ rest' →
      ∀ (s'' : State), s''.pc = set s.pc t p → ∀ e' pre r d, Props.ParseOrder.run (s.pc t) = some (e', r) → (prog e').acts = pre ++ r → Action.define d ∈ pre →
      (s''.place e' = .done ∧ r = []) ∨ ∃ mid rest', r = mid ++ rest' ∧ Props.ParseOrder.run (s''.pc t) = some (e', rest') := by
    intro e rest rest' p mid h1 h2 h3 s'' hs'' e' pre r d h4 _ _
    rw [h1] at h4
    cases h4
    exact .inr ⟨mid, rest', h3, by rw [hs'', set_same]; exact h2⟩
  have other : ∀ {p : PC} (t' : Nat), t' ≠ t → set s.pc t p t' = s.pc t' := fun t' hx => set_ne _ _ hx
  cases hs with
  | take e hpc hq =>
    refine ⟨h.sound, fun k h1 h2 => wakes (by rw [hpc]; exact fun _ _ _ h => by cases h) k (h.waking k h1 h2), ?_, ?_⟩
    · refine defs_step (s := s) (t := t) h other ?_ (fun _ _ _ _ h1 => by rw [hpc] at h1; cases h1)
      intro e' he'
      show set s.place e _ e' = _
      rw [set_ne _ _ (fun hx => by rw [hx, hq] at he'; cases he')]
      exact he'
    · intro e'
      show set s.place e _ e' ≠ _ ∧ set s.place e _ e' ≠ _
      by_cases hx : e' = e
      · subst hx; rw [set_same]; exact ⟨fun h => (by cases h), fun h => (by cases h)⟩
      · rw [set_ne _ _ hx]; exact h.fine e'
  | found e k rest hpc hreg =>
    exact ⟨h.sound, fun k h1 h2 => wakes (by rw [hpc]; exact fun _ _ _ h => by cases h) k (h.waking k h1 h2),
      defs_step (s := s) (t := t) h other (fun _ h => h) (goes [_] (by rw [hpc]; rfl) rfl rfl _ rfl), h.fine⟩
  | missing e k rest hpc hreg _ =>
    refine ⟨h.sound, fun k h1 h2 => wakes (by rw [hpc]; exact fun _ _ _ h => by cases h) k (h.waking k h1 h2), defs_step (s := s) (t := t) h other (fun _ h => h) ?_, h.fine⟩
    intro e' pre r d h1 h2 h3
    have hen : e < n := small (t := t) (by rw [hpc]; rfl)
    rw [hpc] at h1
    cases h1
    exact absurd h3 (ho.last _ _ _ _ _ hen h2)
  | drop e k rest hpc hreg has =>
    have hen : e < n := small (t := t) (by rw [hpc]; rfl)
    obtain ⟨pre, h1, _⟩ := hi.run t e _ (by rw [hpc]; rfl)
    exact absurd (by rw [h1]; simp) (ho.assertion e hen has k)
  | sleep e k hpc hw =>
    refine ⟨h.sound, fun k h1 h2 => wakes (by rw [hpc]; exact fun _ _ _ h => by cases h) k (h.waking k h1 h2),
      defs_step (s := s) (t := t) h other (fun _ => notdone (t := t) (by rw [hpc]; rfl)) (fun _ _ _ _ h1 => by rw [hpc] at h1; cases h1), ?_⟩
    intro e'
    show set s.place e _ e' ≠ _ ∧ set s.place e _ e' ≠ _
    by_cases hx : e' = e
    · subst hx; rw [set_same]; exact ⟨fun h => (by cases h), fun h => (by cases h)⟩
    · rw [set_ne _ _ hx]; exact h.fine e'
  | again e k hpc hw =>
    refine ⟨h.sound, fun k h1 h2 => wakes (by rw [hpc]; exact fun _ _ _ h => by cases h) k (h.waking k h1 h2),
      defs_step (s := s) (t := t) h other (fun _ => notdone (t := t) (by rw [hpc]; rfl)) (fun _ _ _ _ h1 => by rw [hpc] at h1; cases h1), ?_⟩
    intro e'
    show set s.place e _ e' ≠ _ ∧ set s.place e _ e' ≠ _
    by_cases hx : e' = e
    · subst hx; rw [set_same]; exact ⟨fun h => (by cases h), fun h => (by cases h)⟩
    · rw [set_ne _ _ hx]; exact h.fine e'
  | declare e k rest hpc hreg =>
    have hen : e < n := small (t := t) (by rw [hpc]; rfl)
    obtain ⟨pre, h1, h2⟩ := hi.run t e _ (by rw [hpc]; rfl)
    refine ⟨?_, ?_, defs_step (s := s) (t := t) h other (fun _ h => h) (goes [_] (by rw [hpc]; rfl) rfl rfl _ rfl), h.fine⟩
    · intro k' hk
      replace hk : set s.registered k true k' = true := hk
      by_cases hx : k' = k
      · subst hx
        exact .intro e k' pre rest hen h1 (fun k'' hk'' => h.sound k'' (h2.1 k'' hk''))
      · rw [set_ne _ _ hx] at hk; exact h.sound k' hk
    · intro k' hk hw
      replace hk : set s.registered k true k' = true := hk
      by_cases hx : k' = k
      · subst hx
        exact ⟨t, e, rest, set_same _ _ _⟩
      · rw [set_ne _ _ hx] at hk
        exact wakes (by rw [hpc]; exact fun _ _ _ h => by cases h) k' (h.waking k' hk hw)
  | redeclare e k rest hpc hreg =>
    exact ⟨h.sound, fun k h1 h2 => wakes (by rw [hpc]; exact fun _ _ _ h => by cases h) k (h.waking k h1 h2),
      defs_step (s := s) (t := t) h other (fun _ h => h) (goes [_] (by rw [hpc]; rfl) rfl rfl _ rfl), h.fine⟩
  | delete e k rest hpc =>
    refine ⟨h.sound, ?_, defs_step (s := s) (t := t) h other ?_ (goes [] (by rw [hpc]; rfl) rfl rfl _ rfl), ?_⟩
    · intro k' h1 h2
      replace h2 : set s.woken k true k' = false := h2
      by_cases hx : k' = k
      · subst hx; rw [set_same] at h2; cases h2
      · rw [set_ne _ _ hx] at h2
        obtain ⟨t', e', rest', h3⟩ := h.waking k' h1 h2
        refine ⟨t', e', rest', ?_⟩
        show set s.pc t _ t' = _
        rw [set_ne _ _ (fun hy => by rw [hy, hpc] at h3; cases h3; exact hx rfl)]
        exact h3
    · intro e' he'
      show (if s.place e' = .asleep k then _ else _) = _
      rw [he']; rfl
    · intro e'
      show (if s.place e' = .asleep k then _ else _) ≠ _ ∧ (if s.place e' = .asleep k then _ else _) ≠ _
      split
      · exact ⟨fun h => (by cases h), fun h => (by cases h)⟩
      · exact h.fine e'
  | append e k rest hpc =>
    refine ⟨h.sound, fun k h1 h2 => wakes (by rw [hpc]; exact fun _ _ _ h => by cases h) k (h.waking k h1 h2), defs_step (s := s) (t := t) h other ?_ (goes [] (by rw [hpc]; rfl) rfl rfl _ rfl), ?_⟩
    · intro e' he'
      show (if s.place e' = .handed t k then _ else _) = _
      rw [he']; rfl
    · intro e'
      show (if s.place e' = .handed t k then _ else _) ≠ _ ∧ (if s.place e' = .handed t k then _ else _) ≠ _
      split
      · exact ⟨fun h => (by cases h), fun h => (by cases h)⟩
      · exact h.fine e'
  | define e d rest hpc hdef =>
    have hen : e < n := small (t := t) (by rw [hpc]; rfl)
    refine ⟨h.sound, fun k h1 h2 => wakes (by rw [hpc]; exact fun _ _ _ h => by cases h) k (h.waking k h1 h2), ?_, h.fine⟩
    intro d' hd
    replace hd : set s.defined d true d' = true := hd
    by_cases hx : d' = d
    · subst hx
      obtain ⟨pre, h1, _⟩ := hi.run t e _ (by rw [hpc]; rfl)
      refine ⟨e, hen, .inr ⟨t, pre ++ [.define d'], rest, ?_, by rw [h1, List.append_assoc]; rfl, by simp⟩⟩
      show Props.ParseOrder.run (set s.pc t _ t) = _
      rw [set_same]; rfl
    · rw [set_ne _ _ hx] at hd
      exact defs_step (s := s) (s' := { s with pc := set s.pc t (.parse e rest) }) (t := t) h other (fun _ h => h) (goes [_] (by rw [hpc]; rfl) rfl rfl _ rfl) d' hd
  | redefine e d rest hpc hdef =>
    exfalso
    have hen : e < n := small (t := t) (by rw [hpc]; rfl)
    have hheld := (hi.held t e).mp (by rw [hpc]; rfl)
    obtain ⟨pre, h1, _⟩ := hi.run t e _ (by rw [hpc]; rfl)
    obtain ⟨e', hen', h2⟩ := h.defs d hdef
    have split' : ∀ {l : List Action}, Action.define d ∈ l → ∃ a b, l = a ++ .define d :: b := List.append_of_mem
    rcases h2 with ⟨h2, h3⟩ | ⟨t', pre', rest', h2, h3, h4⟩
    · obtain ⟨a, b, hab⟩ := split' h3
      obtain ⟨rfl, _⟩ := ho.once _ _ _ _ _ _ _ hen hen' h1 hab
      rw [hheld] at h2
      cases h2
    · obtain ⟨a, b, hab⟩ := split' h4
      obtain ⟨rfl, hpre⟩ := ho.once _ _ _ _ _ _ _ hen hen' h1 (by rw [h3, hab, List.append_assoc]; rfl)
      have hheld' : holds (s.pc t') = some e := by
        cases hp : s.pc t' with
        | idle => rw [hp] at h2; cases h2
        | sleep => rw [hp] at h2; cases h2
        | _ => rw [hp] at h2; cases h2; rfl
      have := (hi.held t' e).mp hheld'
      rw [hheld] at this
      cases this
      rw [hpc] at h2
      cases h2
      rw [h1] at h3
      have hlen := congrArg List.length (List.append_cancel_right h3)
      rw [hab, hpre] at hlen
      simp at hlen
  | silent e k rest hpc =>
    have hen : e < n := small (t := t) (by rw [hpc]; rfl)
    obtain ⟨pre, h1, _⟩ := hi.run t e _ (by rw [hpc]; rfl)
    exact absurd (by rw [h1]; simp) (ho.silent e hen k)
  | finish e hpc =>
    refine ⟨h.sound, fun k h1 h2 => wakes (by rw [hpc]; exact fun _ _ _ h => by cases h) k (h.waking k h1 h2), defs_step (s := s) (t := t) h other (fun _ => notdone (t := t) (by rw [hpc]; rfl)) ?_, ?_⟩
    · intro e' pre r d h1 _ _
      rw [hpc] at h1
      cases h1
      exact .inl ⟨set_same _ _ _, rfl⟩
    · intro e'
      show set s.place e _ e' ≠ _ ∧ set s.place e _ e' ≠ _
      by_cases hx : e' = e
      · subst hx; rw [set_same]; exact ⟨fun h => (by cases h), fun h => (by cases h)⟩
      · rw [set_ne _ _ hx]; exact h.fine e'

theorem orderly_exec {m : Nat} {s : State} (ho : Orderly prog n) (h : Exec prog n T m s) : Orderly' prog n s := by
  induction h with
  | nil => exact orderly_start
  | step hx _ hs ih => exact ih.step ho (inv_exec hx) hs

/-! ## The result -/

/-- The first name of `l` that cannot be resolved. -/
theorem first_split {pre post pre' post' : List Action} {a b : Action} (h : pre ++ a :: post = pre' ++ b :: post') : a ∈ pre' ∨ b ∈ pre ∨ (pre = pre' ∧ a = b) := by
  rcases List.append_eq_append_iff.mp h with ⟨l, h1, h2⟩ | ⟨l, h1, h2⟩
  · cases l with
    | nil =>
      rw [List.append_nil] at h1
      rw [List.nil_append] at h2
      exact .inr (.inr ⟨h1.symm, (List.cons.inj h2).1⟩)
    | cons x l =>
      rw [List.cons_append] at h2
      rw [h1, (List.cons.inj h2).1]
      exact .inl (by simp)
  · cases l with
    | nil =>
      rw [List.append_nil] at h1
      rw [List.nil_append] at h2
      exact .inr (.inr ⟨h1, (List.cons.inj h2).1.symm⟩)
    | cons x l =>
      rw [List.cons_append] at h2
      rw [h1, (List.cons.inj h2).1]
      exact .inr (.inl (by simp))

/-- At the end an entry is done or sleeps on a name that is not declared. -/
theorem quiet_place (ho : Orderly prog n) {m : Nat} {s : State} (h : Exec prog n T m s) (hq : Quiet s) (e : Nat) (he : e < n) :
    s.place e = .done ∨ ∃ k, s.place e = .asleep k ∧ s.registered k = false := by
  have hi := inv_exec h
  have ho' := orderly_exec ho h
  cases hp : s.place e with
  | absent => exact absurd hp (hi.present e he)
  | queue => exact absurd hp (hq.2 e)
  | held t =>
    have := (hi.held t e).mpr hp
    rw [hq.1 t] at this
    cases this
  | asleep k =>
    refine .inr ⟨k, rfl, ?_⟩
    cases hr : s.registered k with
    | false => rfl
    | true =>
      obtain ⟨t, e', rest, h1⟩ := ho'.waking k hr (hi.asleep e k hp).2
      rw [hq.1 t] at h1
      cases h1
  | handed t k =>
    obtain ⟨⟨e', rest, h1⟩, _⟩ := hi.handed e t k hp
    rw [hq.1 t] at h1
    cases h1
  | done => exact .inl rfl
  | dropped => exact absurd hp (ho'.fine e).1
  | failed => exact absurd hp (ho'.fine e).2

theorem quiet_complete (ho : Orderly prog n) {m : Nat} {s : State} (h : Exec prog n T m s) (hq : Quiet s) {k : Nat} (hk : Resolvable prog n k) : s.registered k = true := by
  induction hk with
  | intro e k pre post he hacts hpre ih =>
    have hi := inv_exec h
    rcases quiet_place ho h hq e he with hp | ⟨k', hp, hk'⟩
    · exact (hi.done e hp).2 k (by rw [hacts]; simp)
    · obtain ⟨⟨pre', post', h1, h2⟩, _⟩ := hi.asleep e k' hp
      rw [hacts] at h1
      rcases first_split h1 with h3 | h3 | ⟨_, h3⟩
      · exact h2.2 k h3
      · rw [ih k' h3] at hk'; cases hk'
      · cases h3

/-- **C54**: when nothing is left to do, the names that are declared are exactly those that can be
resolved, whatever the number of threads and the order of the steps. -/
theorem C54_names_partial (prog : Nat → Entry) (n threads : Nat) (ho : Orderly prog n) (m : Nat) (s : State) (h : Exec prog n threads m s) (hq : Quiet s) (k : Nat) :
    s.registered k = true ↔ Resolvable prog n k :=
  ⟨(orderly_exec ho h).sound k, quiet_complete ho h hq⟩

/-- **C54**: when nothing is left to do, a declaration is done if all names it needs can be resolved;
otherwise it sleeps on the first name it needs that cannot be resolved. -/
theorem C54_declarations_partial (prog : Nat → Entry) (n threads : Nat) (ho : Orderly prog n) (m : Nat) (s : State) (h : Exec prog n threads m s) (hq : Quiet s) (e : Nat) (he : e < n) :
    (s.place e = .done ↔ ∀ k, Action.need k ∈ (prog e).acts → Resolvable prog n k)
    ∧ ∀ k, s.place e = .asleep k ↔ ∃ pre post, (prog e).acts = pre ++ .need k :: post ∧ ¬ Resolvable prog n k ∧ ∀ k', Action.need k' ∈ pre → Resolvable prog n k' := by
  have hi := inv_exec h
  have hn := C54_names_partial prog n threads ho m s h hq
  rcases quiet_place ho h hq e he with hp | ⟨k', hp, hk'⟩
  · have hd := hi.done e hp
    refine ⟨⟨fun _ k hk => (hn k).mp (hd.1 k hk), fun _ => hp⟩, fun k => ⟨fun h => (by rw [hp] at h; cases h), ?_⟩⟩
    rintro ⟨pre, post, h1, h2, _⟩
    exact absurd ((hn k).mp (hd.1 k (by rw [h1]; simp))) h2
  · obtain ⟨⟨pre, post, h1, h2⟩, _⟩ := hi.asleep e k' hp
    have hk2 : ¬ Resolvable prog n k' := fun h => by rw [(hn k').mpr h] at hk'; cases hk'
    refine ⟨⟨fun h => (by rw [hp] at h; cases h), fun h => absurd (h k' (by rw [h1]; simp)) hk2⟩, fun k => ⟨fun h => ?_, ?_⟩⟩
    · rw [hp] at h
      cases h
      exact ⟨pre, post, h1, hk2, fun k hk => (hn k).mp (h2.1 k hk)⟩
    · rintro ⟨pre', post', h3, h4, h5⟩
      rw [h1] at h3
      rcases first_split h3 with h6 | h6 | ⟨_, h6⟩
      · exact absurd (h5 k' h6) hk2
      · exact absurd ((hn k).mp (h2.1 k h6)) h4
      · cases h6; exact hp

/-- **C54**: the result does not depend on the number of threads and the order of the steps. -/
theorem C54_deterministic_partial (prog : Nat → Entry) (n threads threads' : Nat) (ho : Orderly prog n) (m m' : Nat) (s s' : State) (h : Exec prog n threads m s) (h' : Exec prog n threads' m' s')
    (hq : Quiet s) (hq' : Quiet s') : (∀ k, s.registered k = s'.registered k) ∧ ∀ e, s.place e = s'.place e := by
  constructor
  · intro k
    have h1 := C54_names_partial prog n threads ho m s h hq k
    have h2 := C54_names_partial prog n threads' ho m' s' h' hq' k
    exact Bool.eq_iff_iff.mpr (h1.trans h2.symm)
  · intro e
    rcases Nat.lt_or_ge e n with he | he
    · have h1 := C54_declarations_partial prog n threads ho m s h hq e he
      have h2 := C54_declarations_partial prog n threads' ho m' s' h' hq' e he
      rcases quiet_place ho h hq e he with hp | ⟨k, hp, _⟩
      · rw [hp, h2.1.mpr (h1.1.mp hp)]
      · rw [hp, (h2.2 k).mpr ((h1.2 k).mp hp)]
    · rw [(inv_exec h).small e he, (inv_exec h').small e he]

/-! ## When declarations get stuck -/

/-- The names that `l` declares. -/
def declaredIn : List Action → List Nat
  | [] => []
  | .declare k :: l => k :: declaredIn l
  | .need _ :: l => declaredIn l
  | .define _ :: l => declaredIn l
  | .silent _ :: l => declaredIn l

theorem mem_declaredIn {k : Nat} {l : List Action} : k ∈ declaredIn l ↔ Action.declare k ∈ l := by
  induction l with
  | nil => exact ⟨fun h => absurd h List.not_mem_nil, fun h => absurd h List.not_mem_nil⟩
  | cons a l ih => cases a <;> simp [declaredIn, ih]

theorem minimal {R : Nat → Nat → Prop} (ht : ∀ a b c, R a b → R b c → R a c) : ∀ (L : List Nat), (∀ a ∈ L, ¬ R a a) → L ≠ [] → ∃ x ∈ L, ∀ y ∈ L, ¬ R y x
  | [], _, h => absurd rfl h
  | [x], hi, _ => ⟨x, List.mem_singleton.mpr rfl, fun y hy => by rw [List.mem_singleton.mp hy]; exact hi x (List.mem_singleton.mpr rfl)⟩
  | x :: z :: L, hi, _ => by
    obtain ⟨w, hw, hmin⟩ := minimal ht (z :: L) (fun a ha => hi a (List.mem_cons_of_mem _ ha)) (fun h => by cases h)
    by_cases hx : R x w
    · refine ⟨x, List.mem_cons_self, fun y hy => ?_⟩
      rcases List.mem_cons.mp hy with rfl | hy
      · exact hi _ List.mem_cons_self
      · exact fun h => hmin y hy (ht y x w h hx)
    · refine ⟨w, List.mem_cons_of_mem _ hw, fun y hy => ?_⟩
      rcases List.mem_cons.mp hy with rfl | hy
      · exact hx
      · exact hmin y hy

theorem DependsPlus.trans {a b c : Nat} (h1 : DependsPlus prog n a b) (h2 : DependsPlus prog n b c) : DependsPlus prog n a c := by
  induction h1 with
  | one h => exact .step h h2
  | step h _ ih => exact .step h (ih h2)

/-- **C54**: if a name cannot be resolved, it depends on a name that nobody declares, or on a name that
depends on itself. -/
theorem C54_stuck (prog : Nat → Entry) (n k : Nat) (h : ¬ Resolvable prog n k) : ∃ k', (k' = k ∨ DependsPlus prog n k k') ∧ (¬ Declared prog n k' ∨ DependsPlus prog n k' k') := by
  refine Classical.byContradiction fun hno => ?_
  have hdecl : ∀ k', (k' = k ∨ DependsPlus prog n k k') → Declared prog n k' := fun k' hk => Classical.byContradiction fun hd => hno ⟨k', hk, .inl hd⟩
  have hcyc : ∀ k', (k' = k ∨ DependsPlus prog n k k') → ¬ DependsPlus prog n k' k' := fun k' hk hd => hno ⟨k', hk, .inr hd⟩
  let p : Nat → Bool := fun x => @decide (¬ Resolvable prog n x ∧ (x = k ∨ DependsPlus prog n k x)) (Classical.propDecidable _)
  have hp : ∀ x, p x = true ↔ ¬ Resolvable prog n x ∧ (x = k ∨ DependsPlus prog n k x) := fun x => @decide_eq_true_iff _ (Classical.propDecidable _)
  let L := ((List.range n).flatMap fun e => declaredIn (prog e).acts).filter p
  have hL : ∀ x, x ∈ L ↔ Declared prog n x ∧ p x = true := by
    intro x
    show x ∈ List.filter p _ ↔ _
    rw [List.mem_filter, List.mem_flatMap]
    simp only [List.mem_range, mem_declaredIn]
    exact Iff.rfl
  have hk : k ∈ L := (hL k).mpr ⟨hdecl k (.inl rfl), (hp k).mpr ⟨h, .inl rfl⟩⟩
  obtain ⟨x, hx, hmin⟩ := minimal (R := fun y x => DependsPlus prog n x y) (fun a b c h1 h2 => DependsPlus.trans h2 h1) L
    (fun a ha => hcyc a ((hp a).mp ((hL a).mp ha).2).2) (List.ne_nil_of_mem hk)
  obtain ⟨⟨e, he, hd⟩, hpx⟩ := (hL x).mp hx
  obtain ⟨hres, hreach⟩ := (hp x).mp hpx
  obtain ⟨pre, post, hacts⟩ := List.append_of_mem hd
  have hneed : ∃ k', Action.need k' ∈ pre ∧ ¬ Resolvable prog n k' := Classical.byContradiction fun hno =>
    hres (.intro e x pre post he hacts fun k' hk' => Classical.byContradiction fun hr => hno ⟨k', hk', hr⟩)
  obtain ⟨k', hk', hr⟩ := hneed
  have hdep : DependsPlus prog n x k' := .one ⟨e, pre, post, he, hacts, hk'⟩
  have hreach' : k' = k ∨ DependsPlus prog n k k' := by
    rcases hreach with rfl | hreach
    · exact .inr hdep
    · exact .inr (DependsPlus.trans hreach hdep)
  exact hmin k' ((hL k').mpr ⟨hdecl k' hreach', (hp k').mpr ⟨hr, hreach'⟩⟩) hdep

/-- What a resolvable name depends on can be resolved, and is not the name itself. -/
theorem resolvable_acc (hu : DeclaredOnce prog n) {k : Nat} (h : Resolvable prog n k) : Acc (fun y x => Depends prog n x y) k ∧ ∀ k', Depends prog n k k' → Resolvable prog n k' := by
  induction h with
  | intro e k pre post he hacts hpre ih =>
    have hdep : ∀ k', Depends prog n k k' → Action.need k' ∈ pre := by
      rintro k' ⟨e', pre', post', he', hacts', hk'⟩
      obtain ⟨_, rfl⟩ := hu e e' k pre post pre' post' he he' hacts hacts'
      exact hk'
    exact ⟨⟨_, fun k' hk' => (ih k' (hdep k' hk')).1⟩, fun k' hk' => hpre k' (hdep k' hk')⟩

theorem acc_no_cycle {R : Nat → Nat → Prop} {x : Nat} (h : Acc R x) : ∀ {T : Nat → Nat → Prop}, (∀ a, T a a → ∃ b, R b a ∧ T b b) → ¬ T x x := by
  intro T hT
  induction h with
  | intro x _ ih =>
    intro hx
    obtain ⟨b, hb, hbb⟩ := hT x hx
    exact ih b hb hbb

theorem dependsPlus_acc (hu : DeclaredOnce prog n) {k k' : Nat} (h : Resolvable prog n k) (hd : DependsPlus prog n k k') : Resolvable prog n k' := by
  induction hd with
  | one hd => exact (resolvable_acc hu h).2 _ hd
  | step hd _ ih => exact ih ((resolvable_acc hu h).2 _ hd)

/-- **C54**: if every name is declared once, a name cannot be resolved exactly if it depends on a name
that nobody declares, or on a cycle. -/
theorem C54_stuck_iff (prog : Nat → Entry) (n : Nat) (hu : DeclaredOnce prog n) (k : Nat) :
    ¬ Resolvable prog n k ↔ ∃ k', (k' = k ∨ DependsPlus prog n k k') ∧ (¬ Declared prog n k' ∨ DependsPlus prog n k' k') := by
  refine ⟨C54_stuck prog n k, ?_⟩
  rintro ⟨k', hk, hbad⟩ hres
  have hres' : Resolvable prog n k' := by
    rcases hk with rfl | hk
    · exact hres
    · exact dependsPlus_acc hu hres hk
  rcases hbad with hbad | hbad
  · cases hres' with
    | intro e k pre post he hacts _ => exact hbad ⟨e, he, by rw [hacts]; simp⟩
  · refine acc_no_cycle (resolvable_acc hu hres').1 (T := DependsPlus prog n) ?_ hbad
    intro a ha
    cases ha with
    | one h => exact ⟨a, h, .one h⟩
    | step h h' => exact ⟨_, h, DependsPlus.trans h' (.one h)⟩

/-! ## Termination -/

/-- Is it the need of a name that is not known? -/
def unknown (reg : Nat → Bool) : Action → Bool
  | .need k => !reg k
  | _ => false

/-- Is it the need of a name that is not known, and not `k`? -/
def unknownBut (reg : Nat → Bool) (k : Nat) : Action → Bool
  | .need k' => !reg k' && k' != k
  | _ => false

theorem countP_le {p q : Action → Bool} (h : ∀ a, p a = true → q a = true) (l : List Action) : l.countP p ≤ l.countP q := by
  induction l with
  | nil => exact Nat.le_refl _
  | cons a l ih =>
    rw [List.countP_cons, List.countP_cons]
    have := h a
    cases hp : p a with
    | false => simp only [Bool.false_eq_true, if_false]; split <;> omega
    | true => rw [this hp]; simp only [if_true]; omega

theorem countP_lt {p q : Action → Bool} (h : ∀ a, p a = true → q a = true) {a : Action} {l : List Action} (ha : a ∈ l) (h1 : p a = false) (h2 : q a = true) : l.countP p + 1 ≤ l.countP q := by
  obtain ⟨x, y, rfl⟩ := List.append_of_mem ha
  rw [List.countP_append, List.countP_append, List.countP_cons, List.countP_cons, h1, h2]
  have := countP_le h x
  have := countP_le h y
  simp only [Bool.false_eq_true, if_false, if_true]
  omega

theorem unknown_mono {reg reg' : Nat → Bool} (h : ∀ k, reg k = true → reg' k = true) (l : List Action) : l.countP (unknown reg') ≤ l.countP (unknown reg) := by
  refine countP_le (fun a ha => ?_) l
  cases a with
  | need k =>
    simp only [unknown, Bool.not_eq_true'] at ha ⊢
    cases hr : reg k with
    | false => rfl
    | true => rw [h k hr] at ha; cases ha
  | _ => cases ha

theorem unknownBut_mono {reg reg' : Nat → Bool} (h : ∀ k, reg k = true → reg' k = true) (k : Nat) (l : List Action) : l.countP (unknownBut reg' k) ≤ l.countP (unknownBut reg k) := by
  refine countP_le (fun a ha => ?_) l
  cases a with
  | need k' =>
    simp only [unknownBut, Bool.and_eq_true, Bool.not_eq_true'] at ha ⊢
    refine ⟨?_, ha.2⟩
    cases hr : reg k' with
    | false => rfl
    | true => rw [h k' hr] at ha; cases ha.1
  | _ => cases ha

theorem unknown_but_lt {reg : Nat → Bool} {k : Nat} {l : List Action} (hk : Action.need k ∈ l) (hr : reg k = false) : l.countP (unknownBut reg k) + 1 ≤ l.countP (unknown reg) := by
  refine countP_lt (fun a ha => ?_) hk (by simp [unknownBut]) (by simp [unknown, hr])
  cases a with
  | need k' =>
    simp only [unknownBut, Bool.and_eq_true] at ha
    exact ha.1
  | _ => cases ha

theorem unknown_le_but {reg : Nat → Bool} {k : Nat} (hr : reg k = true) (l : List Action) : l.countP (unknown reg) ≤ l.countP (unknownBut reg k) := by
  refine countP_le (fun a ha => ?_) l
  cases a with
  | need k' =>
    simp only [unknown, Bool.not_eq_true'] at ha
    simp only [unknownBut, ha, Bool.not_false, Bool.true_and, bne_iff_ne]
    intro hx
    rw [hx, hr] at ha
    cases ha
  | _ => cases ha

/-- The cost of parsing an entry once. -/
def cost (prog : Nat → Entry) (e : Nat) : Nat := 3 * (prog e).acts.length + 10

/-- How many steps an entry can still cause. -/
def potential (prog : Nat → Entry) (s : State) (e : Nat) : Nat :=
  match s.place e with
  | .queue => ((prog e).acts.countP (unknown s.registered) + 1) * cost prog e
  | .held t => match s.pc t with
    | .parse _ rest => (prog e).acts.countP (unknown s.registered) * cost prog e + 3 * rest.length + 4
    | .wake _ _ rest => (prog e).acts.countP (unknown s.registered) * cost prog e + 3 * rest.length + 6
    | .append _ _ rest => (prog e).acts.countP (unknown s.registered) * cost prog e + 3 * rest.length + 5
    | .sleep _ k => ((prog e).acts.countP (unknownBut s.registered k) + 1) * cost prog e + 3
    | .idle => 0
  | .asleep k => ((prog e).acts.countP (unknownBut s.registered k) + 1) * cost prog e + 2
  | .handed _ k => ((prog e).acts.countP (unknownBut s.registered k) + 1) * cost prog e + 1
  | _ => 0

/-- An entry that does not move. -/
theorem potential_same {s s' : State} {e : Nat} (hreg : ∀ k, s.registered k = true → s'.registered k = true) (hp : s'.place e = s.place e) (hpc : ∀ t, s.place e = .held t → s'.pc t = s.pc t) :
    potential prog s' e ≤ potential prog s e := by
  have h1 : ∀ k, ((prog e).acts.countP (unknownBut s'.registered k) + 1) * cost prog e ≤ ((prog e).acts.countP (unknownBut s.registered k) + 1) * cost prog e :=
    fun k => Nat.mul_le_mul_right _ (Nat.succ_le_succ (unknownBut_mono hreg k _))
  have h2 : (prog e).acts.countP (unknown s'.registered) * cost prog e ≤ (prog e).acts.countP (unknown s.registered) * cost prog e := Nat.mul_le_mul_right _ (unknown_mono hreg _)
  have h3 : ((prog e).acts.countP (unknown s'.registered) + 1) * cost prog e ≤ ((prog e).acts.countP (unknown s.registered) + 1) * cost prog e := Nat.mul_le_mul_right _ (Nat.succ_le_succ (unknown_mono hreg _))
  unfold potential
  rw [hp]
  cases hpl : s.place e with
  | queue => exact h3
  | asleep k => have := h1 k; simp only; omega
  | handed t k => have := h1 k; simp only; omega
  | held t =>
    simp only
    rw [hpc t hpl]
    cases s.pc t with
    | sleep _ k => have := h1 k; simp only; omega
    | _ => simp only; omega
  | _ => exact Nat.le_refl _

/-- Some entry has less left, and none has more. -/
theorem potential_step {s s' : State} {t : Nat} (hi : Inv prog n T s) (hs : Step prog s t s') : ∃ e, e < n ∧ potential prog s' e < potential prog s e ∧ ∀ e', e' ≠ e → potential prog s' e' ≤ potential prog s e' := by
  have small : ∀ {e}, holds (s.pc t) = some e → e < n ∧ s.place e = .held t := by
    intro e he
    have hheld := (hi.held t e).mp he
    refine ⟨?_, hheld⟩
    rcases Nat.lt_or_ge e n with h' | h'
    · exact h'
    · rw [hi.small e h'] at hheld; cases hheld
  have succ_mul' : ∀ a b : Nat, (a + 1) * b = a * b + b := fun a b => Nat.succ_mul a b
  -- the other entries, if only the place of `e` and the thread `t` change
  have others : ∀ {e : Nat} {p : PC} {q : Place} {reg woken def' : Nat → Bool}, holds (s.pc t) = some e ∨ s.pc t = .idle → (∀ k, s.registered k = true → reg k = true) → ∀ e', e' ≠ e →
      potential prog { registered := reg, woken := woken, defined := def', place := set s.place e q, pc := set s.pc t p } e' ≤ potential prog s e' := by
    intro e p q reg woken def' hh hreg e' hx
    refine potential_same hreg (set_ne _ _ hx) (fun t' ht' => set_ne _ _ (fun hy => ?_))
    subst hy
    have := (hi.held t' e').mpr ht'
    rcases hh with hh | hh
    · rw [hh] at this; exact hx (Option.some.inj this).symm
    · rw [hh] at this; cases this
  have others' : ∀ {e : Nat} {p : PC} {reg woken def' : Nat → Bool}, holds (s.pc t) = some e → (∀ k, s.registered k = true → reg k = true) → ∀ e', e' ≠ e →
      potential prog { registered := reg, woken := woken, defined := def', place := s.place, pc := set s.pc t p } e' ≤ potential prog s e' := by
    intro e p reg woken def' hh hreg e' hx
    refine potential_same hreg rfl (fun t' ht' => set_ne _ _ (fun hy => ?_))
    subst hy
    have := (hi.held t' e').mpr ht'
    rw [hh] at this; exact hx (Option.some.inj this).symm
  have mono : ∀ k (e : Nat), (prog e).acts.countP (unknown (set s.registered k true)) * cost prog e ≤ (prog e).acts.countP (unknown s.registered) * cost prog e :=
    fun k e => Nat.mul_le_mul_right _ (unknown_mono (set_true k) _)
  cases hs with
  | take e hpc hq =>
    have hen : e < n := by
      rcases Nat.lt_or_ge e n with h' | h'
      · exact h'
      · rw [hi.small e h'] at hq; cases hq
    refine ⟨e, hen, ?_, others (.inr hpc) (fun _ h => h)⟩
    simp only [potential, set_same, hq, succ_mul', cost]
    omega
  | found e k rest hpc _ =>
    obtain ⟨hen, hp⟩ := small (e := e) (by rw [hpc]; rfl)
    refine ⟨e, hen, ?_, others' (by rw [hpc]; rfl) (fun _ h => h)⟩
    simp only [potential, hp, set_same, hpc, List.length_cons]
    omega
  | missing e k rest hpc hreg _ =>
    obtain ⟨hen, hp⟩ := small (e := e) (by rw [hpc]; rfl)
    refine ⟨e, hen, ?_, others' (by rw [hpc]; rfl) (fun _ h => h)⟩
    obtain ⟨pre, h1, _⟩ := hi.run t e _ (by rw [hpc]; rfl)
    have := Nat.mul_le_mul_right (cost prog e) (unknown_but_lt (reg := s.registered) (k := k) (l := (prog e).acts) (by rw [h1]; simp) hreg)
    simp only [potential, hp, set_same, hpc, List.length_cons]
    omega
  | drop e k rest hpc _ _ =>
    obtain ⟨hen, hp⟩ := small (e := e) (by rw [hpc]; rfl)
    refine ⟨e, hen, ?_, others (.inl (by rw [hpc]; rfl)) (fun _ h => h)⟩
    simp only [potential, hp, set_same, hpc]
    omega
  | sleep e k hpc _ =>
    obtain ⟨hen, hp⟩ := small (e := e) (by rw [hpc]; rfl)
    refine ⟨e, hen, ?_, others (.inl (by rw [hpc]; rfl)) (fun _ h => h)⟩
    simp only [potential, hp, set_same, hpc]
    omega
  | again e k hpc hw =>
    obtain ⟨hen, hp⟩ := small (e := e) (by rw [hpc]; rfl)
    refine ⟨e, hen, ?_, others (.inl (by rw [hpc]; rfl)) (fun _ h => h)⟩
    have := Nat.mul_le_mul_right (cost prog e) (Nat.succ_le_succ (unknown_le_but (reg := s.registered) (hi.woken k hw) (prog e).acts))
    simp only [potential, hp, set_same, hpc]
    simp only [Nat.succ_eq_add_one] at this
    omega
  | declare e k rest hpc _ =>
    obtain ⟨hen, hp⟩ := small (e := e) (by rw [hpc]; rfl)
    refine ⟨e, hen, ?_, others' (by rw [hpc]; rfl) (set_true k)⟩
    have := mono k e
    simp only [potential, hp, set_same, hpc, List.length_cons]
    omega
  | redeclare e k rest hpc _ =>
    obtain ⟨hen, hp⟩ := small (e := e) (by rw [hpc]; rfl)
    refine ⟨e, hen, ?_, others' (by rw [hpc]; rfl) (fun _ h => h)⟩
    simp only [potential, hp, set_same, hpc, List.length_cons]
    omega
  | delete e k rest hpc =>
    obtain ⟨hen, hp⟩ := small (e := e) (by rw [hpc]; rfl)
    have hpl : hand s.place t k e = .held t := by unfold hand; rw [hp]; rfl
    refine ⟨e, hen, ?_, ?_⟩
    · simp only [potential, hp, hpl, set_same, hpc]
      omega
    · intro e' hx
      by_cases ha : s.place e' = .asleep k
      · have hpl' : hand s.place t k e' = .handed t k := by unfold hand; rw [ha, if_pos rfl]
        simp only [potential, ha, hpl']
        omega
      · refine potential_same (fun _ h => h) ?_ (fun t' ht' => set_ne _ _ (fun hy => ?_))
        · show hand s.place t k e' = _
          unfold hand
          exact if_neg ha
        · subst hy
          have := (hi.held t' e').mpr ht'
          rw [hpc] at this
          exact hx (Option.some.inj this).symm
  | append e k rest hpc =>
    obtain ⟨hen, hp⟩ := small (e := e) (by rw [hpc]; rfl)
    have hpl : requeue s.place t k e = .held t := by unfold requeue; rw [hp]; rfl
    refine ⟨e, hen, ?_, ?_⟩
    · simp only [potential, hp, hpl, set_same, hpc]
      omega
    · intro e' hx
      by_cases ha : s.place e' = .handed t k
      · have hpl' : requeue s.place t k e' = .queue := by unfold requeue; rw [ha, if_pos rfl]
        have := Nat.mul_le_mul_right (cost prog e') (Nat.succ_le_succ (unknown_le_but (reg := s.registered) (hi.handed e' t k ha).2.1 (prog e').acts))
        simp only [potential, ha, hpl']
        simp only [Nat.succ_eq_add_one] at this
        omega
      · refine potential_same (fun _ h => h) ?_ (fun t' ht' => set_ne _ _ (fun hy => ?_))
        · show requeue s.place t k e' = _
          unfold requeue
          exact if_neg ha
        · subst hy
          have := (hi.held t' e').mpr ht'
          rw [hpc] at this
          exact hx (Option.some.inj this).symm
  | define e d rest hpc _ =>
    obtain ⟨hen, hp⟩ := small (e := e) (by rw [hpc]; rfl)
    refine ⟨e, hen, ?_, others' (by rw [hpc]; rfl) (fun _ h => h)⟩
    simp only [potential, hp, set_same, hpc, List.length_cons]
    omega
  | redefine e d rest hpc _ =>
    obtain ⟨hen, hp⟩ := small (e := e) (by rw [hpc]; rfl)
    refine ⟨e, hen, ?_, others (.inl (by rw [hpc]; rfl)) (fun _ h => h)⟩
    simp only [potential, hp, set_same, hpc]
    omega
  | silent e k rest hpc =>
    obtain ⟨hen, hp⟩ := small (e := e) (by rw [hpc]; rfl)
    refine ⟨e, hen, ?_, others' (by rw [hpc]; rfl) (set_true k)⟩
    have := mono k e
    simp only [potential, hp, set_same, hpc, List.length_cons]
    omega
  | finish e hpc =>
    obtain ⟨hen, hp⟩ := small (e := e) (by rw [hpc]; rfl)
    refine ⟨e, hen, ?_, others (.inl (by rw [hpc]; rfl)) (fun _ h => h)⟩
    simp only [potential, hp, set_same, hpc]
    omega

/-- The sum over the first `n` entries. -/
def total (f : Nat → Nat) : Nat → Nat
  | 0 => 0
  | n + 1 => total f n + f n

theorem total_le {f g : Nat → Nat} : ∀ n, (∀ e, e < n → g e ≤ f e) → total g n ≤ total f n
  | 0, _ => Nat.le_refl _
  | n + 1, h => Nat.add_le_add (total_le n fun e he => h e (by omega)) (h n (by omega))

theorem total_lt {f g : Nat → Nat} {e : Nat} : ∀ n, e < n → g e < f e → (∀ e', e' ≠ e → g e' ≤ f e') → total g n < total f n
  | 0, h, _, _ => absurd h (Nat.not_lt_zero _)
  | n + 1, h, h1, h2 => by
    by_cases hx : e = n
    · subst hx
      exact Nat.add_lt_add_of_le_of_lt (total_le e fun e' he' => h2 e' (by omega)) h1
    · exact Nat.add_lt_add_of_lt_of_le (total_lt n (by omega) h1 h2) (h2 n (fun h => hx h.symm))

theorem total_start (prog : Nat → Entry) (N : Nat) : ∀ n, n ≤ N → total (potential prog (start N)) n = bound prog n
  | 0, _ => rfl
  | n + 1, h => by
    rw [total, bound, total_start prog N n (by omega)]
    congr 1
    have hp : (start N).place n = .queue := if_pos (by omega)
    unfold potential
    rw [hp]
    simp only [cost]
    congr 2

/-- **C54**: parsing ends, whatever the program, the number of threads and the order of the steps. -/
theorem C54_terminates (prog : Nat → Entry) (n threads m : Nat) (s : State) (h : Exec prog n threads m s) : m ≤ bound prog n := by
  have key : ∀ {m : Nat} {s : State}, Exec prog n threads m s → m + total (potential prog s) n ≤ bound prog n := by
    intro m s h
    induction h with
    | nil => rw [total_start prog n n (Nat.le_refl n)]; omega
    | step hx _ hs ih =>
      obtain ⟨e, he, h1, h2⟩ := potential_step (inv_exec hx) hs
      have := total_lt n he h1 h2
      omega
  have := key h
  omega

/-- **C54**: as long as something is left to do, some thread can do a step. -/
theorem C54_progress (prog : Nat → Entry) (n threads m : Nat) (hthreads : 0 < threads) (s : State) (h : Exec prog n threads m s) (hq : ¬ Quiet s) : ∃ t s', t < threads ∧ Step prog s t s' := by
  have hi := inv_exec h
  by_cases hidle : ∀ t, s.pc t = .idle
  · have : ∃ e, s.place e = .queue := Classical.byContradiction fun hno => hq ⟨hidle, fun e he => hno ⟨e, he⟩⟩
    obtain ⟨e, he⟩ := this
    exact ⟨0, _, hthreads, .take e (hidle 0) he⟩
  · have : ∃ t, s.pc t ≠ .idle := Classical.byContradiction fun hno => hidle fun t => Classical.byContradiction fun h => hno ⟨t, h⟩
    obtain ⟨t, ht⟩ := this
    have htl : t < threads := by
      rcases Nat.lt_or_ge t threads with h' | h'
      · exact h'
      · exact absurd (hi.range t h') ht
    refine ⟨t, ?_⟩
    cases hp : s.pc t with
    | idle => exact absurd hp ht
    | sleep e k =>
      cases hw : s.woken k with
      | false => exact ⟨_, htl, .sleep e k hp hw⟩
      | true => exact ⟨_, htl, .again e k hp hw⟩
    | wake e k rest => exact ⟨_, htl, .delete e k rest hp⟩
    | append e k rest => exact ⟨_, htl, .append e k rest hp⟩
    | parse e rest =>
      cases rest with
      | nil => exact ⟨_, htl, .finish e hp⟩
      | cons a rest =>
        cases a with
        | need k =>
          cases hr : s.registered k with
          | true => exact ⟨_, htl, .found e k rest hp hr⟩
          | false =>
            cases ha : (prog e).assertion with
            | false => exact ⟨_, htl, .missing e k rest hp hr ha⟩
            | true => exact ⟨_, htl, .drop e k rest hp hr ha⟩
        | declare k =>
          cases hr : s.registered k with
          | true => exact ⟨_, htl, .redeclare e k rest hp hr⟩
          | false => exact ⟨_, htl, .declare e k rest hp hr⟩
        | define d =>
          cases hd : s.defined d with
          | true => exact ⟨_, htl, .redefine e d rest hp hd⟩
          | false => exact ⟨_, htl, .define e d rest hp hd⟩
        | silent k => exact ⟨_, htl, .silent e k rest hp⟩

/-! ## Samples and findings -/

/-- `struct s { int a; };`, `struct s x;`, `int y = sizeof(x);` and `undeclared z;`. -/
def sample : Nat → Entry
  | 0 => { acts := [.declare 0] }
  | 1 => { acts := [.need 0, .declare 1] }
  | 2 => { acts := [.declare 2, .need 1, .define 2] }
  | _ => { acts := [.need 9, .declare 3] }

theorem mem_split {a : Action} {pre post l : List Action} (h : l = pre ++ a :: post) : a ∈ l := by rw [h]; simp

/-- The program meets the hypotheses of the theorems above. -/
theorem sample_orderly : Orderly sample 4 := by
  have cases4 : ∀ e, e < 4 → e = 0 ∨ e = 1 ∨ e = 2 ∨ e = 3 := by omega
  have two : ∀ {e d pre post}, e < 4 → (sample e).acts = pre ++ .define d :: post → e = 2 ∧ pre = [.declare 2, .need 1] := by
    intro e d pre post he h
    rcases cases4 e he with rfl | rfl | rfl | rfl
    · exact absurd (mem_split h) (by simp [sample])
    · exact absurd (mem_split h) (by simp [sample])
    · refine ⟨rfl, ?_⟩
      match pre, h with
      | [], h => simp [sample] at h
      | [_], h => simp [sample] at h
      | [a, b], h => simp [sample] at h; rw [h.1, h.2.1]
      | a :: b :: c :: l, h => simp [sample] at h
    · exact absurd (mem_split h) (by simp [sample])
  refine ⟨?_, ?_, ?_, ?_⟩
  · intro e he ha
    rcases cases4 e he with rfl | rfl | rfl | rfl <;> cases ha
  · intro e he k
    rcases cases4 e he with rfl | rfl | rfl | rfl <;> simp [sample]
  · intro e e' d pre post pre' post' he he' h h'
    obtain ⟨rfl, rfl⟩ := two he h
    obtain ⟨rfl, rfl⟩ := two he' h'
    exact ⟨rfl, rfl⟩
  · intro e k d pre post he h hd
    obtain ⟨a, b, rfl⟩ := List.append_of_mem hd
    rw [List.append_assoc] at h
    obtain ⟨rfl, rfl⟩ := two he h
    have := congrArg List.length h
    simp [sample] at this

/-- Every name of the sample is declared once. -/
example : DeclaredOnce sample 4 := by
  have one : ∀ {e k pre post}, (sample e).acts = pre ++ .declare k :: post → (e = 0 ∧ k = 0 ∧ pre = []) ∨ (e = 1 ∧ k = 1 ∧ pre = [.need 0]) ∨ (e = 2 ∧ k = 2 ∧ pre = []) ∨ (3 ≤ e ∧ k = 3 ∧ pre = [.need 9]) := by
    intro e k pre post h
    match e with
    | 0 | 1 | 2 | e + 3 =>
      match pre with
      | [] => simp_all [sample]
      | [a] => simp_all [sample]
      | [a, b] => simp_all [sample]
      | a :: b :: c :: l => simp_all [sample]
  intro e e' k pre post pre' post' he he' h h'
  rcases one h with ⟨rfl, rfl, rfl⟩ | ⟨rfl, rfl, rfl⟩ | ⟨rfl, rfl, rfl⟩ | ⟨h1, rfl, rfl⟩ <;>
    rcases one h' with ⟨rfl, h3, rfl⟩ | ⟨rfl, h3, rfl⟩ | ⟨rfl, h3, rfl⟩ | ⟨h2, h3, rfl⟩ <;> first | exact ⟨rfl, rfl⟩ | omega | exact ⟨by omega, rfl⟩

/-- One thread parses the declarations of the sample in the order 3, 1, 0, 1 (again), 2; at the end the last declaration sleeps. -/
example : ∃ m s, Exec sample 4 1 m s ∧ Quiet s ∧ s.place 0 = .done ∧ s.place 1 = .done ∧ s.place 2 = .done ∧ s.place 3 = .asleep 9 := by
  have e := Exec.nil (prog := sample) (n := 4) (threads := 1)
  have e := e.step (t := 0) (by decide) (.take 3 rfl rfl)
  have e := e.step (t := 0) (by decide) (.missing 3 9 _ rfl rfl rfl)
  have e := e.step (t := 0) (by decide) (.sleep 3 9 rfl rfl)
  have e := e.step (t := 0) (by decide) (.take 1 rfl rfl)
  have e := e.step (t := 0) (by decide) (.missing 1 0 _ rfl rfl rfl)
  have e := e.step (t := 0) (by decide) (.sleep 1 0 rfl rfl)
  have e := e.step (t := 0) (by decide) (.take 0 rfl rfl)
  have e := e.step (t := 0) (by decide) (.declare 0 0 _ rfl rfl)
  have e := e.step (t := 0) (by decide) (.delete 0 0 _ rfl)
  have e := e.step (t := 0) (by decide) (.append 0 0 _ rfl)
  have e := e.step (t := 0) (by decide) (.finish 0 rfl)
  have e := e.step (t := 0) (by decide) (.take 1 rfl rfl)
  have e := e.step (t := 0) (by decide) (.found 1 0 _ rfl rfl)
  have e := e.step (t := 0) (by decide) (.declare 1 1 _ rfl rfl)
  have e := e.step (t := 0) (by decide) (.delete 1 1 _ rfl)
  have e := e.step (t := 0) (by decide) (.append 1 1 _ rfl)
  have e := e.step (t := 0) (by decide) (.finish 1 rfl)
  have e := e.step (t := 0) (by decide) (.take 2 rfl rfl)
  have e := e.step (t := 0) (by decide) (.declare 2 2 _ rfl rfl)
  have e := e.step (t := 0) (by decide) (.delete 2 2 _ rfl)
  have e := e.step (t := 0) (by decide) (.append 2 2 _ rfl)
  have e := e.step (t := 0) (by decide) (.found 2 1 _ rfl rfl)
  have e := e.step (t := 0) (by decide) (.define 2 2 _ rfl rfl)
  have e := e.step (t := 0) (by decide) (.finish 2 rfl)
  refine ⟨_, _, e, ⟨fun t => ?_, fun x => ?_⟩, rfl, rfl, rfl, rfl⟩
  · match t with
    | 0 => rfl
    | t + 1 => rfl
  · match x with
    | 0 => exact fun h => by cases h
    | 1 => exact fun h => by cases h
    | 2 => exact fun h => by cases h
    | 3 => exact fun h => by cases h
    | x + 4 => exact fun h => by cases h

/-- `struct s { … };` and `_Static_assert(sizeof(struct s) == 4);`. -/
def assertion : Nat → Entry
  | 0 => { acts := [.declare 0] }
  | _ => { assertion := true, acts := [.need 0] }

/-- Finding: a static assertion that is parsed before a name it needs is known is never checked. The same
program can be parsed with and without the check. -/
theorem C54_static_assert_wrong : (∃ m s, Exec assertion 2 1 m s ∧ Quiet s ∧ s.place 1 = .done) ∧ ∃ m s, Exec assertion 2 1 m s ∧ Quiet s ∧ s.place 1 = .dropped := by
  constructor
  · have e := Exec.nil (prog := assertion) (n := 2) (threads := 1)
    have e := e.step (t := 0) (by decide) (.take 0 rfl rfl)
    have e := e.step (t := 0) (by decide) (.declare 0 0 _ rfl rfl)
    have e := e.step (t := 0) (by decide) (.delete 0 0 _ rfl)
    have e := e.step (t := 0) (by decide) (.append 0 0 _ rfl)
    have e := e.step (t := 0) (by decide) (.finish 0 rfl)
    have e := e.step (t := 0) (by decide) (.take 1 rfl rfl)
    have e := e.step (t := 0) (by decide) (.found 1 0 _ rfl rfl)
    have e := e.step (t := 0) (by decide) (.finish 1 rfl)
    refine ⟨_, _, e, ⟨fun t => ?_, fun x => ?_⟩, rfl⟩
    · match t with
      | 0 => rfl
      | t + 1 => rfl
    · match x with
      | 0 => exact fun h => by cases h
      | 1 => exact fun h => by cases h
      | x + 2 => exact fun h => by cases h
  · have e := Exec.nil (prog := assertion) (n := 2) (threads := 1)
    have e := e.step (t := 0) (by decide) (.take 1 rfl rfl)
    have e := e.step (t := 0) (by decide) (.drop 1 0 _ rfl rfl rfl)
    have e := e.step (t := 0) (by decide) (.take 0 rfl rfl)
    have e := e.step (t := 0) (by decide) (.declare 0 0 _ rfl rfl)
    have e := e.step (t := 0) (by decide) (.delete 0 0 _ rfl)
    have e := e.step (t := 0) (by decide) (.append 0 0 _ rfl)
    have e := e.step (t := 0) (by decide) (.finish 0 rfl)
    refine ⟨_, _, e, ⟨fun t => ?_, fun x => ?_⟩, rfl⟩
    · match t with
      | 0 => rfl
      | t + 1 => rfl
    · match x with
      | 0 => exact fun h => by cases h
      | 1 => exact fun h => by cases h
      | x + 2 => exact fun h => by cases h

/-- `struct s { … };` and `int a = 1, b[sizeof(struct s)];`. -/
def definition : Nat → Entry
  | 0 => { acts := [.declare 0] }
  | _ => { acts := [.declare 1, .define 1, .need 0, .declare 2] }

/-- Finding: a declaration that sleeps after it has defined an object defines it again when it is parsed
again; the compiler reports a redefinition in a correct program. -/
theorem C54_definition_wrong : (∃ m s, Exec definition 2 1 m s ∧ Quiet s ∧ s.place 1 = .done) ∧ ∃ m s, Exec definition 2 1 m s ∧ Quiet s ∧ s.place 1 = .failed := by
  constructor
  · have e := Exec.nil (prog := definition) (n := 2) (threads := 1)
    have e := e.step (t := 0) (by decide) (.take 0 rfl rfl)
    have e := e.step (t := 0) (by decide) (.declare 0 0 _ rfl rfl)
    have e := e.step (t := 0) (by decide) (.delete 0 0 _ rfl)
    have e := e.step (t := 0) (by decide) (.append 0 0 _ rfl)
    have e := e.step (t := 0) (by decide) (.finish 0 rfl)
    have e := e.step (t := 0) (by decide) (.take 1 rfl rfl)
    have e := e.step (t := 0) (by decide) (.declare 1 1 _ rfl rfl)
    have e := e.step (t := 0) (by decide) (.delete 1 1 _ rfl)
    have e := e.step (t := 0) (by decide) (.append 1 1 _ rfl)
    have e := e.step (t := 0) (by decide) (.define 1 1 _ rfl rfl)
    have e := e.step (t := 0) (by decide) (.found 1 0 _ rfl rfl)
    have e := e.step (t := 0) (by decide) (.declare 1 2 _ rfl rfl)
    have e := e.step (t := 0) (by decide) (.delete 1 2 _ rfl)
    have e := e.step (t := 0) (by decide) (.append 1 2 _ rfl)
    have e := e.step (t := 0) (by decide) (.finish 1 rfl)
    refine ⟨_, _, e, ⟨fun t => ?_, fun x => ?_⟩, rfl⟩
    · match t with
      | 0 => rfl
      | t + 1 => rfl
    · match x with
      | 0 => exact fun h => by cases h
      | 1 => exact fun h => by cases h
      | x + 2 => exact fun h => by cases h
  · have e := Exec.nil (prog := definition) (n := 2) (threads := 1)
    have e := e.step (t := 0) (by decide) (.take 1 rfl rfl)
    have e := e.step (t := 0) (by decide) (.declare 1 1 _ rfl rfl)
    have e := e.step (t := 0) (by decide) (.delete 1 1 _ rfl)
    have e := e.step (t := 0) (by decide) (.append 1 1 _ rfl)
    have e := e.step (t := 0) (by decide) (.define 1 1 _ rfl rfl)
    have e := e.step (t := 0) (by decide) (.missing 1 0 _ rfl rfl rfl)
    have e := e.step (t := 0) (by decide) (.sleep 1 0 rfl rfl)
    have e := e.step (t := 0) (by decide) (.take 0 rfl rfl)
    have e := e.step (t := 0) (by decide) (.declare 0 0 _ rfl rfl)
    have e := e.step (t := 0) (by decide) (.delete 0 0 _ rfl)
    have e := e.step (t := 0) (by decide) (.append 0 0 _ rfl)
    have e := e.step (t := 0) (by decide) (.finish 0 rfl)
    have e := e.step (t := 0) (by decide) (.take 1 rfl rfl)
    have e := e.step (t := 0) (by decide) (.redeclare 1 1 _ rfl rfl)
    have e := e.step (t := 0) (by decide) (.redefine 1 1 _ rfl rfl)
    refine ⟨_, _, e, ⟨fun t => ?_, fun x => ?_⟩, rfl⟩
    · match t with
      | 0 => rfl
      | t + 1 => rfl
    · match x with
      | 0 => exact fun h => by cases h
      | 1 => exact fun h => by cases h
      | x + 2 => exact fun h => by cases h

/-- `char a[] = "abc";` and `char b[sizeof(a)];`. -/
def stringArray : Nat → Entry
  | 0 => { acts := [.declare 0, .silent 1, .define 0] }
  | _ => { acts := [.need 0, .need 1, .declare 2] }

/-- Finding: a declaration that sleeps on the size of an array that is initialized by a string is never
woken up. With two threads this happens to a correct program, although in the end the size is known. -/
theorem C54_string_array_wrong : (∃ m s, Exec stringArray 2 2 m s ∧ Quiet s ∧ s.place 1 = .done) ∧ ∃ m s, Exec stringArray 2 2 m s ∧ Quiet s ∧ s.place 1 = .asleep 1 ∧ s.registered 1 = true := by
  constructor
  · have e := Exec.nil (prog := stringArray) (n := 2) (threads := 2)
    have e := e.step (t := 0) (by decide) (.take 0 rfl rfl)
    have e := e.step (t := 0) (by decide) (.declare 0 0 _ rfl rfl)
    have e := e.step (t := 0) (by decide) (.delete 0 0 _ rfl)
    have e := e.step (t := 0) (by decide) (.append 0 0 _ rfl)
    have e := e.step (t := 0) (by decide) (.silent 0 1 _ rfl)
    have e := e.step (t := 0) (by decide) (.define 0 0 _ rfl rfl)
    have e := e.step (t := 0) (by decide) (.finish 0 rfl)
    have e := e.step (t := 1) (by decide) (.take 1 rfl rfl)
    have e := e.step (t := 1) (by decide) (.found 1 0 _ rfl rfl)
    have e := e.step (t := 1) (by decide) (.found 1 1 _ rfl rfl)
    have e := e.step (t := 1) (by decide) (.declare 1 2 _ rfl rfl)
    have e := e.step (t := 1) (by decide) (.delete 1 2 _ rfl)
    have e := e.step (t := 1) (by decide) (.append 1 2 _ rfl)
    have e := e.step (t := 1) (by decide) (.finish 1 rfl)
    refine ⟨_, _, e, ⟨fun t => ?_, fun x => ?_⟩, rfl⟩
    · match t with
      | 0 => rfl
      | 1 => rfl
      | t + 2 => rfl
    · match x with
      | 0 => exact fun h => by cases h
      | 1 => exact fun h => by cases h
      | x + 2 => exact fun h => by cases h
  · have e := Exec.nil (prog := stringArray) (n := 2) (threads := 2)
    have e := e.step (t := 0) (by decide) (.take 0 rfl rfl)
    have e := e.step (t := 0) (by decide) (.declare 0 0 _ rfl rfl)
    have e := e.step (t := 0) (by decide) (.delete 0 0 _ rfl)
    have e := e.step (t := 0) (by decide) (.append 0 0 _ rfl)
    have e := e.step (t := 1) (by decide) (.take 1 rfl rfl)
    have e := e.step (t := 1) (by decide) (.found 1 0 _ rfl rfl)
    have e := e.step (t := 1) (by decide) (.missing 1 1 _ rfl rfl rfl)
    have e := e.step (t := 0) (by decide) (.silent 0 1 _ rfl)
    have e := e.step (t := 1) (by decide) (.sleep 1 1 rfl rfl)
    have e := e.step (t := 0) (by decide) (.define 0 0 _ rfl rfl)
    have e := e.step (t := 0) (by decide) (.finish 0 rfl)
    refine ⟨_, _, e, ⟨fun t => ?_, fun x => ?_⟩, rfl, rfl⟩
    · match t with
      | 0 => rfl
      | 1 => rfl
      | t + 2 => rfl
    · match x with
      | 0 => exact fun h => by cases h
      | 1 => exact fun h => by cases h
      | x + 2 => exact fun h => by cases h

/-- `struct a { struct b x; }; struct b { struct a x; };`: a cycle, as in `C54_stuck`. -/
example : DependsPlus (fun e => if e = 0 then { acts := [.need 1, .declare 0] } else { acts := [.need 0, .declare 1] }) 2 0 0 :=
  .step (k' := 1) ⟨0, [.need 1], [], by decide, rfl, by simp⟩ (.one ⟨1, [.need 0], [], by decide, rfl, by simp⟩)

end Verif.Props.ParseOrder
