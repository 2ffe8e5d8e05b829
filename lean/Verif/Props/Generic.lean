import Verif.Spec.Generic
import Verif.Model.Generic

/-!
# C91: `_Generic` selects an expression
-/
namespace Verif.Props.Generic
open Verif.Model.Generic Verif.Spec.Generic

variable {equal : Nat → Nat → Bool} {choice : Nat}

theorem not_matches_none {a : Association} (h : a.type = none) : ¬Matches equal choice a := by
  rintro ⟨t, h1, _⟩
  rw [h] at h1; cases h1

/-- The three cases of a step. -/
theorem step_match (start : Nat) (s : State) {a : Association} (h : Matches equal choice a) :
    step equal choice start s a = ⟨s.arena ++ a.code, some ⟨(s.arena ++ a.code).length - 1, a.result⟩, s.default_⟩ := by
  obtain ⟨t, h1, h2⟩ := h
  unfold step
  rw [h1]
  simp only
  rw [if_pos h2]

theorem step_default (start : Nat) (s : State) {a : Association} (h : a.type = none) :
    step equal choice start s a = ⟨s.arena ++ a.code, s.chosen, some ⟨(s.arena ++ a.code).length - 1, a.result⟩⟩ := by
  unfold step
  rw [h]

theorem step_other (start : Nat) (s : State) {a : Association} (h : ¬Matches equal choice a) (hn : a.type ≠ none) :
    step equal choice start s a = ⟨(s.arena ++ a.code).take start, s.chosen, s.default_⟩ := by
  unfold step
  cases ht : a.type with
  | none => exact absurd ht hn
  | some t =>
    simp only
    rw [if_neg (fun hx => h ⟨t, ht, hx⟩)]

theorem cases_of (a : Association) : Matches equal choice a ∨ a.type = none ∨ (¬Matches equal choice a ∧ a.type ≠ none) := by
  by_cases h : Matches equal choice a
  · exact Or.inl h
  · by_cases h' : a.type = none
    · exact Or.inr (Or.inl h')
    · exact Or.inr (Or.inr ⟨h, h'⟩)

/-- What is chosen, by type. -/
theorem fold_chosen (start : Nat) : ∀ (l : List Association) (s : State), (∀ a ∈ l, ¬Matches equal choice a) → (l.foldl (step equal choice start) s).chosen = s.chosen
  | [], _, _ => rfl
  | a :: l, s, h => by
    rw [List.foldl_cons, fold_chosen start l _ (fun b hb => h b (List.mem_cons_of_mem _ hb))]
    rcases cases_of (equal := equal) (choice := choice) a with h1 | h1 | h1
    · exact absurd h1 (h a List.mem_cons_self)
    · rw [step_default start s h1]
    · rw [step_other start s h1.1 h1.2]

theorem fold_default (start : Nat) : ∀ (l : List Association) (s : State), (∀ a ∈ l, a.type ≠ none) → (l.foldl (step equal choice start) s).default_ = s.default_
  | [], _, _ => rfl
  | a :: l, s, h => by
    rw [List.foldl_cons, fold_default start l _ (fun b hb => h b (List.mem_cons_of_mem _ hb))]
    rcases cases_of (equal := equal) (choice := choice) a with h1 | h1 | h1
    · rw [step_match start s h1]
    · exact absurd h1 (h a List.mem_cons_self)
    · rw [step_other start s h1.1 h1.2]

/-- **C91**: the operand has the type of the selected expression. -/
theorem C91_type (arena : List Nat) (l : List Association) (hv : Valid equal choice l) (a : Association) (ha : Selected equal choice l a) :
    ∃ (code : List Nat) (e : Expr), generic equal choice arena l = some (code, e) ∧ e.type = a.result := by
  cases ha with
  | named hm hx =>
    obtain ⟨l1, l2, rfl⟩ := List.append_of_mem hm
    have hv := (List.pairwise_append.1 hv).2.1
    have hafter : ∀ b ∈ l2, ¬Matches equal choice b := fun b hb hy => ((List.pairwise_cons.1 hv).1 b hb).1 ⟨hx, hy⟩
    have hc : ((l1 ++ a :: l2).foldl (step equal choice arena.length) ⟨arena, none, none⟩).chosen =
        some ⟨((l1.foldl (step equal choice arena.length) ⟨arena, none, none⟩).arena ++ a.code).length - 1, a.result⟩ := by
      rw [List.foldl_append, List.foldl_cons, fold_chosen _ _ _ hafter, step_match _ _ hx]
    unfold generic
    simp only
    rw [hc]
    exact ⟨_, _, rfl, rfl⟩
  | default hm hx hno =>
    have hc := fold_chosen (equal := equal) (choice := choice) arena.length l ⟨arena, none, none⟩ hno
    obtain ⟨l1, l2, rfl⟩ := List.append_of_mem hm
    have hv := (List.pairwise_append.1 hv).2.1
    have hafter : ∀ b ∈ l2, b.type ≠ none := fun b hb hy => ((List.pairwise_cons.1 hv).1 b hb).2 ⟨hx, hy⟩
    have hd : ((l1 ++ a :: l2).foldl (step equal choice arena.length) ⟨arena, none, none⟩).default_ =
        some ⟨((l1.foldl (step equal choice arena.length) ⟨arena, none, none⟩).arena ++ a.code).length - 1, a.result⟩ := by
      rw [List.foldl_append, List.foldl_cons, fold_default _ _ _ hafter, step_default _ _ hx]
    unfold generic
    simp only
    rw [hc, hd]
    exact ⟨_, _, rfl, rfl⟩

/-- **C91**: it is reported if no expression is selected. -/
theorem C91_reported (arena : List Nat) (l : List Association) (h : ∀ a, ¬Selected equal choice l a) : generic equal choice arena l = none := by
  have h1 : ∀ a ∈ l, ¬Matches equal choice a := fun a ha hx => h a (.named ha hx)
  have h2 : ∀ a ∈ l, a.type ≠ none := fun a ha hx => h a (.default ha hx h1)
  unfold generic
  simp only
  rw [fold_chosen _ l _ h1, fold_default _ l _ h2]

/-! The code -/

theorem fold_arena (arena : List Nat) : ∀ (l : List Association) (s : State), (∃ x, s.arena = arena ++ x) → ∃ x, (l.foldl (step equal choice arena.length) s).arena = arena ++ x
  | [], _, h => h
  | a :: l, s, ⟨x, h⟩ => by
    rw [List.foldl_cons]
    apply fold_arena arena l
    rcases cases_of (equal := equal) (choice := choice) a with h1 | h1 | h1
    · rw [step_match _ s h1]; exact ⟨x ++ a.code, by rw [h, List.append_assoc]⟩
    · rw [step_default _ s h1]; exact ⟨x ++ a.code, by rw [h, List.append_assoc]⟩
    · rw [step_other _ s h1.1 h1.2]; exact ⟨[], by rw [h, List.append_assoc, List.append_nil]; exact List.take_left⟩

theorem fold_kept (arena : List Nat) : ∀ (l : List Association) (s : State), (∀ a ∈ l, Matches equal choice a ∨ a.type = none) →
    (l.foldl (step equal choice arena.length) s).arena = s.arena ++ l.flatMap (·.code)
  | [], s, _ => by rw [List.flatMap_nil, List.append_nil]; rfl
  | a :: l, s, h => by
    rw [List.foldl_cons, fold_kept arena l _ (fun b hb => h b (List.mem_cons_of_mem _ hb)), List.flatMap_cons, ← List.append_assoc]
    rcases h a List.mem_cons_self with h1 | h1
    · rw [step_match _ s h1]
    · rw [step_default _ s h1]

theorem arena_of {arena : List Nat} {l : List Association} {code : List Nat} {e : Expr} (h : generic equal choice arena l = some (code, e)) :
    code = (l.foldl (step equal choice arena.length) ⟨arena, none, none⟩).arena := by
  unfold generic at h
  simp only at h
  split at h
  · exact (Prod.mk.inj (Option.some.inj h)).1.symm
  · split at h
    · exact (Prod.mk.inj (Option.some.inj h)).1.symm
    · cases h

/-- What the code is: everything after the last association with another type. -/
theorem code_eq (arena : List Nat) (l1 l2 : List Association) (a : Association) (ha : ¬Matches equal choice a) (hn : a.type ≠ none)
    (h2 : ∀ b ∈ l2, Matches equal choice b ∨ b.type = none) :
    ((l1 ++ a :: l2).foldl (step equal choice arena.length) ⟨arena, none, none⟩).arena = arena ++ l2.flatMap (·.code) := by
  rw [List.foldl_append, List.foldl_cons, fold_kept arena l2 _ h2, step_other _ _ ha hn]
  obtain ⟨x, hx⟩ := fold_arena (equal := equal) (choice := choice) arena l1 ⟨arena, none, none⟩ ⟨[], by rw [List.append_nil]⟩
  dsimp only
  rw [hx, List.append_assoc, List.take_left]

/-- **C91 (partial)**: the code is that of the selected expression, if its association is the last one and follows one with another type, or is the only one.
Missing: all other orders, see `C91_code_wrong` and `C91_lost`. -/
theorem C91_code_partial (arena : List Nat) (l : List Association) (a : Association) (ha : Selected equal choice (l ++ [a]) a)
    (hl : ∀ b, l.getLast? = some b → ¬Matches equal choice b ∧ b.type ≠ none) :
    ∃ e : Expr, generic equal choice arena (l ++ [a]) = some (arena ++ a.code, e) ∧ e.ir = (arena ++ a.code).length - 1 ∧ e.type = a.result := by
  have hkeep : Matches equal choice a ∨ a.type = none := by
    cases ha with
    | named _ h => exact Or.inl h
    | default _ h _ => exact Or.inr h
  have har : (l.foldl (step equal choice arena.length) ⟨arena, none, none⟩).arena = arena := by
    rcases List.eq_nil_or_concat l with rfl | ⟨l', b, rfl⟩
    · rfl
    · have hb := hl b (by rw [List.concat_eq_append, List.getLast?_concat])
      have := code_eq arena l' [] b hb.1 hb.2 (fun c hc => by cases hc)
      rw [List.concat_eq_append, this, List.flatMap_nil, List.append_nil]
  rcases hkeep with h | h
  · unfold generic
    simp only
    rw [List.foldl_append, List.foldl_cons, List.foldl_nil, step_match _ _ h, har]
    exact ⟨_, rfl, rfl, rfl⟩
  · have hno : ∀ b ∈ l ++ [a], ¬Matches equal choice b := by
      cases ha with
      | named _ hm => exact absurd hm (not_matches_none h)
      | default _ _ hno => exact hno
    have hc := fold_chosen (equal := equal) (choice := choice) arena.length l ⟨arena, none, none⟩ (fun b hb => hno b (List.mem_append_left _ hb))
    unfold generic
    simp only
    rw [List.foldl_append, List.foldl_cons, List.foldl_nil, step_default _ _ h, har, hc]
    exact ⟨_, rfl, rfl, rfl⟩

/-- **C91 is wrong of the code**: whenever the last association has another type, there is no code for the selected expression at all. -/
theorem C91_lost (arena : List Nat) (l : List Association) (a : Association) (ha : ¬Matches equal choice a) (hn : a.type ≠ none) (code : List Nat) (e : Expr)
    (h : generic equal choice arena (l ++ [a]) = some (code, e)) : code = arena := by
  have := code_eq arena l [] a ha hn (fun c hc => by cases hc)
  rw [arena_of h, this, List.flatMap_nil, List.append_nil]

/-- **C91 is wrong of the code**: when `default` comes directly before the association for the type, both expressions are evaluated. -/
theorem C91_both (arena : List Nat) (l : List Association) (b d a : Association) (hb : ¬Matches equal choice b) (hbn : b.type ≠ none) (hd : d.type = none) (ha : Matches equal choice a) :
    ∃ e : Expr, generic equal choice arena (l ++ [b, d, a]) = some (arena ++ d.code ++ a.code, e) := by
  have h := code_eq (equal := equal) (choice := choice) arena l [d, a] b hb hbn (fun c hc => by
    rcases List.mem_cons.1 hc with rfl | hc
    · exact Or.inr hd
    · rw [List.mem_singleton.1 hc]; exact Or.inl ha)
  have h' : arena ++ [d, a].flatMap (·.code) = arena ++ d.code ++ a.code := by
    rw [List.flatMap_cons, List.flatMap_cons, List.flatMap_nil, List.append_nil, List.append_assoc]
  rw [h'] at h
  have hc : ∃ e, ((l ++ [b, d, a]).foldl (step equal choice arena.length) ⟨arena, none, none⟩).chosen = some e := by
    rw [List.foldl_append, List.foldl_cons, List.foldl_cons, List.foldl_cons, List.foldl_nil, step_match _ _ ha]
    exact ⟨_, rfl⟩
  obtain ⟨e, hc⟩ := hc
  unfold generic
  simp only
  rw [hc, h]
  exact ⟨e, rfl⟩

/-- `_Generic(x, int: 1, float: 2)` for an `int`: 0 is `int`, 1 is `float`. -/
def sample : List Association := [⟨some 0, 0, [10]⟩, ⟨some 1, 1, [20]⟩]

/-- **C91 is wrong of the code**: for `_Generic(1, int: 1, float: 2.0f)` there is no code, although the expression for `int` is selected. -/
theorem C91_code_wrong : ∃ (l : List Association) (a : Association) (code : List Nat) (e : Expr), Valid (· == ·) 0 l ∧ Selected (· == ·) 0 l a ∧
    generic (· == ·) 0 [7] l = some (code, e) ∧ code ≠ [7] ++ a.code := by
  refine ⟨sample, ⟨some 0, 0, [10]⟩, [7], ⟨1, 0⟩, ?_, .named (by decide) ⟨0, rfl, rfl⟩, by decide, by decide⟩
  unfold Valid sample
  rw [List.pairwise_cons]
  refine ⟨?_, List.pairwise_singleton _ _⟩
  intro b hb
  rw [List.mem_singleton.1 hb]
  refine ⟨?_, by decide⟩
  rintro ⟨_, t, h1, h2⟩
  have : t = 1 := (Option.some.inj h1).symm
  rw [this] at h2
  exact absurd h2 (by decide)

/-- The other order works: `_Generic(1, float: 2.0f, int: 1)`. -/
example : Selected (· == ·) 0 ([⟨some 1, 1, [20]⟩] ++ [⟨some 0, 0, [10]⟩]) ⟨some 0, 0, [10]⟩ ∧
    generic (· == ·) 0 [7] ([⟨some 1, 1, [20]⟩] ++ [⟨some 0, 0, [10]⟩]) = some ([7, 10], ⟨1, 0⟩) ∧
    generic (· == ·) 0 [7] [⟨some 1, 1, [20]⟩, ⟨none, 1, [30]⟩, ⟨some 0, 0, [10]⟩] = some ([7, 30, 10], ⟨2, 0⟩) ∧ generic (· == ·) 0 [7] [⟨some 1, 1, [20]⟩] = none :=
  ⟨.named (by decide) ⟨0, rfl, rfl⟩, by decide, by decide, by decide⟩

end Verif.Props.Generic
