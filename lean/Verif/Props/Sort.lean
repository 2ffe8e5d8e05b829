import Verif.Model.Sort

/-!
# C40: sorting a list
-/
namespace Verif.Props.Sort
open Verif.Sort

variable {α : Type}

/-- What a comparison function has to satisfy: a strict weak order. -/
structure StrictWeak (lt : α → α → Bool) : Prop where
  asymm : ∀ a b, lt a b = true → lt b a = false
  negTrans : ∀ a b c, lt a b = false → lt b c = false → lt a c = false

/-- Sorted: nothing is smaller than something before it. -/
def Sorted (lt : α → α → Bool) (xs : List α) : Prop := xs.Pairwise fun a b => lt b a = false

theorem partition_spec (lt : α → α → Bool) (p : α) (xs : List α) : ∀ s b,
    (∀ x ∈ (partition lt p xs s b).1, x ∈ s ∨ (x ∈ xs ∧ lt x p = true)) ∧ (∀ x ∈ (partition lt p xs s b).2, x ∈ b ∨ (x ∈ xs ∧ lt x p = false)) ∧
    ((partition lt p xs s b).1 ++ (partition lt p xs s b).2).Perm (xs ++ (s ++ b)) := by
  induction xs with
  | nil => intro s b; simp [partition]
  | cons x xs ih =>
    intro s b
    simp only [partition]
    split
    · rename_i h
      have := ih (x :: s) b
      refine ⟨?_, ?_, ?_⟩
      · intro y hy
        rcases this.1 y hy with h1 | h1
        · rcases List.mem_cons.1 h1 with rfl | h1
          · exact Or.inr ⟨by simp, h⟩
          · exact Or.inl h1
        · exact Or.inr ⟨by simp [h1.1], h1.2⟩
      · intro y hy
        rcases this.2.1 y hy with h1 | h1
        · exact Or.inl h1
        · exact Or.inr ⟨by simp [h1.1], h1.2⟩
      · refine this.2.2.trans ?_
        simp only [List.cons_append]
        exact List.perm_middle
    · rename_i h
      have h : lt x p = false := by simpa using h
      have := ih s (x :: b)
      refine ⟨?_, ?_, ?_⟩
      · intro y hy
        rcases this.1 y hy with h1 | h1
        · exact Or.inl h1
        · exact Or.inr ⟨by simp [h1.1], h1.2⟩
      · intro y hy
        rcases this.2.1 y hy with h1 | h1
        · rcases List.mem_cons.1 h1 with rfl | h1
          · exact Or.inr ⟨by simp, h⟩
          · exact Or.inl h1
        · exact Or.inr ⟨by simp [h1.1], h1.2⟩
      · refine this.2.2.trans ?_
        have h1 : (xs ++ (s ++ x :: b)).Perm (xs ++ (x :: (s ++ b))) := List.Perm.append_left _ List.perm_middle
        exact h1.trans List.perm_middle

/-- Everything in `a` is not bigger than everything in `b`. -/
def LeAll (lt : α → α → Bool) (a b : List α) : Prop := ∀ x ∈ a, ∀ y ∈ b, lt y x = false

structure Inv (lt : α → α → Bool) (orig out : List α) (stack : List (List α)) : Prop where
  perm : (out ++ stack.flatten).Perm orig
  sorted : Sorted lt out
  outLe : LeAll lt out stack.flatten
  ordered : stack.Pairwise (LeAll lt)
  nonempty : [] ∉ stack

theorem perm_mem {a b : List α} (h : a.Perm b) (x : α) : x ∈ a ↔ x ∈ b := h.mem_iff

theorem inv_iterate {lt : α → α → Bool} (hw : StrictWeak lt) (orig out current : List α) (stack : List (List α))
    (h : Inv lt orig out (current :: stack)) :
    Inv lt orig (iterate lt out current stack).1 (iterate lt out current stack).2 := by
  have hord := List.pairwise_cons.1 h.ordered
  have hne : [] ∉ stack := fun hm => h.nonempty (by simp [hm])
  have irrefl : ∀ x, lt x x = false := fun x => by
    cases hx : lt x x with
    | false => rfl
    | true => have := hw.asymm x x hx; rw [hx] at this; cases this
  match current, h with
  | [], h => exact absurd (by simp) h.nonempty
  | [node], h =>
    simp only [iterate]
    have hole : LeAll lt [node] stack.flatten := by
      intro x hx y hy
      obtain ⟨l, hl, hy⟩ := List.mem_flatten.1 hy
      exact hord.1 l hl x hx y hy
    refine ⟨?_, ?_, ?_, hord.2, hne⟩
    · have := h.perm
      simpa using this
    · refine List.pairwise_append.2 ⟨h.sorted, by simp, ?_⟩
      intro a ha b hb
      exact h.outLe a ha b (by simp at hb; simp [hb])
    · intro x hx y hy
      rcases List.mem_append.1 hx with hx | hx
      · exact h.outLe x hx y (by simp only [List.flatten_cons, List.mem_append]; exact Or.inr hy)
      · exact hole x hx y hy
  | pivot :: r0 :: rest', h =>
    simp only [iterate]
    have hsp := partition_spec lt pivot (r0 :: rest') [] []
    generalize r0 :: rest' = rest at *
    generalize hp : partition lt pivot rest [] [] = p at *
    obtain ⟨s, b⟩ := p
    simp only [List.not_mem_nil, false_or, List.append_nil] at hsp ⊢
    obtain ⟨hs, hb, hperm⟩ := hsp
    -- relations of the parts
    have hsb : LeAll lt s b := fun x hx y hy => by
      have h1 := hw.asymm _ _ (hs x hx).2
      have h2 := (hb y hy).2
      exact hw.negTrans y pivot x h2 h1
    have hpb : LeAll lt [pivot] b := fun x hx y hy => by
      simp only [List.mem_singleton] at hx; subst hx; exact (hb y hy).2
    have hsp' : LeAll lt s [pivot] := fun x hx y hy => by
      simp only [List.mem_singleton] at hy; subst hy; exact hw.asymm _ _ (hs x hx).2
    have hrest : ∀ l ∈ stack, LeAll lt (pivot :: rest) l := hord.1
    have hmems : ∀ x ∈ s, x ∈ pivot :: rest := fun x hx => by simp [(hs x hx).1]
    have hmemb : ∀ x ∈ b, x ∈ pivot :: rest := fun x hx => by simp [(hb x hx).1]
    have hfl : ∀ x ∈ pivot :: rest, ∀ y ∈ stack.flatten, lt y x = false := by
      intro x hx y hy
      obtain ⟨l, hl, hy⟩ := List.mem_flatten.1 hy
      exact hrest l hl x hx y hy
    have houtcur : ∀ x ∈ out, ∀ y ∈ pivot :: rest, lt y x = false := fun x hx y hy =>
      h.outLe x hx y (by simp only [List.flatten_cons, List.mem_append]; exact Or.inl hy)
    have houtst : ∀ x ∈ out, ∀ y ∈ stack.flatten, lt y x = false := fun x hx y hy =>
      h.outLe x hx y (by simp only [List.flatten_cons, List.mem_append]; exact Or.inr hy)
    -- the stack after pushing bigger
    have hst : ∃ st2, (if b.length = 0 then stack else b :: stack) = st2 ∧ st2.flatten = b ++ stack.flatten ∧ st2.Pairwise (LeAll lt) ∧ [] ∉ st2 ∧
        (∀ l ∈ st2, l = b ∨ l ∈ stack) := by
      by_cases hb0 : b.length = 0
      · rw [if_pos hb0]
        have : b = [] := List.eq_nil_of_length_eq_zero hb0
        exact ⟨stack, rfl, by simp [this], hord.2, hne, fun l hl => Or.inr hl⟩
      · rw [if_neg hb0]
        refine ⟨b :: stack, rfl, by simp, List.pairwise_cons.2 ⟨fun l hl x hx y hy => hrest l hl x (hmemb x hx) y hy, hord.2⟩, ?_, ?_⟩
        · intro hm
          rcases List.mem_cons.1 hm with h1 | h1
          · rw [← h1] at hb0; exact hb0 rfl
          · exact hne h1
        · intro l hl; simpa using hl
    obtain ⟨st2, hst2, hfl2, hord2, hne2, hmem2⟩ := hst
    rw [hst2]
    have hpermAll : (s ++ (pivot :: (b ++ stack.flatten))).Perm (pivot :: rest ++ stack.flatten) := by
      have h1 : (s ++ (pivot :: (b ++ stack.flatten))).Perm (pivot :: (s ++ (b ++ stack.flatten))) := List.perm_middle
      refine h1.trans ?_
      rw [← List.append_assoc]
      exact List.Perm.cons _ (hperm.append_right _)
    have hperm0 : (out ++ (s ++ (pivot :: (b ++ stack.flatten)))).Perm orig := by
      refine (List.Perm.append_left out hpermAll).trans ?_
      simpa using h.perm
    have hbfl : ∀ x ∈ pivot :: rest, (∀ y ∈ b, lt y x = false) → ∀ y ∈ st2.flatten, lt y x = false := by
      intro x hx hxb y hy
      rw [hfl2] at hy
      rcases List.mem_append.1 hy with hy | hy
      · exact hxb y hy
      · exact hfl x hx y hy
    have houtall : ∀ x ∈ out, ∀ y ∈ st2.flatten, lt y x = false := by
      intro x hx y hy
      rw [hfl2] at hy
      rcases List.mem_append.1 hy with hy | hy
      · exact houtcur x hx y (hmemb y hy)
      · exact houtst x hx y hy
    match s, hs, hsb, hsp', hmems, hperm0 with
    | [], _, _, _, _, hperm0 =>
      simp only
      refine ⟨?_, ?_, ?_, hord2, hne2⟩
      · rw [hfl2]; simpa using hperm0
      · refine List.pairwise_append.2 ⟨h.sorted, by simp, ?_⟩
        intro a ha c hc
        simp only [List.mem_singleton] at hc; subst hc
        exact houtcur a ha c (by simp)
      · intro x hx y hy
        rcases List.mem_append.1 hx with hx | hx
        · exact houtall x hx y hy
        · simp only [List.mem_singleton] at hx; subst hx
          exact hbfl x (by simp) (fun z hz => hpb x (by simp) z hz) y hy
    | [node], hs, hsb, hsp', hmems, hperm0 =>
      simp only
      refine ⟨?_, ?_, ?_, hord2, hne2⟩
      · rw [hfl2]; simpa using hperm0
      · refine List.pairwise_append.2 ⟨h.sorted, ?_, ?_⟩
        · simp only [List.pairwise_cons, List.mem_singleton, forall_eq, List.not_mem_nil, false_implies, implies_true, List.Pairwise.nil, and_true]
          exact hsp' node (by simp) pivot (by simp)
        · intro a ha c hc
          simp only [List.mem_cons, List.not_mem_nil, or_false] at hc
          rcases hc with rfl | rfl
          · exact houtcur a ha c (hmems c (by simp))
          · exact houtcur a ha c (by simp)
      · intro x hx y hy
        rcases List.mem_append.1 hx with hx | hx
        · exact houtall x hx y hy
        · simp only [List.mem_cons, List.not_mem_nil, or_false] at hx
          rcases hx with rfl | rfl
          · exact hbfl x (hmems x (by simp)) (fun z hz => hsb x (by simp) z hz) y hy
          · exact hbfl x (by simp) (fun z hz => hpb x (by simp) z hz) y hy
    | s0 :: s1 :: s', hs, hsb, hsp', hmems, hperm0 =>
      simp only
      generalize s0 :: s1 :: s' = s at *
      refine ⟨?_, h.sorted, ?_, ?_, ?_⟩
      · rw [List.flatten_cons, hfl2]; simpa using hperm0
      · intro x hx y hy
        rw [List.flatten_cons] at hy
        simp only [List.mem_append, List.mem_singleton] at hy
        rcases hy with (hy | rfl) | hy
        · exact houtcur x hx y (hmems y hy)
        · exact houtcur x hx y (by simp)
        · exact houtall x hx y hy
      · refine List.pairwise_cons.2 ⟨?_, hord2⟩
        intro l hl x hx y hy
        have hyf : y ∈ st2.flatten := List.mem_flatten.2 ⟨l, hl, hy⟩
        simp only [List.mem_append, List.mem_singleton] at hx
        rcases hx with hx | rfl
        · exact hbfl x (hmems x hx) (fun z hz => hsb x hx z hz) y hyf
        · exact hbfl x (by simp) (fun z hz => hpb x (by simp) z hz) y hyf
      · intro hm
        rcases List.mem_cons.1 hm with h1 | h1
        · simp at h1
        · exact hne2 h1

/-- Whether the next partition leaves something in `bigger`. -/
def progress (lt : α → α → Bool) : List α → Nat
  | [] => 0
  | p :: rest => if (rest.any fun x => !lt x p) then 0 else 1

def weight (lt : α → α → Bool) (l : List α) : Nat := 6 * l.length - 3 + progress lt l
def measure (lt : α → α → Bool) (stack : List (List α)) : Nat := (stack.map (weight lt)).sum

theorem progress_le (lt : α → α → Bool) (l : List α) : progress lt l ≤ 1 := by
  cases l with
  | nil => simp [progress]
  | cons p r => simp only [progress]; split <;> omega

theorem measure_iterate {lt : α → α → Bool} (hw : StrictWeak lt) (out current : List α) (stack : List (List α)) (hc : current ≠ []) :
    measure lt (iterate lt out current stack).2 < measure lt (current :: stack) := by
  match current, hc with
  | [], hc => exact absurd rfl hc
  | [node], _ =>
    simp only [iterate, measure, List.map_cons, List.sum_cons, weight, List.length_singleton]; omega
  | pivot :: r0 :: rest', _ =>
    simp only [iterate]
    have hsp := partition_spec lt pivot (r0 :: rest') [] []
    have hlr : (r0 :: rest').length ≥ 1 := by simp
    generalize r0 :: rest' = rest at *
    generalize hp : partition lt pivot rest [] [] = p at *
    obtain ⟨s, b⟩ := p
    simp only [List.not_mem_nil, false_or, List.append_nil] at hsp ⊢
    obtain ⟨hs, hb, hperm⟩ := hsp
    have hlen : s.length + b.length = rest.length := by simpa using hperm.length_eq
    have hm2 : measure lt (if b.length = 0 then stack else b :: stack) ≤ (6 * b.length - 3 + 1) + measure lt stack ∧
        (b.length = 0 → measure lt (if b.length = 0 then stack else b :: stack) = measure lt stack) := by
      by_cases hb0 : b.length = 0
      · simp only [hb0, if_true]; exact ⟨by omega, fun _ => trivial⟩
      · rw [if_neg hb0]
        refine ⟨?_, fun h => absurd h hb0⟩
        simp only [measure, List.map_cons, List.sum_cons, weight]
        have := progress_le lt b; omega
    have hcur : measure lt ((pivot :: rest) :: stack) = 6 * (rest.length + 1) - 3 + progress lt (pivot :: rest) + measure lt stack := by
      simp [measure, weight]
    rw [hcur]
    match s, hs, hlen with
    | [], _, hlen =>
      simp only [List.length_nil] at hlen ⊢
      rcases Nat.eq_zero_or_pos b.length with h0 | h0
      · rw [hm2.2 h0]; omega
      · have := hm2.1; omega
    | [node], _, hlen =>
      simp only [List.length_singleton] at hlen ⊢
      rcases Nat.eq_zero_or_pos b.length with h0 | h0
      · rw [hm2.2 h0]; omega
      · have := hm2.1; omega
    | s0 :: s1 :: s', hs, hlen =>
      simp only
      have hms : measure lt ((s0 :: s1 :: s' ++ [pivot]) :: (if b.length = 0 then stack else b :: stack)) =
          6 * ((s0 :: s1 :: s').length + 1) - 3 + progress lt (s0 :: s1 :: s' ++ [pivot]) + measure lt (if b.length = 0 then stack else b :: stack) := by
        simp [measure, weight]
      rw [hms]
      rcases Nat.eq_zero_or_pos b.length with h0 | h0
      · rw [hm2.2 h0]
        have hb' : b = [] := List.eq_nil_of_length_eq_zero h0
        have hp1 : progress lt (pivot :: rest) = 1 := by
          simp only [progress]
          rw [if_neg]
          intro hany
          obtain ⟨x, hx, hlx⟩ := List.any_eq_true.1 hany
          have hx' := hperm.mem_iff.2 hx
          rw [hb', List.append_nil] at hx'
          have := (hs x hx').2
          simp [this] at hlx
        have hp2 : progress lt (s0 :: s1 :: s' ++ [pivot]) = 0 := by
          have h1 : lt pivot s0 = false := hw.asymm _ _ (hs s0 (by simp)).2
          simp only [List.cons_append, progress]
          rw [if_pos]
          apply List.any_eq_true.2
          exact ⟨pivot, by simp, by simp [h1]⟩
        rw [hp1, hp2]
        omega
      · have h1 := hm2.1
        have h2 := progress_le lt (s0 :: s1 :: s' ++ [pivot])
        omega

theorem loop_spec {lt : α → α → Bool} (hw : StrictWeak lt) (orig : List α) : ∀ (fuel : Nat) (out : List α) (stack : List (List α)),
    Inv lt orig out stack → measure lt stack < fuel → ∃ r, loop lt fuel out stack = some r ∧ r.Perm orig ∧ Sorted lt r := by
  intro fuel
  induction fuel with
  | zero => intro out stack _ h; omega
  | succ fuel ih =>
    intro out stack hi hm
    cases stack with
    | nil => exact ⟨out, rfl, by simpa using hi.perm, hi.sorted⟩
    | cons current stack =>
      simp only [loop]
      refine ih _ _ (inv_iterate hw orig out current stack hi) ?_
      have := measure_iterate hw out current stack (fun h => hi.nonempty (by simp [h]))
      omega

/-- C40: for every list and every strict weak order the sort ends, and its result is a sorted
permutation of the list. -/
theorem C40_sort {lt : α → α → Bool} (hw : StrictWeak lt) (xs : List α) (fuel : Nat) (hf : 6 * xs.length < fuel) :
    ∃ r, sllSort lt fuel xs = some r ∧ r.Perm xs ∧ Sorted lt r := by
  match xs, hf with
  | [], _ => exact ⟨[], rfl, .refl _, .nil⟩
  | [x], _ => exact ⟨[x], rfl, .refl _, List.pairwise_singleton _ _⟩
  | a :: b :: xs, hf =>
    refine loop_spec hw _ fuel [] [a :: b :: xs] ⟨by simp, .nil, fun _ h => by simp at h, List.pairwise_singleton _ _, by simp⟩ ?_
    have := progress_le lt (a :: b :: xs)
    simp only [measure, weight, List.map_cons, List.map_nil, List.sum_cons, List.sum_nil, List.length_cons] at *
    omega

/-- The comparisons the compiler uses are by key. -/
theorem C40_key_order (key : α → Nat) : StrictWeak (fun a b => decide (key a < key b)) :=
  ⟨fun a b h => by simp at *; omega, fun a b c h1 h2 => by simp at *; omega⟩

example : sllSort (fun a b => decide (a < b)) 100 [5, 3, 9, 9, 1, 4] = some [1, 3, 4, 5, 9, 9] := by decide

end Verif.Props.Sort
