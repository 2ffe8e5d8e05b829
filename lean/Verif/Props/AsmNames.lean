import Verif.Spec.AsmNames
import Verif.Model.AsmNames

/-!
# C98: the table of the names of instructions
-/
namespace Verif.Props.AsmNames
open Verif.Model.AsmNames Verif.Spec.AsmNames

/-- How many of the first slots are used. -/
def used (t : Slots) : Nat → Nat
  | 0 => 0
  | n + 1 => used t n + (if (t n).isSome then 1 else 0)

theorem used_set_ge (t : Slots) (index : Nat) (e : Nat × Nat) : ∀ n, n ≤ index → used (set t index e) n = used t n := by
  intro n
  induction n with
  | zero => intro _; rfl
  | succ n ih =>
    intro h
    show used (set t index e) n + _ = used t n + _
    rw [ih (by omega), show set t index e n = t n from if_neg (by omega)]

theorem used_set (t : Slots) (index : Nat) (e : Nat × Nat) (h0 : t index = none) : ∀ n, index < n → used (set t index e) n = used t n + 1 := by
  intro n
  induction n with
  | zero => intro h; omega
  | succ n ih =>
    intro h
    show used (set t index e) n + (if (set t index e n).isSome then 1 else 0) = used t n + (if (t n).isSome then 1 else 0) + 1
    by_cases hn : n = index
    · subst hn
      rw [used_set_ge _ _ _ _ (Nat.le_refl _), show set t n e n = some e from if_pos rfl, h0]
      rfl
    · rw [ih (by omega), show set t index e n = t n from if_neg hn]
      omega

theorem used_full (t : Slots) : ∀ n, (∀ i, i < n → t i ≠ none) → used t n = n := by
  intro n
  induction n with
  | zero => intro _; rfl
  | succ n ih =>
    intro h
    show used t n + (if (t n).isSome then 1 else 0) = n + 1
    rw [ih (fun i hi => h i (by omega)), if_pos (by
      cases ht : t n with
      | none => exact absurd ht (h n (by omega))
      | some e => rfl)]

/-- Every slot is on the way of every name. -/
theorem reach (h capacity index : Nat) (hi : index < capacity) : ∃ i, i < capacity ∧ (h + i) % capacity = index := by
  have hc : 0 < capacity := by omega
  refine ⟨(index + (capacity - h % capacity)) % capacity, Nat.mod_lt _ hc, ?_⟩
  have hm := Nat.mod_lt h hc
  rw [Nat.add_mod, Nat.mod_mod, ← Nat.add_mod, Nat.add_mod, Nat.add_mod_mod, Nat.add_comm (h % capacity), Nat.add_assoc, show capacity - h % capacity + h % capacity = capacity by omega, Nat.add_mod_right, Nat.mod_eq_of_lt hi]

/-- The slots on the way of a name before `i` have other names. -/
def Passed (hash : Nat → Nat) (capacity : Nat) (t : Slots) (name i : Nat) : Prop := ∀ j, j < i → ∃ e, t ((hash name + j) % capacity) = some e ∧ e.1 ≠ name

/-- What is in the table. -/
structure Inv (hash : Nat → Nat) (capacity : Nat) (t : Slots) (l : List (Nat × Nat)) : Prop where
  there : ∀ e ∈ l, ∃ i, i < capacity ∧ t ((hash e.1 + i) % capacity) = some e ∧ Passed hash capacity t e.1 i
  only : ∀ i e, t i = some e → e ∈ l
  count : used t capacity = l.length

theorem addLoop_some (hash : Nat → Nat) (capacity : Nat) (t t' : Slots) (name v : Nat) : ∀ n i, addLoop hash capacity t name v i n = some t' → Passed hash capacity t name i →
    ∃ k, k < i + n ∧ t ((hash name + k) % capacity) = none ∧ Passed hash capacity t name k ∧ t' = set t ((hash name + k) % capacity) (name, v) := by
  intro n
  induction n with
  | zero => intro i h _; cases h
  | succ n ih =>
    intro i h hp
    unfold addLoop at h
    cases ht : t ((hash name + i) % capacity) with
    | none =>
      rw [ht] at h
      cases h
      exact ⟨i, by omega, ht, hp, rfl⟩
    | some e =>
      rw [ht] at h
      have h : (if e.1 = name then none else addLoop hash capacity t name v (i + 1) n) = some t' := h
      by_cases he : e.1 = name
      · rw [if_pos he] at h; cases h
      · rw [if_neg he] at h
        obtain ⟨k, h1, h2⟩ := ih (i + 1) h (fun j hj => by
          by_cases hji : j = i
          · subst hji; exact ⟨e, ht, he⟩
          · exact hp j (by omega))
        exact ⟨k, by omega, h2⟩

theorem addLoop_none (hash : Nat → Nat) (capacity : Nat) (t : Slots) (name v : Nat) (hn : ∀ i e, t i = some e → e.1 ≠ name) : ∀ n i, addLoop hash capacity t name v i n = none →
    ∀ j, i ≤ j → j < i + n → t ((hash name + j) % capacity) ≠ none := by
  intro n
  induction n with
  | zero => intro i _ j h1 h2; omega
  | succ n ih =>
    intro i h j h1 h2
    unfold addLoop at h
    cases ht : t ((hash name + i) % capacity) with
    | none => rw [ht] at h; cases h
    | some e =>
      rw [ht] at h
      have h : (if e.1 = name then none else addLoop hash capacity t name v (i + 1) n) = none := h
      rw [if_neg (hn _ e ht)] at h
      by_cases hj : j = i
      · subst hj; rw [ht]; exact fun h => nomatch h
      · exact ih (i + 1) h j (by omega) (by omega)

theorem add_new {hash : Nat → Nat} {capacity : Nat} {t t' : Slots} {l : List (Nat × Nat)} (e : Nat × Nat) (hi : Inv hash capacity t l) (h : add hash capacity t e = some t') :
    e.1 ∉ l.map Prod.fst ∧ Inv hash capacity t' (l ++ [e]) := by
  obtain ⟨k, hk, h0, hp, rfl⟩ := addLoop_some hash capacity t t' e.1 e.2 capacity 0 h (fun j hj => by omega)
  have hk : k < capacity := by omega
  have hc : 0 < capacity := by omega
  have old : ∀ x, x ∈ l → ∀ j, (∃ y, t ((hash x.1 + j) % capacity) = some y) → set t ((hash e.1 + k) % capacity) (e.1, e.2) ((hash x.1 + j) % capacity) = t ((hash x.1 + j) % capacity) := by
    intro x _ j ⟨y, hy⟩
    refine if_neg fun he => ?_
    rw [he, h0] at hy
    cases hy
  refine ⟨?_, ?_, ?_, ?_⟩
  · intro hm
    obtain ⟨x, hx, hxe⟩ := List.mem_map.1 hm
    obtain ⟨i, _, h2, h3⟩ := hi.there x hx
    rw [hxe] at h2 h3
    rcases Nat.lt_trichotomy i k with hik | hik | hik
    · obtain ⟨y, hy, hne⟩ := hp i hik
      rw [h2] at hy
      cases hy
      exact hne hxe
    · rw [hik, h0] at h2; cases h2
    · obtain ⟨y, hy, _⟩ := h3 k hik
      rw [h0] at hy; cases hy
  · intro x hx
    rcases List.mem_append.1 hx with hx | hx
    · obtain ⟨i, h1, h2, h3⟩ := hi.there x hx
      refine ⟨i, h1, by rw [old x hx i ⟨x, h2⟩]; exact h2, ?_⟩
      intro j hj
      obtain ⟨y, hy, hne⟩ := h3 j hj
      exact ⟨y, by rw [old x hx j ⟨y, hy⟩]; exact hy, hne⟩
    · have hx : x = e := List.mem_singleton.1 hx
      subst hx
      refine ⟨k, hk, if_pos rfl, ?_⟩
      intro j hj
      obtain ⟨y, hy, hne⟩ := hp j hj
      refine ⟨y, ?_, hne⟩
      rw [show set t ((hash x.1 + k) % capacity) (x.1, x.2) ((hash x.1 + j) % capacity) = t ((hash x.1 + j) % capacity) from if_neg (fun he => by rw [he, h0] at hy; cases hy)]
      exact hy
  · intro i y hy
    by_cases he : i = (hash e.1 + k) % capacity
    · have hy : (if i = (hash e.1 + k) % capacity then some (e.1, e.2) else t i) = some y := hy
      rw [if_pos he] at hy
      cases hy
      exact List.mem_append.2 (Or.inr (List.mem_singleton.2 rfl))
    · have hy : (if i = (hash e.1 + k) % capacity then some (e.1, e.2) else t i) = some y := hy
      rw [if_neg he] at hy
      exact List.mem_append.2 (Or.inl (hi.only i y hy))
  · rw [used_set _ _ _ h0 _ (Nat.mod_lt _ hc), hi.count, List.length_append]
    rfl

theorem add_room {hash : Nat → Nat} {capacity : Nat} {t : Slots} {l : List (Nat × Nat)} (e : Nat × Nat) (hi : Inv hash capacity t l) (hn : e.1 ∉ l.map Prod.fst) (hl : l.length < capacity) :
    ∃ t', add hash capacity t e = some t' := by
  cases h : add hash capacity t e with
  | some t' => exact ⟨t', rfl⟩
  | none =>
    have h1 := addLoop_none hash capacity t e.1 e.2 (fun i y hy hye => hn (List.mem_map.2 ⟨y, hi.only i y hy, hye⟩)) capacity 0 h
    have h2 := used_full t capacity (fun i hic => by
      obtain ⟨j, hj, hji⟩ := reach (hash e.1) capacity i hic
      rw [← hji]
      exact h1 j (Nat.zero_le _) (by omega))
    have := hi.count
    omega

theorem used_empty : ∀ n, used empty n = 0 := by
  intro n
  induction n with
  | zero => rfl
  | succ n ih => show used empty n + 0 = 0; rw [ih]

theorem inv_empty (hash : Nat → Nat) (capacity : Nat) : Inv hash capacity empty [] := ⟨(fun _ h => nomatch h), (fun _ _ h => nomatch h), used_empty capacity⟩

theorem addAll_inv (hash : Nat → Nat) (capacity : Nat) (l : List (Nat × Nat)) : ∀ (t t' : Slots) (m : List (Nat × Nat)), Inv hash capacity t m → Distinct m → addAll hash capacity t l = some t' →
    Inv hash capacity t' (m ++ l) ∧ Distinct (m ++ l) := by
  induction l with
  | nil =>
    intro t t' m hi hd h
    cases h
    rw [List.append_nil]
    exact ⟨hi, hd⟩
  | cons e l ih =>
    intro t t' m hi hd h
    unfold addAll at h
    cases ha : add hash capacity t e with
    | none => rw [ha] at h; cases h
    | some t1 =>
      rw [ha] at h
      obtain ⟨h1, h2⟩ := add_new e hi ha
      have hd2 : Distinct (m ++ [e]) := by
        unfold Distinct at hd ⊢
        rw [List.map_append]
        refine List.nodup_append.2 ⟨hd, by simp, ?_⟩
        intro a ha b hb hab
        have hb : b = e.1 := List.mem_singleton.1 hb
        exact h1 (by rw [← hb, ← hab]; exact ha)
      have := ih t1 t' (m ++ [e]) h2 hd2 h
      rwa [List.append_assoc] at this

theorem addAll_room (hash : Nat → Nat) (capacity : Nat) (l : List (Nat × Nat)) : ∀ (t : Slots) (m : List (Nat × Nat)), Inv hash capacity t m → Distinct (m ++ l) → (m ++ l).length ≤ capacity →
    ∃ t', addAll hash capacity t l = some t' := by
  induction l with
  | nil => intro t m _ _ _; exact ⟨t, rfl⟩
  | cons e l ih =>
    intro t m hi hd hl
    have hn : e.1 ∉ m.map Prod.fst := by
      unfold Distinct at hd
      rw [List.map_append] at hd
      intro h
      exact (List.nodup_append.1 hd).2.2 _ h e.1 (List.mem_cons_self ..) rfl
    rw [List.length_append, List.length_cons] at hl
    obtain ⟨t1, h1⟩ := add_room e hi hn (by omega)
    obtain ⟨t', h2⟩ := ih t1 (m ++ [e]) (add_new e hi h1).2 (by rw [List.append_assoc]; exact hd) (by rw [List.length_append, List.length_append, List.length_singleton]; omega)
    exact ⟨t', by unfold addAll; rw [h1]; exact h2⟩

theorem lookupLoop_found (hash : Nat → Nat) (capacity : Nat) (t : Slots) (e : Nat × Nat) (k : Nat) (hk : t ((hash e.1 + k) % capacity) = some e) (hp : Passed hash capacity t e.1 k) : ∀ n i, i ≤ k → k < i + n →
    lookupLoop hash capacity t e.1 i n = some e.2 := by
  intro n
  induction n with
  | zero => intro i h1 h2; omega
  | succ n ih =>
    intro i h1 h2
    unfold lookupLoop
    by_cases hik : i = k
    · subst hik
      rw [hk]
      exact if_pos rfl
    · obtain ⟨y, hy, hne⟩ := hp i (by omega)
      rw [hy]
      show (if y.1 = e.1 then some y.2 else lookupLoop hash capacity t e.1 (i + 1) n) = _
      rw [if_neg hne]
      exact ih (i + 1) (by omega) (by omega)

theorem lookupLoop_only (hash : Nat → Nat) (capacity : Nat) (t : Slots) (name v : Nat) : ∀ n i, lookupLoop hash capacity t name i n = some v → ∃ j, t j = some (name, v) := by
  intro n
  induction n with
  | zero => intro i h; cases h
  | succ n ih =>
    intro i h
    unfold lookupLoop at h
    cases ht : t ((hash name + i) % capacity) with
    | none => rw [ht] at h; cases h
    | some e =>
      rw [ht] at h
      have h : (if e.1 = name then some e.2 else lookupLoop hash capacity t name (i + 1) n) = some v := h
      by_cases he : e.1 = name
      · rw [if_pos he] at h
        obtain ⟨a, b⟩ := e
        have he : a = name := he
        cases h
        exact ⟨_, by rw [ht, he]⟩
      · rw [if_neg he] at h
        exact ih (i + 1) h

/-- **C98.** Whatever the hash function is: if the names that are added are distinct and there is room for them, all of them are added. -/
theorem C98_add (hash : Nat → Nat) (capacity : Nat) (l : List (Nat × Nat)) (hd : Distinct l) (hl : l.length ≤ capacity) : ∃ t, addAll hash capacity empty l = some t :=
  addAll_room hash capacity l empty [] (inv_empty hash capacity) hd hl

/-- **C98.** A name that is there twice is noticed. -/
theorem C98_twice (hash : Nat → Nat) (capacity : Nat) (l : List (Nat × Nat)) (hd : ¬ Distinct l) : addAll hash capacity empty l = none := by
  cases h : addAll hash capacity empty l with
  | none => rfl
  | some t => exact absurd (addAll_inv hash capacity l empty t [] (inv_empty hash capacity) List.nodup_nil h).2 hd

/-- **C98.** Every name is the instruction that it was added with, and no other name is an instruction. -/
theorem C98_lookup (hash : Nat → Nat) (capacity : Nat) (l : List (Nat × Nat)) (t : Slots) (h : addAll hash capacity empty l = some t) (name v : Nat) :
    lookup hash capacity t name = some v ↔ (name, v) ∈ l := by
  have hi := (addAll_inv hash capacity l empty t [] (inv_empty hash capacity) List.nodup_nil h).1
  constructor
  · intro h1
    obtain ⟨j, hj⟩ := lookupLoop_only hash capacity t name v capacity 0 h1
    exact hi.only j _ hj
  · intro h1
    obtain ⟨i, h2, h3, h4⟩ := hi.there (name, v) h1
    exact lookupLoop_found hash capacity t (name, v) i h3 h4 capacity 0 (Nat.zero_le _) (by omega)

/-- Names that collide and wrap around. -/
example : Distinct [(7, 1), (15, 2), (3, 3), (11, 4)] ∧ [(7, 1), (15, 2), (3, 3), (11, 4)].length ≤ 4 := by unfold Distinct; decide
example : (addAll (fun n => n) 4 empty [(7, 1), (15, 2), (3, 3), (11, 4)]).map (fun t => [7, 15, 3, 11, 19, 4].map (lookup (fun n => n) 4 t)) = some [some 1, some 2, some 3, some 4, none, none] := by decide +kernel
example : ¬ Distinct [(7, 1), (3, 2), (7, 3)] := by unfold Distinct; decide

end Verif.Props.AsmNames
