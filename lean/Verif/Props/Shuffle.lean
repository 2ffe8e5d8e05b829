import Verif.Props.IntrusiveList
import Verif.Model.Shuffle

/-!
# C49: the seed option only permutes declarations
-/
namespace Verif.Props.Shuffle
open Verif.IntrusiveList Verif.Spec.IntrusiveList Verif.Shuffle

theorem randomIndex_lt (v : BitVec 64) : (randomIndex v).1 < 16 := by
  simp only [randomIndex, BitVec.toNat_and]
  exact Nat.lt_of_le_of_lt Nat.and_le_right (by decide)

theorem pushFront_frame {s s' : State} {i n : Nat} (h : sllPushFront s i n = some s') :
    (∀ x, x ≠ n → s'.next x = s.next x) ∧ (∀ k, k ≠ i → s'.lists k = s.lists k) := by
  unfold sllPushFront State.setNext at h
  split at h <;> split at h <;> simp only [Option.bind_eq_bind, Option.bind_some, Option.bind_none, Option.some.injEq, reduceCtorEq] at h
  all_goals
    subst h
    refine ⟨fun x hx => by simp [State.setFirst, State.setLast, upd, hx], fun k hk => by simp [State.setFirst, State.setLast, upd, hk]⟩

theorem pushFront_clear {s s' : State} {i n j : Nat} (hij : i ≠ j) (h : sllPushFront (clear s j) i n = some s') :
    ∃ s'', sllPushFront s i n = some s'' ∧ clear s'' j = s' := by
  have e : (clear s j).lists i = s.lists i := by rw [clear_lists]; exact if_neg hij
  have hji : j ≠ i := Ne.symm hij
  unfold sllPushFront State.setNext at h ⊢
  rw [e] at h
  split at h <;> split at h <;> simp only [Option.bind_eq_bind, Option.bind_some, Option.bind_none, Option.some.injEq, reduceCtorEq] at h
  all_goals
    rename_i h1 h2
    subst h
    refine ⟨_, by simp only [h1, h2, if_true, if_false, ne_eq, not_true_eq_false, not_false_eq_true, Option.bind_eq_bind, Option.bind_some]; rfl, ?_⟩
    simp only [clear, State.setFirst, State.setLast, State.mk.injEq, true_and]
    funext k
    by_cases hk : k = i
    · subst hk; simp [upd, hij]
    · by_cases hk2 : k = j
      · subst hk2; simp [upd, hk]
      · simp [upd, hk, hk2]

/-- The contents of the lists `0 … n-1` one after the other. -/
def joined (c : Contents) (n : Nat) : List Nat := (List.range n).flatMap c

theorem joined_set {c : Contents} {i n : Nat} (hi : i < n) (x : Nat) :
    (joined (c.set i (x :: c i)) n).Perm (x :: joined c n) := by
  induction n with
  | zero => omega
  | succ n ih =>
    simp only [joined, List.range_succ, List.flatMap_append, List.flatMap_cons, List.flatMap_nil, List.append_nil]
    by_cases hn : i = n
    · subst hn
      have e : (List.range i).flatMap (c.set i (x :: c i)) = (List.range i).flatMap c := by
        rw [List.flatMap_def, List.flatMap_def]
        congr 1
        apply List.map_congr_left
        intro k hk
        have := List.mem_range.1 hk
        simp only [Contents.set, if_neg (show ¬ k = i by omega)]
      rw [e]
      simp only [Contents.set, if_true]
      exact List.perm_middle
    · have e : (c.set i (x :: c i)) n = c n := by simp only [Contents.set, if_neg (show ¬ n = i by omega)]
      rw [e]
      exact (ih (by omega)).append_right _

theorem deal_ok (xs : List Nat) : ∀ (fuel : Nat) (s : State) (c : Contents) (series : BitVec 64) (it : Nat),
    xs.length ≤ fuel → Rep (clear s 16) c → c 16 = [] → Visits s.next it xs 0 → (∀ i, ∀ x ∈ xs, x ∉ c i) →
    ∃ s' c', deal fuel s series it = some s' ∧ Rep (clear s' 16) c' ∧ c' 16 = [] ∧
      (joined c' 16).Perm (xs ++ joined c 16) := by
  induction xs with
  | nil =>
    intro fuel s c series it _ hr h16 hv _
    have : it = 0 := hv
    refine ⟨s, c, ?_, hr, h16, List.Perm.refl _⟩
    cases fuel <;> simp [deal, this]
  | cons x xs ih =>
    intro fuel s c series it hf hr h16 hv ha
    have hnd := visits_nodup hv
    obtain ⟨rfl, hx0, hv⟩ := hv
    cases fuel with
    | zero => simp at hf
    | succ fuel =>
      have hi := randomIndex_lt series
      obtain ⟨t, ht1, ht2⟩ := sllPushFront_ok hr (i := (randomIndex series).1) (n := it)
        ⟨hx0, fun i => ha i it (by simp)⟩
      obtain ⟨s', hs1, hs2⟩ := pushFront_clear (by omega) ht1
      have hfr := pushFront_frame hs1
      have hnm : it ∉ xs := (List.nodup_cons.1 hnd).1
      have hv' : Visits s'.next (s.next it) xs 0 :=
        visits_frame (fun y hy => hfr.1 y (fun e => hnm (e ▸ hy))) hv
      rw [← hs2] at ht2
      obtain ⟨s'', c', r1, r2, r3, r4⟩ := ih fuel s' _ (randomIndex series).2 (s.next it) (by simpa using hf) ht2
        (by simp only [Contents.set, if_neg (show ¬ 16 = (randomIndex series).1 by omega)]; exact h16) hv'
        (by
          intro i y hy hm
          simp only [Contents.set] at hm
          split at hm
          · rcases List.mem_cons.1 hm with e | hm
            · exact hnm (e ▸ hy)
            · exact ha _ y (by simp [hy]) hm
          · exact ha i y (by simp [hy]) hm)
      refine ⟨s'', c', ?_, r2, r3, ?_⟩
      · simp only [deal, if_neg hx0, State.getNext, Option.bind_eq_bind, Option.bind_some, hs1]
        exact r1
      · refine r4.trans ?_
        refine ((joined_set hi it).append_left xs).trans ?_
        exact List.perm_middle

theorem collect_ok (is : List Nat) : ∀ (s : State) (c : Contents), Rep s c → (∀ i ∈ is, i ≠ 16) → is.Nodup →
    ∃ s' c', collect is s = some s' ∧ Rep s' c' ∧ c' 16 = c 16 ++ is.flatMap c := by
  induction is with
  | nil => intro s c h _ _; exact ⟨s, c, rfl, h, by simp⟩
  | cons i is ih =>
    intro s c h hi hnd
    have hi16 : i ≠ 16 := hi i (by simp)
    obtain ⟨s', h1, h2⟩ := sllPushBackList_ok h (i := 16) (j := i) (Ne.symm hi16)
    obtain ⟨s'', c', r1, r2, r3⟩ := ih s' _ h2 (fun k hk => hi k (by simp [hk])) (List.nodup_cons.1 hnd).2
    refine ⟨s'', c', ?_, r2, ?_⟩
    · simp only [collect, h1, Option.bind_eq_bind, Option.bind_some]; exact r1
    · rw [r3]
      have e : is.flatMap ((c.set 16 (c 16 ++ c i)).set i []) = is.flatMap c := by
        rw [List.flatMap_def, List.flatMap_def]
        congr 1
        apply List.map_congr_left
        intro k hk
        have k1 : k ≠ 16 := hi k (by simp [hk])
        have k2 : k ≠ i := fun e => (List.nodup_cons.1 hnd).1 (e ▸ hk)
        simp only [Contents.set, if_neg k1, if_neg k2]
      rw [e]
      simp only [Contents.set, if_neg (Ne.symm hi16), if_true, List.flatMap_cons, List.append_assoc]

/-- C49: for every seed and every list of declarations (any links in memory), the list handed to the parser contains
exactly the same declarations, each once, in some order; its `last` is its last node; nothing dereferences null. -/
theorem C49_permutation (seed : BitVec 64) (next prev : Nat → Nat) (first last : Nat) (xs : List Nat)
    (hx : Visits next first xs 0) (hl : last = xs.getLast?.getD 0) (fuel : Nat) (hf : xs.length ≤ fuel) :
    ∃ s' ys, shuffle fuel seed ⟨next, prev, fun i => if i = 16 then ⟨first, last⟩ else ⟨0, 0⟩⟩ = some s' ∧
      ys.Perm xs ∧ Visits s'.next (s'.lists 16).first ys 0 ∧ (s'.lists 16).last = ys.getLast?.getD 0 := by
  by_cases hs : seed = 0
  · exact ⟨⟨next, prev, fun i => if i = 16 then ⟨first, last⟩ else ⟨0, 0⟩⟩, xs,
      by simp only [shuffle, hs, ne_eq, not_true_eq_false, if_false], List.Perm.refl _, hx, hl⟩
  · have hr : Rep (clear ⟨next, prev, fun i => if i = 16 then ⟨first, last⟩ else ⟨0, 0⟩⟩ 16) (fun _ => []) := by
      refine ⟨fun i => ?_, fun i => ?_, fun _ _ _ _ h => by cases h⟩
      · rw [clear_lists]; split
        · rfl
        · rename_i h; simp only [if_neg h]; rfl
      · rw [clear_lists]; split
        · rfl
        · rename_i h; simp only [if_neg h]; rfl
    obtain ⟨s', c', r1, r2, r3, r4⟩ := deal_ok xs fuel _ _ seed first hf hr rfl hx (fun _ _ _ h => by cases h)
    obtain ⟨s'', c'', q1, q2, q3⟩ := collect_ok (List.range 16) _ _ r2
      (fun i hi => by have := List.mem_range.1 hi; omega) List.nodup_range
    refine ⟨s'', c'' 16, ?_, ?_, q2.walk 16, q2.last 16⟩
    · simp only [shuffle, if_true, Option.bind_eq_bind]
      rw [if_pos hs]
      simp only [if_true, r1, Option.bind_some]
      exact q1
    · rw [q3, r3]
      have : joined (fun _ => []) 16 = [] := by decide
      rw [this, List.append_nil] at r4
      simpa [joined] using r4

/-- Three declarations at addresses 10, 20, 30 with seed 77. -/
example : Visits (fun p => if p = 10 then 20 else if p = 20 then 30 else 0) 10 [10, 20, 30] 0 := by
  simp [Visits]

example : ((shuffle 3 77 ⟨fun p => if p = 10 then 20 else if p = 20 then 30 else 0, fun _ => 0,
    fun i => if i = 16 then ⟨10, 30⟩ else ⟨0, 0⟩⟩).map (fun s => ((s.lists 16).first, s.next (s.lists 16).first,
      (s.lists 16).last))) = some (30, 20, 10) := by decide +kernel

end Verif.Props.Shuffle
