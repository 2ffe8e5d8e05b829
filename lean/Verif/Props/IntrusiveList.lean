import Verif.Model.IntrusiveList

/-!
# C61: the list macros implement sequences
-/
namespace Verif.IntrusiveList
open Verif.Spec.IntrusiveList

theorem visits_frame {f g : Nat → Nat} : ∀ {p : Nat} {xs : List Nat} {q : Nat}, (∀ x ∈ xs, g x = f x) → Visits f p xs q → Visits g p xs q
  | _, [], _, _, h => h
  | _, x :: xs, _, hf, ⟨h1, h2, h3⟩ =>
    ⟨h1, h2, by rw [hf x List.mem_cons_self]; exact visits_frame (fun y hy => hf y (List.mem_cons_of_mem _ hy)) h3⟩

theorem visits_append {f : Nat → Nat} : ∀ {p : Nat} {xs ys : List Nat} {q : Nat}, Visits f p (xs ++ ys) q ↔ ∃ r, Visits f p xs r ∧ Visits f r ys q
  | p, [], ys, q => ⟨fun h => ⟨p, rfl, h⟩, fun ⟨_, h1, h2⟩ => by cases h1; exact h2⟩
  | p, x :: xs, ys, q => by
    simp only [List.cons_append, Visits]
    rw [visits_append]
    constructor
    · rintro ⟨h1, h2, r, h3, h4⟩
      exact ⟨r, ⟨h1, h2, h3⟩, h4⟩
    · rintro ⟨r, ⟨h1, h2, h3⟩, h4⟩
      exact ⟨h1, h2, r, h3, h4⟩

theorem visits_snoc {f : Nat → Nat} {p : Nat} {xs : List Nat} {z q : Nat} :
    Visits f p (xs ++ [z]) q ↔ Visits f p xs z ∧ z ≠ 0 ∧ f z = q := by
  rw [visits_append]
  constructor
  · rintro ⟨r, h1, h2, h3, h4⟩
    exact ⟨h2 ▸ h1, h3, h4⟩
  · rintro ⟨h1, h2, h3⟩
    exact ⟨z, h1, rfl, h2, h3⟩

theorem visits_ne_zero {f : Nat → Nat} : ∀ {p : Nat} {xs : List Nat} {q : Nat}, Visits f p xs q → ∀ x ∈ xs, x ≠ 0
  | _, [], _, _, _, hx => by cases hx
  | _, y :: ys, _, ⟨_, h2, h3⟩, x, hx => by
    rcases List.mem_cons.1 hx with rfl | hx
    · exact h2
    · exact visits_ne_zero h3 x hx

theorem visits_head {f : Nat → Nat} {p : Nat} {xs : List Nat} (h : Visits f p xs 0) : p = xs.head?.getD 0 := by
  cases xs with
  | nil => exact h
  | cons x xs => exact h.1

theorem visits_det {f : Nat → Nat} : ∀ {p : Nat} {xs ys : List Nat}, Visits f p xs 0 → Visits f p ys 0 → xs = ys
  | _, [], [], _, _ => rfl
  | _, [], y :: ys, h, ⟨h1, h2, _⟩ => absurd (h1.symm.trans h) h2
  | _, x :: xs, [], ⟨h1, h2, _⟩, h => absurd (h1.symm.trans h) h2
  | _, x :: xs, y :: ys, ⟨h1, _, h3⟩, ⟨h1', _, h3'⟩ => by
    have e : x = y := h1.symm.trans h1'
    subst e
    rw [visits_det h3 h3']

theorem visits_nodup {f : Nat → Nat} : ∀ {p : Nat} {xs : List Nat}, Visits f p xs 0 → xs.Nodup
  | _, [], _ => List.nodup_nil
  | p, x :: xs, h => by
    refine List.nodup_cons.2 ⟨fun hm => ?_, visits_nodup h.2.2⟩
    obtain ⟨as, bs, rfl⟩ := List.append_of_mem hm
    have h3 := h.2.2
    obtain ⟨r, _, h5⟩ := visits_append.1 h3
    have : bs = as ++ x :: bs := visits_det h5.2.2 h3
    have := congrArg List.length this
    simp at this
    omega

theorem upd_self {α : Type} (f : Nat → α) (p : Nat) (v : α) : upd f p v p = v := if_pos rfl

theorem upd_ne {α : Type} (f : Nat → α) {p q : Nat} (v : α) (h : q ≠ p) : upd f p v q = f q := if_neg h

/-- The lists of the state have the contents `c`: walking along `next` visits them, and `last` is the last node. -/
structure Rep (s : State) (c : Contents) : Prop where
  walk : ∀ i, Visits s.next (s.lists i).first (c i) 0
  last : ∀ i, (s.lists i).last = (c i).getLast?.getD 0
  apart : ∀ i j x, i ≠ j → x ∈ c i → x ∉ c j

theorem first_ne_zero {s : State} {c : Contents} (h : Rep s c) (i : Nat) : (s.lists i).first ≠ 0 ↔ c i ≠ [] := by
  have := h.walk i
  cases hc : c i with
  | nil => rw [hc] at this; simp [show (s.lists i).first = 0 from this]
  | cons x xs => rw [hc] at this; simp [this.1, this.2.1]

/-- One step: the result has its contents, if list `i` has its new ones and the other lists are not touched. -/
theorem Rep.intro {s s' : State} {c : Contents} (h : Rep s c) {i : Nat} {xs : List Nat}
    (hl : ∀ k, k ≠ i → s'.lists k = s.lists k) (hn : ∀ k, k ≠ i → ∀ x ∈ c k, s'.next x = s.next x)
    (hw : Visits s'.next (s'.lists i).first xs 0) (hz : (s'.lists i).last = xs.getLast?.getD 0)
    (ha : ∀ k, k ≠ i → ∀ x ∈ c k, x ∉ xs) : Rep s' (c.set i xs) where
  walk k := by
    unfold Contents.set
    split
    · rename_i hk; rw [hk]; exact hw
    · rename_i hk
      rw [hl k hk]
      exact visits_frame (hn k hk) (h.walk k)
  last k := by
    unfold Contents.set
    split
    · rename_i hk; rw [hk]; exact hz
    · rename_i hk
      rw [hl k hk]
      exact h.last k
  apart k m x hkm := by
    unfold Contents.set
    split <;> split
    · rename_i h1 h2; exact absurd (h1.trans h2.symm) hkm
    · rename_i h1 h2; exact fun hx hm => ha m h2 x hm hx
    · rename_i h1 h2; exact fun hx => ha k h1 x hx
    · exact h.apart k m x hkm

theorem sllPushBack_ok {s : State} {c : Contents} (h : Rep s c) {i n : Nat} (hf : Fresh c n) :
    ∃ s', sllPushBack s i n = some s' ∧ Rep s' (c.set i (c i ++ [n])) := by
  obtain ⟨hn0, hf⟩ := hf
  by_cases hc : c i = []
  · have h0 : ¬ (s.lists i).first ≠ 0 := by rw [first_ne_zero h]; simp [hc]
    refine ⟨_, by simp only [sllPushBack, if_neg h0, State.setNext, if_neg hn0]; rfl, h.intro ?_ ?_ ?_ ?_ ?_⟩
    · intro k hk; simp [State.setFirst, State.setLast, upd, hk]
    · intro k hk x hx
      exact upd_ne _ _ (fun e => hf k (e ▸ hx))
    · simp only [State.setFirst, State.setLast, upd_self, hc, List.nil_append]
      exact ⟨rfl, hn0, upd_self _ _ _⟩
    · simp [State.setFirst, State.setLast, upd_self]
    · intro k hk x hx hm
      rw [hc] at hm
      simp only [List.nil_append, List.mem_singleton] at hm
      exact hf k (hm ▸ hx)
  · have h0 : (s.lists i).first ≠ 0 := (first_ne_zero h i).2 hc
    obtain ⟨ys, z, hz⟩ : ∃ ys z, c i = ys ++ [z] := ⟨_, _, (List.dropLast_concat_getLast hc).symm⟩
    have hw := h.walk i
    rw [hz] at hw
    obtain ⟨w1, w2, w3⟩ := visits_snoc.1 hw
    have hl : (s.lists i).last = z := by rw [h.last i, hz]; simp
    have hnd := visits_nodup hw
    have hzn : z ≠ n := fun e => hf i (by rw [hz]; simp [e])
    refine ⟨_, by simp only [sllPushBack, if_pos h0, State.setNext, hl, if_neg w2, if_neg hn0]; rfl, h.intro ?_ ?_ ?_ ?_ ?_⟩
    · intro k hk; simp [State.setLast, upd, hk]
    · intro k hk x hx
      simp only [State.setLast]
      rw [upd_ne _ _ (fun e : x = n => hf k (e ▸ hx)), upd_ne]
      intro e
      exact h.apart k i x hk hx (by rw [hz]; simp [e])
    · simp only [State.setLast, upd_self]
      rw [hz, List.append_assoc]
      refine visits_append.2 ⟨z, visits_frame ?_ w1, rfl, w2, ?_, hn0, upd_self _ _ _⟩
      · intro x hx
        rw [upd_ne _ _ (fun e => hf i (by rw [hz]; simp [← e, hx])), upd_ne]
        intro e
        rw [List.nodup_append] at hnd
        exact hnd.2.2 x hx z (by simp) e
      · rw [upd_ne _ _ hzn, upd_self]
    · simp [State.setLast, upd_self]
    · intro k hk x hx hm
      rcases List.mem_append.1 hm with hm | hm
      · exact h.apart k i x hk hx hm
      · exact hf k (List.mem_singleton.1 hm ▸ hx)

theorem sllPushFront_ok {s : State} {c : Contents} (h : Rep s c) {i n : Nat} (hf : Fresh c n) :
    ∃ s', sllPushFront s i n = some s' ∧ Rep s' (c.set i (n :: c i)) := by
  obtain ⟨hn0, hf⟩ := hf
  by_cases hc : c i = []
  · have h0 : ¬ (s.lists i).first ≠ 0 := by rw [first_ne_zero h]; simp [hc]
    refine ⟨_, by simp only [sllPushFront, if_neg h0, State.setNext, if_neg hn0]; rfl, h.intro ?_ ?_ ?_ ?_ ?_⟩
    · intro k hk; simp [State.setFirst, State.setLast, upd, hk]
    · intro k hk x hx
      exact upd_ne _ _ (fun e => hf k (e ▸ hx))
    · simp only [State.setFirst, State.setLast, upd_self, hc]
      exact ⟨rfl, hn0, upd_self _ _ _⟩
    · simp [State.setFirst, State.setLast, upd_self, hc]
    · intro k hk x hx hm
      rw [hc] at hm
      simp only [List.mem_singleton] at hm
      exact hf k (hm ▸ hx)
  · have h0 : (s.lists i).first ≠ 0 := (first_ne_zero h i).2 hc
    refine ⟨_, by simp only [sllPushFront, if_pos h0, State.setNext, if_neg hn0]; rfl, h.intro ?_ ?_ ?_ ?_ ?_⟩
    · intro k hk; simp [State.setFirst, upd, hk]
    · intro k hk x hx
      exact upd_ne _ _ (fun e => hf k (e ▸ hx))
    · simp only [State.setFirst, upd_self]
      refine ⟨rfl, hn0, ?_⟩
      rw [upd_self]
      exact visits_frame (fun x hx => upd_ne _ _ (fun e => hf i (e ▸ hx))) (h.walk i)
    · simp only [State.setFirst, upd_self]
      rw [h.last i, List.getLast?_cons]
      cases hx : (c i).getLast? with
      | none => exact absurd (List.getLast?_eq_none_iff.1 hx) hc
      | some z => rfl
    · intro k hk x hx hm
      rcases List.mem_cons.1 hm with hm | hm
      · exact hf k (hm ▸ hx)
      · exact h.apart k i x hk hx hm

theorem sllPopFront_ok {s : State} {c : Contents} (h : Rep s c) (i : Nat) :
    ∃ s', sllPopFront s i = some s' ∧ Rep s' (c.set i (c i).tail) := by
  cases hc : c i with
  | nil =>
    have h0 : ¬ (s.lists i).first ≠ 0 := by rw [first_ne_zero h]; simp [hc]
    refine ⟨s, by simp only [sllPopFront, if_neg h0], h.intro (fun _ _ => rfl) (fun _ _ _ _ => rfl) ?_ ?_ (fun _ _ _ _ => by simp)⟩
    · rw [List.tail_nil, ← hc]; exact h.walk i
    · rw [List.tail_nil, ← hc]; exact h.last i
  | cons x xs =>
    have h0 : (s.lists i).first ≠ 0 := (first_ne_zero h i).2 (by simp [hc])
    have hw := h.walk i
    rw [hc] at hw
    obtain ⟨w1, w2, w3⟩ := hw
    rw [List.tail_cons]
    refine ⟨_, by simp only [sllPopFront, if_pos h0, State.getNext, if_neg h0]; rfl, h.intro ?_ ?_ ?_ ?_ ?_⟩
    · intro k hk; split <;> simp [State.setFirst, State.setLast, upd, hk]
    · intro k hk y hy; split <;> rfl
    · split
      · simp only [State.setFirst, State.setLast, upd_self, w1]; exact w3
      · simp only [State.setFirst, upd_self, w1]; exact w3
    · split
      · rename_i hz
        simp only [State.setFirst, upd_self, w1] at hz
        rw [hz] at w3
        have : xs = [] := visits_det w3 rfl
        subst this
        simp [State.setFirst, State.setLast, upd_self]
      · rename_i hz
        simp only [State.setFirst, upd_self, w1] at hz ⊢
        rw [h.last i, hc, List.getLast?_cons]
        cases hx : xs.getLast? with
        | none =>
          rw [List.getLast?_eq_none_iff.1 hx] at w3
          exact absurd w3 hz
        | some z => rfl
    · intro k hk y hy hm
      exact h.apart k i y hk hy (by rw [hc]; exact List.mem_cons_of_mem _ hm)

theorem Rep.clear {s : State} {c : Contents} (h : Rep s c) (j : Nat) : Rep (clear s j) (c.set j []) := by
  refine h.intro ?_ (fun _ _ _ _ => rfl) ?_ ?_ (fun _ _ _ _ => by simp)
  · intro k hk; simp [IntrusiveList.clear, State.setFirst, State.setLast, upd, hk]
  · simp [IntrusiveList.clear, State.setFirst, State.setLast, upd_self, Visits]
  · simp [IntrusiveList.clear, State.setFirst, State.setLast, upd_self]

theorem clear_lists (s : State) (j k : Nat) : (clear s j).lists k = if k = j then ⟨0, 0⟩ else s.lists k := by
  unfold clear State.setLast State.setFirst upd
  simp only
  split <;> simp

theorem set_comm (c : Contents) {i j : Nat} (hij : i ≠ j) (xs ys : List Nat) : (c.set j ys).set i xs = (c.set i xs).set j ys := by
  funext k
  unfold Contents.set
  split <;> split <;> simp_all

theorem sllPushBackList_ok {s : State} {c : Contents} (h : Rep s c) {i j : Nat} (hij : i ≠ j) :
    ∃ s', sllPushBackList s i j = some s' ∧ Rep s' ((c.set i (c i ++ c j)).set j []) := by
  rw [← set_comm c hij]
  have hapart : ∀ k, k ≠ i → ∀ x ∈ (c.set j []) k, x ∉ c i ++ c j := by
    intro k hk x hx hm
    unfold Contents.set at hx
    split at hx
    · cases hx
    · rename_i hkj
      rcases List.mem_append.1 hm with hm | hm
      · exact h.apart k i x hk hx hm
      · exact h.apart k j x hkj hx hm
  have hout : ∀ k x, x ∈ (c.set j []) k → k ≠ j ∧ x ∈ c k := by
    intro k x hx
    unfold Contents.set at hx
    split at hx
    · cases hx
    · rename_i hkj; exact ⟨hkj, hx⟩
  by_cases hj : c j = []
  · have h0 : ¬ (s.lists j).first ≠ 0 := by rw [first_ne_zero h]; simp [hj]
    refine ⟨_, by simp only [sllPushBackList, if_neg h0], (h.clear j).intro (fun _ _ => rfl) (fun _ _ _ _ => rfl) ?_ ?_ hapart⟩
    · have := (h.clear j).walk i
      simpa [Contents.set, hij, hj] using this
    · have := (h.clear j).last i
      simpa [Contents.set, hij, hj] using this
  · have h0 : (s.lists j).first ≠ 0 := (first_ne_zero h j).2 hj
    by_cases hi : c i = []
    · have h1 : ¬ (s.lists i).first ≠ 0 := by rw [first_ne_zero h]; simp [hi]
      refine ⟨_, by simp only [sllPushBackList, if_pos h0, if_neg h1]; rfl, (h.clear j).intro ?_ ?_ ?_ ?_ hapart⟩
      · intro k hk; simp [clear_lists, State.setFirst, State.setLast, upd, hk]
      · intro k hk x hx; rfl
      · simp only [clear_lists, State.setFirst, State.setLast, upd_self, hij, hij.symm, if_true, if_false, hi, List.nil_append]
        exact h.walk j
      · simp only [clear_lists, State.setFirst, State.setLast, upd_self, hij, hij.symm, if_true, if_false, hi, List.nil_append]
        exact h.last j
    · have h1 : (s.lists i).first ≠ 0 := (first_ne_zero h i).2 hi
      obtain ⟨ys, z, hz⟩ : ∃ ys z, c i = ys ++ [z] := ⟨_, _, (List.dropLast_concat_getLast hi).symm⟩
      have hw := h.walk i
      rw [hz] at hw
      obtain ⟨w1, w2, w3⟩ := visits_snoc.1 hw
      have hl : (s.lists i).last = z := by rw [h.last i, hz]; simp
      have hnd := visits_nodup hw
      refine ⟨_, by simp only [sllPushBackList, if_pos h0, if_pos h1, State.setNext, hl, if_neg w2]; rfl, (h.clear j).intro ?_ ?_ ?_ ?_ hapart⟩
      · intro k hk; simp [clear_lists, State.setFirst, State.setLast, upd, hk]
      · intro k hk x hx
        refine upd_ne _ _ (fun e : x = z => ?_)
        exact h.apart k i x hk (hout k x hx).2 (by rw [hz]; simp [e])
      · simp only [clear_lists, State.setFirst, State.setLast, upd_self, hij, hij.symm, if_true, if_false]
        rw [hz, List.append_assoc]
        refine visits_append.2 ⟨z, visits_frame ?_ w1, rfl, w2, ?_⟩
        · intro x hx
          refine upd_ne _ _ (fun e : x = z => ?_)
          rw [List.nodup_append] at hnd
          exact hnd.2.2 x hx z (by simp) e
        · show Visits _ (upd s.next z (s.lists j).first z) (c j) 0
          rw [upd_self]
          refine visits_frame ?_ (h.walk j)
          intro x hx
          refine upd_ne _ _ (fun e : x = z => ?_)
          exact h.apart j i x hij.symm hx (by rw [hz]; simp [e])
      · simp only [clear_lists, State.setFirst, State.setLast, upd_self, hij, hij.symm, if_true, if_false]
        rw [h.last j, List.getLast?_append]
        cases hx : (c j).getLast? with
        | none => exact absurd (List.getLast?_eq_none_iff.1 hx) hj
        | some _ => rfl

theorem sllPushFrontList_ok {s : State} {c : Contents} (h : Rep s c) {i j : Nat} (hij : i ≠ j) :
    ∃ s', sllPushFrontList s i j = some s' ∧ Rep s' ((c.set i (c j ++ c i)).set j []) := by
  rw [← set_comm c hij]
  have hout : ∀ k x, x ∈ (c.set j []) k → k ≠ j ∧ x ∈ c k := by
    intro k x hx
    unfold Contents.set at hx
    split at hx
    · cases hx
    · rename_i hkj; exact ⟨hkj, hx⟩
  have hapart : ∀ k, k ≠ i → ∀ x ∈ (c.set j []) k, x ∉ c j ++ c i := by
    intro k hk x hx hm
    obtain ⟨hkj, hx⟩ := hout k x hx
    rcases List.mem_append.1 hm with hm | hm
    · exact h.apart k j x hkj hx hm
    · exact h.apart k i x hk hx hm
  by_cases hj : c j = []
  · have h0 : ¬ (s.lists j).first ≠ 0 := by rw [first_ne_zero h]; simp [hj]
    refine ⟨_, by simp only [sllPushFrontList, if_neg h0], (h.clear j).intro (fun _ _ => rfl) (fun _ _ _ _ => rfl) ?_ ?_ hapart⟩
    · have := (h.clear j).walk i
      simpa [Contents.set, hij, hj] using this
    · have := (h.clear j).last i
      simpa [Contents.set, hij, hj] using this
  · have h0 : (s.lists j).first ≠ 0 := (first_ne_zero h j).2 hj
    obtain ⟨ys, z, hz⟩ : ∃ ys z, c j = ys ++ [z] := ⟨_, _, (List.dropLast_concat_getLast hj).symm⟩
    have hw := h.walk j
    rw [hz] at hw
    obtain ⟨w1, w2, w3⟩ := visits_snoc.1 hw
    have hl : (s.lists j).last = z := by rw [h.last j, hz]; simp
    have hnd := visits_nodup hw
    have hli : (s.lists i).last = 0 ↔ c i = [] := by
      rw [h.last i]
      cases hx : (c i).getLast? with
      | none => simp [List.getLast?_eq_none_iff.1 hx]
      | some y =>
        have hm : y ∈ c i := List.mem_of_getLast? hx
        have h1 : y ≠ 0 := visits_ne_zero (h.walk i) y hm
        have h2 : c i ≠ [] := fun e => by rw [e] at hm; cases hm
        simp [h1, h2]
    have walk : Visits (upd s.next z (s.lists i).first) (s.lists j).first (c j ++ c i) 0 := by
      rw [hz, List.append_assoc]
      refine visits_append.2 ⟨z, visits_frame ?_ w1, rfl, w2, ?_⟩
      · intro x hx
        refine upd_ne _ _ (fun e : x = z => ?_)
        rw [List.nodup_append] at hnd
        exact hnd.2.2 x hx z (by simp) e
      · rw [upd_self]
        refine visits_frame ?_ (h.walk i)
        intro x hx
        refine upd_ne _ _ (fun e : x = z => ?_)
        exact h.apart i j x hij hx (by rw [hz]; simp [e])
    have hframe : ∀ k, k ≠ i → ∀ x ∈ (c.set j []) k, upd s.next z (s.lists i).first x = s.next x := by
      intro k hk x hx
      obtain ⟨hkj, hx⟩ := hout k x hx
      refine upd_ne _ _ (fun e : x = z => ?_)
      exact h.apart k j x hkj hx (by rw [hz]; simp [e])
    by_cases hi : c i = []
    · refine ⟨_, by simp only [sllPushFrontList, if_pos h0, State.setNext, hl, if_neg w2, Option.bind_eq_bind, Option.bind_some]; rfl, (h.clear j).intro ?_ ?_ ?_ ?_ hapart⟩
      · intro k hk; simp only [State.setFirst, upd_self, hli.2 hi, if_true]; simp [clear_lists, State.setFirst, State.setLast, upd, hk]
      · simp only [State.setFirst, upd_self, hli.2 hi, if_true]; exact hframe
      · simp only [State.setFirst, upd_self, hli.2 hi, if_true]
        simp only [clear_lists, hij, if_false, State.setFirst, State.setLast, upd_self, upd_ne _ _ hij]
        exact walk
      · simp only [State.setFirst, upd_self, hli.2 hi, if_true]
        simp only [clear_lists, hij, if_false, State.setFirst, State.setLast, upd_self, upd_ne _ _ hij, upd_ne _ _ hij.symm]
        rw [h.last j, hi, List.append_nil]
    · refine ⟨_, by simp only [sllPushFrontList, if_pos h0, State.setNext, hl, if_neg w2, Option.bind_eq_bind, Option.bind_some]; rfl, (h.clear j).intro ?_ ?_ ?_ ?_ hapart⟩
      · intro k hk; simp only [State.setFirst, upd_self, mt hli.1 hi, if_false]; simp [clear_lists, State.setFirst, State.setLast, upd, hk]
      · simp only [State.setFirst, upd_self, mt hli.1 hi, if_false]; exact hframe
      · simp only [State.setFirst, upd_self, mt hli.1 hi, if_false]
        simp only [clear_lists, hij, if_false, State.setFirst, State.setLast, upd_self, upd_ne _ _ hij]
        exact walk
      · simp only [State.setFirst, upd_self, mt hli.1 hi, if_false]
        simp only [clear_lists, hij, if_false, State.setFirst, State.setLast, upd_self, upd_ne _ _ hij]
        rw [h.last i, List.getLast?_append]
        cases hx : (c i).getLast? with
        | none => exact absurd (List.getLast?_eq_none_iff.1 hx) hi
        | some _ => rfl

theorem sllRemove_ok {s : State} {c : Contents} (h : Rep s c) {i n prev : Nat}
    (ho : (prev = 0 ∧ ∃ ys, c i = n :: ys) ∨ ∃ xs ys, c i = xs ++ prev :: n :: ys) :
    ∃ s', sllRemove s i n prev = some s' ∧ Rep s' (c.set i ((c i).erase n)) := by
  have hw := h.walk i
  have hla := h.last i
  rcases ho with ⟨rfl, ys, hc⟩ | ⟨xs, ys, hc⟩
  · rw [hc] at hw hla
    obtain ⟨w1, w2, w3⟩ := hw
    have he : (c i).erase n = ys := by rw [hc]; simp
    rw [he]
    have hap : ∀ k, k ≠ i → ∀ x ∈ c k, x ∉ ys := fun k hk x hx hm => h.apart k i x hk hx (by rw [hc]; exact List.mem_cons_of_mem _ hm)
    refine ⟨_, by simp only [sllRemove, State.getNext, if_neg w2, ne_eq, not_true, if_false, Option.bind_eq_bind, Option.bind_some]; rfl, h.intro ?_ ?_ ?_ ?_ hap⟩
    · intro k hk; split <;> simp [State.setFirst, State.setLast, upd, hk]
    · intro k hk y hy; split <;> rfl
    · split <;> simp only [State.setFirst, State.setLast, upd_self] <;> exact w3
    · split
      · rename_i hz
        simp only [State.setFirst] at hz
        rw [hz] at w3
        have : ys = [] := visits_det w3 rfl
        subst this
        simp [State.setFirst, State.setLast, upd_self]
      · rename_i hz
        simp only [State.setFirst] at hz
        simp only [State.setFirst, upd_self]
        rw [hla, List.getLast?_cons]
        cases hx : ys.getLast? with
        | none =>
          rw [List.getLast?_eq_none_iff.1 hx] at w3
          exact absurd w3 hz
        | some z => rfl
  · rw [hc] at hw hla
    have hnd := visits_nodup hw
    obtain ⟨r, w1, w2, w3, w4, w5, w6⟩ := visits_append.1 hw
    subst w2
    have h1 : r ∉ xs := by
      intro hm
      rw [List.nodup_append] at hnd
      exact hnd.2.2 r hm r (by simp) rfl
    have h2 : n ∉ xs := by
      intro hm
      rw [List.nodup_append] at hnd
      exact hnd.2.2 n hm n (by simp) rfl
    have h3 : r ≠ n ∧ r ∉ ys := by
      rw [List.nodup_append, List.nodup_cons] at hnd
      exact ⟨fun e => hnd.2.1.1 (by simp [e]), fun e => hnd.2.1.1 (by simp [e])⟩
    have he : (c i).erase n = xs ++ r :: ys := by
      rw [hc, List.erase_append_right _ h2, List.erase_cons_tail (by simpa using h3.1)]
      simp
    rw [he]
    have hap : ∀ k, k ≠ i → ∀ x ∈ c k, x ∉ xs ++ r :: ys := by
      intro k hk x hx hm
      refine h.apart k i x hk hx ?_
      rw [hc]
      simp only [List.mem_append, List.mem_cons] at hm ⊢
      rcases hm with hm | hm | hm <;> simp [hm]
    refine ⟨_, by simp only [sllRemove, State.getNext, State.setNext, if_neg w3, w4, if_neg w5, ne_eq, w3, not_true, not_false_eq_true, if_true, if_false, Option.bind_eq_bind, Option.bind_some]; rfl, h.intro ?_ ?_ ?_ ?_ hap⟩
    · intro k hk; split <;> simp [State.setLast, upd, hk]
    · intro k hk y hy
      have : y ≠ r := fun e => h.apart k i y hk hy (by rw [hc]; simp [e])
      split <;> simp only [State.setLast] <;> exact upd_ne _ _ this
    · have walk : Visits (upd s.next r (s.next n)) (s.lists i).first (xs ++ r :: ys) 0 := by
        refine visits_append.2 ⟨r, visits_frame (fun x hx => upd_ne _ _ (fun e : x = r => h1 (e ▸ hx))) w1, rfl, w3, ?_⟩
        rw [upd_self]
        exact visits_frame (fun x hx => upd_ne _ _ (fun e : x = r => h3.2 (e ▸ hx))) w6
      split <;> simp only [State.setLast, upd_self] <;> exact walk
    · have hun : upd s.next r (s.next n) n = s.next n := upd_ne _ _ h3.1.symm
      split
      · rename_i hz
        simp only [hun] at hz
        rw [hz] at w6
        have : ys = [] := visits_det w6 rfl
        subst this
        simp [State.setLast, upd_self]
      · rename_i hz
        simp only [hun] at hz
        show (s.lists i).last = _
        rw [hla, List.getLast?_append, List.getLast?_append, List.getLast?_cons, List.getLast?_cons, List.getLast?_cons]
        cases hx : ys.getLast? with
        | none =>
          rw [List.getLast?_eq_none_iff.1 hx] at w6
          exact absurd w6 hz
        | some z => rfl

theorem apply_ok {s : State} {c : Contents} (h : Rep s c) (o : Op) (ho : o.ok c) : ∃ s', apply s o = some s' ∧ Rep s' (o.apply c) := by
  cases o with
  | pushBack i n => exact sllPushBack_ok h ho
  | pushFront i n => exact sllPushFront_ok h ho
  | popFront i => exact sllPopFront_ok h i
  | pushBackList i j => exact sllPushBackList_ok h ho
  | pushFrontList i j => exact sllPushFrontList_ok h ho
  | remove i n p => exact sllRemove_ok h ho

theorem run_ok : ∀ (os : List Op) {s : State} {c : Contents}, Rep s c → Valid c os →
    ∃ s', run s os = some s' ∧ Rep s' (os.foldl Op.apply c)
  | [], s, _, h, _ => ⟨s, rfl, h⟩
  | o :: os, s, c, h, hv => by
    obtain ⟨s1, h1, h2⟩ := apply_ok h o hv.1
    obtain ⟨s2, h3, h4⟩ := run_ok os h2 hv.2
    exact ⟨s2, by simp only [run, h1, Option.bind_some, h3], h4⟩

/-- **C61**: after any history of operations on any number of singly linked lists, whatever the links of the nodes were
before, no null pointer was dereferenced, walking along each list visits exactly the nodes the history put there, in
order, and `last` is the last of them. -/
theorem C61_singly_linked (next prev : Nat → Nat) (os : List Op) (hv : Valid (fun _ => []) os) :
    ∃ s, run (State.init next prev) os = some s ∧ ∀ i, Visits s.next (s.lists i).first (os.foldl Op.apply (fun _ => []) i) 0 ∧
      (s.lists i).last = (os.foldl Op.apply (fun _ => []) i).getLast?.getD 0 := by
  obtain ⟨s, h1, h2⟩ := run_ok os (s := State.init next prev) (c := fun _ => []) ⟨fun _ => rfl, fun _ => rfl, fun _ _ _ _ hx => by cases hx⟩ hv
  exact ⟨s, h1, fun i => ⟨h2.walk i, h2.last i⟩⟩

/-! ## Doubly linked lists -/

/-- The lists of the state have the contents `c`: walking along `next` visits them, and walking back along `prev` visits
them in the opposite order. -/
structure DRep (s : State) (c : Contents) : Prop where
  walk : ∀ i, Visits s.next (s.lists i).first (c i) 0
  back : ∀ i, Visits s.prev (s.lists i).last (c i).reverse 0
  apart : ∀ i j x, i ≠ j → x ∈ c i → x ∉ c j

theorem dfirst_ne_zero {s : State} {c : Contents} (h : DRep s c) (i : Nat) : (s.lists i).first ≠ 0 ↔ c i ≠ [] := by
  have := h.walk i
  cases hc : c i with
  | nil => rw [hc] at this; simp [show (s.lists i).first = 0 from this]
  | cons x xs => rw [hc] at this; simp [this.1, this.2.1]

theorem DRep.intro {s s' : State} {c : Contents} (h : DRep s c) {i : Nat} {xs : List Nat}
    (hl : ∀ k, k ≠ i → s'.lists k = s.lists k) (hn : ∀ k, k ≠ i → ∀ x ∈ c k, s'.next x = s.next x)
    (hp : ∀ k, k ≠ i → ∀ x ∈ c k, s'.prev x = s.prev x)
    (hw : Visits s'.next (s'.lists i).first xs 0) (hz : Visits s'.prev (s'.lists i).last xs.reverse 0)
    (ha : ∀ k, k ≠ i → ∀ x ∈ c k, x ∉ xs) : DRep s' (c.set i xs) where
  walk k := by
    unfold Contents.set
    split
    · rename_i hk; rw [hk]; exact hw
    · rename_i hk
      rw [hl k hk]
      exact visits_frame (hn k hk) (h.walk k)
  back k := by
    unfold Contents.set
    split
    · rename_i hk; rw [hk]; exact hz
    · rename_i hk
      rw [hl k hk]
      exact visits_frame (fun x hx => hp k hk x (List.mem_reverse.1 hx)) (h.back k)
  apart k m x hkm := by
    unfold Contents.set
    split <;> split
    · rename_i h1 h2; exact absurd (h1.trans h2.symm) hkm
    · rename_i h1 h2; exact fun hx hm => ha m h2 x hm hx
    · rename_i h1 h2; exact fun hx => ha k h1 x hx
    · exact h.apart k m x hkm

theorem DRep.clear {s : State} {c : Contents} (h : DRep s c) (j : Nat) : DRep (clear s j) (c.set j []) := by
  refine h.intro ?_ (fun _ _ _ _ => rfl) (fun _ _ _ _ => rfl) ?_ ?_ (fun _ _ _ _ => by simp)
  · intro k hk; simp [clear_lists, hk]
  · simp [clear_lists, Visits]
  · simp [clear_lists, Visits]

theorem dllPushBack_ok {s : State} {c : Contents} (h : DRep s c) {i n : Nat} (hf : Fresh c n) :
    ∃ s', dllPushBack s i n = some s' ∧ DRep s' (c.set i (c i ++ [n])) := by
  obtain ⟨hn0, hf⟩ := hf
  have hap : ∀ k, k ≠ i → ∀ x ∈ c k, x ∉ c i ++ [n] := by
    intro k hk x hx hm
    rcases List.mem_append.1 hm with hm | hm
    · exact h.apart k i x hk hx hm
    · exact hf k (List.mem_singleton.1 hm ▸ hx)
  have hne : ∀ k, ∀ x ∈ c k, x ≠ n := fun k x hx e => hf k (e ▸ hx)
  by_cases hc : c i = []
  · have h0 : ¬ (s.lists i).first ≠ 0 := by rw [dfirst_ne_zero h]; simp [hc]
    refine ⟨_, by simp only [dllPushBack, if_neg h0, State.setNext, State.setPrev, if_neg hn0]; rfl, h.intro ?_ ?_ ?_ ?_ ?_ hap⟩
    · intro k hk; simp [State.setFirst, State.setLast, upd, hk]
    · intro k hk x hx; exact upd_ne _ _ (hne k x hx)
    · intro k hk x hx; exact upd_ne _ _ (hne k x hx)
    · simp only [State.setFirst, State.setLast, upd_self, hc, List.nil_append]
      exact ⟨rfl, hn0, upd_self _ _ _⟩
    · simp only [State.setFirst, State.setLast, upd_self, hc, List.nil_append]
      exact ⟨rfl, hn0, upd_self _ _ _⟩
  · have h0 : (s.lists i).first ≠ 0 := (dfirst_ne_zero h i).2 hc
    obtain ⟨ys, z, hz⟩ : ∃ ys z, c i = ys ++ [z] := ⟨_, _, (List.dropLast_concat_getLast hc).symm⟩
    have hw := h.walk i
    have hb := h.back i
    rw [hz] at hw hb
    obtain ⟨w1, w2, w3⟩ := visits_snoc.1 hw
    have hl : (s.lists i).last = z := by rw [visits_head hb]; simp
    have hnd := visits_nodup hw
    have hzn : z ≠ n := hne i z (by rw [hz]; simp)
    have hzk : ∀ k, k ≠ i → ∀ x ∈ c k, x ≠ z := fun k hk x hx e => h.apart k i x hk hx (by rw [hz]; simp [e])
    refine ⟨_, by simp only [dllPushBack, if_pos h0, State.setNext, State.setPrev, hl, if_neg w2, if_neg hn0, Option.bind_eq_bind, Option.bind_some]; rfl, h.intro ?_ ?_ ?_ ?_ ?_ hap⟩
    · intro k hk; simp [State.setLast, upd, hk]
    · intro k hk x hx
      simp only [State.setLast]
      rw [upd_ne _ _ (hne k x hx), upd_ne _ _ (hzk k hk x hx)]
    · intro k hk x hx; exact upd_ne _ _ (hne k x hx)
    · simp only [State.setLast, upd_self]
      rw [hz, List.append_assoc]
      refine visits_append.2 ⟨z, visits_frame ?_ w1, rfl, w2, ?_, hn0, upd_self _ _ _⟩
      · intro x hx
        rw [upd_ne _ _ (hne i x (by rw [hz]; simp [hx])), upd_ne]
        intro e
        rw [List.nodup_append] at hnd
        exact hnd.2.2 x hx z (by simp) e
      · rw [upd_ne _ _ hzn, upd_self]
    · simp only [State.setLast, upd_self]
      rw [List.reverse_append]
      refine ⟨rfl, hn0, ?_⟩
      show Visits (upd s.prev n z) (upd s.prev n z n) (c i).reverse 0
      rw [upd_self, ← hl]
      exact visits_frame (fun x hx => upd_ne _ _ (hne i x (List.mem_reverse.1 hx))) (h.back i)

theorem dllPushFront_ok {s : State} {c : Contents} (h : DRep s c) {i n : Nat} (hf : Fresh c n) :
    ∃ s', dllPushFront s i n = some s' ∧ DRep s' (c.set i (n :: c i)) := by
  obtain ⟨hn0, hf⟩ := hf
  have hap : ∀ k, k ≠ i → ∀ x ∈ c k, x ∉ n :: c i := by
    intro k hk x hx hm
    rcases List.mem_cons.1 hm with hm | hm
    · exact hf k (hm ▸ hx)
    · exact h.apart k i x hk hx hm
  have hne : ∀ k, ∀ x ∈ c k, x ≠ n := fun k x hx e => hf k (e ▸ hx)
  cases hc : c i with
  | nil =>
    have h0 : ¬ (s.lists i).first ≠ 0 := by rw [dfirst_ne_zero h]; simp [hc]
    rw [hc] at hap
    refine ⟨_, by simp only [dllPushFront, if_neg h0, State.setNext, State.setPrev, if_neg hn0]; rfl, h.intro ?_ ?_ ?_ ?_ ?_ hap⟩
    · intro k hk; simp [State.setFirst, State.setLast, upd, hk]
    · intro k hk x hx; exact upd_ne _ _ (hne k x hx)
    · intro k hk x hx; exact upd_ne _ _ (hne k x hx)
    · simp only [State.setFirst, State.setLast, upd_self]
      exact ⟨rfl, hn0, upd_self _ _ _⟩
    · simp only [State.setFirst, State.setLast, upd_self]
      exact ⟨rfl, hn0, upd_self _ _ _⟩
  | cons f ys =>
    have h0 : (s.lists i).first ≠ 0 := (dfirst_ne_zero h i).2 (by simp [hc])
    have hw := h.walk i
    have hb := h.back i
    have hnd := visits_nodup hb
    rw [hc, List.reverse_cons] at hb hnd
    rw [hc] at hw
    obtain ⟨b1, b2, b3⟩ := visits_snoc.1 hb
    have hl : (s.lists i).first = f := hw.1
    have hfn : f ≠ n := hne i f (by rw [hc]; simp)
    have hfk : ∀ k, k ≠ i → ∀ x ∈ c k, x ≠ f := fun k hk x hx e => h.apart k i x hk hx (by rw [hc]; simp [e])
    rw [hc] at hap
    refine ⟨_, by rw [dllPushFront, if_pos h0]; simp only [State.setNext, State.setPrev, hl, if_neg b2, if_neg hn0, Option.bind_eq_bind, Option.bind_some]; rfl, h.intro ?_ ?_ ?_ ?_ ?_ hap⟩
    · intro k hk; simp [State.setFirst, upd, hk]
    · intro k hk x hx; exact upd_ne _ _ (hne k x hx)
    · intro k hk x hx
      simp only [State.setFirst]
      rw [upd_ne _ _ (hne k x hx), upd_ne _ _ (hfk k hk x hx)]
    · simp only [State.setFirst, upd_self]
      refine ⟨rfl, hn0, ?_⟩
      rw [upd_self, ← hl]
      rw [hl] at hw ⊢
      exact visits_frame (fun x hx => upd_ne _ _ (hne i x (by rw [hc]; exact hx))) hw
    · simp only [State.setFirst, upd_self]
      rw [List.reverse_cons, List.reverse_cons]
      refine visits_snoc.2 ⟨visits_snoc.2 ⟨visits_frame ?_ b1, b2, ?_⟩, hn0, upd_self _ _ _⟩
      · intro x hx
        rw [upd_ne _ _ (hne i x (by rw [hc]; exact List.mem_cons_of_mem _ (List.mem_reverse.1 hx))), upd_ne]
        intro e
        rw [List.nodup_append] at hnd
        exact hnd.2.2 x hx f (by simp) e
      · rw [upd_ne _ _ hfn, upd_self]

theorem dllPushBackList_ok {s : State} {c : Contents} (h : DRep s c) {i j : Nat} (hij : i ≠ j) :
    ∃ s', dllPushBackList s i j = some s' ∧ DRep s' ((c.set i (c i ++ c j)).set j []) := by
  rw [← set_comm c hij]
  have hout : ∀ k x, x ∈ (c.set j []) k → k ≠ j ∧ x ∈ c k := by
    intro k x hx
    unfold Contents.set at hx
    split at hx
    · cases hx
    · rename_i hkj; exact ⟨hkj, hx⟩
  have hapart : ∀ k, k ≠ i → ∀ x ∈ (c.set j []) k, x ∉ c i ++ c j := by
    intro k hk x hx hm
    obtain ⟨hkj, hx⟩ := hout k x hx
    rcases List.mem_append.1 hm with hm | hm
    · exact h.apart k i x hk hx hm
    · exact h.apart k j x hkj hx hm
  cases hj : c j with
  | nil =>
    have h0 : ¬ (s.lists j).first ≠ 0 := by rw [dfirst_ne_zero h]; simp [hj]
    rw [hj] at hapart
    refine ⟨_, by simp only [dllPushBackList, if_neg h0], (h.clear j).intro (fun _ _ => rfl) (fun _ _ _ _ => rfl) (fun _ _ _ _ => rfl) ?_ ?_ hapart⟩
    · have := (h.clear j).walk i
      simpa [Contents.set, hij, hj] using this
    · have := (h.clear j).back i
      simpa [Contents.set, hij, hj] using this
  | cons f zs =>
    have h0 : (s.lists j).first ≠ 0 := (dfirst_ne_zero h j).2 (by simp [hj])
    by_cases hi : c i = []
    · have h1 : ¬ (s.lists i).first ≠ 0 := by rw [dfirst_ne_zero h]; simp [hi]
      rw [← hj]
      refine ⟨_, by simp only [dllPushBackList, if_pos h0, if_neg h1]; rfl, (h.clear j).intro ?_ ?_ ?_ ?_ ?_ hapart⟩
      · intro k hk; simp [clear_lists, upd, hk]
      · intro k hk x hx; rfl
      · intro k hk x hx; rfl
      · simp only [clear_lists, upd_self, hij, if_false, hi, List.nil_append]
        exact h.walk j
      · simp only [clear_lists, upd_self, hij, if_false, hi, List.nil_append]
        exact h.back j
    · have h1 : (s.lists i).first ≠ 0 := (dfirst_ne_zero h i).2 hi
      obtain ⟨ys, z, hz⟩ : ∃ ys z, c i = ys ++ [z] := ⟨_, _, (List.dropLast_concat_getLast hi).symm⟩
      have hw := h.walk i
      have hbi := h.back i
      rw [hz] at hw
      obtain ⟨w1, w2, w3⟩ := visits_snoc.1 hw
      have hl : (s.lists i).last = z := by rw [visits_head hbi, hz]; simp
      have hnd := visits_nodup hw
      have hwj := h.walk j
      have hbj := h.back j
      have hndj := visits_nodup hbj
      rw [hj] at hwj
      rw [hj, List.reverse_cons] at hbj hndj
      obtain ⟨b1, b2, b3⟩ := visits_snoc.1 hbj
      have hfj : (s.lists j).first = f := hwj.1
      have hzk : ∀ k, k ≠ i → ∀ x ∈ c k, x ≠ z := fun k hk x hx e => h.apart k i x hk hx (by rw [hz]; simp [e])
      have hfk : ∀ k, k ≠ j → ∀ x ∈ c k, x ≠ f := fun k hk x hx e => h.apart k j x hk hx (by rw [hj]; simp [e])
      refine ⟨_, by rw [dllPushBackList, if_pos h0, if_pos h1]; simp only [State.setNext, State.setPrev, hl, hfj, if_neg w2, if_neg b2, Option.bind_eq_bind, Option.bind_some]; rfl,
        (h.clear j).intro ?_ ?_ ?_ ?_ ?_ (by rw [hj] at hapart; exact hapart)⟩
      · intro k hk; simp [clear_lists, State.setLast, upd, hk]
      · intro k hk x hx; exact upd_ne _ _ (hzk k hk x (hout k x hx).2)
      · intro k hk x hx; exact upd_ne _ _ (hfk k (hout k x hx).1 x (hout k x hx).2)
      · simp only [clear_lists, State.setLast, upd_self, hij, if_false]
        rw [hz, List.append_assoc]
        refine visits_append.2 ⟨z, visits_frame ?_ w1, rfl, w2, ?_⟩
        · intro x hx
          refine upd_ne _ _ (fun e : x = z => ?_)
          rw [List.nodup_append] at hnd
          exact hnd.2.2 x hx z (by simp) e
        · show Visits _ (upd s.next z f z) (f :: zs) 0
          rw [upd_self]
          rw [hfj] at hwj
          exact visits_frame (fun x hx => upd_ne _ _ (hzk j hij.symm x (by rw [hj]; exact hx))) hwj
      · simp only [clear_lists, State.setLast, upd_self, hij, if_false]
        rw [List.reverse_append, List.reverse_cons, List.append_assoc]
        refine visits_append.2 ⟨f, visits_frame ?_ b1, rfl, b2, ?_⟩
        · intro x hx
          refine upd_ne _ _ (fun e : x = f => ?_)
          rw [List.nodup_append] at hndj
          exact hndj.2.2 x hx f (by simp) e
        · show Visits _ (upd s.prev f z f) (c i).reverse 0
          rw [upd_self, ← hl]
          exact visits_frame (fun x hx => upd_ne _ _ (hfk i hij x (List.mem_reverse.1 hx))) hbi

theorem dllRemove_ok {s : State} {c : Contents} (h : DRep s c) {i n : Nat} (hm : n ∈ c i) :
    ∃ s', dllRemove s i n = some s' ∧ DRep s' (c.set i ((c i).erase n)) := by
  have hn0 : n ≠ 0 := visits_ne_zero (h.walk i) n hm
  have hnd := visits_nodup (h.walk i)
  have hap : ∀ k, k ≠ i → ∀ x ∈ c k, x ∉ (c i).erase n := fun k hk x hx hx' => h.apart k i x hk hx (List.mem_of_mem_erase hx')
  obtain ⟨xs, ys, hc⟩ := List.append_of_mem hm
  have hw := h.walk i
  have hb := h.back i
  rw [hc] at hw hb hnd
  have hxn : n ∉ xs := by
    intro hx
    rw [List.nodup_append] at hnd
    exact hnd.2.2 n hx n (by simp) rfl
  have hyn : n ∉ ys := by
    rw [List.nodup_append, List.nodup_cons] at hnd
    exact hnd.2.1.1
  have he : (c i).erase n = xs ++ ys := by rw [hc, List.erase_append_right _ hxn]; simp
  rw [he] at hap ⊢
  have hk' : ∀ k, k ≠ i → ∀ x ∈ c k, ∀ y ∈ xs ++ n :: ys, x ≠ y := fun k hk x hx y hy e => h.apart k i x hk hx (by rw [hc, e]; exact hy)
  obtain ⟨r, w1, w2, w3, w4⟩ := visits_append.1 hw
  subst w2
  rw [List.reverse_append, List.reverse_cons, List.append_assoc] at hb
  obtain ⟨r', b1, b2, b3, b4⟩ := visits_append.1 hb
  subst b2
  cases xs with
  | nil =>
    have hf : (s.lists i).first = r' := w1
    cases ys with
    | nil =>
      have hz : s.next r' = 0 := w4
      refine ⟨_, by simp only [dllRemove, if_pos hf, State.getNext, if_neg hn0, hz, State.setFirst, upd_self, ne_eq, not_true, if_false, Option.bind_eq_bind, Option.bind_some]; rfl, h.intro ?_ ?_ ?_ ?_ ?_ hap⟩
      · intro k hk; simp [State.setLast, upd, hk]
      · intro k hk x hx; rfl
      · intro k hk x hx; rfl
      · simp only [State.setLast, upd_self]; rfl
      · simp only [State.setLast, upd_self]; rfl
    | cons g zs =>
      obtain ⟨g1, g2, g3⟩ := w4
      rw [List.reverse_cons] at b1
      obtain ⟨c1, c2, c3⟩ := visits_snoc.1 b1
      have hgz : g ∉ zs := by
        rw [List.nil_append, List.nodup_cons, List.nodup_cons] at hnd
        exact hnd.2.1
      refine ⟨_, by simp only [dllRemove, if_pos hf, State.getNext, if_neg hn0, g1, State.setFirst, upd_self, ne_eq, g2, not_false_eq_true, if_true, Option.bind_eq_bind, Option.bind_some, State.setPrev, if_false]; rfl, h.intro ?_ ?_ ?_ ?_ ?_ hap⟩
      · intro k hk; simp [upd, hk]
      · intro k hk x hx; rfl
      · intro k hk x hx; exact upd_ne _ _ (hk' k hk x hx g (by simp))
      · simp only [upd_self]; exact ⟨rfl, g2, g3⟩
      · simp only [upd_self]
        show Visits _ _ (g :: zs).reverse 0
        rw [List.reverse_cons]
        refine visits_snoc.2 ⟨visits_frame (fun x hx => upd_ne _ _ (fun e : x = g => hgz (e ▸ List.mem_reverse.1 hx))) c1, g2, upd_self _ _ _⟩
  | cons f zs =>
    have hf : (s.lists i).first = f := w1.1
    have hfn : f ≠ r' := fun e => hxn (by simp [e])
    have hfn' : ¬ (s.lists i).first = r' := by rw [hf]; exact hfn
    obtain ⟨as, p, hp⟩ : ∃ as p, f :: zs = as ++ [p] := ⟨_, _, (List.dropLast_concat_getLast (by simp)).symm⟩
    rw [hp] at w1 hxn hk' hap hnd
    rw [hp] at b4
    rw [List.reverse_append] at b4
    obtain ⟨p1, p2, p3⟩ := b4
    obtain ⟨v1, v2, v3⟩ := visits_snoc.1 w1
    have hpa : p ∉ as := by
      intro hx
      rw [List.append_assoc, List.nodup_append] at hnd
      exact hnd.2.2 p hx p (by simp) rfl
    have hpy : p ∉ ys := by
      intro hx
      rw [List.nodup_append] at hnd
      exact hnd.2.2 p (by simp) p (by simp [hx]) rfl
    have hpr : p ≠ r' := fun e => hxn (by simp [e])
    rw [hp]
    cases ys with
    | nil =>
      have hl : (s.lists i).last = r' := b1
      refine ⟨_, by simp only [dllRemove, if_neg hfn', if_pos hl, State.getPrev, if_neg hn0, p1, State.setLast, upd_self, ne_eq, p2, not_false_eq_true, if_true, Option.bind_eq_bind, Option.bind_some, State.setNext, if_false]; rfl, h.intro ?_ ?_ ?_ ?_ ?_ hap⟩
      · intro k hk; simp [upd, hk]
      · intro k hk x hx; exact upd_ne _ _ (hk' k hk x hx p (by simp))
      · intro k hk x hx; rfl
      · simp only [upd_self]
        rw [List.append_nil]
        exact visits_snoc.2 ⟨visits_frame (fun x hx => upd_ne _ _ (fun e : x = p => hpa (e ▸ hx))) v1, v2, upd_self _ _ _⟩
      · simp only [upd_self]
        rw [List.append_nil, List.reverse_append]
        exact ⟨rfl, p2, p3⟩
    | cons g zs' =>
      obtain ⟨g1, g2, g3⟩ := w4
      have hb1 := b1
      rw [List.reverse_cons] at b1
      obtain ⟨c1, c2, c3⟩ := visits_snoc.1 b1
      have hlm : ¬ (s.lists i).last = r' := by
        intro e
        have hrev : (g :: zs').reverse ≠ [] := by simp
        cases hr : (g :: zs').reverse with
        | nil => exact hrev hr
        | cons y ys' =>
          rw [hr] at hb1
          have hy : y ∈ (g :: zs') := List.mem_reverse.1 (by rw [hr]; simp)
          have : y = r' := hb1.1.symm.trans e
          exact hyn (this ▸ hy)
      have hgz : g ∉ zs' := by
        intro hx
        rw [List.nodup_append, List.nodup_cons, List.nodup_cons] at hnd
        exact hnd.2.1.2.1 hx
      have hga : ∀ x ∈ as ++ [p], x ≠ g := by
        intro x hx e
        rw [List.nodup_append] at hnd
        exact hnd.2.2 x hx g (by simp) e
      refine ⟨_, by simp only [dllRemove, if_neg hfn', if_neg hlm, State.getPrev, State.getNext, if_neg hn0, p1, Option.bind_eq_bind, Option.bind_some, State.setNext, State.setPrev, if_neg p2, upd_ne s.next _ hpr.symm, g1, if_neg g2]; rfl, h.intro ?_ ?_ ?_ ?_ ?_ hap⟩
      · intro k hk; rfl
      · intro k hk x hx; exact upd_ne _ _ (hk' k hk x hx p (by simp))
      · intro k hk x hx; exact upd_ne _ _ (hk' k hk x hx g (by simp))
      · rw [List.append_assoc]
        refine visits_append.2 ⟨p, visits_frame (fun x hx => upd_ne _ _ (fun e : x = p => hpa (e ▸ hx))) v1, rfl, p2, ?_⟩
        show Visits _ (upd s.next p g p) (g :: zs') 0
        rw [upd_self]
        exact visits_frame (xs := g :: zs') (fun x hx => upd_ne _ _ (fun e : x = p => hpy (e ▸ hx))) ⟨rfl, g2, g3⟩
      · rw [List.reverse_append, List.reverse_cons, List.append_assoc]
        refine visits_append.2 ⟨g, visits_frame (fun x hx => upd_ne _ _ (fun e : x = g => hgz (e ▸ List.mem_reverse.1 hx))) c1, rfl, g2, ?_⟩
        show Visits _ (upd s.prev g p g) (as ++ [p]).reverse 0
        rw [upd_self, List.reverse_append]
        refine visits_frame (xs := p :: as.reverse) (f := s.prev) ?_ ⟨rfl, p2, p3⟩
        intro x hx
        refine upd_ne _ _ (hga x ?_)
        rcases List.mem_cons.1 hx with hx | hx
        · simp [hx]
        · simp [List.mem_reverse.1 hx]

theorem dapply_ok {s : State} {c : Contents} (h : DRep s c) (o : DOp) (ho : o.ok c) : ∃ s', dapply s o = some s' ∧ DRep s' (o.apply c) := by
  cases o with
  | pushBack i n => exact dllPushBack_ok h ho
  | pushFront i n => exact dllPushFront_ok h ho
  | pushBackList i j => exact dllPushBackList_ok h ho
  | remove i n => exact dllRemove_ok h ho

theorem drun_ok : ∀ (os : List DOp) {s : State} {c : Contents}, DRep s c → DValid c os →
    ∃ s', drun s os = some s' ∧ DRep s' (os.foldl DOp.apply c)
  | [], s, _, h, _ => ⟨s, rfl, h⟩
  | o :: os, s, c, h, hv => by
    obtain ⟨s1, h1, h2⟩ := dapply_ok h o hv.1
    obtain ⟨s2, h3, h4⟩ := drun_ok os h2 hv.2
    exact ⟨s2, by simp only [drun, h1, Option.bind_some, h3], h4⟩

/-- **C61**: after any history of operations on any number of doubly linked lists, whatever the links of the nodes were
before, no null pointer was dereferenced, walking along each list visits exactly the nodes the history put there, in
order, and walking back visits them in the opposite order. -/
theorem C61_doubly_linked (next prev : Nat → Nat) (os : List DOp) (hv : DValid (fun _ => []) os) :
    ∃ s, drun (State.init next prev) os = some s ∧ ∀ i, Visits s.next (s.lists i).first (os.foldl DOp.apply (fun _ => []) i) 0 ∧
      Visits s.prev (s.lists i).last (os.foldl DOp.apply (fun _ => []) i).reverse 0 := by
  obtain ⟨s, h1, h2⟩ := drun_ok os (s := State.init next prev) (c := fun _ => []) ⟨fun _ => rfl, fun _ => rfl, fun _ _ _ _ hx => by cases hx⟩ hv
  exact ⟨s, h1, fun i => ⟨h2.walk i, h2.back i⟩⟩

/-- **C61**: what walking along a list visits is unique, and no node is visited twice. -/
theorem C61_walk_unique (next : Nat → Nat) (p : Nat) (xs ys : List Nat) (hx : Visits next p xs 0) (hy : Visits next p ys 0) :
    xs = ys ∧ xs.Nodup := ⟨visits_det hx hy, visits_nodup hx⟩

/-- A history that meets the hypothesis, with two lists. -/
example : Valid (fun _ => []) [.pushBack 0 5, .pushFront 0 6, .pushBack 1 7, .pushBack 1 8, .pushFrontList 0 1, .remove 0 6 8, .popFront 0] ∧
    [Op.pushBack 0 5, .pushFront 0 6, .pushBack 1 7, .pushBack 1 8, .pushFrontList 0 1, .remove 0 6 8, .popFront 0].foldl Op.apply (fun _ => []) 0 = [8, 5] := by
  refine ⟨⟨⟨by decide, fun i => by simp⟩, ⟨by decide, fun i => ?_⟩, ⟨by decide, fun i => ?_⟩, ⟨by decide, fun i => ?_⟩, show (0 : Nat) ≠ 1 by decide, .inr ⟨[7], [5], by decide⟩, trivial, trivial⟩, by decide⟩
  all_goals
    simp only [Op.apply, Contents.set]
    repeat' split
    all_goals simp

example : DValid (fun _ => []) [.pushBack 0 5, .pushFront 0 6, .pushBack 0 7, .remove 0 5, .remove 0 7] := by
  refine ⟨⟨by decide, fun i => by simp⟩, ⟨by decide, fun i => ?_⟩, ⟨by decide, fun i => ?_⟩, show 5 ∈ [6, 5, 7] by decide, show 7 ∈ [6, 7] by decide, trivial⟩
  all_goals
    simp only [DOp.apply, Contents.set]
    repeat' split
    all_goals simp

end Verif.IntrusiveList
