import Verif.Lemmas.ImageWrites
import Verif.Props.Align

/-!
# Lemmas: the table of string literals
-/
namespace Verif.Lemmas.Image
open Verif.Model.Image Verif.Align

/-- How many cells are used. -/
def used (s : Strings) : Nat := s.cells.countP (·.isSome)

/-- The cells refer to strings, and strings are aligned. -/
def Fine (s : Strings) : Prop := (∀ (i : Nat) e, s.cells[i]? = some (some e) → e < s.emitted.length) ∧ ∀ x ∈ s.emitted, 0 < x.2

theorem sameString_eq {h v : List Nat} {n : Nat} (e : sameString h v n = true) : h = v ++ zeros n := by
  unfold sameString at e
  simp only [Bool.and_eq_true, decide_eq_true_eq] at e
  obtain ⟨⟨h1, h2⟩, h3⟩ := e
  rw [List.take_of_length_le (by rw [List.length_drop]; omega)] at h2
  rw [← List.take_append_drop v.length h, h2, h3]

theorem countP_set_le {α : Type} (f : α → Bool) : (l : List α) → (i : Nat) → (a : α) → (l.set i a).countP f ≤ l.countP f + 1
  | [], _, _ => by simp
  | x :: l, 0, a => by
    rw [List.set_cons_zero, List.countP_cons, List.countP_cons]
    split <;> split <;> omega
  | x :: l, i + 1, a => by
    rw [List.set_cons_succ, List.countP_cons, List.countP_cons]
    have := countP_set_le f l i a
    omega

/-- What the search does when it finds something. -/
theorem intern_spec (value : List Nat) (element : Nat) (he : 0 < element) (s : Strings) (hs : Fine s) : (fuel k : Nat) → (s' : Strings) → (e : Nat) →
    intern value element s fuel k = (s', some e) →
    Fine s' ∧ s'.cells.length = s.cells.length ∧ used s' ≤ used s + 1 ∧ (∃ t, s'.emitted = s.emitted ++ t) ∧
      ∃ a, 0 < a ∧ s'.emitted[e]? = some (value ++ zeros element, a)
  | 0, _, _, _, h => by cases h
  | fuel + 1, k, s', e, h => by
    rw [intern] at h
    split at h
    · cases h
      refine ⟨⟨fun i e hi => ?_, fun x hx => ?_⟩, List.length_set, countP_set_le _ _ _ _, ⟨_, rfl⟩, element, he, ?_⟩
      · simp only [List.length_append, List.length_singleton]
        rw [List.getElem?_set] at hi
        split at hi
        · split at hi
          · have := Option.some.inj (Option.some.inj hi); omega
          · cases hi
        · have := hs.1 i e hi; omega
      · rcases List.mem_append.1 hx with hx | hx
        · exact hs.2 x hx
        · rw [List.mem_singleton] at hx; subst hx; exact he
      · simp
    · next c hc =>
      split at h
      · next hsame =>
        cases h
        have hget : s.cells[(djb2 value + k) % s.cells.length]? = some (some e) := by
          rw [List.getD_eq_getElem?_getD] at hc
          cases hq : s.cells[(djb2 value + k) % s.cells.length]? with
          | none => rw [hq] at hc; cases hc
          | some c => rw [hq] at hc; rw [show c = some e from hc]
        have hlt := hs.1 _ _ hget
        refine ⟨hs, rfl, Nat.le_succ _, ⟨[], (List.append_nil _).symm⟩, (s.emitted.getD e ([], 0)).2, ?_, ?_⟩
        · rw [List.getD_eq_getElem?_getD, List.getElem?_eq_getElem hlt]
          exact hs.2 _ (List.getElem_mem hlt)
        · rw [List.getElem?_eq_getElem hlt, ← sameString_eq hsame]
          rw [List.getD_eq_getElem?_getD, List.getElem?_eq_getElem hlt]
          rfl
      · exact intern_spec value element he s hs fuel (k + 1) s' e h

/-- The search finds something if there is an empty cell. -/
theorem intern_finds (value : List Nat) (element : Nat) (s : Strings) : (fuel k k' : Nat) → k ≤ k' → k' < k + fuel →
    s.cells.getD ((djb2 value + k') % s.cells.length) none = none → ∃ s' e, intern value element s fuel k = (s', some e)
  | 0, _, _, h1, h2, _ => by omega
  | fuel + 1, k, k', h1, h2, h => by
    rw [intern]
    split
    · exact ⟨_, _, rfl⟩
    · next c hc =>
      split
      · exact ⟨_, _, rfl⟩
      · refine intern_finds value element s fuel (k + 1) k' ?_ (by omega) h
        rcases Nat.lt_or_ge k k' with h3 | h3
        · exact h3
        · have : k = k' := by omega
          subst this
          rw [h] at hc; cases hc

theorem probe (h cap idx : Nat) (hi : idx < cap) : ∃ k, k < cap ∧ (h + k) % cap = idx := by
  have hr : h % cap < cap := Nat.mod_lt _ (by omega)
  rcases Nat.le_total (h % cap) idx with hle | hle
  · refine ⟨idx - h % cap, by omega, ?_⟩
    rw [Nat.add_mod, Nat.mod_eq_of_lt (show idx - h % cap < cap by omega), show h % cap + (idx - h % cap) = idx by omega, Nat.mod_eq_of_lt hi]
  · rcases Nat.eq_or_lt_of_le hle with heq | hlt
    · exact ⟨0, by omega, by rw [Nat.add_zero]; exact heq.symm⟩
    · refine ⟨idx + cap - h % cap, by omega, ?_⟩
      rw [Nat.add_mod, Nat.mod_eq_of_lt (show idx + cap - h % cap < cap by omega), show h % cap + (idx + cap - h % cap) = idx + cap by omega,
        Nat.add_mod_right, Nat.mod_eq_of_lt hi]

theorem intern_total (value : List Nat) (element : Nat) (s : Strings) (h : used s < s.cells.length) :
    ∃ s' e, intern value element s s.cells.length 0 = (s', some e) := by
  obtain ⟨idx, hi, hn⟩ : ∃ idx, ∃ h : idx < s.cells.length, s.cells[idx] = none := by
    apply Classical.byContradiction
    intro hc
    have : used s = s.cells.length := by
      unfold used
      rw [List.countP_eq_length]
      intro a ha
      obtain ⟨i, hi, e⟩ := List.getElem_of_mem ha
      cases a with
      | none => exact absurd ⟨i, hi, e⟩ hc
      | some _ => rfl
    omega
  obtain ⟨k, hk, e⟩ := probe (djb2 value) _ idx hi
  refine intern_finds value element s _ 0 k (Nat.zero_le _) (by omega) ?_
  rw [e, List.getD_eq_getElem?_getD, List.getElem?_eq_getElem hi, hn]
  rfl

theorem internAll_spec : (l : List (List Nat × Nat)) → (∀ x ∈ l, 0 < x.2) → (s : Strings) → Fine s → used s + l.length ≤ s.cells.length →
    (∀ x ∈ (internAll s l).1.emitted, 0 < x.2) ∧ (∃ t, (internAll s l).1.emitted = s.emitted ++ t) ∧
      ∀ (i : Nat) v n, l[i]? = some (v, n) → ∃ e a, 0 < a ∧ (internAll s l).2[i]? = some (some e) ∧ (internAll s l).1.emitted[e]? = some (v ++ zeros n, a)
  | [], _, s, hs, _ => ⟨hs.2, ⟨[], (List.append_nil _).symm⟩, fun i v n h => by cases h⟩
  | (value, element) :: rest, hp, s, hs, hl => by
    obtain ⟨s', e, h⟩ := intern_total value element s (by rw [List.length_cons] at hl; omega)
    obtain ⟨f1, f2, f3, ⟨t, f4⟩, a, ha, f5⟩ := intern_spec value element (hp (value, element) List.mem_cons_self) s hs _ _ s' e h
    obtain ⟨g1, ⟨t', g2⟩, g3⟩ := internAll_spec rest (fun x hx => hp x (List.mem_cons_of_mem _ hx)) s' f1 (by rw [List.length_cons] at hl; omega)
    rw [internAll]
    simp only [h]
    refine ⟨g1, ⟨t ++ t', by rw [g2, f4, List.append_assoc]⟩, fun i v n hi => ?_⟩
    cases i with
    | zero =>
      cases hi
      refine ⟨e, a, ha, rfl, ?_⟩
      have hlt : e < s'.emitted.length := by
        rcases Nat.lt_or_ge e s'.emitted.length with h | h
        · exact h
        · rw [List.getElem?_eq_none h] at f5; cases f5
      rw [g2, List.getElem?_append_left hlt]
      exact f5
    | succ i => exact g3 i v n hi

theorem capacity_le {n : Nat} (h0 : 0 < n) (h1 : n < 2 ^ 61) : n ≤ capacity n := by
  have e : (BitVec.ofNat 64 (n * 3 / 2)).toNat = n * 3 / 2 := by rw [BitVec.toNat_ofNat]; omega
  have := (Verif.Props.Align.C46_roundUp64 (BitVec.ofNat 64 (n * 3 / 2)) (by rw [e]; omega) (by rw [e]; omega)).2.1
  unfold capacity
  rw [e] at this
  omega

theorem interned_spec {p : Program} (hv : Valid p) : (∀ x ∈ (interned p).1.emitted, 0 < x.2) ∧
    ∀ (i : Nat) v n, p.strings[i]? = some (v, n) → ∃ e a, 0 < a ∧ (interned p).2[i]? = some (some e) ∧ (interned p).1.emitted[e]? = some (v ++ zeros n, a) := by
  have h : used ⟨List.replicate (capacity p.strings.length) none, []⟩ + p.strings.length ≤ (List.replicate (capacity p.strings.length) (none : Option Nat)).length := by
    unfold used
    rw [List.countP_replicate, if_neg (by simp), List.length_replicate]
    cases hn : p.strings.length with
    | zero => omega
    | succ n =>
      have := capacity_le (n := p.strings.length) (by omega) hv.manyStrings
      rw [hn] at this
      omega
  have hf : Fine ⟨List.replicate (capacity p.strings.length) none, []⟩ := by
    refine ⟨fun i e hi => ?_, fun x hx => by cases hx⟩
    rw [List.getElem?_replicate] at hi
    split at hi <;> cases hi
  have := internAll_spec p.strings (fun x hx => by rcases hv.elements x hx with h | h | h <;> omega) _ hf h
  exact ⟨this.1, this.2.2⟩

end Verif.Lemmas.Image
