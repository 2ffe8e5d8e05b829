import Verif.Model.Enum

/-!
# C23: enumerator values
-/
namespace Verif.Props.Enum
open Verif.Enum

/-- Specification (C11 6.7.2.2p3): the value of each enumerator is its explicit value, or
one more than the previous one; `next` is the value of an enumerator without one. -/
def values : List (Option Int) → Int → List Int
  | [], _ => []
  | some v :: es, _ => v :: values es (v + 1)
  | none :: es, next => next :: values es (next + 1)

/-- A value of type `int`. -/
def IsInt (v : Int) : Prop := -2147483648 ≤ v ∧ v ≤ 2147483647

theorem toS32_of_isInt {v : Int} (h : IsInt v) : toS32 v = v := by
  unfold IsInt at h; unfold toS32; omega

/-- C23: if all values are representable as `int`, there is no diagnostic and every
enumerator has the value C prescribes. -/
theorem C23_values (es : List (Option Int)) (h : ∀ v ∈ values es 0, IsInt v) :
    enumerators es 0 = some (values es 0) := by
  suffices ∀ next : Int, (∀ v ∈ values es next, IsInt v) → enumerators es next = some (values es next) from this 0 h
  clear h
  induction es with
  | nil => intro next _; rfl
  | cons e es ih =>
    intro next h
    cases e with
    | none =>
      have h1 : IsInt next := h next (by simp [values])
      have h2 := ih (next + 1) (fun v hv => h v (by simp [values, hv]))
      have h3 := toS32_of_isInt h1
      unfold IsInt at h1
      have hc : -2^31 ≤ next ∧ next ≤ 2^31 - 1 := by omega
      simp only [enumerators, values, h2, hc, if_true, and_self, h3]
      rfl
    | some v =>
      have h1 : IsInt v := h v (by simp [values])
      have h2 := ih (v + 1) (fun w hw => h w (by simp [values, hw]))
      have h3 := toS32_of_isInt h1
      have h4 : toS64 v = v := by unfold IsInt at h1; unfold toS64; omega
      unfold IsInt at h1
      have hc : -2^31 ≤ v ∧ v ≤ 2^31 - 1 := by omega
      simp only [enumerators, values, h4, h2, hc, if_true, and_self, h3]
      rfl

/-- An explicit value that the 64-bit evaluation of the code can hold. -/
def Explicit64 (es : List (Option Int)) : Prop := ∀ v, some v ∈ es → -2^63 ≤ v ∧ v < 2^64

/-- C23, the full statement demands a diagnostic exactly if some value is not an `int`.
That is false (see below). Proved: the outcome is an error exactly if an explicit value,
as a signed 64-bit number, is outside of `[-2^31, 2^32-1]`. -/
theorem C23_error_iff_partial (es : List (Option Int)) (next : Int) (hn : -2^31 ≤ next ∧ next ≤ 2^31) :
    enumerators es next = none ↔ ∃ v, some v ∈ es ∧ (toS64 v < -2^31 ∨ 2^32 ≤ toS64 v) := by
  induction es generalizing next with
  | nil => simp [enumerators]
  | cons e es ih =>
    have key : ∀ c : Int, -2^31 ≤ c ∧ c ≤ 2^32 - 1 →
        ((if -2^31 ≤ c ∧ c ≤ 2^31 - 1 then (enumerators es (c + 1)).map (toS32 c :: ·)
          else if 2^31 - 1 < c ∧ c ≤ 2^32 - 1 then
            (enumerators es (toS32 c + 1)).map (toS32 (toS32 c) :: ·)
          else none) = none ↔ ∃ v, some v ∈ es ∧ (toS64 v < -2^31 ∨ 2^32 ≤ toS64 v)) := by
      intro c hc
      split
      · rw [Option.map_eq_none_iff]; exact ih _ (by omega)
      · rw [if_pos (by omega), Option.map_eq_none_iff]
        exact ih _ (by unfold toS32; omega)
    cases e with
    | none =>
      simp only [enumerators]
      rw [key next (by omega)]
      simp
    | some w =>
      simp only [enumerators]
      by_cases hw : -2^31 ≤ toS64 w ∧ toS64 w ≤ 2^32 - 1
      · rw [key _ hw]
        constructor
        · rintro ⟨v, hv, h⟩; exact ⟨v, by simp [hv], h⟩
        · rintro ⟨v, hv, h⟩
          rcases List.mem_cons.1 hv with h1 | h1
          · cases h1; omega
          · exact ⟨v, h1, h⟩
      · rw [if_neg (by omega), if_neg (by omega)]
        simp only [true_iff]
        exact ⟨w, by simp, by omega⟩

/-- C23: without an error every stored value is an `int` that agrees with the prescribed
value modulo 2^32. -/
theorem C23_values_mod (es : List (Option Int)) (r : List Int) (h : enumerators es 0 = some r) :
    r.length = es.length ∧ (values es 0).length = es.length ∧
    ∀ p ∈ r.zip (values es 0), IsInt p.1 ∧ p.1 % 2^32 = p.2 % 2^32 := by
  suffices ∀ (cur next : Int), cur % 2^32 = next % 2^32 → ∀ r, enumerators es cur = some r →
      r.length = es.length ∧ (values es next).length = es.length ∧
        ∀ p ∈ r.zip (values es next), IsInt p.1 ∧ p.1 % 2^32 = p.2 % 2^32 from this 0 0 rfl r h
  clear h
  induction es with
  | nil => intro cur next _ r h; simp [enumerators] at h; subst h; simp [values]
  | cons e es ih =>
    have key : ∀ c n : Int, c % 2^32 = n % 2^32 → ∀ r,
        (if -2^31 ≤ c ∧ c ≤ 2^31 - 1 then (enumerators es (c + 1)).map (toS32 c :: ·)
          else if 2^31 - 1 < c ∧ c ≤ 2^32 - 1 then
            (enumerators es (toS32 c + 1)).map (toS32 (toS32 c) :: ·)
          else none) = some r →
        r.length = es.length + 1 ∧ (values es (n + 1)).length + 1 = es.length + 1 ∧
        ∀ p ∈ r.zip (n :: values es (n + 1)), IsInt p.1 ∧ p.1 % 2^32 = p.2 % 2^32 := by
      intro c n hcn r hr
      have fin : ∀ (a : Int) (r' : List Int), IsInt a → a % 2^32 = n % 2^32 → (∃ c' : Int, c' % 2^32 = (n + 1) % 2^32 ∧
          enumerators es c' = some r') → (a :: r').length = es.length + 1 ∧ (values es (n + 1)).length + 1 = es.length + 1 ∧
          ∀ p ∈ (a :: r').zip (n :: values es (n + 1)), IsInt p.1 ∧ p.1 % 2^32 = p.2 % 2^32 := by
        rintro a r' h1 h2 ⟨c', h3, h4⟩
        obtain ⟨g1, g2, g3⟩ := ih c' (n + 1) h3 r' h4
        refine ⟨by simp [g1], by simp [g2], ?_⟩
        intro p hp
        rcases List.mem_cons.1 hp with rfl | hp
        · exact ⟨h1, h2⟩
        · exact g3 p hp
      split at hr
      · obtain ⟨r', h1, rfl⟩ := Option.map_eq_some_iff.1 hr
        exact fin _ _ (by unfold IsInt toS32; omega) (by unfold toS32; omega) ⟨c + 1, by omega, h1⟩
      · split at hr
        · obtain ⟨r', h1, rfl⟩ := Option.map_eq_some_iff.1 hr
          exact fin _ _ (by unfold IsInt toS32; omega) (by unfold toS32; omega) ⟨_, by unfold toS32; omega, h1⟩
        · simp at hr
    intro cur next hcn r h
    cases e with
    | none => simpa [values] using key cur next hcn r h
    | some v => simpa [values] using key (toS64 v) v (by unfold toS64; omega) r h

/-- C23 is violated: `enum { A = 0x7fffffff, B }` gives `B` the value `-2147483648`
without a diagnostic. -/
theorem C23_overflow_not_diagnosed :
    enumerators [some 0x7fffffff, none] 0 = some [0x7fffffff, -2147483648] ∧
    values [some 0x7fffffff, none] 0 = [0x7fffffff, 2147483648] := by decide

/-- C23 is violated: `enum { A = 0xffffffffffffffff }` silently gives -1. -/
theorem C23_large_explicit_not_diagnosed :
    enumerators [some 0xffffffffffffffff] 0 = some [-1] := by decide

/-- The hypothesis of `C23_values` for `enum { A, B = -5, C, D, E = 2147483647 }`. -/
example : ∀ v ∈ values [none, some (-5), none, none, some 2147483647] 0, IsInt v := by
  simp [values, IsInt]
example : enumerators [none, some (-5), none, none, some 2147483647] 0 = some [0, -5, -4, -3, 2147483647] := by decide
example : enumerators [none, some 0x100000000, none] 0 = none := by decide

end Verif.Props.Enum
