import Verif.Model.FloatFold

/-!
# C17: comparison of floating literals
-/
namespace Verif.Props.FloatFold
open Verif.IntType Verif.FloatFold

/-- What C requires: an `int` which is 1 if the relation holds and 0 otherwise. -/
def Correct {F : Type} (H : Host F) (r : Rel) (a b : F) (res : Ty × Nat) : Prop :=
  res = (.s32, if H.cmp r a b then 1 else 0)

/-- C17 holds exactly when the relation is true: a comparison that should give 0 is folded to 1.
(Full property: `∀ a b, Correct H r a b (foldCompare H r a b)`.) -/
theorem C17_correct_iff_true_partial {F : Type} (H : Host F) (r : Rel) (a b : F) :
    Correct H r a b (foldCompare H r a b) ↔ H.cmp r a b = true := by
  cases h : H.cmp r a b <;> simp [Correct, foldCompare, h]

/-- Finding (C17): whatever the floating point type, the property fails as soon as there are two
values for which some relation is false (for example `1.0 < 0.0`). -/
theorem C17_false_comparison_wrong {F : Type} (H : Host F) (r : Rel) (a b : F) (h : H.cmp r a b = false) :
    foldCompare H r a b = (.s32, 1) ∧ ¬ Correct H r a b (foldCompare H r a b) := by
  simp [Correct, foldCompare, h]

/-- Integers as a stand-in for floats: `1.0 < 0.0` folds to 1. -/
example : (⟨fun r a b => match r with
    | .eq => a == b | .ne => a != b | .ge => decide (a ≥ b) | .le => decide (a ≤ b)
    | .gt => decide (a > b) | .lt => decide (a < b)⟩ : Host Int).cmp .lt 1 0 = false := by decide

end Verif.Props.FloatFold
