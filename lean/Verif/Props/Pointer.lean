import Verif.Model.Pointer
import Verif.Lemmas.Fold

/-!
# C21: pointer arithmetic

Specification: element `i` of an array of elements of `size` bytes at address `p` has the
address `p + i * size` (modulo 2^64).
-/
namespace Verif.Props.Pointer
open Verif.IntType Verif.Fold Verif.Pointer Verif.Spec.IntType Verif.Spec.Fold Verif.Lemmas.Fold

/-- `a` is the address of element `i`. -/
def IsElement (p size : Nat) (i : Int) (a : Nat) : Prop :=
  a < 2 ^ 64 ∧ (2 ^ 64 : Int) ∣ (a : Int) - (p + i * size)
instance (p size : Nat) (i : Int) (a : Nat) : Decidable (IsElement p size i a) := by unfold IsElement; infer_instance

theorem scale_dvd (w : Int) (size : Nat) :
    (2 ^ 64 : Int) ∣ ((hostConv 64 true w % 2 ^ 64).toNat * size : Nat) - w * size := by
  have h : (2 ^ 64 : Int) ∣ ((hostConv 64 true w % 2 ^ 64).toNat : Int) - w := by
    simp only [hostConv, rd]; split <;> omega
  have := Int.dvd_trans h ⟨(size : Int), rfl⟩
  rwa [Int.sub_mul, ← Int.natCast_mul] at this

/-- C21: `p + i` and `p - i` with an index computed at run time, of any integer type, address
element `i` (or `-i`). -/
theorem C21_run_time (size p : Nat) (hs : size < 2 ^ 64) (hp : p < 2 ^ 64) (t : Ty) (w : Int) (_h : InRange t w) :
    IsElement p size w (runTime true size p w) ∧ IsElement p size (-w) (runTime false size p w) := by
  have h := scale_dvd w size
  have key : ∃ i : Nat, i < 2 ^ 64 ∧ (2 ^ 64 : Int) ∣ (i : Int) - w * size ∧
      ∀ plus, runTime plus size p w = if plus then (p + i) % 2 ^ 64 else (p + (2 ^ 64 - i)) % 2 ^ 64 := by
    by_cases h1 : size = 1
    · subst h1
      refine ⟨(hostConv 64 true w % 2 ^ 64).toNat, by omega, by simpa using h, fun plus => by simp [runTime]⟩
    · refine ⟨(hostConv 64 true w % 2 ^ 64).toNat * size % 2 ^ 64, by omega, ?_, fun plus => by simp [runTime, h1]⟩
      generalize (hostConv 64 true w % 2 ^ 64).toNat * size = k at *
      generalize w * size = m at *
      omega
  obtain ⟨i, hi, hd, he⟩ := key
  rw [he, he]
  simp only [IsElement, if_true, Bool.false_eq_true, if_false, Int.neg_mul]
  generalize w * size = m at *
  omega

/-- C21: the same with a literal index, unless the multiplication overflows 64 bits. -/
theorem C21_literal_index (size p : Nat) (hp : p < 2 ^ 64) (l : Lit) (w : Int) (hl : Represents l w)
    (hr : -2 ^ 63 ≤ w * size ∧ w * size < 2 ^ 63) :
    ∃ a b, literalIndex true size p l = some a ∧ literalIndex false size p l = some b ∧
      IsElement p size w a ∧ IsElement p size (-w) b := by
  have hg := get_eq hl
  have hcase : ∃ s : Int, (∀ plus, literalIndex plus size p l =
      some (if plus then (p + (s % 2 ^ 64).toNat) % 2 ^ 64 else (p + (2 ^ 64 - (s % 2 ^ 64).toNat)) % 2 ^ 64)) ∧
      (2 ^ 64 : Int) ∣ s - w * size := by
    by_cases hsgn : l.ty.isSigned = true
    · have hw : hostConv 64 true w = w := by
        have hi := hl.1; have hr := hl.2.1
        cases hty : l.ty <;> rw [hty] at hi hr <;> first | exact absurd hi id |
          (rw [hty] at hsgn; first | exact absurd hsgn (by decide) | (simp [InRange, minVal, maxVal] at hr; simp [hostConv, rd]; omega))
      refine ⟨w * size, fun plus => ?_, by simp⟩
      simp only [literalIndex, hg, hsgn, if_true, hw]
      rw [hostArith_signed (t := .s64) (by decide) (by simp only [InRange, minVal, maxVal]; omega)]
      rfl
    · have hw : hostConv 64 false w = w := by
        have hi := hl.1; have hr := hl.2.1
        cases hty : l.ty <;> rw [hty] at hi hr <;> first | exact absurd hi id |
          (rw [hty] at hsgn; first | exact absurd rfl hsgn | (simp [InRange, minVal, maxVal] at hr; simp [hostConv, rd]; omega))
      refine ⟨(w * size) % 2 ^ 64, fun plus => ?_, ?_⟩
      · rw [literalIndex, if_neg hsgn, hg, hw]
        rfl
      · generalize w * size = m at *; omega
  obtain ⟨s, he, hd⟩ := hcase
  refine ⟨_, _, he true, he false, ?_⟩
  simp only [IsElement, if_true, Bool.false_eq_true, if_false, Int.neg_mul]
  generalize w * size = m at *
  omega

/-- C21: a literal pointer and a literal index: only right for elements of size 1. -/
theorem C21_both_literal_partial (p : Nat) (hp : p < 2 ^ 64) (l : Lit) (w : Int) (hl : Represents l w) :
    IsElement p 1 w (bothLiteral true 1 p l) ∧ IsElement p 1 (-w) (bothLiteral false 1 p l) := by
  have h := scale_dvd w 1
  have hg := get_eq hl
  simp only [bothLiteral, hg, IsElement, if_true, Bool.false_eq_true, if_false]
  have hk : (hostConv 64 true w % 2 ^ 64).toNat < 2 ^ 64 := by omega
  generalize (hostConv 64 true w % 2 ^ 64).toNat = k at *
  omega

/-- Finding (C21): `(int *)0 + 1` is folded to address 1 instead of 4. -/
theorem C21_both_literal_unscaled :
    bothLiteral true 4 0 ⟨.s32, 1⟩ = 1 ∧ ¬ IsElement 0 4 1 1 ∧ runTime true 4 0 1 = 4 := by decide

/-- C21, differences: for `p` at or above `q`, less than 2^63 bytes apart, a whole number of
elements apart, `p - q` is the element distance; for elements of size 1 also below. -/
theorem C21_difference_partial (size p q : Nat) (k : Int) (h0 : 0 < size) (hp : p < 2 ^ 64) (hq : q < 2 ^ 64)
    (hk : (p : Int) = q + k * size) (hr : -2 ^ 63 ≤ k * size ∧ k * size < 2 ^ 63) (hpos : 0 ≤ k ∨ size = 1) :
    difference size p q = some k := by
  by_cases h1 : size = 1
  · subst h1
    simp only [difference, ne_eq, not_true, if_false]
    simp only [Int.natCast_one, Int.mul_one] at hk hr
    congr 1
    have e : (p + (2 ^ 64 - q)) % 2 ^ 64 = (k % 2 ^ 64).toNat := by omega
    rw [e]
    simp only [rd, Nat.reducePow, Nat.reduceSub, true_and]
    split <;> omega
  · have hk0 : 0 ≤ k := by omega
    obtain ⟨n, rfl⟩ := Int.eq_ofNat_of_zero_le hk0
    have hn : p = q + n * size := by exact_mod_cast hk
    have hd : (p + (2 ^ 64 - q)) % 2 ^ 64 = n * size := by
      have : ((n * size : Nat) : Int) < 2 ^ 63 := by simpa using hr.2
      omega
    have hsmall : n * size < 2 ^ 63 := by
      have : ((n * size : Nat) : Int) < 2 ^ 63 := by simpa using hr.2
      omega
    have hle : n ≤ n * size := Nat.le_mul_of_pos_right n h0
    simp only [difference, if_pos h1, hd, if_neg (show size ≠ 0 by omega), Nat.mul_div_cancel n h0, rd]
    congr 1
    split <;> omega

/-- Finding (C21): the difference is divided unsigned, so a negative distance is wrong: with
4-byte elements `&a[0] - &a[1]` gives 2^62 - 1 instead of -1. -/
theorem C21_negative_difference_wrong :
    difference 4 0x1000 0x1004 = some 4611686018427387903 ∧ ((0x1000 : Int) = 0x1004 + (-1) * 4) := by decide

example : IsElement 0x1000 24 (-2) (runTime true 24 0x1000 (-2)) ∧ runTime true 24 0x1000 (-2) = 0x1000 - 48 ∧
    difference 24 0x1030 0x1000 = some 2 ∧ literalIndex false 4 0x1000 ⟨.u8, 255⟩ = some (0x1000 - 1020) := by decide

end Verif.Props.Pointer
