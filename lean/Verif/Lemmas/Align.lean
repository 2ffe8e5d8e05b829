import Verif.Model.Align

namespace Verif.Align

theorem mod_or_mask (m k : Nat) : (m % 2^k) ||| (2^k - 1) = 2^k - 1 := by
  apply Nat.eq_of_testBit_eq
  intro i
  simp only [Nat.testBit_or, Nat.testBit_mod_two_pow, Nat.testBit_two_pow_sub_one]
  by_cases h : i < k <;> simp [h]

theorem or_mask (m k : Nat) : m ||| (2^k - 1) = 2^k * (m / 2^k) + (2^k - 1) := by
  have hp : 0 < 2^k := Nat.two_pow_pos k
  have h1 : m = 2^k * (m / 2^k) ||| (m % 2^k) := by
    rw [← Nat.two_pow_add_eq_or_of_lt (Nat.mod_lt _ hp), Nat.div_add_mod]
  rw [Nat.two_pow_add_eq_or_of_lt (by omega)]
  conv => lhs; rw [h1]
  rw [Nat.or_assoc, mod_or_mask]

/-- `alignUp` for positive arguments. -/
theorem alignUp_pos (x k : Nat) (hx : 0 < x) : alignUp x (2^k) = 2^k * ((x - 1) / 2^k + 1) := by
  have hp : 0 < 2^k := Nat.two_pow_pos k
  unfold alignUp
  rw [if_neg (by omega), or_mask, Nat.mul_add]; omega

theorem dvd_alignUp (x k : Nat) : 2^k ∣ alignUp x (2^k) := by
  by_cases hx : x = 0
  · simp [alignUp, hx]
  · rw [alignUp_pos x k (by omega)]; exact ⟨_, rfl⟩

theorem le_alignUp (x k : Nat) : x ≤ alignUp x (2^k) := by
  by_cases hx : x = 0
  · simp [hx]
  · rw [alignUp_pos x k (by omega), Nat.mul_add]
    have := Nat.div_add_mod (x-1) (2^k)
    have := Nat.mod_lt (x-1) (Nat.two_pow_pos k)
    omega

theorem alignUp_lt (x k : Nat) : alignUp x (2^k) < x + 2^k := by
  have hp : 0 < 2^k := Nat.two_pow_pos k
  by_cases hx : x = 0
  · simp [alignUp, hx, hp]
  · rw [alignUp_pos x k (by omega), Nat.mul_add]
    have := Nat.div_add_mod (x-1) (2^k)
    omega

theorem alignUp_least (x k m : Nat) (hd : 2^k ∣ m) (hm : x ≤ m) : alignUp x (2^k) ≤ m := by
  have h1 := alignUp_lt x k
  obtain ⟨a, ha⟩ := dvd_alignUp x k
  obtain ⟨b, hb⟩ := hd
  have hp : 0 < 2^k := Nat.two_pow_pos k
  rw [ha] at h1 ⊢
  rw [hb] at hm ⊢
  have : a < b + 1 := by
    apply Nat.lt_of_mul_lt_mul_left (a := 2^k)
    rw [Nat.mul_add]; omega
  exact Nat.mul_le_mul_left _ (by omega)

theorem alignUp_of_dvd (x k : Nat) (h : 2^k ∣ x) : alignUp x (2^k) = x :=
  Nat.le_antisymm (alignUp_least x k x h (Nat.le_refl _)) (le_alignUp x k)

theorem alignUp_mono (x y k : Nat) (h : x ≤ y) : alignUp x (2^k) ≤ alignUp y (2^k) :=
  alignUp_least _ _ _ (dvd_alignUp y k) (Nat.le_trans h (le_alignUp y k))

/-! smearing -/

/-- `y` has bit `i` set iff `x` has a bit set in the window `[i, i + w)`. -/
def Smeared (x y w : Nat) : Prop := ∀ i, y.testBit i = true ↔ ∃ j, i ≤ j ∧ j < i + w ∧ x.testBit j = true

theorem smeared_one (x : Nat) : Smeared x x 1 := by
  intro i
  constructor
  · intro h; exact ⟨i, by omega, by omega, h⟩
  · rintro ⟨j, h1, h2, h3⟩
    obtain rfl : j = i := by omega
    exact h3

theorem smeared_double {x y w : Nat} (h : Smeared x y w) : Smeared x (y ||| (y >>> w)) (2 * w) := by
  intro i
  simp only [Nat.testBit_or, Nat.testBit_shiftRight, Bool.or_eq_true]
  rw [h i, h (w + i)]
  constructor
  · rintro (⟨j, h1, h2, h3⟩ | ⟨j, h1, h2, h3⟩)
    · exact ⟨j, by omega, by omega, h3⟩
    · exact ⟨j, by omega, by omega, h3⟩
  · rintro ⟨j, h1, h2, h3⟩
    by_cases hj : j < i + w
    · exact .inl ⟨j, by omega, by omega, h3⟩
    · exact .inr ⟨j, by omega, by omega, h3⟩

theorem smeared_bv {n x w w2 : Nat} {y : BitVec n} (h : Smeared x y.toNat w) (e : w2 = 2 * w) :
    Smeared x (y ||| (y >>> w)).toNat w2 := by
  rw [e, BitVec.toNat_or, BitVec.toNat_ushiftRight]
  exact smeared_double h

theorem smeared_full {x y w : Nat} (h : Smeared x y w) (hx : x < 2^w) (h0 : x ≠ 0) :
    y = 2^(x.log2 + 1) - 1 := by
  apply Nat.eq_of_testBit_eq
  intro i
  rw [Nat.testBit_two_pow_sub_one, Bool.eq_iff_iff, h i, decide_eq_true_eq]
  constructor
  · rintro ⟨j, h1, h2, h3⟩
    have := Nat.ge_two_pow_of_testBit h3
    have h4 : j ≤ x.log2 := (Nat.le_log2 h0).2 this
    omega
  · intro hi
    have hl : x.log2 < w := (Nat.log2_lt h0).2 hx
    refine ⟨x.log2, by omega, by omega, ?_⟩
    exact Nat.testBit_log2 h0

theorem smeared_zero {y w : Nat} (h : Smeared 0 y w) : y = 0 := by
  apply Nat.eq_of_testBit_eq
  intro i
  have := h i
  simp at this
  simp [this]

/-- The smearing result for `x = v - 1`, as the least power of two. -/
theorem smear_least {v y w : Nat} (hv : 0 < v) (hvw : v ≤ 2^w) (h : Smeared (v - 1) y w) :
    (∃ k, y + 1 = 2^k) ∧ v ≤ y + 1 ∧ ∀ m, v ≤ 2^m → y + 1 ≤ 2^m := by
  by_cases h1 : v - 1 = 0
  · rw [h1] at h
    have := smeared_zero h
    subst this
    refine ⟨⟨0, rfl⟩, by omega, ?_⟩
    intro m _
    have := Nat.two_pow_pos m
    omega
  · have := smeared_full h (by omega) h1
    have hp := Nat.two_pow_pos ((v-1).log2 + 1)
    have hy : y + 1 = 2^((v-1).log2 + 1) := by omega
    rw [hy]
    refine ⟨⟨_, rfl⟩, ?_, ?_⟩
    · have := @Nat.lt_log2_self (v-1)
      omega
    · intro m hm
      apply Nat.pow_le_pow_right (by omega)
      have : (v-1).log2 < m := (Nat.log2_lt h1).2 (by omega)
      omega

theorem smear_finish {n : Nat} (v y : BitVec (n+1)) (h : Smeared (v.toNat - 1) y.toNat (n+1))
    (h0 : 0 < v.toNat) (h1 : v.toNat ≤ 2^n) :
    (∃ k, (y + 1).toNat = 2^k) ∧ v.toNat ≤ (y + 1).toNat ∧ ∀ m, v.toNat ≤ 2^m → (y + 1).toNat ≤ 2^m := by
  have hv := v.isLt
  have key := smear_least h0 (by omega) h
  have hlt := key.2.2 n h1
  have e : (y + 1).toNat = y.toNat + 1 := by
    have hp : 2^n < 2^(n+1) := Nat.pow_lt_pow_right (by omega) (by omega)
    rw [BitVec.toNat_add]
    have h1 : (1 : BitVec (n+1)).toNat = 1 := by simp
    rw [h1]
    exact Nat.mod_eq_of_lt (by omega)
  rw [e]
  exact key

end Verif.Align
