import Verif.Lemmas.Align

/-!
# C46: alignment and power-of-two rounding
-/
namespace Verif.Props.Align
open Verif.Align

/-- `alignUp` (unbounded) is the least multiple of the power of two `2^k` that is not
below `x`. -/
theorem C46_alignUp_least (x k : Nat) :
    2^k ∣ alignUp x (2^k) ∧ x ≤ alignUp x (2^k) ∧ ∀ m, 2^k ∣ m → x ≤ m → alignUp x (2^k) ≤ m :=
  ⟨dvd_alignUp x k, le_alignUp x k, fun m hd hm => alignUp_least x k m hd hm⟩

/-- The 64-bit C expression computes the same number whenever the aligned value fits
into 64 bits (an exact result of `2^64` would wrap to 0). -/
theorem C46_alignUp64_eq (x : BitVec 64) (k : Nat) (hk : k < 64)
    (hfit : alignUp x.toNat (2^k) < 2^64) :
    (alignUp64 x (BitVec.ofNat 64 (2^k))).toNat = alignUp x.toNat (2^k) := by
  have hk2 : 2^k < 2^64 := Nat.pow_lt_pow_right (by omega) hk
  have hkp := Nat.two_pow_pos k
  have ht : (BitVec.ofNat 64 (2^k) - 1).toNat = 2^k - 1 := by
    rw [BitVec.toNat_sub]; simp [Nat.mod_eq_of_lt hk2]; omega
  by_cases hx : x.toNat = 0
  · have : x = 0 := BitVec.eq_of_toNat_eq (by simpa using hx)
    subst this
    unfold alignUp64
    have : ((0 : BitVec 64) - 1) ||| (BitVec.ofNat 64 (2^k) - 1) = BitVec.allOnes 64 := by
      have : (0 : BitVec 64) - 1 = BitVec.allOnes 64 := by decide
      rw [this, BitVec.allOnes_or]
    rw [this]; simp [alignUp]
  · have hx1 : (x - 1).toNat = x.toNat - 1 := by
      have := x.isLt
      rw [BitVec.toNat_sub]; simp; omega
    unfold alignUp64
    rw [BitVec.toNat_add, BitVec.toNat_or, hx1, ht]
    simp only [alignUp, hx, if_false] at hfit ⊢
    simpa using Nat.mod_eq_of_lt hfit

/-- Consequently `align_up` gives the least multiple that is not below the value, for
all 64-bit values for which it exists. -/
theorem C46_alignUp64_least (x : BitVec 64) (k : Nat) (hk : k < 64)
    (hfit : x.toNat + 2^k ≤ 2^64) :
    let r := (alignUp64 x (BitVec.ofNat 64 (2^k))).toNat
    2^k ∣ r ∧ x.toNat ≤ r ∧ ∀ m, 2^k ∣ m → x.toNat ≤ m → r ≤ m := by
  have := C46_alignUp64_eq x k hk (by have := alignUp_lt x.toNat k; omega)
  simp only [this]
  exact C46_alignUp_least x.toNat k

example : (alignUp64 0x1001#64 (BitVec.ofNat 64 (2^12))).toNat = 0x2000 := by decide

/-- `is_power_of_two` accepts exactly the powers of two. -/
theorem C46_isPowerOfTwo_iff (a : BitVec 64) : isPowerOfTwo64 a = true ↔ ∃ k < 64, a.toNat = 2^k := by
  constructor
  · intro h
    simp only [isPowerOfTwo64, bne_iff_ne, ne_eq, Bool.and_eq_true, Bool.not_eq_true', bne_eq_false_iff_eq] at h
    obtain ⟨h0, h1⟩ := h
    have h0' : a.toNat ≠ 0 := fun h => h0 (BitVec.eq_of_toNat_eq (by simpa using h))
    have hlt := a.isLt
    have hs : (a - 1).toNat = a.toNat - 1 := by rw [BitVec.toNat_sub]; simp; omega
    have h2 : a.toNat &&& (a.toNat - 1) = 0 := by
      have := congrArg BitVec.toNat h1
      rw [BitVec.toNat_and, hs] at this
      simpa using this
    refine ⟨a.toNat.log2, (Nat.log2_lt h0').2 hlt, ?_⟩
    apply Classical.byContradiction
    intro hne
    have hle : 2^a.toNat.log2 ≤ a.toNat := Nat.log2_self_le h0'
    have hlt2 : a.toNat < 2^(a.toNat.log2+1) := Nat.lt_log2_self
    -- both `a` and `a - 1` have the top bit
    have b1 : a.toNat.testBit a.toNat.log2 = true := Nat.testBit_log2 h0'
    have h3 : a.toNat - 1 ≠ 0 := by
      intro h
      have : a.toNat = 1 := by omega
      apply hne; rw [this]; decide
    have hlog : (a.toNat - 1).log2 = a.toNat.log2 := by
      apply Nat.le_antisymm
      · have := (Nat.log2_lt h3 (k := a.toNat.log2 + 1)).2 (by omega)
        omega
      · exact (Nat.le_log2 h3).2 (by omega)
    have b2 : (a.toNat - 1).testBit a.toNat.log2 = true := by
      have := Nat.testBit_log2 h3
      rwa [hlog] at this
    have := congrArg (fun n => n.testBit a.toNat.log2) h2
    simp [Nat.testBit_and, b1, b2] at this
  · rintro ⟨k, hk, ha⟩
    have hp := Nat.two_pow_pos k
    have h0 : a ≠ 0 := by rintro rfl; simp at ha; omega
    have hlt := a.isLt
    have hs : (a - 1).toNat = 2^k - 1 := by rw [BitVec.toNat_sub]; simp; omega
    have h1 : a &&& (a - 1) = 0 := by
      apply BitVec.eq_of_toNat_eq
      rw [BitVec.toNat_and, hs, ha, Nat.and_two_pow_sub_one_eq_mod]; simp
    rw [isPowerOfTwo64, h1]; simpa using h0

/-- `u32_round_up_to_next_power_of_two` gives the least power of two not below `v`,
for `1 ≤ v ≤ 2^31`. -/
theorem C46_roundUp32 (v : BitVec 32) (h0 : 0 < v.toNat) (h1 : v.toNat ≤ 2^31) :
    let r := (roundUpPow2_32 v).toNat
    (∃ k, r = 2^k) ∧ v.toNat ≤ r ∧ ∀ m, v.toNat ≤ 2^m → r ≤ 2^m := by
  have hs : (v - 1).toNat = v.toNat - 1 := by rw [BitVec.toNat_sub]; simp; omega
  have s0 : Smeared (v.toNat - 1) (v - 1).toNat 1 := by rw [hs]; exact smeared_one _
  have s1 := smeared_bv (w2 := 2) s0 rfl
  have s2 := smeared_bv (w2 := 4) s1 rfl
  have s3 := smeared_bv (w2 := 8) s2 rfl
  have s4 := smeared_bv (w2 := 16) s3 rfl
  have s5 := smeared_bv (w2 := 32) s4 rfl
  exact smear_finish v _ s5 h0 h1

/-- The same for 64 bits and `1 ≤ v ≤ 2^63`. -/
theorem C46_roundUp64 (v : BitVec 64) (h0 : 0 < v.toNat) (h1 : v.toNat ≤ 2^63) :
    let r := (roundUpPow2_64 v).toNat
    (∃ k, r = 2^k) ∧ v.toNat ≤ r ∧ ∀ m, v.toNat ≤ 2^m → r ≤ 2^m := by
  have hs : (v - 1).toNat = v.toNat - 1 := by rw [BitVec.toNat_sub]; simp; omega
  have s0 : Smeared (v.toNat - 1) (v - 1).toNat 1 := by rw [hs]; exact smeared_one _
  have s1 := smeared_bv (w2 := 2) s0 rfl
  have s2 := smeared_bv (w2 := 4) s1 rfl
  have s3 := smeared_bv (w2 := 8) s2 rfl
  have s4 := smeared_bv (w2 := 16) s3 rfl
  have s5 := smeared_bv (w2 := 32) s4 rfl
  have s6 := smeared_bv (w2 := 64) s5 rfl
  exact smear_finish v _ s6 h0 h1

example : (roundUpPow2_32 1000#32) = 1024#32 ∧ 0 < (1000#32).toNat ∧ (1000#32).toNat ≤ 2^31 := by decide
example : (roundUpPow2_64 (0x100000001#64)) = 0x200000000#64 := by decide

end Verif.Props.Align
