import Verif.Spec.Fold

namespace Verif.Lemmas.Fold
open Verif.IntType Verif.Spec.IntType Verif.Fold Verif.Spec.Fold

theorem get_eq {l : Lit} {v : Int} (h : Represents l v) : l.get = v := by
  obtain ⟨ty, p⟩ := l
  obtain ⟨hi, hr, hd⟩ := h
  cases ty <;> first | exact absurd hi id |
    (simp only [Lit.get, rd, Ty.bits, Ty.isSigned, InRange, minVal, maxVal] at *
     simp at *
     try split
     all_goals omega)

/-- Conversion on the host is conversion in C. -/
theorem hostConv_converts {t : Ty} (ht : isInteger t) (hb : t ≠ .bool) (v : Int) :
    Converts t v (hostConv t.bits t.isSigned v) := by
  cases t <;> first | exact absurd ht id | exact absurd rfl hb |
    (simp only [Converts, hostConv, rd, Ty.bits, Ty.isSigned, InRange, minVal, maxVal] at *
     simp
     try split
     all_goals omega)

theorem converts_unique {t : Ty} {v w w' : Int} (ht : isInteger t) (h : Converts t v w) (h' : Converts t v w') :
    w = w' := by
  cases t <;> first | exact absurd ht id | 
    (simp [Converts, InRange, minVal, maxVal] at *
     first | omega | simp_all)

theorem converts_iff {t : Ty} (ht : isInteger t) (hb : t ≠ .bool) {v w : Int} :
    Converts t v w ↔ w = hostConv t.bits t.isSigned v :=
  ⟨fun h => converts_unique ht h (hostConv_converts ht hb v), fun h => h ▸ hostConv_converts ht hb v⟩

theorem converts_range {t : Ty} (hb : t ≠ .bool) {v w : Int} (h : Converts t v w) : InRange t w := by
  simp only [Converts, if_neg hb] at h; exact h.1

/-- Writing a value in range makes the literal represent it. -/
theorem write_represents {t : Ty} (ht : isInteger t) (p : Nat) {v : Int} (h : InRange t v) :
    Represents ⟨t, wr t.bits p v⟩ v := by
  refine ⟨ht, h, ?_⟩
  cases t <;> first | exact absurd ht id | 
    (simp [InRange, minVal, maxVal, wr, Ty.bits] at *
     omega)

theorem write64_represents {t : Ty} (ht : isInteger t) {p : Nat} (hp : p < 2 ^ 64) {v w : Int}
    (h : InRange t v) (hw : (2 ^ t.bits : Int) ∣ w - v) :
    Represents ⟨t, wr 64 p w⟩ v := by
  refine ⟨ht, h, ?_⟩
  cases t <;> first | exact absurd ht id | 
    (simp [InRange, minVal, maxVal, wr, Ty.bits] at *
     omega)

theorem common_big {a b c : Ty} (ha : isInteger a) (hb : isInteger b) (h : usualConversions a b = some c) :
    (c = .s32 ∨ c = .u32 ∨ c = .s64 ∨ c = .u64) ∧ a.bits ≤ c.bits ∧ b.bits ≤ c.bits := by
  cases a <;> first | exact absurd ha id | cases b <;> first
    | exact absurd hb id
    | (cases Option.some.inj h; decide)

theorem as_eq {t : Ty} (ht : isInteger t) (hb : t ≠ .bool) {l : Lit} {v x : Int} (h : Represents l v)
    (hx : Converts t v x) (hbits : l.ty.bits ≤ t.bits) : l.as t.bits t.isSigned = some x := by
  simp [Lit.as, hbits, get_eq h, (converts_iff ht hb).1 hx]

theorem signed_iff {t : Ty} : t.isSigned = true ↔ signed t := by cases t <;> decide

theorem hostArith_signed {t : Ty} (h : signed t) {z : Int} (hz : InRange t z) : hostArith t z = some z := by
  cases t <;> first | exact absurd h (by decide) |
    (simp only [InRange, minVal, maxVal] at hz
     unfold hostArith
     rw [if_pos (by decide), if_pos (by simp only [Ty.bits]; constructor <;> omega)])

theorem hostArith_unsigned {t : Ty} (ht : isInteger t) (hb : t ≠ .bool) (h : ¬ signed t) {z w : Int} (hz : Converts t z w) :
    hostArith t z = some w := by
  cases t <;> first | exact absurd ht id | exact absurd rfl hb | exact absurd (by decide) h |
    (simp [hostArith, Converts, InRange, minVal, maxVal, Ty.bits, Ty.isSigned] at *
     omega)

theorem tdiv_range_of_nonneg {x y : Int} (hx : 0 ≤ x) (hy : 0 < y) : 0 ≤ x.tdiv y ∧ x.tdiv y ≤ x := by
  refine ⟨Int.tdiv_nonneg hx (by omega), ?_⟩
  rw [Int.tdiv_eq_ediv_of_nonneg hx]
  exact Int.ediv_le_self _ hx

theorem tmod_range {x y : Int} (hy : y ≠ 0) : -(y.natAbs : Int) < x.tmod y ∧ x.tmod y < y.natAbs := by
  have h1 := Int.natAbs_tmod x y
  have h2 : x.natAbs % y.natAbs < y.natAbs := Nat.mod_lt _ (by omega)
  omega

theorem tdiv_natAbs_le {x y : Int} : (x.tdiv y).natAbs ≤ x.natAbs := by
  rw [Int.natAbs_tdiv]; exact Nat.div_le_self _ _

theorem wr_dvd (n p : Nat) (v : Int) : (2 ^ n : Int) ∣ (wr n p v : Int) - v := by
  have h1 : (p : Int) - (p % 2 ^ n : Nat) = 2 ^ n * (p / 2 ^ n : Nat) := by
    have := Nat.div_add_mod p (2 ^ n)
    have h2 : (p : Int) = 2 ^ n * (p / 2 ^ n : Nat) + (p % 2 ^ n : Nat) := by exact_mod_cast this.symm
    omega
  have h3 : 0 ≤ v % (2 ^ n : Int) := Int.emod_nonneg _ (by have : (0 : Int) < 2 ^ n := Int.pow_pos (by omega); omega)
  have h4 := Int.mul_ediv_add_emod v (2 ^ n)
  have hle : p % 2 ^ n ≤ p := Nat.mod_le _ _
  refine ⟨(p / 2 ^ n : Nat) - v / 2 ^ n, ?_⟩
  simp only [wr]
  rw [Int.mul_sub, ← h1, Int.natCast_add, Int.natCast_sub hle, Int.toNat_of_nonneg h3]
  omega

theorem rd_dvd (n : Nat) (sgn : Bool) (p : Nat) : (2 ^ n : Int) ∣ rd n sgn p - p := by
  have h2 : (p : Int) = 2 ^ n * (p / 2 ^ n : Nat) + (p % 2 ^ n : Nat) := by
    exact_mod_cast (Nat.div_add_mod p (2 ^ n)).symm
  unfold rd
  split
  · refine ⟨-(p / 2 ^ n : Nat) - 1, ?_⟩
    rw [Int.mul_sub, Int.mul_neg]; omega
  · refine ⟨-(p / 2 ^ n : Nat), ?_⟩
    rw [Int.mul_neg]; omega

end Verif.Lemmas.Fold
