import Mathlib.Analysis.Complex.Trigonometric
import Mathlib.Tactic.Linarith
import Mathlib.Tactic.NormNum
import Mathlib.Tactic.Ring
import Mathlib.Algebra.Order.Floor.Semiring

/-!
# Sines of natural numbers

Bounds for `sin n` and `cos n` in multiples of `2 ^ -160`: the power series for `n = 1`, then the addition theorems.
-/
namespace Verif.Lemmas.Sine
open Finset

/-- The parts of the power series of `exp` at `i`. -/
theorem series (k : ℕ) : (∑ m ∈ range (2 * k), Complex.I ^ m / (m.factorial : ℂ)) =
    ((∑ j ∈ range k, (-1 : ℝ) ^ j / ((2 * j).factorial : ℝ) : ℝ) : ℂ) +
      ((∑ j ∈ range k, (-1 : ℝ) ^ j / ((2 * j + 1).factorial : ℝ) : ℝ) : ℂ) * Complex.I := by
  induction k with
  | zero => simp
  | succ k ih =>
    rw [show 2 * (k + 1) = 2 * k + 1 + 1 by ring, sum_range_succ, sum_range_succ, ih, sum_range_succ, sum_range_succ, pow_succ, pow_mul, Complex.I_sq]
    push_cast
    ring

theorem exp_I : Complex.exp Complex.I = (Real.cos 1 : ℂ) + (Real.sin 1 : ℂ) * Complex.I := by
  have := Complex.exp_mul_I 1
  rw [one_mul] at this
  rw [this]
  push_cast
  rfl

/-- `2 ^ 160` times the cosine and the sine of 1. -/
def c1 : ℤ := 789652704679948512850133577617776009509005113993
def s1 : ℤ := 1229811222063188079455875033478504257159032017171

theorem first : |2 ^ 160 * Real.cos 1 - c1| ≤ 16 ∧ |2 ^ 160 * Real.sin 1 - s1| ≤ 16 := by
  have hb := Complex.exp_bound (x := Complex.I) (by simp) (n := 2 * 20) (by norm_num)
  rw [series, exp_I] at hb
  have hc : |2 ^ 160 * (∑ j ∈ range 20, (-1 : ℝ) ^ j / ((2 * j).factorial : ℝ)) - c1| ≤ 4 := by
    rw [abs_le]
    constructor <;> norm_num [sum_range_succ, Nat.factorial, c1]
  have hs : |2 ^ 160 * (∑ j ∈ range 20, (-1 : ℝ) ^ j / ((2 * j + 1).factorial : ℝ)) - s1| ≤ 4 := by
    rw [abs_le]
    constructor <;> norm_num [sum_range_succ, Nat.factorial, s1]
  generalize (∑ j ∈ range 20, (-1 : ℝ) ^ j / ((2 * j).factorial : ℝ)) = A at *
  generalize (∑ j ∈ range 20, (-1 : ℝ) ^ j / ((2 * j + 1).factorial : ℝ)) = B at *
  have he : ‖Complex.I‖ ^ (2 * 20) * (((2 * 20).succ : ℝ) * (((2 * 20).factorial : ℝ) * ((2 * 20 : ℕ) : ℝ))⁻¹) ≤ 2 / 2 ^ 160 := by
    norm_num [Nat.factorial]
  have hn := hb.trans he
  have h1 := (Complex.abs_re_le_norm _).trans hn
  have h2 := (Complex.abs_im_le_norm _).trans hn
  simp only [Complex.sub_re, Complex.sub_im, Complex.add_re, Complex.add_im, Complex.mul_re, Complex.mul_im, Complex.ofReal_re, Complex.ofReal_im, Complex.I_re,
    Complex.I_im, mul_zero, mul_one, sub_zero, add_zero, zero_add] at h1 h2
  rw [abs_le] at h1 h2 hc hs ⊢
  refine ⟨?_, abs_le.mpr ?_⟩ <;> constructor <;> linarith [h1.1, h1.2, h2.1, h2.2, hc.1, hc.2, hs.1, hs.2]

/-- Approximations of `2 ^ 160` times sine and cosine of `n`, and a bound of their errors. -/
def approx : ℕ → ℤ × ℤ × ℤ
  | 0 => (0, 2 ^ 160, 0)
  | n + 1 =>
    let (s, c, e) := approx n
    ((s * c1 + c * s1) / 2 ^ 160, (c * c1 - s * s1) / 2 ^ 160, 2 * e + 65)

/-- A product of approximations is an approximation of the product. -/
theorem product {M a A c C E : ℝ} (hM : 0 < M) (ha : |M * a - A| ≤ E) (hc : |M * c - C| ≤ 16) (h1 : |a| ≤ 1) (h2 : |c| ≤ 1) (hE : E ≤ M) :
    |M * (a * c) - A * C / M| ≤ E + 32 := by
  have hA : |A| ≤ 2 * M := by
    rw [abs_le] at ha h1 ⊢
    constructor <;> nlinarith [ha.1, ha.2, h1.1, h1.2]
  have e : M * (a * c) - A * C / M = (M * a - A) * c + A / M * (M * c - C) := by
    field_simp
    ring
  have hA' : |A / M| ≤ 2 := by
    rw [abs_div, abs_of_pos hM, div_le_iff₀ hM]
    exact hA
  have hE0 : 0 ≤ E := (abs_nonneg _).trans ha
  have m1 : |M * a - A| * |c| ≤ E * 1 := mul_le_mul ha h2 (abs_nonneg _) hE0
  have m2 : |A / M| * |M * c - C| ≤ 2 * 16 := mul_le_mul hA' hc (abs_nonneg _) (by norm_num)
  rw [e]
  refine (abs_add_le _ _).trans ?_
  rw [abs_mul, abs_mul]
  linarith

/-- Division of integers rounds down. -/
theorem rounded (x : ℤ) : |(x : ℝ) / 2 ^ 160 - ((x / 2 ^ 160 : ℤ) : ℝ)| ≤ 1 := by
  have h1 := Int.mul_ediv_add_emod x (2 ^ 160)
  have h2 := Int.emod_nonneg x (b := 2 ^ 160) (by norm_num)
  have h3 := Int.emod_lt_of_pos x (b := 2 ^ 160) (by norm_num)
  generalize x / 2 ^ 160 = q at *
  generalize x % 2 ^ 160 = r at *
  have h1' : (x : ℝ) = 2 ^ 160 * q + r := by rw [← h1]; push_cast; ring
  have h2' : (0 : ℝ) ≤ r := by exact_mod_cast h2
  have h3' : (r : ℝ) < 2 ^ 160 := by exact_mod_cast h3
  have e : (x : ℝ) / 2 ^ 160 - q = r / 2 ^ 160 := by
    rw [h1']
    field_simp
    ring
  rw [e, abs_of_nonneg (by positivity), div_le_iff₀ (by positivity)]
  linarith

theorem error_pos (n : ℕ) : (approx n).2.2 = 65 * (2 ^ n - 1) := by
  induction n with
  | zero => rfl
  | succ n ih =>
    show 2 * (approx n).2.2 + 65 = _
    rw [ih, pow_succ]
    ring

theorem approx_ok (n : ℕ) (hn : n ≤ 64) :
    |2 ^ 160 * Real.sin n - (approx n).1| ≤ ((approx n).2.2 : ℝ) ∧ |2 ^ 160 * Real.cos n - (approx n).2.1| ≤ ((approx n).2.2 : ℝ) := by
  induction n with
  | zero => norm_num [approx]
  | succ n ih =>
    obtain ⟨hs, hc⟩ := ih (by omega)
    obtain ⟨gc, gs⟩ := first
    have hE : ((approx n).2.2 : ℝ) ≤ 2 ^ 160 := by
      rw [error_pos]
      push_cast
      have : (2 : ℝ) ^ n ≤ 2 ^ 64 := pow_le_pow_right₀ (by norm_num) (by omega)
      nlinarith
    have e : approx (n + 1) = (((approx n).1 * c1 + (approx n).2.1 * s1) / 2 ^ 160, ((approx n).2.1 * c1 - (approx n).1 * s1) / 2 ^ 160,
      2 * (approx n).2.2 + 65) := rfl
    rw [e]
    generalize (approx n).1 = S at *
    generalize (approx n).2.1 = C at *
    generalize (approx n).2.2 = E at *
    have p1 := product (by positivity) hs gc (Real.abs_sin_le_one _) (Real.abs_cos_le_one _) hE
    have p2 := product (by positivity) hc gs (Real.abs_cos_le_one _) (Real.abs_sin_le_one _) hE
    have p3 := product (by positivity) hc gc (Real.abs_cos_le_one _) (Real.abs_cos_le_one _) hE
    have p4 := product (by positivity) hs gs (Real.abs_sin_le_one _) (Real.abs_sin_le_one _) hE
    have r1 := rounded (S * c1 + C * s1)
    have r2 := rounded (C * c1 - S * s1)
    push_cast at r1 r2 ⊢
    rw [add_div] at r1
    rw [sub_div] at r2
    rw [Real.sin_add, Real.cos_add]
    rw [abs_le] at p1 p2 p3 p4 r1 r2 ⊢
    refine ⟨?_, abs_le.mpr ?_⟩ <;> constructor <;>
      linarith [p1.1, p1.2, p2.1, p2.2, p3.1, p3.2, p4.1, p4.2, r1.1, r1.2, r2.1, r2.2]

/-- The first 32 bits after the point, from the approximation. -/
theorem floor_of (n : ℕ) (hn : n ≤ 64) (t : ℕ) (h1 : (t : ℤ) * 2 ^ 128 ≤ |(approx n).1| - (approx n).2.2)
    (h2 : |(approx n).1| + (approx n).2.2 < ((t : ℤ) + 1) * 2 ^ 128) : ⌊2 ^ 32 * |Real.sin n|⌋₊ = t := by
  have h := (approx_ok n hn).1
  generalize (approx n).1 = S at *
  generalize (approx n).2.2 = E at *
  have h1' : (t : ℝ) * 2 ^ 128 ≤ |(S : ℝ)| - E := by exact_mod_cast h1
  have h2' : |(S : ℝ)| + E < ((t : ℝ) + 1) * 2 ^ 128 := by exact_mod_cast h2
  have g := (abs_abs_sub_abs_le (2 ^ 160 * Real.sin n) (S : ℝ)).trans h
  rw [abs_mul, abs_of_pos (by positivity : (0 : ℝ) < 2 ^ 160), abs_le] at g
  rw [Nat.floor_eq_iff (by positivity)]
  constructor
  · linarith [g.1, g.2]
  · linarith [g.1, g.2]

end Verif.Lemmas.Sine
