import Verif.Spec.FloatConv
import Verif.Props.Call

/-!
# C71: conversions between integers and floats
-/

namespace Verif.Props.FloatConv

open Verif.FloatConv Verif.Spec.FloatConv

/-! ## Rounding -/

theorem between {p x : Nat} (hp : 1 ≤ p) (hsh : p < x.log2 + 1) (r : Int) (h : IsFloat p r) :
    r ≤ ((x / 2 ^ (x.log2 + 1 - p) * 2 ^ (x.log2 + 1 - p) : Nat) : Int) ∨ (((x / 2 ^ (x.log2 + 1 - p) + 1) * 2 ^ (x.log2 + 1 - p) : Nat) : Int) ≤ r := by
  obtain ⟨m, e, hm, hr⟩ := h
  by_cases hneg : r < 0
  · left; exact Int.le_trans (Int.le_of_lt hneg) (Int.natCast_nonneg _)
  · have hrn : r = (m * 2 ^ e : Nat) := by omega
    rw [hrn]
    generalize hs : x.log2 + 1 - p = sh
    have hx0 : x ≠ 0 := by rintro rfl; rw [Nat.log2_zero] at hsh; omega
    have hlow : 2 ^ (p - 1) * 2 ^ sh ≤ x := by
      rw [← Nat.pow_add, show p - 1 + sh = x.log2 from by omega]
      exact Nat.log2_self_le hx0
    have hq : 2 ^ (p - 1) ≤ x / 2 ^ sh := (Nat.le_div_iff_mul_le (Nat.two_pow_pos _)).2 hlow
    by_cases he : sh ≤ e
    · obtain ⟨d, rfl⟩ : ∃ d, e = d + sh := ⟨e - sh, by omega⟩
      rw [Nat.pow_add, ← Nat.mul_assoc]
      rcases Nat.lt_or_ge (x / 2 ^ sh) (m * 2 ^ d) with h | h
      · right; exact Int.ofNat_le.2 (Nat.mul_le_mul_right _ h)
      · left; exact Int.ofNat_le.2 (Nat.mul_le_mul_right _ h)
    · left
      refine Int.ofNat_le.2 ?_
      have h1 : m * 2 ^ e ≤ 2 ^ p * 2 ^ (sh - 1) := Nat.mul_le_mul (Nat.le_of_lt hm) (Nat.pow_le_pow_right (by decide) (by omega))
      have h2 : 2 ^ p * 2 ^ (sh - 1) = 2 ^ (p - 1) * 2 ^ sh := by
        rw [← Nat.pow_add, ← Nat.pow_add]; congr 1; omega
      rw [h2] at h1
      exact Nat.le_trans h1 (Nat.mul_le_mul_right _ hq)

theorem roundNat_small {p x : Nat} (h : x.log2 + 1 ≤ p) : roundNat p x = x := by
  have : x.log2 + 1 - p = 0 := by omega
  simp [roundNat, this, Nat.mod_one]

theorem nearest_nat {p : Nat} (hp : 2 ≤ p) (x : Nat) : Nearest p x (roundNat p x : Nat) := by
  by_cases hsh : x.log2 + 1 ≤ p
  · rw [roundNat_small hsh]
    refine ⟨⟨x, 0, Nat.lt_of_lt_of_le Nat.lt_log2_self (Nat.pow_le_pow_right (by decide) hsh), by simp⟩, fun r' _ hr' => ?_⟩
    left; omega
  · have hb := between (p := p) (x := x) (by omega) (by omega)
    unfold roundNat
    have hx0 : x ≠ 0 := by rintro rfl; rw [Nat.log2_zero] at hsh; omega
    have hlow : 2 ^ (p - 1) * 2 ^ (x.log2 + 1 - p) ≤ x := by
      rw [← Nat.pow_add, show p - 1 + (x.log2 + 1 - p) = x.log2 from by omega]
      exact Nat.log2_self_le hx0
    have hhigh : x < 2 ^ p * 2 ^ (x.log2 + 1 - p) := by
      rw [← Nat.pow_add, show p + (x.log2 + 1 - p) = x.log2 + 1 from by omega]
      exact Nat.lt_log2_self
    generalize hs : x.log2 + 1 - p = sh at hb hlow hhigh ⊢
    have hD := Nat.two_pow_pos sh
    have hq1 : 2 ^ (p - 1) ≤ x / 2 ^ sh := (Nat.le_div_iff_mul_le hD).2 hlow
    have hq2 : x / 2 ^ sh < 2 ^ p := (Nat.div_lt_iff_lt_mul hD).2 hhigh
    have hdm := Nat.div_add_mod x (2 ^ sh)
    have hlt := Nat.mod_lt x hD
    have hpp : 2 * 2 ^ (p - 1) = 2 ^ p := by
      rw [Nat.mul_comm, ← Nat.pow_succ]; congr 1; omega
    dsimp only
    rw [Nat.mul_comm] at hdm
    have hadd : (x / 2 ^ sh + 1) * 2 ^ sh = x / 2 ^ sh * 2 ^ sh + 2 ^ sh := Nat.succ_mul _ _
    split
    · rename_i hc
      -- up
      have hev : (x / 2 ^ sh) % 2 = 1 → EvenFloat p (((x / 2 ^ sh + 1) * 2 ^ sh : Nat) : Int) := by
        intro hodd
        by_cases hmax : x / 2 ^ sh + 1 < 2 ^ p
        · exact ⟨x / 2 ^ sh + 1, sh, hmax, by omega, by omega, rfl⟩
        · have : x / 2 ^ sh + 1 = 2 ^ p := by omega
          refine ⟨2 ^ (p - 1), sh + 1, by omega, by omega, ?_, ?_⟩
          · obtain ⟨k, rfl⟩ : ∃ k, p = k + 2 := ⟨p - 2, by omega⟩
            show 2 ^ (k + 1) % 2 = 0
            rw [Nat.pow_succ]; omega
          · rw [this, ← hpp, Nat.pow_succ]
            simp only [Int.natAbs_natCast]
            rw [Nat.mul_comm 2, Nat.mul_assoc, Nat.mul_comm 2 (2 ^ sh)]
      have hfl : IsFloat p (((x / 2 ^ sh + 1) * 2 ^ sh : Nat) : Int) := by
        by_cases hmax : x / 2 ^ sh + 1 < 2 ^ p
        · exact ⟨x / 2 ^ sh + 1, sh, hmax, rfl⟩
        · have : x / 2 ^ sh + 1 = 2 ^ p := by omega
          refine ⟨2 ^ (p - 1), sh + 1, by omega, ?_⟩
          rw [this, ← hpp, Nat.pow_succ]
          simp only [Int.natAbs_natCast]
          rw [Nat.mul_comm 2, Nat.mul_assoc, Nat.mul_comm 2 (2 ^ sh)]
      refine ⟨hfl, fun r' hr' hne => ?_⟩
      have hbr := hb r' hr'
      rw [hadd] at hbr hne hev ⊢
      generalize x / 2 ^ sh * 2 ^ sh = Q at *
      generalize x % 2 ^ sh = rem at *
      generalize 2 ^ sh = D at *
      rcases hc with hc | ⟨hc, hodd⟩
      · left; omega
      · rcases hbr with hbr | hbr
        · by_cases heq : r' = Q
          · right; exact ⟨by omega, hev hodd⟩
          · left; omega
        · left; omega
    · rename_i hc
      refine ⟨⟨x / 2 ^ sh, sh, hq2, rfl⟩, fun r' hr' hne => ?_⟩
      have hbr := hb r' hr'
      have hev : (x / 2 ^ sh) % 2 = 0 → EvenFloat p ((x / 2 ^ sh * 2 ^ sh : Nat) : Int) := fun he =>
        ⟨x / 2 ^ sh, sh, hq2, by omega, he, rfl⟩
      rw [hadd] at hbr
      have hpar := Nat.mod_two_eq_zero_or_one (x / 2 ^ sh)
      generalize x / 2 ^ sh * 2 ^ sh = Q at *
      generalize x % 2 ^ sh = rem at *
      generalize hDD : 2 ^ sh = D at *
      have hcase : 2 * rem < D ∨ (2 * rem = D ∧ (x / D) % 2 = 0) := by omega
      rcases hcase with hc' | ⟨hc', he⟩
      · left; omega
      · rcases hbr with hbr | hbr
        · left; omega
        · by_cases heq : r' = ((Q + D : Nat) : Int)
          · right; exact ⟨by omega, hev he⟩
          · left; omega

theorem nearest_neg {p x r} (h : Nearest p x r) : Nearest p (-x) (-r) := by
  refine ⟨?_, fun r' hr' hne => ?_⟩
  · obtain ⟨m, e, h1, h2⟩ := h.1
    exact ⟨m, e, h1, by rw [Int.natAbs_neg]; exact h2⟩
  · have hf : IsFloat p (-r') := by
      obtain ⟨m, e, h1, h2⟩ := hr'
      exact ⟨m, e, h1, by rw [Int.natAbs_neg]; exact h2⟩
    rcases h.2 (-r') hf (by omega) with h3 | ⟨h3, m, e, h4, h5, h6, h7⟩
    · left; omega
    · right
      exact ⟨by omega, m, e, h4, h5, h6, by rw [Int.natAbs_neg]; exact h7⟩

theorem nearest_int {p : Nat} (hp : 2 ≤ p) (x : Int) : Nearest p x (roundInt p x) := by
  unfold roundInt
  split
  · have := nearest_neg (nearest_nat hp x.natAbs)
    rwa [show -((x.natAbs : Nat) : Int) = x from by omega] at this
  · have := nearest_nat hp x.natAbs
    rwa [show ((x.natAbs : Nat) : Int) = x from by omega] at this

theorem even_unique {p q sh : Nat} (h1 : 2 ^ p ≤ 2 * q) (h2 : q < 2 ^ p) (h : EvenFloat p ((q * 2 ^ sh : Nat) : Int)) : q % 2 = 0 := by
  obtain ⟨m, e, hm, hm2, hev, heq⟩ := h
  rw [Int.natAbs_natCast] at heq
  have hle : ∀ a b : Nat, ∀ x y : Nat, 2 ^ p ≤ 2 * y → x < 2 ^ p → x * 2 ^ a = y * 2 ^ b → b ≤ a := by
    intro a b x y hy hx he
    rcases Nat.lt_or_ge a b with hab | hab
    · obtain ⟨d, rfl⟩ : ∃ d, b = a + (d + 1) := ⟨b - a - 1, by omega⟩
      rw [Nat.pow_add, Nat.mul_comm (2 ^ a), ← Nat.mul_assoc] at he
      have := Nat.eq_of_mul_eq_mul_right (Nat.two_pow_pos a) he
      rw [Nat.pow_succ, Nat.mul_comm (2 ^ d), ← Nat.mul_assoc] at this
      have h3 : y * 2 * 1 ≤ y * 2 * 2 ^ d := Nat.mul_le_mul_left _ (Nat.two_pow_pos d)
      omega
    · exact hab
  have he : sh = e := Nat.le_antisymm (hle e sh m q h1 hm heq.symm) (hle sh e q m hm2 h2 heq)
  subst he
  have := Nat.eq_of_mul_eq_mul_right (Nat.two_pow_pos sh) heq
  omega

theorem unique_nat {p : Nat} (hp : 2 ≤ p) (x : Nat) {r r' : Int} (h : Nearest p x r) (h' : Nearest p x r') : r = r' := by
  by_cases hsh : x.log2 + 1 ≤ p
  · have hx : IsFloat p x := ⟨x, 0, Nat.lt_of_lt_of_le Nat.lt_log2_self (Nat.pow_le_pow_right (by decide) hsh), by simp⟩
    have e1 : ∀ r, Nearest p x r → r = x := by
      intro r hr
      by_cases he : r = x
      · exact he
      · have := hr.2 x hx (fun hc => he hc.symm); omega
    rw [e1 r h, e1 r' h']
  · have hb := between (p := p) (x := x) (by omega) (by omega)
    have hx0 : x ≠ 0 := by rintro rfl; rw [Nat.log2_zero] at hsh; omega
    have hlow : 2 ^ (p - 1) * 2 ^ (x.log2 + 1 - p) ≤ x := by
      rw [← Nat.pow_add, show p - 1 + (x.log2 + 1 - p) = x.log2 from by omega]
      exact Nat.log2_self_le hx0
    have hhigh : x < 2 ^ p * 2 ^ (x.log2 + 1 - p) := by
      rw [← Nat.pow_add, show p + (x.log2 + 1 - p) = x.log2 + 1 from by omega]
      exact Nat.lt_log2_self
    generalize hs : x.log2 + 1 - p = sh at hb hlow hhigh
    have hD := Nat.two_pow_pos sh
    have hq1 : 2 ^ (p - 1) ≤ x / 2 ^ sh := (Nat.le_div_iff_mul_le hD).2 hlow
    have hq2 : x / 2 ^ sh < 2 ^ p := (Nat.div_lt_iff_lt_mul hD).2 hhigh
    have hdm := Nat.div_add_mod x (2 ^ sh)
    have hlt := Nat.mod_lt x hD
    have hpp : 2 * 2 ^ (p - 1) = 2 ^ p := by
      rw [Nat.mul_comm, ← Nat.pow_succ]; congr 1; omega
    rw [Nat.mul_comm] at hdm
    have hadd : (x / 2 ^ sh + 1) * 2 ^ sh = x / 2 ^ sh * 2 ^ sh + 2 ^ sh := Nat.succ_mul _ _
    have hlo : IsFloat p ((x / 2 ^ sh * 2 ^ sh : Nat) : Int) := ⟨x / 2 ^ sh, sh, hq2, rfl⟩
    have hhi : IsFloat p (((x / 2 ^ sh + 1) * 2 ^ sh : Nat) : Int) := by
      by_cases hmax : x / 2 ^ sh + 1 < 2 ^ p
      · exact ⟨x / 2 ^ sh + 1, sh, hmax, rfl⟩
      · have : x / 2 ^ sh + 1 = 2 ^ p := by omega
        refine ⟨2 ^ (p - 1), sh + 1, by omega, ?_⟩
        rw [this, ← hpp, Nat.pow_succ]
        simp only [Int.natAbs_natCast]
        rw [Nat.mul_comm 2, Nat.mul_assoc, Nat.mul_comm 2 (2 ^ sh)]
    have hnot : ¬ (EvenFloat p ((x / 2 ^ sh * 2 ^ sh : Nat) : Int) ∧ EvenFloat p (((x / 2 ^ sh + 1) * 2 ^ sh : Nat) : Int)) := by
      rintro ⟨h1, h2⟩
      have h3 := even_unique (by omega) hq2 h1
      have h4 : x / 2 ^ sh + 1 < 2 ^ p := by
        obtain ⟨k, rfl⟩ : ∃ k, p = k + 1 := ⟨p - 1, by omega⟩
        rw [Nat.pow_succ] at hq2 ⊢
        omega
      have := even_unique (by omega) h4 h2
      omega
    have cases2 : ∀ r, Nearest p x r → r = ((x / 2 ^ sh * 2 ^ sh : Nat) : Int) ∨ r = (((x / 2 ^ sh + 1) * 2 ^ sh : Nat) : Int) := by
      intro r hr
      by_cases h1 : r = ((x / 2 ^ sh * 2 ^ sh : Nat) : Int)
      · exact .inl h1
      · by_cases h2 : r = (((x / 2 ^ sh + 1) * 2 ^ sh : Nat) : Int)
        · exact .inr h2
        · have g1 := hr.2 _ hlo (fun hc => h1 hc.symm)
          have g2 := hr.2 _ hhi (fun hc => h2 hc.symm)
          have g3 := hb r hr.1
          rw [hadd] at g2 g3 h2
          generalize x / 2 ^ sh * 2 ^ sh = Q at *
          omega
    by_cases hne : r = r'
    · exact hne
    · exfalso
      have g1 := h.2 r' h'.1 (fun hc => hne hc.symm)
      have g2 := h'.2 r h.1 hne
      have g3 : EvenFloat p r ∧ EvenFloat p r' := by
        rcases g1 with g1 | g1
        · omega
        · rcases g2 with g2 | g2
          · omega
          · exact ⟨g1.2, g2.2⟩
      rcases cases2 r h with rfl | rfl <;> rcases cases2 r' h' with rfl | rfl
      · exact hne rfl
      · exact hnot g3
      · exact hnot ⟨g3.2, g3.1⟩
      · exact hne rfl

/-- There is only one nearest float, so `Nearest` determines the result. -/
theorem C71_nearest_unique {p : Nat} (hp : 2 ≤ p) {x r r' : Int} (h : Nearest p x r) (h' : Nearest p x r') : r = r' := by
  by_cases hx : 0 ≤ x
  · obtain ⟨n, rfl⟩ := Int.eq_ofNat_of_zero_le hx
    exact unique_nat hp n h h'
  · obtain ⟨n, hn⟩ := Int.eq_ofNat_of_zero_le (show 0 ≤ -x by omega)
    have := unique_nat hp n (hn ▸ nearest_neg h) (hn ▸ nearest_neg h')
    omega

/-! ## Doubling with a sticky bit -/

theorem or_one_cases (a b : Nat) (hb : b < 2) : a ||| b = if b = 1 ∧ a % 2 = 0 then a + 1 else a := by
  have : b = 0 ∨ b = 1 := by omega
  rcases this with rfl | rfl
  · simp
  · have h1 : a = 2 * (a / 2) + a % 2 := by omega
    have h2 := Nat.mod_two_eq_zero_or_one a
    apply Nat.eq_of_testBit_eq
    intro i
    rw [Nat.testBit_or]
    cases i with
    | zero =>
      simp only [Nat.testBit_zero]
      rcases h2 with h2 | h2
      · rw [if_pos ⟨trivial, h2⟩]; simp [h2, Nat.add_mod]
      · rw [if_neg (by omega)]; simp [h2]
    | succ i =>
      rw [Nat.testBit_succ, Nat.testBit_succ, Nat.testBit_succ]
      have : (if 1 = 1 ∧ a % 2 = 0 then a + 1 else a) / 2 = a / 2 := by split <;> omega
      rw [this]; simp

theorem round_double {p x : Nat} (h1 : 2 ^ 63 ≤ x) (h2 : x < 2 ^ 64) (hp : p ≤ 61) (hp1 : 1 ≤ p) :
    2 * roundNat p ((x >>> 1) ||| (x &&& 1)) = roundNat p x := by
  have hs : (x >>> 1) ||| (x &&& 1) = if x % 2 = 1 ∧ x / 2 % 2 = 0 then x / 2 + 1 else x / 2 := by
    rw [or_one_cases _ _ (by rw [Nat.and_one_is_mod]; omega), Nat.and_one_is_mod, Nat.shiftRight_eq_div_pow]
  rw [hs]
  generalize hy : (if x % 2 = 1 ∧ x / 2 % 2 = 0 then x / 2 + 1 else x / 2) = y
  have hlx : x.log2 = 63 := (Nat.log2_eq_iff (by omega)).2 ⟨h1, h2⟩
  have hly : y.log2 = 62 := (Nat.log2_eq_iff (by split at hy <;> omega)).2 ⟨by split at hy <;> omega, by split at hy <;> omega⟩
  unfold roundNat
  rw [hlx, hly]
  dsimp only
  obtain ⟨k, hk⟩ : ∃ k, 64 - p = k + 3 := ⟨61 - p, by omega⟩
  rw [show 63 + 1 - p = k + 3 from hk, show 62 + 1 - p = k + 2 from by omega]
  have hD : 2 ^ (k + 3) = 2 * 2 ^ (k + 2) := by rw [Nat.pow_succ 2 (k + 2), Nat.mul_comm]
  have hD4 : ∃ d, 2 ^ (k + 2) = 4 * d ∧ 0 < d := ⟨2 ^ k, by rw [Nat.pow_add, Nat.mul_comm], Nat.two_pow_pos k⟩
  obtain ⟨d, hd, hd0⟩ := hD4
  rw [hD]
  -- quotient and remainder of x / 2
  have q1 : x / (2 * 2 ^ (k + 2)) = x / 2 / 2 ^ (k + 2) := (Nat.div_div_eq_div_mul ..).symm
  have hx := Nat.div_add_mod (x / 2) (2 ^ (k + 2))
  have hlt := Nat.mod_lt (x / 2) (Nat.two_pow_pos (k + 2))
  have hq : y / 2 ^ (k + 2) = x / 2 / 2 ^ (k + 2) ∧ y % 2 ^ (k + 2) = (x / 2) % 2 ^ (k + 2) + (if x % 2 = 1 ∧ x / 2 % 2 = 0 then 1 else 0) := by
    have hev : (x / 2) % 2 = 0 → (x / 2) % 2 ^ (k + 2) + 1 < 2 ^ (k + 2) := by
      intro he
      have : (x / 2) % 2 ^ (k + 2) % 2 = 0 := by
        rw [hd, Nat.mod_mod_of_dvd _ (by omega)]; exact he
      omega
    rw [hd] at hx hlt hev ⊢
    have hyv : y = 4 * d * (x / 2 / (4 * d)) + ((x / 2) % (4 * d) + (if x % 2 = 1 ∧ x / 2 % 2 = 0 then 1 else 0)) := by
      rw [← Nat.add_assoc, hx, ← hy]; split <;> rfl
    have hr : (x / 2) % (4 * d) + (if x % 2 = 1 ∧ x / 2 % 2 = 0 then 1 else 0) < 4 * d := by
      split
      · rename_i h; exact hev h.2
      · omega
    constructor
    · rw [hyv, Nat.mul_add_div (by omega), Nat.div_eq_of_lt hr]; rfl
    · rw [hyv, Nat.mul_add_mod, Nat.mod_eq_of_lt hr]
  have hr : x % (2 * 2 ^ (k + 2)) = 2 * ((x / 2) % 2 ^ (k + 2)) + x % 2 := by
    rw [Nat.mod_mul]; omega
  rw [hq.1, hq.2, q1, hr, hd]
  have hpar : (x / 2) % (4 * d) % 2 = x / 2 % 2 := Nat.mod_mod_of_dvd _ (by omega)
  generalize (x / 2) % (4 * d) = rem at *
  generalize x / 2 / (4 * d) = q at *
  generalize hm : x / 2 % 2 = par at *
  have hm2 : par < 2 := by omega
  have hiff : (4 * d < 2 * (rem + if x % 2 = 1 ∧ par = 0 then 1 else 0) ∨ 4 * d = 2 * (rem + if x % 2 = 1 ∧ par = 0 then 1 else 0) ∧ q % 2 = 1) ↔
      (2 * (4 * d) < 2 * (2 * rem + x % 2) ∨ 2 * (4 * d) = 2 * (2 * rem + x % 2) ∧ q % 2 = 1) := by
    split <;> omega
  have hmul : ∀ z, 2 * (z * (4 * d)) = z * (2 * (4 * d)) := fun z => Nat.mul_left_comm ..
  by_cases hc : (4 * d < 2 * (rem + if x % 2 = 1 ∧ par = 0 then 1 else 0) ∨ 4 * d = 2 * (rem + if x % 2 = 1 ∧ par = 0 then 1 else 0) ∧ q % 2 = 1)
  · rw [if_pos hc, if_pos (hiff.1 hc), hmul]
  · rw [if_neg hc, if_neg (fun h => hc (hiff.2 h)), hmul]

theorem round_float {p : Nat} (hp : 2 ≤ p) {z : Int} (h : IsFloat p z) : roundInt p z = z := by
  by_cases he : z = roundInt p z
  · exact he.symm
  · have := (nearest_int hp z).2 z h he; omega

theorem u64_round {p : Nat} (h2 : 2 ≤ p) (hp : p ≤ 61) (v : Nat) : u64ToFloat p v = roundInt p ((v % 2 ^ 64 : Nat) : Int) := by
  unfold u64ToFloat
  have hlt : v % 2 ^ 64 < 2 ^ 64 := Nat.mod_lt _ (by decide)
  generalize v % 2 ^ 64 = x at *
  dsimp only
  split
  · rename_i h
    unfold cvtsi toSigned
    rw [Nat.mod_eq_of_lt hlt, if_pos h]
  · rename_i h
    have hle : 2 ^ 63 ≤ x := by omega
    have hy : (x >>> 1 ||| x &&& 1) < 2 ^ 63 := by
      rw [or_one_cases _ _ (by rw [Nat.and_one_is_mod]; omega), Nat.and_one_is_mod, Nat.shiftRight_eq_div_pow]
      split <;> omega
    have hd := round_double hle hlt hp (by omega)
    generalize (x >>> 1 ||| x &&& 1) = y at *
    have hc : cvtsi p 64 y = (roundNat p y : Nat) := by
      unfold cvtsi toSigned roundInt
      rw [Nat.mod_eq_of_lt (by omega), if_pos hy, if_neg (by omega), Int.natAbs_natCast]
    have hx : roundInt p (x : Int) = (roundNat p x : Nat) := by
      unfold roundInt
      rw [if_neg (by omega), Int.natAbs_natCast]
    rw [hc, hx, ← hd]
    unfold addFloat
    have hf : IsFloat p ((roundNat p y : Nat) + (roundNat p y : Nat) : Int) := by
      obtain ⟨m, e, h3, h4⟩ := (nearest_nat h2 y).1
      refine ⟨m, e + 1, h3, ?_⟩
      rw [Int.natAbs_natCast] at h4
      rw [← Int.natCast_add, Int.natAbs_natCast, h4, Nat.pow_succ, ← Nat.mul_assoc]; omega
    rw [round_float h2 hf]; omega

theorem toSigned_wrap (z : Int) (h1 : -2147483648 ≤ z) (h2 : z < 2147483648) : toSigned 32 (z % (2 ^ 32 : Nat)).toNat = z := by
  simp only [toSigned, Nat.reducePow, Nat.reduceSub]
  split <;> omega

theorem toSigned_small {n m v : Nat} (h : v < 2 ^ (n - 1)) (hn : 2 ^ (n - 1) ≤ 2 ^ n) (hm : v = m) : toSigned n v = (m : Int) := by
  subst hm
  unfold toSigned
  rw [Nat.mod_eq_of_lt (by omega), if_pos h]

theorem int_round (fmt : Format) (t : IntType) (v : Nat) : intToFloat fmt t v = roundInt fmt.bits (intValue t v) := by
  have h2 : 2 ≤ fmt.bits := by cases fmt <;> decide
  have h61 : fmt.bits ≤ 61 := by cases fmt <;> decide
  have key : ∀ n : Nat, n = 8 ∨ n = 16 → -2147483648 ≤ toSigned n v ∧ toSigned n v < 2147483648 := by
    rintro n (rfl | rfl) <;> simp only [toSigned, Nat.reducePow, Nat.reduceSub] <;> split <;> omega
  have iv : ∀ (n : Nat), intValue .s8 v = toSigned 8 v ∧ intValue .s16 v = toSigned 16 v ∧ intValue .s32 v = toSigned 32 v ∧ intValue .s64 v = toSigned 64 v := by
    intro n
    simp only [toSigned, intValue, IntType.size, IntType.signed, Nat.reducePow, Nat.reduceSub, true_and]
    refine ⟨?_, ?_, ?_, ?_⟩ <;> (repeat' split) <;> omega
  obtain ⟨i8, i16, i32, i64⟩ := iv 0
  cases t with
  | u64 =>
    show u64ToFloat _ _ = _
    rw [u64_round h2 h61]
    simp [intValue, IntType.size, IntType.signed]
  | s8 => rw [i8]; show roundInt _ (toSigned 32 (signExtend 8 v)) = _; rw [signExtend, toSigned_wrap _ (key 8 (.inl rfl)).1 (key 8 (.inl rfl)).2]
  | s16 => rw [i16]; show roundInt _ (toSigned 32 (signExtend 16 v)) = _; rw [signExtend, toSigned_wrap _ (key 16 (.inr rfl)).1 (key 16 (.inr rfl)).2]
  | s32 => rw [i32]; rfl
  | s64 => rw [i64]; rfl
  | u8 =>
    show roundInt _ (toSigned 32 (v % 2 ^ 8)) = _
    rw [toSigned_small (m := v % 256) (by simp only [Nat.reducePow, Nat.reduceSub]; omega) (by decide) rfl]
    simp [intValue, IntType.size, IntType.signed]
  | u16 =>
    show roundInt _ (toSigned 32 (v % 2 ^ 16)) = _
    rw [toSigned_small (m := v % 65536) (by simp only [Nat.reducePow, Nat.reduceSub]; omega) (by decide) rfl]
    simp [intValue, IntType.size, IntType.signed]
  | u32 =>
    show roundInt _ (toSigned 64 (v % 2 ^ 32)) = _
    rw [toSigned_small (m := v % 4294967296) (by simp only [Nat.reducePow, Nat.reduceSub]; omega) (by decide) rfl]
    simp [intValue, IntType.size, IntType.signed]

/-- **C71, integers to floats.** For all integer types and all values the result is the nearest `float` or `double`, whatever is in the rest of the register. -/
theorem C71_int_to_float (fmt : Format) (t : IntType) (v : Nat) : Nearest fmt.bits (intValue t v) (intToFloat fmt t v) := by
  rw [int_round]
  exact nearest_int (by cases fmt <;> decide) _

-- A tie, which goes to the even one, and a value just above, for which the last bit counts.
example : intToFloat .f64 .u64 (2 ^ 63 + 2 ^ 10) = 2 ^ 63 ∧ intToFloat .f64 .u64 (2 ^ 63 + 2 ^ 10 + 1) = 2 ^ 63 + 2 ^ 11 ∧
    intToFloat .f32 .s8 (2 ^ 9 + 255) = -1 ∧ intToFloat .f32 .u32 (2 ^ 40 + 2 ^ 32 - 1) = 2 ^ 32 := by decide +kernel

/-! ## Floats to integers -/

theorem truncates_integerPart {f t} : Truncates f t ↔ integerPart f = some t := by
  cases f with
  | fin neg m e =>
    simp only [Truncates, integerPart, Option.some.injEq]
    by_cases he : 0 ≤ e
    · rw [if_pos he, show (-e).toNat = 0 from by omega]
      simp only [Nat.pow_zero, Nat.mul_one]
      constructor
      · rintro ⟨n, rfl, h1, h2⟩
        rw [show n = m * 2 ^ e.toNat from by omega]
      · intro h
        exact ⟨_, h.symm, Nat.le_refl _, Nat.lt_succ_self _⟩
    · rw [if_neg he, show e.toNat = 0 from by omega]
      simp only [Nat.pow_zero, Nat.mul_one]
      have hp := Nat.two_pow_pos (-e).toNat
      constructor
      · rintro ⟨n, rfl, h1, h2⟩
        have : m / 2 ^ (-e).toNat = n := Nat.le_antisymm (Nat.le_of_lt_succ ((Nat.div_lt_iff_lt_mul hp).2 h2)) ((Nat.le_div_iff_mul_le hp).2 h1)
        rw [this]
      · intro h
        exact ⟨_, h.symm, Nat.div_mul_le_self _ _, Nat.lt_mul_of_div_lt (Nat.lt_succ_self _) hp⟩
  | inf _ => simp [Truncates, integerPart]
  | nan => simp [Truncates, integerPart]

/-- The conversions that are left out: to `unsigned` from a `float` of at least 2^31, and to `unsigned long long` of at least 2^63. -/
def TooLarge (fmt : Format) (t : IntType) (v : Int) : Prop :=
  (fmt = .f32 ∧ t = .u32 ∧ (2 ^ 31 : Nat) ≤ v) ∨ (t = .u64 ∧ (2 ^ 63 : Nat) ≤ v)

/-- **C71, floats to integers.** For a float in memory or in a float register, whose integer part the type can represent: the result is the integer part. -/
theorem C71_float_to_int_partial (fmt : Format) (t : IntType) (o : Operand) (v : Int) (ho : ∀ f g, o ≠ .gpr f g) (ht : Truncates o.value v)
    (hv : fits t v) (hl : ¬ TooLarge fmt t v) : intValue t (floatToInt fmt t o) = v := by
  have hr : o.read = o.value := by
    cases o with
    | gpr f g => exact absurd rfl (ho f g)
    | _ => rfl
  unfold floatToInt cvtt
  rw [hr, truncates_integerPart.1 ht]
  dsimp only
  have hw : -(2 ^ (castWidth fmt t - 1) : Nat) ≤ v ∧ v < (2 ^ (castWidth fmt t - 1) : Nat) := by
    revert hv hl
    simp only [fits, TooLarge]
    cases fmt <;> cases t <;>
    simp only [castWidth, intValue, IntType.size, IntType.signed, Nat.reducePow, Nat.reduceSub, reduceCtorEq, true_and, false_and, and_true, or_false, false_or,
      not_false_eq_true, and_false, if_true, if_false, Bool.false_eq_true, ite_true, ite_false] <;>
    omega
  rw [if_pos hw]
  clear hw hl
  revert hv
  simp only [fits]
  cases fmt <;> cases t <;>
    simp only [castWidth, intValue, IntType.size, IntType.signed, Nat.reducePow, Nat.reduceSub, reduceCtorEq, true_and, false_and, and_true, or_false, false_or,
      not_false_eq_true, and_false, if_true, if_false, Bool.false_eq_true, ite_true, ite_false] <;>
    intro hv <;> (repeat' split) <;> omega

/-- **C71 fails for large floats to `unsigned`.** 3000000000.0f becomes 2147483648. -/
theorem C71_float_to_unsigned_wrong : ∃ f v, Truncates f v ∧ fits .u32 v ∧ intValue .u32 (floatToInt .f32 .u32 (.xmm f)) ≠ v :=
  ⟨.fin false 3000000000 0, 3000000000, truncates_integerPart.2 rfl, by simp [fits, IntType.signed, IntType.size], by decide⟩

/-- **C71 fails for large floats to `unsigned long long`.** 10000000000000000000.0 becomes 9223372036854775808. -/
theorem C71_double_to_u64_wrong : ∃ f v, Truncates f v ∧ fits .u64 v ∧ intValue .u64 (floatToInt .f64 .u64 (.xmm f)) ≠ v :=
  ⟨.fin false 10000000000000000000 0, 10000000000000000000, truncates_integerPart.2 rfl, by simp [fits, IntType.signed, IntType.size], by decide⟩

/-- **C71 fails for the value of an assignment.** In `(int)(y = x)` the value is in a general purpose register, and the instruction reads
the float register with the same encoding. -/
theorem C71_assigned_wrong : ∃ o v, Truncates o.value v ∧ fits .s32 v ∧ intValue .s32 (floatToInt .f64 .s32 o) ≠ v :=
  ⟨.gpr (.fin false 5 0) (.fin false 7 0), 5, truncates_integerPart.2 rfl, by simp [fits, IntType.signed, IntType.size], by decide⟩

-- -5/2 becomes -2, also for a negative number that does not fit, by an unsigned type of 8 bits: 300.75 is 44 then, which C leaves open.
example : Truncates (.fin true 5 (-1)) (-2) ∧ intValue .s32 (floatToInt .f64 .s32 (.memory (.fin true 5 (-1)))) = -2 ∧
    floatToInt .f32 .u8 (.xmm (.fin false 1203 (-2))) = 44 := ⟨truncates_integerPart.2 rfl, by decide, by decide⟩

/-! ## Floats to `_Bool` -/

/-- **C71, floats to `_Bool`.** The result is false exactly for zero, except for `-0.0` that is not in a float register, and for a NaN that is. -/
theorem C71_bool_partial (o : Operand) (hneg : ∀ e, o.value = .fin true 0 e → o = .xmm o.value) (hnan : o ≠ .xmm .nan) :
    floatToBool o = true ↔ ¬ equalsZero o.value := by
  have hz : ∀ f : Fl, (∀ e, f ≠ .fin true 0 e) → ((!bitsZero f) = true ↔ ¬ equalsZero f) := by
    intro f hf
    cases f with
    | fin neg m e =>
      cases neg with
      | false => simp [bitsZero, equalsZero]
      | true =>
        have : m ≠ 0 := fun hc => hf e (by rw [hc])
        simp [bitsZero, equalsZero, this]
    | inf _ => simp [bitsZero, equalsZero]
    | nan => simp [bitsZero, equalsZero]
  cases o with
  | xmm f =>
    cases f with
    | fin neg m e => simp [floatToBool, zeroFlag, equalsZero, Operand.value]
    | inf _ => simp [floatToBool, zeroFlag, equalsZero, Operand.value]
    | nan => exact absurd rfl hnan
  | memory f => exact hz f (fun e he => by have := hneg e he; cases this)
  | gpr f g => exact hz f (fun e he => by have := hneg e he; cases this)

/-- **C71 fails for `-0.0`.** A variable with this value is true as a condition. -/
theorem C71_minus_zero_wrong : ∃ f, equalsZero f ∧ floatToBool (.memory f) = true := ⟨.fin true 0 0, rfl, rfl⟩

/-- **C71 fails for a NaN.** If it is the result of a computation, it is false as a condition, although it is not equal to 0. -/
theorem C71_nan_wrong : ¬ equalsZero .nan ∧ floatToBool (.xmm .nan) = false := ⟨fun h => h, rfl⟩

/-! ## Literals -/

/-- **C71, literals.** A cast of a float literal is right, or an error for a negative one and an unsigned type. -/
theorem C71_literal_partial (host : Nat) (t : IntType) (f : Fl) (v : Int) (ht : Truncates f v) (hv : fits t v) :
    (t.signed = false ∧ negative f = true ∧ literalToInt host t f = none) ∨ ∃ n, literalToInt host t f = some n ∧ intValue t n = v := by
  unfold literalToInt
  by_cases hn : t.signed = false ∧ negative f = true
  · left; exact ⟨hn.1, hn.2, if_pos hn⟩
  · right
    rw [if_neg hn, truncates_integerPart.1 ht]
    dsimp only
    have hw : (if t.signed = true then -(2 ^ (8 * t.size - 1) : Nat) ≤ v ∧ v < (2 ^ (8 * t.size - 1) : Nat) else 0 ≤ v ∧ v < (2 ^ (8 * t.size) : Nat)) := by
      revert hv
      simp only [fits]
      cases t <;>
        simp only [IntType.size, IntType.signed, Nat.reducePow, Nat.reduceSub, Nat.reduceMul, if_true, if_false, Bool.false_eq_true, ite_true, ite_false] <;> omega
    rw [if_pos hw]
    refine ⟨_, rfl, ?_⟩
    clear hw hn
    revert hv
    simp only [fits]
    cases t <;>
      simp only [intValue, IntType.size, IntType.signed, Nat.reducePow, Nat.reduceSub, Nat.reduceMul, true_and, false_and, if_true, if_false, Bool.false_eq_true, ite_true, ite_false] <;>
      intro hv <;> (repeat' split) <;> omega

/-- **C71, literals as `_Bool`.** A literal is false exactly if it is zero, or the cast of a negative one is an error. -/
theorem C71_literal_bool_partial (f : Fl) :
    (negative f = true ∧ literalToBool f = none) ∨ (negative f = false ∧ ∃ b, literalToBool f = some b ∧ (b = true ↔ ¬ equalsZero f)) := by
  unfold literalToBool
  cases h : negative f with
  | true => exact .inl ⟨rfl, by simp⟩
  | false =>
    refine .inr ⟨rfl, _, by rw [if_neg (by simp)], ?_⟩
    cases f <;> simp [equalsZero]

/-- **C71 fails for small negative literals.** `(unsigned)-0.5` is 0 in C, but an error; so is `(_Bool)-1.0`, which is 1. -/
theorem C71_negative_literal_wrong : Truncates (.fin true 1 (-1)) 0 ∧ fits .u32 0 ∧ literalToInt 0 .u32 (.fin true 1 (-1)) = none ∧
    literalToBool (.fin true 1 0) = none := ⟨truncates_integerPart.2 rfl, by simp [fits, IntType.signed, IntType.size], by decide, by decide⟩

/-! ## The registers of the cast from `u64` -/

open Verif.RegAlloc Verif.Props.RegAlloc Verif.Lemmas.Call
open Verif.Spec.RegAlloc (create)

theorem allocate_free {s s' : State} {k r} (hs : allocate s k = some (r, s')) : s'.map r = none ∧ ∀ r', s.map r' = none → s'.map r' = none := by
  obtain ⟨_, f, ⟨h1, rfl⟩ | h1⟩ := allocate_frame hs
  · exact ⟨h1, fun r' h => h⟩
  · obtain ⟨g1, g2, _⟩ := spill_frame h1
    refine ⟨g1, fun r' h => ?_⟩
    by_cases hr : r' = r
    · subst hr; exact g1
    · rw [g2 r' hr]; exact h

theorem compute_free {s s' : State} {k size v} (hs : step s (.compute k size v) = some s') (r) (h : s.map r = none) (hr : r.kind ≠ k) : s'.map r = none := by
  obtain ⟨⟨r1, s1⟩, h1, h2⟩ := Option.bind_eq_some_iff.1 hs
  have hk := (allocate_frame h1).1
  rw [newLoaded_map h2, upd_other]
  · exact (allocate_free h1).2 r h
  · rintro rfl
    exact hr (kind_of_mem (mem_order.1 hk))

theorem reload_free {s s' : State} {k id} (hs : step s (.reload k id) = some s') : ∃ r1, ∀ r, s.map r = none → r ≠ r1 → s'.map r = none := by
  unfold step at hs
  dsimp only at hs
  split at hs
  · obtain ⟨⟨r1, s1⟩, h1, h2⟩ := Option.bind_eq_some_iff.1 hs
    obtain ⟨s2, h3, h4⟩ := Option.bind_eq_some_iff.1 h2
    refine ⟨r1, fun r h hr => ?_⟩
    rw [newLoaded_map h4, upd_other _ _ hr]
    cases hm : s2.map r with
    | none => rfl
    | some j =>
      have := free_map h3 r j hm
      rw [(allocate_free h1).2 r h] at this
      cases this
  · cases hs

theorem inBranch_ext {s s' : State} {A taken saved r} (h : Inv s A) (hs : allocateInBranch s taken saved = some (r, s'))
    (hf : taken = true ∨ ∃ r ∈ volatiles .gpr, s.map r = none) : Ext Nothing s A s' A := by
  obtain ⟨⟨r1, s1⟩, h1, h2⟩ := Option.map_eq_some_iff.1 hs
  cases h2
  have e := allocate_ext h h1
  cases taken with
  | true =>
    have hm := (allocate_free h1).1
    have hi : Inv { s1 with regs := upd s1.regs r saved } A := regs_inv e.inv _ (fun r' id hid => by
      rw [upd_other]
      rintro rfl
      rw [hm] at hid; cases hid)
    exact ⟨hi, e.count, e.same, e.locked, e.alive, e.gone, e.small⟩
  | false =>
    have hmem : s1.mem = s.mem := by
      obtain ⟨r0, hr0, hr1⟩ := hf.resolve_left (by intro hc; cases hc)
      unfold allocate at h1
      dsimp only at h1
      split at h1
      · cases h1; rfl
      · rename_i hnone
        have := List.find?_eq_none.1 hnone r0 (mem_order.2 hr0)
        rw [hr1] at this
        simp at this
    have : (if false = true then { s1 with regs := upd s1.regs r saved } else { s1 with mem := s.mem }) = s1 := by
      rw [← hmem]; rfl
    rw [this]
    exact e

/-- **C71, the other registers.** A conversion from `u64` keeps every other value that is in use, and gives the nearest float, if two general purpose registers are free or
the top bit is set. -/
theorem C71_registers_partial (base regs mem) (ops : List Op) {s : State} (hrun : run (start base regs mem) ops = some s)
    (fmt : Format) (enc : Int → Nat) (id : Nat) (l : Loc) (hl : s.locs id = some l) (hlive : l.place ≠ .freed) (hsize : l.size = 8)
    {res s'} (hs : castU64 fmt enc s id = some (res, s')) {v} (hv : value s id = some v)
    (hfree : 2 ^ 63 ≤ v ∨ ∃ r r', r ∈ volatiles .gpr ∧ r' ∈ volatiles .gpr ∧ r ≠ r' ∧ s.map r = none ∧ s.map r' = none) :
    (∀ j, live s j = true → j ≠ id → live s' j = true ∧ value s' j = value s j) ∧
    ∃ x, Nearest fmt.bits v x ∧ live s' res = true ∧ value s' res = some (enc x % 256 ^ (if fmt = .f32 then 4 else 8)) := by
  have hi := run_inv ops _ _ _ (start_inv base regs mem) hrun
  have hsm : Small (Spec.RegAlloc.run {} ops) := Call.small_run ops _ Call.small_start
  generalize Spec.RegAlloc.run {} ops = A at hi hsm
  unfold castU64 at hs
  obtain ⟨s1, h1, hs⟩ := Option.bind_eq_some_iff.1 hs
  obtain ⟨⟨loc, s2⟩, h2, hs⟩ := Option.bind_eq_some_iff.1 hs
  obtain ⟨s3, h3, hs⟩ := Option.bind_eq_some_iff.1 hs
  obtain ⟨v', h4, hs⟩ := Option.bind_eq_some_iff.1 hs
  obtain ⟨⟨r4, s4⟩, h5, hs⟩ := Option.bind_eq_some_iff.1 hs
  obtain ⟨s5, h6, hs⟩ := Option.bind_eq_some_iff.1 hs
  obtain ⟨s6, h7, hs⟩ := Option.bind_eq_some_iff.1 hs
  obtain ⟨s7, h8, hs⟩ := Option.map_eq_some_iff.1 hs
  cases hs
  -- the register of the result
  obtain ⟨r1, hk1, e1, n1, l1⟩ := compute_ext hi h1
  have hc := hi.count
  have hidc := lt_count hi hl
  have hvA : A.value id = v := by
    rw [value_eq hi hl hlive] at hv; exact Option.some.inj hv
  have hv64 : v < 2 ^ 64 := by
    have := hsm id
    rw [hvA, ← hi.size id l hl, hsize] at this
    exact this
  obtain ⟨p1, m1, m2⟩ := e1.alive id l hl hlive (fun h => h)
  -- the operand
  have load : ∃ A2, Ext (· = id) s1 (create A (if fmt = .f32 then 4 else 8) 0) s2 A2 ∧ A2.value loc = v ∧ (loc = id ∨ s.next < loc) ∧
      (∃ ll, s2.locs loc = some ll ∧ ll.place ≠ .freed) ∧ (loc = id ∨ loc = s1.next) ∧ ∃ r1, ∀ r, s1.map r = none → r ≠ r1 → s2.map r = none := by
    unfold loadGpr at h2
    split at h2
    · rename_i hl2
      cases h2
      refine ⟨_, Ext.refl e1.inv, ?_, .inl rfl, ⟨_, hl2, by intro hc; cases hc⟩, .inl rfl, r1, fun r h _ => h⟩
      rw [(e1.same _ hidc).2]; exact hvA
    · obtain ⟨s2', g1, g2⟩ := Option.map_eq_some_iff.1 h2
      cases g2
      obtain ⟨r2, size2, e2, n2, _, l2⟩ := reload_ext e1.inv g1
      refine ⟨_, e2, ?_, .inr (by omega), ⟨_, l2, by intro hc; cases hc⟩, .inr rfl, reload_free g1⟩
      rw [e1.inv.count]
      show upd _ _ _ _ = _
      rw [upd_same, (e1.same id hidc).2, (e1.same id hidc).1, hvA, ← hi.size id l hl, hsize]
      exact Nat.mod_eq_of_lt hv64
  obtain ⟨A2, e2, hv2, hloc, ⟨ll, hll, hllive⟩, hloc', rr, hrr⟩ := load
  have e12 : Ext (· = id) s A s2 A2 := Ext.trans hi (e1.weaken hi (fun _ _ h => h.elim)) e2 (fun _ _ h => h)
  -- the lock
  obtain ⟨l3, g1, rfl⟩ := lock_locs h3
  rw [hll] at g1; cases g1
  have e3 : Ext (· = loc) s2 A2 _ A2 := set_ext (l' := { ll with preventSpilling := ll.preventSpilling + 1 }) e2.inv hll hllive rfl rfl
  have hneloc : ∀ j, j < A.count → j = loc → j = id := by
    intro j hj h
    rcases hloc with h' | h'
    · rw [h, h']
    · omega
  have hresloc : s.next ≠ loc := by
    rcases hloc with h' | h' <;> omega
  have e13 := Ext.trans hi e12 e3 hneloc
  have hv' : v' = v := by
    rw [value_eq (l := { ll with preventSpilling := ll.preventSpilling + 1 }) e3.inv (upd_same _ _ _) hllive] at h4
    rw [← Option.some.inj h4]; exact hv2
  subst hv'
  -- the branch
  have e4 := inBranch_ext e3.inv h5 (by
    rcases hfree with h | ⟨r, r', hr, hr', hne, f1, f2⟩
    · exact .inl (decide_eq_true h)
    · refine .inr ?_
      have kr : ∀ r, r ∈ volatiles .gpr → s.map r = none → s1.map r = none := fun r hr h => compute_free h1 r h (by rw [kind_of_mem hr]; decide)
      by_cases h : r = rr
      · exact ⟨r', hr', hrr r' (kr r' hr' f2) (by rintro rfl; exact hne h)⟩
      · exact ⟨r, hr, hrr r (kr r hr f1) h⟩)
  have e14 := Ext.trans hi e13 e4 (fun _ _ h => h.elim)
  -- the result
  have hres4 : ∃ lr, s4.locs s.next = some lr ∧ lr.size = (if fmt = .f32 then 4 else 8) := by
    obtain ⟨p2, q1, q2⟩ := e2.alive s.next _ l1 (by intro hc; cases hc) (by omega)
    obtain ⟨p3, q3, q4⟩ := e3.alive s.next _ q1 (q2.live (by intro hc; cases hc)) hresloc
    obtain ⟨p4, q5, q6⟩ := e4.alive s.next _ q3 (q4.live (q2.live (by intro hc; cases hc))) (fun h => h)
    exact ⟨_, q5, rfl⟩
  obtain ⟨lr, hlr, hlrs⟩ := hres4
  have w : ∃ r, lr.place = .loaded r ∧ s5 = { s4 with regs := upd s4.regs r (enc (u64ToFloat fmt.bits v')) } := by
    unfold step at h6
    dsimp only at h6
    split at h6
    · rename_i hlr'
      rw [hlr] at hlr'; cases hlr'
      cases h6
      exact ⟨_, rfl, rfl⟩
    · cases h6
  obtain ⟨r5, hr5, rfl⟩ := w
  have i5 := write_inv e14.inv hlr hr5 (enc (u64ToFloat fmt.bits v'))
  -- unlock and free
  obtain ⟨l6, g1, g2⟩ := Option.bind_eq_some_iff.1 h7
  obtain ⟨l6', g3, rfl⟩ := Option.map_eq_some_iff.1 g2
  dsimp only at g3
  split at g3
  · cases g3
  cases g3
  have hl6 : l6.place ≠ .freed := by
    obtain ⟨p4, q5, q6⟩ := e4.alive loc _ (upd_same _ _ _) hllive (fun h => h)
    have : s4.locs loc = some l6 := g1
    rw [q5] at this; cases this
    exact q6.live hllive
  have e6 := set_ext (l' := { l6 with preventSpilling := l6.preventSpilling - 1 }) i5 g1 hl6 rfl rfl
  have e7 := free_ext e6.inv h8
  have e57 := Ext.trans i5 e6 e7 (fun _ _ h => h)
  refine ⟨fun j hj hne => ?_, u64ToFloat fmt.bits v', ?_, ?_⟩
  · unfold live at hj
    split at hj
    · cases hj
    · rename_i lj hlj
      have hjl : lj.place ≠ .freed := by simpa using hj
      have hjc := lt_count hi hlj
      obtain ⟨p2, q1, q2⟩ := e14.alive j lj hlj hjl hne
      have q3 := q2.live hjl
      obtain ⟨p3, q4, q5⟩ := e57.alive j _ q1 q3 (fun h => hne (hneloc j hjc h))
      have q6 := q5.live q3
      refine ⟨?_, ?_⟩
      · unfold live
        rw [q4]
        simpa using q6
      · rw [value_eq e57.inv q4 q6, value_eq hi hlj hjl, (e57.same j (Nat.lt_of_lt_of_le hjc e14.count)).2]
        show some (upd _ _ _ j) = _
        rw [upd_other _ _ (by omega), (e14.same j hjc).2]
  · have h2 : 2 ≤ fmt.bits := by cases fmt <;> decide
    have h61 : fmt.bits ≤ 61 := by cases fmt <;> decide
    rw [u64_round h2 h61, Nat.mod_eq_of_lt hv64]
    exact nearest_int h2 _
  · have q0 : lr.place ≠ .freed := by rw [hr5]; intro hc; cases hc
    obtain ⟨p3, q4, q5⟩ := e57.alive s.next lr hlr q0 hresloc
    have q6 := q5.live q0
    refine ⟨?_, ?_⟩
    · unfold live
      rw [q4]
      simpa using q6
    · rw [value_eq e57.inv q4 q6, (e57.same s.next (lt_count e14.inv hlr)).2]
      show some (upd _ _ _ _) = _
      rw [upd_same, ← e14.inv.size _ _ hlr, hlrs]

/-- Seven values in the seven general purpose registers that are available. -/
def full : List Op := [.compute .gpr 8 11, .compute .gpr 8 12, .compute .gpr 8 13, .compute .gpr 8 14, .compute .gpr 8 15, .compute .gpr 8 16, .compute .gpr 8 17]

/-- **C71 is violated: a register saved in a branch.** The register for the top bit is taken between a jump and its target. If another value is in it, the instruction that
saves the value is in the branch, but the compiler takes it for saved in any case: `f(a+1, b+1, c+1, d+1, e+1, g+1, (double)(u+1))`. -/
theorem C71_branch_spill_wrong : ∃ s res s', run (start 0 (fun _ => 0) (fun _ => 0)) full = some s ∧ value s 6 = some 17 ∧
    castU64 .f64 (fun _ => 0) s 6 = some (res, s') ∧ ∃ j v, j ≠ 6 ∧ live s j = true ∧ value s j = some v ∧ live s' j = true ∧ value s' j ≠ some v := by
  refine ⟨_, _, _, rfl, by decide +kernel, rfl, 0, 11, by decide, by decide +kernel, by decide +kernel, by decide +kernel, by decide +kernel⟩

-- The same with one value less and an operand whose top bit is set; the others stay.
example : ∃ s res s', run (start 0 (fun _ => 0) (fun _ => 0)) (full ++ [.free 0, .write 6 (2 ^ 63 + 1)]) = some s ∧ value s 6 = some (2 ^ 63 + 1) ∧
    castU64 .f64 Int.toNat s 6 = some (res, s') ∧ value s' res = some (2 ^ 63) ∧ value s' 1 = some 12 ∧ value s' 5 = some 16 := by
  refine ⟨_, _, _, rfl, by decide +kernel, rfl, by decide +kernel, by decide +kernel, by decide +kernel⟩

-- Two registers are free, and the top bit is clear.
example : ∃ s res s', run (start 0 (fun _ => 0) (fun _ => 0)) (full.take 5) = some s ∧ s.map ⟨.gpr, 10⟩ = none ∧ s.map ⟨.gpr, 11⟩ = none ∧
    castU64 .f32 Int.toNat s 4 = some (res, s') ∧ value s' res = some 15 ∧ value s' 0 = some 11 := by
  refine ⟨_, _, _, rfl, by decide +kernel, by decide +kernel, rfl, by decide +kernel, by decide +kernel⟩

end Verif.Props.FloatConv
