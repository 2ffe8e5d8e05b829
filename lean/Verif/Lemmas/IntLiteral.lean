import Verif.Model.IntLiteral
import Verif.Spec.IntLiteral

namespace Verif.IntLiteral
open Verif.Spec.IntLiteral

theorem and_mul_two_pow (x m k : Nat) : x &&& (m * 2^k) = ((x / 2^k) &&& m) * 2^k := by
  apply Nat.eq_of_testBit_eq
  intro i
  simp only [Nat.testBit_and, Nat.testBit_mul_two_pow, Nat.testBit_div_two_pow]
  by_cases h : k ≤ i
  · simp [h]
  · simp [h]

theorem and_top1 (x : Nat) (h : x < 2^64) : (x &&& 0x8000000000000000 != 0) = decide (x ≥ 2^63) := by
  have e : (0x8000000000000000:Nat) = (2^1-1) * 2^63 := by decide
  rw [e, and_mul_two_pow, Nat.and_two_pow_sub_one_eq_mod]
  rw [Bool.eq_iff_iff]; simp; omega

theorem and_top3 (x : Nat) : (x &&& 0x7000000000000000 != 0) = decide (x / 2^60 % 8 ≠ 0) := by
  have e : (0x7000000000000000:Nat) = (2^3-1) * 2^60 := by decide
  rw [e, and_mul_two_pow, Nat.and_two_pow_sub_one_eq_mod]
  rw [Bool.eq_iff_iff]; simp; omega

theorem and_top4 (x : Nat) (h : x < 2^64) : (x &&& (15 <<< 60) != 0) = decide (x ≥ 2^60) := by
  have e : (15 <<< 60:Nat) = (2^4-1) * 2^60 := by decide
  rw [e, and_mul_two_pow, Nat.and_two_pow_sub_one_eq_mod]
  rw [Bool.eq_iff_iff]; simp; omega

theorem subZero_digit {b : Nat} {c : UInt8} (hb : b ≤ 10) (h : IsDigit b c) :
    ∃ d, digitValue c = some d ∧ subZero c = d ∧ d < b ∧ c ≠ 39 := by
  obtain ⟨d, hd, hlt⟩ := h
  refine ⟨d, hd, ?_, hlt, ?_⟩
  · have := c.toNat_lt
    simp only [digitValue] at hd
    unfold subZero
    split at hd
    · simp at hd; omega
    · split at hd
      · simp at hd; omega
      · split at hd
        · simp at hd; omega
        · simp at hd
  · rintro rfl; simp [digitValue] at hd

theorem subZero_nondigit {b : Nat} {c : UInt8} (hb : 0 < b) (hb' : b ≤ 10) (h : ¬ IsDigit b c) :
    subZero c > b - 1 := by
  have hc := c.toNat_lt
  by_cases h1 : 48 ≤ c.toNat ∧ c.toNat ≤ 57
  · have : ¬ (c.toNat - 48 < b) := fun hlt => h ⟨_, by simp [digitValue, h1], hlt⟩
    unfold subZero; omega
  · unfold subZero; omega

theorem hexNumber_eq (c : UInt8) : hexNumber c = digitValue c := by
  have := c.toNat_lt
  unfold hexNumber digitValue
  simp only
  repeat' split
  all_goals first | rfl | omega | (congr 1; omega)

theorem hexNumber_digit {c : UInt8} (h : IsDigit 16 c) :
    ∃ d, digitValue c = some d ∧ hexNumber c = some d ∧ d < 16 ∧ c ≠ 39 := by
  obtain ⟨d, hd, hlt⟩ := h
  exact ⟨d, hd, by rw [hexNumber_eq, hd], hlt, by rintro rfl; simp [digitValue] at hd⟩

theorem hexNumber_nondigit {c : UInt8} (h : ¬ IsDigit 16 c) : hexNumber c = none := by
  rw [hexNumber_eq]
  cases hd : digitValue c with
  | none => rfl
  | some d =>
    exfalso; apply h; refine ⟨d, hd, ?_⟩
    have := c.toNat_lt
    simp only [digitValue] at hd
    repeat' split at hd
    all_goals simp at hd
    all_goals omega

/-- Number of digits in a body. -/
def nd (cs : List UInt8) : Nat := (cs.filter (· ≠ 39)).length

theorem nd_sep (cs) : nd (39 :: cs) = nd cs := by simp [nd]
theorem nd_cons {c : UInt8} (cs) (h : c ≠ 39) : nd (c :: cs) = nd cs + 1 := by simp [nd, h]

theorem value_sep (b cs) : value b (39 :: cs) = value b cs := by simp [value, digitValue]
theorem value_cons {b c d} (cs) (h : digitValue c = some d) :
    value b (c :: cs) = d * b ^ nd cs + value b cs := by simp [value, h, nd]

theorem horner_step (T b d n v : Nat) : T * b ^ (n+1) + (d * b^n + v) = (T*b+d) * b^n + v := by
  rw [Nat.pow_succ, Nat.add_mul, Nat.mul_assoc, Nat.mul_comm (b^n) b]; omega

/-- All loops have this shape: an abstract step on the true value `T`. -/
theorem base10Loop_spec (body suf : List UInt8) (hb : Body 10 body) (hs : SuffixOk 10 suf) :
    ∀ (T : Nat) (ov : Bool), (ov = true → T ≥ 2^64) →
      (T < 10 * 2^64 → ov = decide (T ≥ 18446744090889420800 ∨ (2^64 ≤ T ∧ T < 18446744073709551620))) →
    ∃ ov', base10Loop (body ++ suf) (T % 2^64) ov = ((T * 10 ^ nd body + value 10 body) % 2^64, ov', suf)
      ∧ (ov' = true → T * 10 ^ nd body + value 10 body ≥ 2^64)
      ∧ (T * 10 ^ nd body + value 10 body < 10 * 2^64 →
          ov' = decide (T * 10 ^ nd body + value 10 body ≥ 18446744090889420800 ∨
            (2^64 ≤ T * 10 ^ nd body + value 10 body ∧ T * 10 ^ nd body + value 10 body < 18446744073709551620))) := by
  induction body with
  | nil =>
    intro T ov h1 h2
    refine ⟨ov, ?_, by simpa [nd, value] using h1, by simpa [nd, value] using h2⟩
    cases suf with
    | nil => simp [base10Loop, nd, value]
    | cons c cs =>
      obtain ⟨hc, hd⟩ := hs c rfl
      have := subZero_nondigit (b := 10) (by omega) (by omega) hd
      simp [base10Loop, nd, value, hc, this]
  | cons c cs ih =>
    intro T ov h1 h2
    have hcs : Body 10 cs := fun c hc => hb c (List.mem_cons_of_mem _ hc)
    rcases hb c (List.mem_cons_self ..) with rfl | hd
    · rw [nd_sep, value_sep]
      simpa [base10Loop] using ih hcs T ov h1 h2
    · obtain ⟨d, hdv, hsz, hlt, hne⟩ := subZero_digit (by omega) hd
      rw [nd_cons _ hne, value_cons _ hdv, horner_step]
      have hnew : ((T % 2^64 * 10) % 2^64 + d) % 2^64 = (T * 10 + d) % 2^64 := by omega
      simp only [List.cons_append, base10Loop, hsz, beq_iff_eq, hne, if_false,
        show ¬ (d > 9) by omega, hnew]
      apply ih hcs (T * 10 + d)
      · intro h
        simp only [Bool.or_eq_true, decide_eq_true_eq] at h
        rcases h with (h | h) | h
        · have := h1 h; omega
        · omega
        · omega
      · intro hT
        have hTlt : T < 2^64 := by omega
        have hov := h2 (by omega)
        have hovf : ov = false := by rw [hov]; simp; omega
        rw [hovf, Bool.eq_iff_iff, Nat.mod_eq_of_lt hTlt]
        simp only [Bool.false_or, Bool.or_eq_true, decide_eq_true_eq]
        omega

theorem hexLoop_spec (body suf : List UInt8) (hb : Body 16 body) (hs : SuffixOk 16 suf) :
    ∀ T : Nat, hexLoop (body ++ suf) (T % 2^64) (decide (T ≥ 2^64)) =
      ((T * 16 ^ nd body + value 16 body) % 2^64, decide (T * 16 ^ nd body + value 16 body ≥ 2^64), suf) := by
  induction body with
  | nil =>
    intro T
    cases suf with
    | nil => simp [hexLoop, nd, value]
    | cons c cs =>
      obtain ⟨hc, hd⟩ := hs c rfl
      simp [hexLoop, nd, value, hc, hexNumber_nondigit hd]
  | cons c cs ih =>
    intro T
    have hcs : Body 16 cs := fun c hc => hb c (List.mem_cons_of_mem _ hc)
    rcases hb c (List.mem_cons_self ..) with rfl | hd
    · rw [nd_sep, value_sep, ← ih hcs T]
      simp [hexLoop]
    · obtain ⟨d, hdv, hsz, hlt, hne⟩ := hexNumber_digit hd
      rw [nd_cons _ hne, value_cons _ hdv, horner_step, ← ih hcs (T*16+d)]
      have hsh : (T % 2^64) <<< 4 = T % 2^64 * 16 := by rw [Nat.shiftLeft_eq]
      have hnew : ((T % 2^64 * 16) % 2^64 + d) % 2^64 = (T * 16 + d) % 2^64 := by omega
      have hov : ((decide (T ≥ 2^64) || (T % 2^64 &&& (15 <<< 60) != 0)) ||
          decide ((T * 16 + d) % 2^64 < T % 2^64 * 16 % 2^64)) = decide (T * 16 + d ≥ 2^64) := by
        rw [and_top4 _ (Nat.mod_lt _ (by decide)), Bool.eq_iff_iff]
        simp only [Bool.or_eq_true, decide_eq_true_eq]
        omega
      simp only [List.cons_append, hexLoop, hsz, beq_iff_eq, hne, if_false, hsh, hnew, hov]

theorem binaryLoop_spec (body suf : List UInt8) (hb : Body 2 body) (hs : SuffixOk 2 suf) :
    ∀ T : Nat, binaryLoop (body ++ suf) (T % 2^64) (decide (T ≥ 2^64)) =
      ((T * 2 ^ nd body + value 2 body) % 2^64, decide (T * 2 ^ nd body + value 2 body ≥ 2^64), suf) := by
  induction body with
  | nil =>
    intro T
    cases suf with
    | nil => simp [binaryLoop, nd, value]
    | cons c cs =>
      obtain ⟨hc, hd⟩ := hs c rfl
      have := subZero_nondigit (b := 2) (by omega) (by omega) hd
      simp [binaryLoop, nd, value, hc, this]
  | cons c cs ih =>
    intro T
    have hcs : Body 2 cs := fun c hc => hb c (List.mem_cons_of_mem _ hc)
    rcases hb c (List.mem_cons_self ..) with rfl | hd
    · rw [nd_sep, value_sep, ← ih hcs T]
      simp [binaryLoop]
    · obtain ⟨d, hdv, hsz, hlt, hne⟩ := subZero_digit (by omega) hd
      rw [nd_cons _ hne, value_cons _ hdv, horner_step, ← ih hcs (T*2+d)]
      have hsh : ((T % 2^64) <<< 1) % 2^64 ||| d = (T * 2 + d) % 2^64 := by
        have e : ((T % 2^64) <<< 1) % 2^64 = 2^1 * (T % 2^63) := by
          rw [Nat.shiftLeft_eq]; omega
        rw [e, ← Nat.two_pow_add_eq_or_of_lt (by omega)]; omega
      have hov : (decide (T ≥ 2^64) || (T % 2^64 &&& 0x8000000000000000 != 0)) =
          decide (T * 2 + d ≥ 2^64) := by
        rw [and_top1 _ (Nat.mod_lt _ (by decide)), Bool.eq_iff_iff]
        simp only [Bool.or_eq_true, decide_eq_true_eq]
        omega
      simp only [List.cons_append, binaryLoop, hsz, beq_iff_eq, hne, if_false,
        show ¬ (d > 1) by omega, hsh, hov]

theorem octalLoop_spec (body suf : List UInt8) (hb : Body 8 body) (hs : SuffixOk 8 suf) :
    ∀ T : Nat, octalLoop (body ++ suf) (T % 2^64) (decide (T ≥ 2^63)) =
      ((T * 8 ^ nd body + value 8 body) % 2^64, decide (T * 8 ^ nd body + value 8 body ≥ 2^63), suf) := by
  induction body with
  | nil =>
    intro T
    cases suf with
    | nil => simp [octalLoop, nd, value]
    | cons c cs =>
      obtain ⟨hc, hd⟩ := hs c rfl
      have := subZero_nondigit (b := 8) (by omega) (by omega) hd
      simp [octalLoop, nd, value, hc, this]
  | cons c cs ih =>
    intro T
    have hcs : Body 8 cs := fun c hc => hb c (List.mem_cons_of_mem _ hc)
    rcases hb c (List.mem_cons_self ..) with rfl | hd
    · rw [nd_sep, value_sep, ← ih hcs T]
      simp [octalLoop]
    · obtain ⟨d, hdv, hsz, hlt, hne⟩ := subZero_digit (by omega) hd
      rw [nd_cons _ hne, value_cons _ hdv, horner_step, ← ih hcs (T*8+d)]
      have hnew : (T % 2^64 * 8 + d) % 2^64 = (T * 8 + d) % 2^64 := by omega
      have hov : (decide (T ≥ 2^63) || (T % 2^64 &&& 0x7000000000000000 != 0)) =
          decide (T * 8 + d ≥ 2^63) := by
        rw [and_top3, Bool.eq_iff_iff]
        simp only [Bool.or_eq_true, decide_eq_true_eq]
        omega
      simp only [List.cons_append, octalLoop, hsz, beq_iff_eq, hne, if_false,
        show ¬ (d > 7) by omega, hnew, hov]

end Verif.IntLiteral
