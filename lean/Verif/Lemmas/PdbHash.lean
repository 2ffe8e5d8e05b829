import Verif.Model.PdbSymbols
import Verif.Spec.PdbSymbols

/-!
# Lemmas: the hash of names
-/
namespace Verif.Lemmas.PdbHash
open Verif.Model.PdbSymbols
open Verif.Spec.PdbSymbols (lane mix)
open Verif.Spec.Image (byte)

/-- Numbers without common bits. -/
theorem add_xor {a k : Nat} (b : Nat) (h : a < 2 ^ k) : a + 2 ^ k * b = a ^^^ (b <<< k) := by
  apply Nat.eq_of_testBit_eq
  intro i
  rw [Nat.add_comm, Nat.testBit_two_pow_mul_add _ h, Nat.testBit_xor, Nat.testBit_shiftLeft]
  by_cases hi : i < k
  · rw [if_pos hi, decide_eq_false (by omega), Bool.false_and, Bool.xor_false]
  · rw [if_neg hi, decide_eq_true (by omega), Bool.true_and, Nat.testBit_lt_two_pow (Nat.lt_of_lt_of_le h (Nat.pow_le_pow_right (by omega) (by omega))),
      Bool.false_xor]

theorem word_xor {a b c d : Nat} (ha : a < 256) (hb : b < 256) (hc : c < 256) :
    a + 256 * b + 65536 * c + 16777216 * d = a ^^^ (b <<< 8) ^^^ (c <<< 16) ^^^ (d <<< 24) := by
  rw [← add_xor (k := 8) b (by omega), ← add_xor (k := 16) c (by omega), ← add_xor (k := 24) d (by omega)]

theorem words_succ : (n : Nat) → (s : List Nat) → (r : Nat) → words (n + 1) s r = words n s r ^^^ word ((s.drop (4 * n)).take 4)
  | 0, s, r => by rw [words, words, words, Nat.mul_zero, List.drop_zero]
  | n + 1, s, r => by
    rw [words, words_succ n]
    conv => rhs; rw [words]
    rw [List.drop_drop, show 4 + 4 * n = 4 * (n + 1) by omega]

theorem word_at (s : List Nat) (k : Nat) : word ((s.drop k).take 4) = byte s k + 256 * byte s (k + 1) + 65536 * byte s (k + 2) + 16777216 * byte s (k + 3) := by
  simp [word, byte, List.getD_eq_getElem?_getD, List.getElem?_take, List.getElem?_drop]

theorem byte_lt {s : List Nat} (h : ∀ b ∈ s, b < 256) (i : Nat) : byte s i < 256 := by
  unfold byte
  rw [List.getD_eq_getElem?_getD]
  cases hi : s[i]? with
  | none => exact Nat.zero_lt_succ _
  | some v => exact h v (List.mem_of_getElem? hi)

theorem words_eq {s : List Nat} (h : ∀ b ∈ s, b < 256) (step : Nat → Nat → Nat) (hs : ∀ r i, step r i = r ^^^ (byte s i <<< (8 * lane s.length i))) :
    (n : Nat) → n ≤ s.length / 4 → words n s 0 = (List.range (4 * n)).foldl step 0
  | 0, _ => rfl
  | n + 1, hn => by
    rw [words_succ, words_eq h step hs n (by omega), show 4 * (n + 1) = 4 * n + 1 + 1 + 1 + 1 by omega]
    simp only [List.range_succ, List.foldl_append, List.foldl_cons, List.foldl_nil]
    have l0 : lane s.length (4 * n) = 0 := by unfold lane; rw [if_pos (by omega)]; omega
    have l1 : lane s.length (4 * n + 1) = 1 := by unfold lane; rw [if_pos (by omega)]; omega
    have l2 : lane s.length (4 * n + 1 + 1) = 2 := by unfold lane; rw [if_pos (by omega)]; omega
    have l3 : lane s.length (4 * n + 1 + 1 + 1) = 3 := by unfold lane; rw [if_pos (by omega)]; omega
    rw [hs, hs, hs, hs, l0, l1, l2, l3, word_at, word_xor (byte_lt h _) (byte_lt h _) (byte_lt h _)]
    simp only [Nat.mul_zero, Nat.mul_one, Nat.shiftLeft_zero, Nat.xor_assoc]

/-- The hash that is computed is the one of the format. -/
theorem hash_eq {s : List Nat} (h : ∀ b ∈ s, b < 256) : stringHash s = Verif.Spec.PdbSymbols.hash s := by
  have hm : ∀ rest at_ ret, s.length % 4 = rest → s.length / 4 * 4 = at_ → words (s.length / 4) s 0 = ret →
      (let p := if rest ≥ 2 then (ret ^^^ (s.getD at_ 0 + 256 * s.getD (at_ + 1) 0), rest - 2, at_ + 2) else (ret, rest, at_)
       if p.2.1 ≠ 0 then p.1 ^^^ s.getD p.2.2 0 else p.1) = mix s := by
    intro rest at_ ret h1 h2 h3
    unfold mix
    have hw := words_eq h _ (fun r i => rfl) (s.length / 4) (Nat.le_refl _)
    rw [h3] at hw
    have hl : s.length = 4 * (s.length / 4) + rest := by omega
    have hat : 4 * (s.length / 4) = at_ := by omega
    rw [hat] at hw
    rw [show (List.range s.length) = List.range (at_ + rest) by rw [← hat, ← hl]]
    generalize hst : (fun h i => h ^^^ byte s i <<< (8 * lane s.length i)) = step at *
    have hs : ∀ r i, step r i = r ^^^ (byte s i <<< (8 * lane s.length i)) := fun r i => by rw [← hst]
    have l0 : lane s.length at_ = 0 := by unfold lane; rw [if_neg (by omega)]; omega
    have l1 : lane s.length (at_ + 1) = 1 := by unfold lane; rw [if_neg (by omega)]; omega
    have l2 : lane s.length (at_ + 1 + 1) = 0 := by unfold lane; rw [if_neg (by omega)]; omega
    have two : s.getD at_ 0 + 256 * s.getD (at_ + 1) 0 = byte s at_ ^^^ (byte s (at_ + 1) <<< 8) := add_xor (k := 8) _ (byte_lt h _)
    have hr : rest = 0 ∨ rest = 1 ∨ rest = 2 ∨ rest = 3 := by omega
    rcases hr with rfl | rfl | rfl | rfl
    · simp only [Nat.add_zero]; rw [← hw]; rfl
    · show ret ^^^ byte s at_ = _
      rw [List.range_succ, List.foldl_append, List.foldl_cons, List.foldl_nil, ← hw, hs, l0]; rfl
    · show ret ^^^ (s.getD at_ 0 + 256 * s.getD (at_ + 1) 0) = _
      rw [two, List.range_succ, List.foldl_append, List.foldl_cons, List.foldl_nil, List.range_succ, List.foldl_append, List.foldl_cons, List.foldl_nil, ← hw, hs, hs,
        l0, l1, Nat.xor_assoc]; rfl
    · show ret ^^^ (s.getD at_ 0 + 256 * s.getD (at_ + 1) 0) ^^^ byte s (at_ + 2) = _
      rw [two, List.range_succ, List.foldl_append, List.foldl_cons, List.foldl_nil, List.range_succ, List.foldl_append, List.foldl_cons, List.foldl_nil, List.range_succ,
        List.foldl_append, List.foldl_cons, List.foldl_nil, ← hw, hs, hs, hs, l0, l1, l2]
      simp only [Nat.mul_zero, Nat.mul_one, Nat.shiftLeft_zero, Nat.xor_assoc]
  have := hm _ _ _ rfl rfl rfl
  unfold stringHash Verif.Spec.PdbSymbols.hash
  rw [← this]

end Verif.Lemmas.PdbHash
