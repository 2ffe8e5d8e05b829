import Verif.Model.Utf16
import Verif.Spec.Utf

/-!
# C42: command files in UTF-16
-/
namespace Verif.Props.Utf16
open Verif.Utf16 Verif.Spec.Utf

theorem or_low (a k : Nat) (n : Nat) (h : k < 2 ^ n) : (a <<< n) ||| k = a * 2 ^ n + k := by
  rw [← Nat.shiftLeft_add_eq_or_of_lt h, Nat.shiftLeft_eq]

theorem and_mask (x n : Nat) : x &&& (2 ^ n - 1) = x % 2 ^ n := Nat.and_two_pow_sub_one_eq_mod x n

theorem encode_eq {cp : Nat} (h : cp ≤ 0x10FFFF) : encode cp = utf8 cp := by
  have m6 : ∀ x, x &&& 63 = x % 64 := fun x => and_mask x 6
  have m5 : ∀ x, x &&& 31 = x % 32 := fun x => and_mask x 5
  have m4 : ∀ x, x &&& 15 = x % 16 := fun x => and_mask x 4
  have m3 : ∀ x, x &&& 7 = x % 8 := fun x => and_mask x 3
  have o7 : ∀ x, (1 <<< 7) ||| (x % 64) = 0x80 + x % 64 := fun x => by
    rw [or_low 1 (x % 64) 7 (by omega)]
  have o6 : ∀ x, (3 <<< 6) ||| (x % 32) = 0xC0 + x % 32 := fun x => by
    rw [or_low 3 (x % 32) 6 (by omega)]
  have o5 : ∀ x, (7 <<< 5) ||| (x % 16) = 0xE0 + x % 16 := fun x => by
    rw [or_low 7 (x % 16) 5 (by omega)]
  have o4 : ∀ x, (15 <<< 4) ||| (x % 8) = 0xF0 + x % 8 := fun x => by
    rw [or_low 15 (x % 8) 4 (by omega)]
  simp only [encode, utf8, m6, m5, m4, m3, o7, o6, o5, o4, Nat.shiftRight_eq_div_pow]
  by_cases h1 : cp ≤ 0x7F
  · rw [if_pos h1, if_pos (show cp < 0x80 by omega), Nat.mod_eq_of_lt (by omega)]
  · rw [if_neg h1, if_neg (show ¬ cp < 0x80 by omega)]
    by_cases h2 : cp ≤ 0x7FF
    · rw [if_pos h2, if_pos (show cp < 0x800 by omega)]
      simp only [List.cons.injEq, and_true]; omega
    · rw [if_neg h2, if_neg (show ¬ cp < 0x800 by omega)]
      by_cases h3 : cp ≤ 0xFFFF
      · rw [if_pos h3, if_pos (show cp < 0x10000 by omega)]
        simp only [List.cons.injEq, and_true]; omega
      · rw [if_neg h3, if_neg (show ¬ cp < 0x10000 by omega), if_pos h]
        simp only [List.cons.injEq, and_true]; omega

theorem or_plane {off : Nat} (h : off < 0x100000) :
    ((off / 0x400) <<< 10) ||| (off % 0x400 + 0x10000) = if off / 0x10000 % 2 = 0 then off + 0x10000 else off := by
  have e : ∀ hi lo : Nat, lo < 0x400 → (hi <<< 10) ||| (lo + 0x10000) = ((hi ||| 64) <<< 10) ||| lo := by
    intro hi lo hlo
    rw [show lo + 0x10000 = (64 <<< 10) ||| lo by rw [or_low 64 lo 10 (by omega)]; omega]
    rw [← Nat.or_assoc, Nat.shiftLeft_or_distrib]
  rw [e _ _ (by omega), or_low _ _ 10 (by omega)]
  have key : off / 0x400 ||| 64 = if off / 0x10000 % 2 = 0 then off / 0x400 + 64 else off / 0x400 := by
    have : ∀ x : Nat, x < 1024 → x ||| 64 = if x / 64 % 2 = 0 then x + 64 else x := by
      intro x hx
      have h1 : x = (x / 128) <<< 7 ||| x % 128 := by rw [or_low _ _ 7 (by omega)]; omega
      have h2 : ∀ y : Fin 128, y.val ||| 64 = if y.val / 64 % 2 = 0 then y.val + 64 else y.val := by decide
      have h3 := h2 ⟨x % 128, by omega⟩
      simp only at h3
      rw [h1, Nat.or_assoc, h3, ← h1]
      have : (if x % 128 / 64 % 2 = 0 then x % 128 + 64 else x % 128) < 128 := by split <;> omega
      rw [or_low _ _ 7 this]
      have e1 : x % 128 / 64 % 2 = x / 64 % 2 := by omega
      rw [e1]
      split <;> omega
    rw [this _ (by omega)]
    have e1 : off / 0x400 / 64 % 2 = off / 0x10000 % 2 := by omega
    rw [e1]
  rw [key]
  split <;> omega

/-- Decoding a pair of surrogates. -/
theorem decode_pair {cp : Nat} (h : 0x10000 ≤ cp) (h' : cp ≤ 0x10FFFF) (rest : List Nat) :
    decode (0xD800 + (cp - 0x10000) / 0x400) ((0xDC00 + (cp - 0x10000) % 0x400) :: rest) = (if plane cp % 2 = 1 then cp else cp - 0x10000, 2) := by
  simp only [decode]
  rw [if_pos (by omega), show 0xD800 + (cp - 0x10000) / 0x400 - 0xD800 = (cp - 0x10000) / 0x400 by omega,
    show 0xDC00 + (cp - 0x10000) % 0x400 - 0xDC00 = (cp - 0x10000) % 0x400 by omega, or_plane (by omega)]
  by_cases hq : plane cp % 2 = 1
  · rw [if_pos hq, if_pos (by simp only [plane] at hq; omega), Nat.sub_add_cancel h]
  · rw [if_neg hq, if_neg (by simp only [plane] at hq; omega)]

theorem decode_bmp {cp : Nat} (h : Scalar cp) (h' : cp < 0x10000) (rest : List Nat) : decode cp rest = (cp, 1) := by
  simp only [Scalar] at h
  cases rest with
  | nil => rfl
  | cons d1 rest => simp only [decode]; rw [if_neg (by omega)]

theorem loop_enc (cps : List Nat) (h : ∀ cp ∈ cps, Scalar cp) : ∀ n, (cps.flatMap utf16).length ≤ n →
    loop n (cps.flatMap utf16) = cps.flatMap fun cp => utf8 (if cp < 0x10000 ∨ plane cp % 2 = 1 then cp else cp - 0x10000) := by
  induction cps with
  | nil => intro n _; cases n <;> rfl
  | cons cp cps ih =>
    intro n hn
    have hs := h cp (by simp)
    have ih := ih (fun c hc => h c (by simp [hc]))
    simp only [List.flatMap_cons] at hn ⊢
    by_cases hb : cp < 0x10000
    · have e : utf16 cp = [cp] := by rw [utf16, if_pos hb]
      rw [e] at hn ⊢
      cases n with
      | zero => simp at hn
      | succ n =>
        simp only [List.cons_append, List.nil_append, loop, decode_bmp hs hb, List.drop_succ_cons, List.drop_zero]
        rw [ih n (by simp at hn; simpa using hn), if_pos (Or.inl hb), encode_eq (by omega)]
    · have hmax : cp ≤ 0x10FFFF := by simp only [Scalar] at hs; omega
      have e : utf16 cp = [0xD800 + (cp - 0x10000) / 0x400, 0xDC00 + (cp - 0x10000) % 0x400] := by rw [utf16, if_neg hb]
      rw [e] at hn ⊢
      cases n with
      | zero => simp at hn
      | succ n =>
        simp only [List.cons_append, List.nil_append, loop, decode_pair (show 0x10000 ≤ cp by omega) hmax, List.drop_succ_cons, List.drop_zero]
        rw [ih n (by simp at hn ⊢; omega)]
        have : (cp < 0x10000 ∨ plane cp % 2 = 1) ↔ plane cp % 2 = 1 := by simp [hb]
        simp only [this]
        rw [encode_eq (by split <;> omega)]

/-- C42: text in the Basic Multilingual Plane and the odd planes is converted to the same code
points. For the even planes see below. -/
theorem C42_text_preserved_partial (cps : List Nat) (h : ∀ cp ∈ cps, Scalar cp) (hp : ∀ cp ∈ cps, plane cp = 0 ∨ plane cp % 2 = 1) :
    utf16leToUtf8 (cps.flatMap utf16) = cps.flatMap utf8 ++ [0] := by
  rw [utf16leToUtf8, loop_enc cps h _ (Nat.le_refl _)]
  congr 1
  induction cps with
  | nil => rfl
  | cons cp cps ih =>
    simp only [List.flatMap_cons]
    rw [ih (fun c hc => h c (by simp [hc])) (fun c hc => hp c (by simp [hc])), if_pos]
    rcases hp cp (by simp) with h' | h'
    · left; simp only [plane] at h'; omega
    · exact Or.inr h'

theorem utf8_inj_len {a b : Nat} (ha : a ≤ 0x10FFFF) (hb : b ≤ 0x10FFFF) (h : utf8 a = utf8 b) : a = b := by
  simp only [utf8] at h
  repeat' split at h
  all_goals simp only [List.cons.injEq, and_true] at h
  all_goals first | omega | (simp at h)

theorem utf8_len (a : Nat) : (utf8 a).length = if a < 0x80 then 1 else if a < 0x800 then 2 else if a < 0x10000 then 3 else 4 := by
  simp only [utf8]
  split
  · rfl
  · split
    · rfl
    · split <;> rfl

theorem utf8_head (a : Nat) : ∃ t, utf8 a = (if a < 0x80 then a else if a < 0x800 then 0xC0 + a / 64 else if a < 0x10000 then 0xE0 + a / 4096 else 0xF0 + a / 262144) :: t := by
  simp only [utf8]
  split
  · exact ⟨_, rfl⟩
  · split
    · exact ⟨_, rfl⟩
    · split <;> exact ⟨_, rfl⟩

theorem utf8_decodable (xs : List Nat) : ∀ ys, (∀ x ∈ xs, x ≤ 0x10FFFF) → (∀ y ∈ ys, y ≤ 0x10FFFF) → xs.flatMap utf8 = ys.flatMap utf8 → xs = ys := by
  induction xs with
  | nil =>
    intro ys _ _ h
    cases ys with
    | nil => rfl
    | cons y ys => obtain ⟨t, ht⟩ := utf8_head y; rw [List.flatMap_cons, ht] at h; simp at h
  | cons x xs ih =>
    intro ys hx hy h
    cases ys with
    | nil => obtain ⟨t, ht⟩ := utf8_head x; rw [List.flatMap_cons, ht] at h; simp at h
    | cons y ys =>
      simp only [List.flatMap_cons] at h
      have hx1 := hx x (by simp)
      have hy1 := hy y (by simp)
      have hl : (utf8 x).length = (utf8 y).length := by
        have hh := congrArg List.head? h
        obtain ⟨t1, e1⟩ := utf8_head x
        obtain ⟨t2, e2⟩ := utf8_head y
        rw [e1, e2] at hh
        simp only [List.cons_append, List.head?_cons, Option.some.injEq] at hh
        rw [utf8_len, utf8_len]
        have class_eq : ∀ a : Nat, a ≤ 0x10FFFF → ∀ hd, hd = (if a < 0x80 then a else if a < 0x800 then 0xC0 + a / 64 else if a < 0x10000 then 0xE0 + a / 4096 else 0xF0 + a / 262144) →
            (if a < 0x80 then 1 else if a < 0x800 then 2 else if a < 0x10000 then 3 else 4) = if hd < 0x80 then 1 else if hd < 0xE0 then 2 else if hd < 0xF0 then 3 else 4 := by
          intro a ha hd e
          by_cases h1 : a < 0x80
          · rw [if_pos h1] at e ⊢; rw [if_pos (by omega)]
          · rw [if_neg h1] at e ⊢
            by_cases h2 : a < 0x800
            · rw [if_pos h2] at e ⊢; rw [if_neg (by omega), if_pos (by omega)]
            · rw [if_neg h2] at e ⊢
              by_cases h3 : a < 0x10000
              · rw [if_pos h3] at e ⊢; rw [if_neg (by omega), if_neg (by omega), if_pos (by omega)]
              · rw [if_neg h3] at e ⊢; rw [if_neg (by omega), if_neg (by omega), if_neg (by omega)]
        rw [class_eq x hx1 _ rfl, class_eq y hy1 _ hh]
      obtain ⟨h1, h2⟩ := List.append_inj h hl
      rw [utf8_inj_len hx1 hy1 h1, ih ys (fun c hc => hx c (by simp [hc])) (fun c hc => hy c (by simp [hc])) h2]

/-- C42: the conversion is right for exactly those texts, whatever their length. -/
theorem C42_right_iff (cps : List Nat) (h : ∀ cp ∈ cps, Scalar cp) :
    utf16leToUtf8 (cps.flatMap utf16) = cps.flatMap utf8 ++ [0] ↔ ∀ cp ∈ cps, plane cp = 0 ∨ plane cp % 2 = 1 := by
  refine ⟨fun he => ?_, C42_text_preserved_partial cps h⟩
  rw [utf16leToUtf8, loop_enc cps h _ (Nat.le_refl _)] at he
  have he := (List.append_inj' he rfl).1
  have hmax : ∀ cp ∈ cps, cp ≤ 0x10FFFF := fun cp hc => by have := h cp hc; simp only [Scalar] at this; omega
  rw [show (cps.flatMap fun cp => utf8 (if cp < 0x10000 ∨ plane cp % 2 = 1 then cp else cp - 0x10000))
    = (cps.map fun cp => if cp < 0x10000 ∨ plane cp % 2 = 1 then cp else cp - 0x10000).flatMap utf8 by rw [List.flatMap_map]] at he
  have := utf8_decodable _ _ (by
    intro x hx
    rw [List.mem_map] at hx
    obtain ⟨cp, hc, rfl⟩ := hx
    have := hmax cp hc
    split <;> omega) hmax he
  intro cp hc
  have hcp : (if cp < 0x10000 ∨ plane cp % 2 = 1 then cp else cp - 0x10000) = cp := by
    have e := List.map_id cps
    rw [← e] at this
    rw [List.map_map] at this
    have := List.map_inj_left.mp this cp hc
    simpa using this
  split at hcp
  · rename_i h'
    rcases h' with h' | h'
    · left; simp only [plane]; omega
    · exact Or.inr h'
  · rename_i h'; omega

/-- U+20000, a CJK ideograph, in a UTF-16 command file becomes U+10000. -/
theorem C42_even_plane_wrong : Scalar 0x20000 ∧ utf16leToUtf8 (utf16 0x20000) = utf8 0x10000 ++ [0] := ⟨by unfold Scalar; omega, by decide⟩

-- "é€😀" (U+00E9, U+20AC, U+1F600)
example : utf16leToUtf8 [0xE9, 0x20AC, 0xD83D, 0xDE00] = [0xC3, 0xA9, 0xE2, 0x82, 0xAC, 0xF0, 0x9F, 0x98, 0x80, 0] := by decide
example : ∀ cp ∈ [0xE9, 0x20AC, 0x1F600], plane cp = 0 ∨ plane cp % 2 = 1 := by decide

end Verif.Props.Utf16
