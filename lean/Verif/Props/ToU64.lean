import Verif.Model.ToU64
import Verif.Spec.ToU64

/-!
# C44: decimal option arguments
-/
namespace Verif.Props.ToU64
open Verif.ToU64 Verif.Spec.ToU64

theorem val_of {c : Nat} (h : 48 ≤ c) (hc : c < 256) : (c + 2^64 - 48) % 2^64 = c - 48 := by omega

theorem mod_step (b m r v : Nat) : (r % m * b % m + v) % m = (r * b + v) % m := by
  rw [Nat.mod_add_mod, Nat.add_mod, Nat.mod_mul_mod, ← Nat.add_mod]

theorem decLoop_spec (s : List Nat) : ∀ r, (∀ c ∈ s, c < 256) → (∀ c ∈ s, 48 ≤ c ∧ c ≤ 58) →
    decLoop s (r % 2^64) = some ((r * 10 ^ s.length + value 10 (s.map (· - 48))) % 2^64) := by
  induction s with
  | nil => intro r _ _; simp [decLoop, value]
  | cons c cs ih =>
    intro r hb h
    have hc := h c (by simp)
    simp only [decLoop, val_of hc.1 (hb c (by simp))]
    rw [if_neg (by omega), mod_step, ih _ (fun c hc => hb c (by simp [hc])) (fun c hc => h c (by simp [hc]))]
    congr 2
    simp only [List.map_cons, value, List.length_cons, List.length_map, Nat.pow_succ, Nat.add_mul]
    have : r * 10 * 10 ^ cs.length = r * (10 ^ cs.length * 10) := by rw [Nat.mul_assoc, Nat.mul_comm 10]
    omega

theorem decLoop_none (s : List Nat) : ∀ r, (∀ c ∈ s, c < 256) → (decLoop s r = none ↔ ∃ c ∈ s, ¬ (48 ≤ c ∧ c ≤ 58)) := by
  induction s with
  | nil => intro r _; simp [decLoop]
  | cons c cs ih =>
    intro r hb
    have hc := hb c (by simp)
    have hv : (c + 2^64 - 48) % 2^64 > 10 ↔ ¬ (48 ≤ c ∧ c ≤ 58) := by omega
    simp only [decLoop]
    by_cases h : (c + 2^64 - 48) % 2^64 > 10
    · rw [if_pos h]; simp only [true_iff]; exact ⟨c, by simp, hv.mp h⟩
    · rw [if_neg h, ih _ (fun c hc => hb c (by simp [hc]))]
      have h' := fun hn => h (hv.mpr hn)
      constructor
      · rintro ⟨d, hd, hn⟩; exact ⟨d, by simp [hd], hn⟩
      · rintro ⟨d, hd, hn⟩
        rcases List.mem_cons.mp hd with rfl | hd
        · exact absurd hn h'
        · exact ⟨d, hd, hn⟩

theorem not_hex {s : List Nat} (h : ∀ c ∈ s, 48 ≤ c ∧ c ≤ 58) : ¬ (s.length > 2 ∧ s[0]? = some 48 ∧ s[1]?.map (· ||| 32) = some 120) := by
  rintro ⟨h1, -, h2⟩
  obtain ⟨c, hc⟩ : ∃ c, s[1]? = some c := ⟨s[1], by simp⟩
  rw [hc] at h2
  simp only [Option.map_some, Option.some.injEq] at h2
  have h3 := h c (List.mem_of_getElem? hc)
  have : ∀ c : Fin 59, 48 ≤ c.val → c.val ||| 32 ≠ 120 := by decide
  exact this ⟨c, by omega⟩ h3.1 h2

/-- C44: a decimal number of any length is accepted and denotes its value modulo 2^64. -/
theorem C44_decimal (s : List Nat) (h : IsDecimal s) : stringToU64 s = some (value 10 (s.map (· - 48)) % 2^64) := by
  have h58 : ∀ c ∈ s, 48 ≤ c ∧ c ≤ 58 := fun c hc => ⟨(h.2 c hc).1, by have := (h.2 c hc).2; omega⟩
  rw [stringToU64, if_neg (not_hex h58)]
  have := decLoop_spec s 0 (fun c hc => by have := h58 c hc; omega) h58
  simpa using this

/-- C44: what is accepted. The property asks for decimal numbers only; the code also accepts the
empty string, the character `:` as a digit, and anything after `0x`. -/
theorem C44_accepted_iff_partial (s : List Nat) (hb : ∀ c ∈ s, c < 256) :
    (stringToU64 s).isSome = true ↔ (∀ c ∈ s, 48 ≤ c ∧ c ≤ 58) ∨ (s.length > 2 ∧ s[0]? = some 48 ∧ (s[1]? = some 120 ∨ s[1]? = some 88)) := by
  have hx : s[1]?.map (· ||| 32) = some 120 ↔ s[1]? = some 120 ∨ s[1]? = some 88 := by
    cases hs : s[1]? with
    | none => simp
    | some c =>
      have hc := hb c (List.mem_of_getElem? hs)
      have : ∀ c : Fin 256, c.val ||| 32 = 120 ↔ c.val = 120 ∨ c.val = 88 := by set_option maxRecDepth 4000 in decide
      simpa using this ⟨c, hc⟩
  simp only [stringToU64, hx]
  by_cases h : s.length > 2 ∧ s[0]? = some 48 ∧ (s[1]? = some 120 ∨ s[1]? = some 88)
  · rw [if_pos h]; simp only [Option.isSome_some, true_iff]; exact Or.inr h
  · rw [if_neg h, or_iff_left h, Option.isSome_iff_ne_none]
    rw [Ne, decLoop_none s 0 hb]
    constructor
    · intro hn c hc
      exact Classical.byContradiction fun hd => hn ⟨c, hc, hd⟩
    · rintro hn ⟨c, hc, hd⟩
      exact hd (hn c hc)

/-- `-Wno:3` style arguments: `:` is taken for the digit ten. -/
theorem C44_colon_accepted : ¬ IsDecimal [49, 58] ∧ stringToU64 [49, 58] = some 20 := by
  refine ⟨fun h => ?_, by decide⟩
  have := (h.2 58 (by simp)).2
  omega

/-- `0xzz` is accepted as 0. -/
theorem C44_hex_garbage_accepted : stringToU64 [48, 120, 122, 122] = some 0 := by decide

theorem hexDigit_of {d : Nat} (h : d < 16) (u : Bool) : hexDigit (hexOf d u) = d := by
  have : ∀ d : Fin 16, ∀ u, hexDigit (hexOf d.val u) = d.val := by decide
  exact this ⟨d, h⟩ u

theorem hexLoop_spec (ds : List (Nat × Bool)) (h : ∀ d ∈ ds, d.1 < 16) : ∀ r,
    hexLoop (ds.map fun d => hexOf d.1 d.2) (r % 2^64) = (r * 16 ^ ds.length + value 16 (ds.map (·.1))) % 2^64 := by
  induction ds with
  | nil => intro r; simp [hexLoop, value]
  | cons d ds ih =>
    intro r
    simp only [List.map_cons, hexLoop, hexDigit_of (h d (by simp)), mod_step]
    rw [ih (fun d hd => h d (by simp [hd]))]
    congr 1
    simp only [value, List.length_cons, List.length_map, Nat.pow_succ, Nat.add_mul]
    have : r * 16 * 16 ^ ds.length = r * (16 ^ ds.length * 16) := by rw [Nat.mul_assoc, Nat.mul_comm 16]
    omega

/-- C44: `0x` or `0X` followed by hexadecimal digits of either case denotes its value modulo 2^64. -/
theorem C44_hex (x : Nat) (hx : x = 120 ∨ x = 88) (ds : List (Nat × Bool)) (hne : ds ≠ []) (h : ∀ d ∈ ds, d.1 < 16) :
    stringToU64 (48 :: x :: ds.map fun d => hexOf d.1 d.2) = some (value 16 (ds.map (·.1)) % 2^64) := by
  have hl : 0 < ds.length := by cases ds with | nil => exact absurd rfl hne | cons => simp
  have h2 : hexDigit x = 0 := by rcases hx with rfl | rfl <;> decide
  rw [stringToU64, if_pos]
  · simp only [hexLoop, h2]
    rw [show (0 * 16 % 2 ^ 64 + hexDigit 48) % 2 ^ 64 * 16 % 2 ^ 64 = 0 by decide]
    rw [show (0 + 0) % 2^64 = 0 % 2^64 from rfl, hexLoop_spec ds h 0]
    simp
  · refine ⟨by simp; omega, rfl, ?_⟩
    rcases hx with rfl | rfl <;> rfl

example : IsDecimal [49, 56, 52, 52, 54, 55, 52, 52, 48, 55, 51, 55, 48, 57, 53, 53, 49, 54, 49, 55] := by
  constructor
  · simp
  · decide
/-- 18446744073709551617 = 2^64 + 1 wraps. -/
example : stringToU64 [49, 56, 52, 52, 54, 55, 52, 52, 48, 55, 51, 55, 48, 57, 53, 53, 49, 54, 49, 55] = some 1 := by decide
example : stringToU64 [48, 88, 70, 102] = some 255 := by decide

end Verif.Props.ToU64
