import Verif.Model.CharLit
import Verif.Props.StringValue

/-!
# C64: character constants (C11 6.4.4.4p10-11)
-/
namespace Verif.Props.CharLit
open Verif.CharLit Verif.StringLit Verif.Spec.StringLit Verif.Props.StringLit

/-- A character constant in the file. -/
def spellChar (p : Prefix) (es : List Elem) : List Nat := p.spelling ++ '\''.toNat :: render es ++ ['\''.toNat]

/-- Its type: `int`, `char16_t`/`wchar_t` or `char32_t`. -/
def typeOf : Enc → CharType
  | .utf8 => .s32
  | .utf16 => .u16
  | .utf32 => .u32

/-- Its value: an element read as a (signed) `char`, or as one of the unsigned types. -/
def valueOf : Enc → Nat → Int
  | .utf8, v => if v < 128 then v else (v : Int) - 256
  | _, v => v

theorem strip_char (p : Prefix) (body : List Nat) :
    stripToken 39 (p.spelling ++ 39 :: body ++ [39]) = (some p.enc, body) := by
  cases p <;> simp [stripToken, Prefix.spelling, Prefix.enc, prefixToKind]

/-- C64: a character constant whose character or escape sequence is one element has the value C gives it (as the 64-bit
two's complement), whatever is in memory behind the buffer; one that does not fit is an error. -/
theorem C64_single (p : Prefix) (es : List Elem) (hw : Wf es) (after : List Nat) (v : Nat)
    (hm : meaning p.enc es = [v]) (hv : v ≤ p.enc.max)
    (hg : p.enc = .utf16 → ∀ e ∈ es, ∀ c, e.codepoint? = some c → Good16 c) :
    ((∀ e ∈ es, e.Fits p.enc) →
      ∃ bits, constant (spellChar p es) after = .value (typeOf p.enc) bits ∧
        (bits : Int) = valueOf p.enc v % 2 ^ 64 ∧ bits < 2 ^ 64) ∧
    ((∃ e ∈ es, ¬ e.Fits p.enc) → constant (spellChar p es) after = .error) := by
  obtain ⟨us, h1, _, h3⟩ := run_render p.enc (render es).length es hw.1 hw.2 hg (render es).length [] false
    (Nat.le_refl _) (by simp)
  have hconv : convert p.enc [render es] = .ok us (decide (∃ e ∈ es, ¬ e.Fits p.enc)) := by
    rw [List.nil_append, Bool.false_or] at h1
    simp only [convert, runAll, List.map_cons, List.map_nil, List.sum_cons, List.sum_nil, Nat.add_zero, h1]
  have hstrip : stripToken 39 (spellChar p es) = (some p.enc, render es) := strip_char p (render es)
  refine ⟨fun hf => ?_, fun hf => ?_⟩
  · have hus := h3 hf
    rw [hm] at hus
    rw [constant, hstrip]
    dsimp only
    rw [hconv, decide_eq_false (by rintro ⟨e, he, h⟩; exact h (hf e he)), hus]
    dsimp only
    cases hk : p.enc with
    | utf8 =>
      rw [hk] at hv
      have hv : v ≤ 255 := hv
      have hs : signExtend 8 (readLe 1 ([v] ++ after)) = if v < 128 then v else v + (2 ^ 64 - 256) := rfl
      refine ⟨signExtend 8 (readLe 1 ([v] ++ after)), rfl, ?_, ?_⟩
      · rw [hs, valueOf]
        by_cases h : v < 128
        · rw [if_pos h, if_pos h]; omega
        · rw [if_neg h, if_neg h]; omega
      · rw [hs]
        by_cases h : v < 128
        · rw [if_pos h]; omega
        · rw [if_neg h]; omega
    | utf16 =>
      rw [hk] at hv
      have hv : v ≤ 65535 := hv
      refine ⟨v, rfl, ?_, by omega⟩
      simp only [valueOf]
      omega
    | utf32 =>
      rw [hk] at hv
      have hv : v ≤ 4294967295 := hv
      refine ⟨v, rfl, ?_, by omega⟩
      simp only [valueOf]
      omega
  · rw [constant, hstrip]
    dsimp only
    rw [hconv, decide_eq_true hf]

/-- `'\xff'` meets the conditions; its value is -1. -/
example : Wf [.hex [102, 102]] ∧ meaning .utf8 [.hex [102, 102]] = [255] ∧ valueOf .utf8 255 = -1 ∧
    constant (spellChar .none [.hex [102, 102]]) [] = .value .s32 0xffffffffffffffff := by
  refine ⟨?_, by decide +kernel, rfl, by decide +kernel⟩
  simp [Wf, Elem.Wf, Longest, HexDigit, nextChar]

/-- Finding: the value of a constant of three characters depends on the byte behind the buffer. -/
theorem C64_three_characters_wrong :
    constant [39, 97, 98, 99, 39] [0] = .value .s32 0x636261 ∧
    constant [39, 97, 98, 99, 39] [1] = .value .s32 0x1636261 := by decide +kernel

/-- Constants of one, two, four or eight bytes do not depend on it. -/
theorem C64_no_garbage (token a b : List Nat) (k : Enc) (units : List Nat) (e : Bool) (body : List Nat)
    (hs : stripToken 39 token = (some k, body)) (hc : convert k [body] = .ok units e)
    (hl : units.length ≠ 3 ∧ units.length ≠ 5 ∧ units.length ≠ 6 ∧ units.length ≠ 7) :
    constant token a = constant token b := by
  rw [constant, constant, hs]
  dsimp only
  rw [hc]
  cases e with
  | true => rfl
  | false =>
    dsimp only
    have hr : ∀ (n : Nat) (us : List Nat), n ≤ us.length → readLe n (us ++ a) = readLe n (us ++ b) := by
      intro n
      induction n with
      | zero => intros; rfl
      | succ n ih =>
        intro us hn
        cases us with
        | nil => simp at hn
        | cons u us =>
          simp only [readLe, List.cons_append, List.headD_cons, List.tail_cons]
          rw [ih us (by simpa using hn)]
    have h0 : units ≠ [] → 0 < units.length := List.length_pos_iff.2
    unfold fromUnits
    split
    · rfl
    · rename_i hne
      have h0 := h0 hne
      split
      · split
        · rw [hr 1 units (show 1 ≤ units.length by omega)]
        · split
          · rw [hr 2 units (show 2 ≤ units.length by omega)]
          · split
            · rw [hr 4 units (show 4 ≤ units.length by omega)]
            · split
              · rw [hr 8 units (show 8 ≤ units.length by omega)]
              · rfl
      · rfl
      · rfl

end Verif.Props.CharLit
