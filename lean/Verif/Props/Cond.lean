import Verif.Model.Cond
import Verif.Spec.Flags

/-!
# C36: comparisons choose the right condition code
-/
namespace Verif.Props.Cond
open Verif.Cond Verif.Spec.Flags

/-- The relation of two integers. -/
def rel : Op → Int → Int → Bool
  | .ge, a, b => b ≤ a
  | .le, a, b => a ≤ b
  | .gt, a, b => b < a
  | .lt, a, b => a < b
  | .eq, a, b => a = b
  | .ne, a, b => a ≠ b

/-- The bits of an integer type, and the value of a bit pattern in that type. -/
def bits : IrType → Nat
  | .s32 | .u32 | .f32 => 32
  | .s64 | .u64 | .f64 => 64
def isInt : IrType → Bool
  | .f32 | .f64 => false
  | _ => true
def val : IrType → Nat → Int
  | .s32, a => signedVal 32 a
  | .s64, a => signedVal 64 a
  | _, a => a

/-- What the emitted code does after the comparison set the flags `f`: the `setcc` (opcode byte
`9x`), and the jumps (`8x`) on true and on false, implement the truth value `r`. -/
def Implements (c : Comp) (f : Flags) (r : Bool) : Prop :=
  (∃ o, setOpcode c = some o ∧ o / 16 = 9 ∧ holds f (o % 16) = r) ∧
  (∃ o, jumpOpcode true c = some o ∧ o / 16 = 8 ∧ holds f (o % 16) = r) ∧
  (∃ o, jumpOpcode false c = some o ∧ o / 16 = 8 ∧ holds f (o % 16) = !r)

theorem cmp_flags (n : Nat) (hn : n = 32 ∨ n = 64) (a b : Nat) (ha : a < 2 ^ n) (hb : b < 2 ^ n) (pf : Bool) :
    (cmp n a b pf).zf = decide (a = b) ∧ (cmp n a b pf).cf = decide (a < b) ∧
    ((cmp n a b pf).sf != (cmp n a b pf).of) = decide (signedVal n a < signedVal n b) ∧
    (signedVal n a = signedVal n b ↔ a = b) := by
  have h : ∀ P : Nat → Prop, (P 32) → (P 64) → P n := by rcases hn with rfl | rfl <;> intro P h1 h2 <;> assumption
  have hz : (cmp n a b pf).zf = decide (a = b) := by
    simp only [cmp]; rcases hn with rfl | rfl <;> apply decide_eq_decide.2 <;> omega
  refine ⟨hz, rfl, ?_, ?_⟩
  · have h1 : (cmp n a b pf).sf = decide (2 ^ (n - 1) ≤ (a + (2 ^ n - b)) % 2 ^ n) := rfl
    have h2 : (cmp n a b pf).of = decide (¬ (-(2 ^ (n - 1) : Int) ≤ signedVal n a - signedVal n b ∧ signedVal n a - signedVal n b < 2 ^ (n - 1))) := rfl
    rw [h1, h2, Bool.eq_iff_iff]
    simp only [bne_iff_ne, ne_eq, decide_eq_decide, decide_eq_true_eq]
    rcases hn with rfl | rfl
    · simp only [signedVal]; split <;> split <;> omega
    · simp only [signedVal]; split <;> split <;> omega
  · rcases hn with rfl | rfl
    · simp only [signedVal]; split <;> split <;> omega
    · simp only [signedVal]; split <;> split <;> omega

/-- C36: for every operator, integer type and pair of values, the chosen `cmp` width is the
width of the type and the condition implements the C relation, for `setcc`, for jumps on true
and for jumps on false. (Pointers are compared as `u64`.) -/
theorem C36_integer_compare (op : Op) (t : IrType) (ht : isInt t = true) (a b : Nat) (ha : a < 2 ^ bits t) (hb : b < 2 ^ bits t) (pf : Bool) :
    ∃ t' c, decodeIr (select op t) = some (t', c) ∧ isInt t' = true ∧ irTypeBits t' = bits t ∧
      Implements c (cmp (irTypeBits t') a b pf) (rel op (val t a) (val t b)) := by
  cases t <;> first | (cases ht; done) | skip
  all_goals
    simp only [bits] at ha hb
  all_goals
    first
    | have hf := cmp_flags 32 (by decide) a b ha hb pf
    | have hf := cmp_flags 64 (by decide) a b ha hb pf
  all_goals
    obtain ⟨hz, hc, hs, he⟩ := hf
    have hs' := (show ∀ x y z : Bool, (x != y) = z → (x == y) = !z by decide) _ _ _ hs
    cases op <;> refine ⟨_, _, rfl, rfl, rfl, ⟨_, rfl, rfl, ?_⟩, ⟨_, rfl, rfl, ?_⟩, ⟨_, rfl, rfl, ?_⟩⟩
  all_goals
    simp only [val, irTypeBits]
    rw [Bool.eq_iff_iff]
    simp only [holds, hz, hc, rel, Nat.reduceMod, hs', hs, decide_eq_true_eq, Bool.or_eq_true, Bool.not_eq_true', Bool.or_eq_false_iff, decide_eq_false_iff_not, ne_eq]
    try omega

/-- The relation on floats: false for NaN except `!=`. -/
def floatRel : Op → FloatOrder → Bool
  | .ge, o => o = .gt ∨ o = .eq
  | .le, o => o = .lt ∨ o = .eq
  | .gt, o => o = .gt
  | .lt, o => o = .lt
  | .eq, o => o = .eq
  | .ne, o => o ≠ .eq

/-- C36: the same for floats, when neither operand is NaN. -/
theorem C36_float_compare_partial (op : Op) (t : IrType) (ht : isInt t = false) (o : FloatOrder) (ho : o ≠ .unordered) :
    ∃ c, decodeIr (select op t) = some (t, c) ∧ Implements c (comis o) (floatRel op o) := by
  cases t <;> first | (cases ht; done) | skip
  all_goals
    cases op <;> refine ⟨_, rfl, ⟨_, rfl, rfl, ?_⟩, ⟨_, rfl, rfl, ?_⟩, ⟨_, rfl, rfl, ?_⟩⟩ <;> cases o <;> first | exact absurd rfl ho | rfl

/-- With a NaN operand exactly `>` and `>=` are right. -/
theorem C36_nan_correct_iff (op : Op) (t : IrType) (ht : isInt t = false) :
    (∃ c, decodeIr (select op t) = some (t, c) ∧ Implements c (comis .unordered) (floatRel op .unordered)) ↔ (op = .gt ∨ op = .ge) := by
  cases t <;> first | (cases ht; done) | skip
  all_goals
    cases op
  all_goals
    first
    | (refine ⟨fun _ => by decide, fun _ => ⟨_, rfl, ⟨_, rfl, rfl, rfl⟩, ⟨_, rfl, rfl, rfl⟩, ⟨_, rfl, rfl, rfl⟩⟩⟩; done)
    | (refine ⟨?_, fun h => absurd h (by decide)⟩
       rintro ⟨c, hc, ⟨o, h1, _, h3⟩, _⟩
       cases hc
       cases h1
       cases h3)

/-- Finding (C36): a NaN compares equal to everything, is not unequal to anything, and is smaller
than everything: the parity flag is not looked at. -/
theorem C36_nan_wrong :
    (∃ c, decodeIr (select .eq .f64) = some (.f64, c) ∧ setOpcode c = some 0x94 ∧ holds (comis .unordered) 4 = true ∧ floatRel .eq .unordered = false) ∧
    (∃ c, decodeIr (select .ne .f64) = some (.f64, c) ∧ setOpcode c = some 0x95 ∧ holds (comis .unordered) 5 = false ∧ floatRel .ne .unordered = true) ∧
    (∃ c, decodeIr (select .lt .f64) = some (.f64, c) ∧ setOpcode c = some 0x92 ∧ holds (comis .unordered) 2 = true ∧ floatRel .lt .unordered = false) :=
  ⟨⟨_, rfl, rfl, rfl, rfl⟩, ⟨_, rfl, rfl, rfl, rfl⟩, ⟨_, rfl, rfl, rfl, rfl⟩⟩

/-- C36: `!` applied to a comparison gives the opposite condition, whatever the flags. -/
theorem C36_negate (c c' : Nat) (h : negate c = some c') (f : Flags) (r : Bool) (hi : Implements c f r) : Implements c' f (!r) := by
  obtain ⟨⟨o1, a1, b1, c1⟩, ⟨o2, a2, b2, c2⟩, ⟨o3, a3, b3, c3⟩⟩ := hi
  have hc : c ≤ 10 ∧ c ≠ 0 := by
    unfold negate at h
    split at h <;> first | (cases h; done) | exact ⟨by decide, by decide⟩
  have hcases : c = 1 ∨ c = 2 ∨ c = 3 ∨ c = 4 ∨ c = 5 ∨ c = 6 ∨ c = 7 ∨ c = 8 ∨ c = 9 ∨ c = 10 := by omega
  obtain ⟨cf, zf, sf, of, pf⟩ := f
  rcases hcases with rfl | rfl | rfl | rfl | rfl | rfl | rfl | rfl | rfl | rfl
  all_goals
    cases h; cases a1; cases a2; cases a3
    refine ⟨⟨_, rfl, rfl, ?_⟩, ⟨_, rfl, rfl, ?_⟩, ⟨_, rfl, rfl, ?_⟩⟩ <;>
    · simp only [holds, Nat.reduceMod] at *
      subst c1
      simp [bne]

example : val .s32 0xffffffff = -1 ∧ rel .lt (val .s32 0xffffffff) (val .s32 1) = true ∧
    rel .lt (val .u32 0xffffffff) (val .u32 1) = false ∧ decodeIr (select .lt .s32) = some (.s32, 10) ∧ isInt .s32 = true ∧
    negate 10 = some 7 := by decide

end Verif.Props.Cond
