import Verif.Model.Imm
import Verif.Spec.Imm
import Verif.Props.Cast

/-!
# C57: immediate operands mean the intended value (and C18 for immediates)
-/

namespace Verif.Props.Imm

open Verif.Imm Verif.Spec.Imm Verif.Spec.X64

/-- The sizes of integers. -/
def Size (n : Nat) : Prop := n = 1 ∨ n = 2 ∨ n = 4 ∨ n = 8

theorem leBytes_length : ∀ n v, (leBytes n v).length = n
  | 0, _ => rfl
  | n + 1, v => by simp [leBytes, leBytes_length n]

theorem ofLe_leBytes : ∀ n v, ofLe (leBytes n v) = v % 256 ^ n
  | 0, v => by simp [leBytes, ofLe, Nat.mod_one]
  | n + 1, v => by
    rw [leBytes, ofLe, ofLe_leBytes n, Nat.pow_succ, Nat.mul_comm (256 ^ n), Nat.mod_mul]

theorem viaRegister_ok {value size width : Nat} (hv : value < 2 ^ 64) (hs : Size size) (hw : Size width) (h : width ≤ size) :
    executes (viaRegister value size width) = some (width, value % 2 ^ (8 * width)) := by
  unfold viaRegister
  split
  · rename_i h0
    have : width ≤ (if opSize size = 2 then 2 else 8) := by
      unfold opSize; rcases hs with rfl | rfl | rfl | rfl <;> simp <;> omega
    simp [executes, h0, this]
  · split
    · simp only [executes, leBytes_length, ofLe_leBytes, if_true]
      rw [Nat.mod_eq_of_lt (b := 256 ^ 8) (by simpa using hv)]
    · rename_i h8
      have hw4 : width = 1 ∨ width = 2 ∨ width = 4 := by
        rcases hs with rfl | rfl | rfl | rfl <;> rcases hw with rfl | rfl | rfl | rfl <;> simp at * 
      simp only [executes, leBytes_length, ofLe_leBytes, if_true, Bool.false_eq_true, if_false]
      rcases hw4 with rfl | rfl | rfl <;> simp <;> omega

/-- **C57**, binary operations: an operation of `size` bytes with an integer literal of the same size is executed with the value of
the literal modulo 2 ^ (8 * size). -/
theorem C57_binary (value size : Nat) (isSigned : Bool) (hv : value < 2 ^ 64) (hs : Size size) :
    executes (binaryOp value size size isSigned) = some (size, value % 2 ^ (8 * size)) := by
  unfold binaryOp
  split
  · exact viaRegister_ok hv hs hs (Nat.le_refl _)
  · rename_i h
    rcases hs with rfl | rfl | rfl | rfl
    · simp [executes, leBytes_length, ofLe_leBytes]
    · simp [executes, sizedBytes, leBytes_length, ofLe_leBytes, opSize, sext, pattern]; split <;> omega
    · simp [executes, sizedBytes, leBytes_length, ofLe_leBytes, opSize, sext, pattern]; split <;> omega
    · simp at h

/-- **C57**, binary operations: the same for a literal that is shorter than the operation, if its value has been extended
according to its signedness. -/
theorem C57_binary_widened (value srcSize size : Nat) (isSigned : Bool) (hv : value < 2 ^ 64) (hs : Size size)
    (hss : Size srcSize) (hle : srcSize < size) (he : Extended value srcSize isSigned) :
    executes (binaryOp value srcSize size isSigned) = some (size, value % 2 ^ (8 * size)) := by
  unfold binaryOp
  split
  · rename_i h
    rcases h with h | ⟨h1, h2, h3⟩
    · subst h; rcases hs with rfl | rfl | rfl | rfl <;> simp at hle
    · subst h1 h2
      have : size = 8 := by rcases hs with rfl | rfl | rfl | rfl <;> simp at hle ⊢
      subst this
      have he : value < 2 ^ 32 := he
      have h0 : value ≠ 0 := by unfold s32Max at h3; omega
      simp [viaRegister, h0, executes, leBytes_length, ofLe_leBytes]
      omega
  · rename_i h
    cases isSigned with
    | true =>
      have he : value = pattern 64 (sext (8 * srcSize) value) := he
      rcases hs with rfl | rfl | rfl | rfl <;> rcases hss with rfl | rfl | rfl | rfl <;>
        first
        | (exfalso; omega)
        | (simp [executes, sizedBytes, leBytes_length, ofLe_leBytes, opSize, sext, pattern] at he ⊢
           repeat' split at he
           all_goals (repeat' split)
           all_goals omega)
    | false =>
      have he : value < 2 ^ (8 * srcSize) := he
      rcases hs with rfl | rfl | rfl | rfl <;> rcases hss with rfl | rfl | rfl | rfl <;>
        first
        | (exfalso; omega)
        | (have h7 : s8Max = 127 := rfl
           have h31 : s32Max = 2147483647 := rfl
           by_cases h127 : value < s8Max <;>
           simp [h127, executes, sizedBytes, leBytes_length, ofLe_leBytes, opSize, sext, pattern] at he h ⊢ <;>
           (repeat' split) <;> omega)

/-- **C57**, compound assignments (the right operand has been converted to the type of the left). -/
theorem C57_compound (value size : Nat) (isSigned : Bool) (hv : value < 2 ^ 64) (hs : Size size) :
    executes (compound value size size isSigned) = some (size, value % 2 ^ (8 * size)) := by
  unfold compound
  rcases hs with rfl | rfl | rfl | rfl
  · simp [executes, leBytes_length, ofLe_leBytes]
  · simp [executes, leBytes_length, ofLe_leBytes, opSize, sext, pattern]; split <;> omega
  · simp only [show ¬ 4 = 1 by decide, show ¬ 4 = 8 by decide, if_false]
    split
    · exact viaRegister_ok hv (.inr (.inr (.inl rfl))) (.inr (.inr (.inl rfl))) (Nat.le_refl _)
    · simp [executes, leBytes_length, ofLe_leBytes, opSize, sext, pattern]; split <;> omega
  · simp only [show ¬ 8 = 1 by decide, if_false, if_true]
    exact viaRegister_ok hv (.inr (.inr (.inr rfl))) (.inr (.inr (.inr rfl))) (Nat.le_refl _)

/-- **C57**, compound assignments with a right operand that is shorter, if its value has been extended according to its
signedness. (With eight bytes on the left, the right operand always has been converted.) -/
theorem C57_compound_widened (value rhsSize lhsSize : Nat) (isSigned : Bool) (hv : value < 2 ^ 64) (hs : Size lhsSize) (hss : Size rhsSize)
    (hle : rhsSize < lhsSize) (h4 : lhsSize ≤ 4) (he : Extended value rhsSize isSigned) :
    executes (compound value rhsSize lhsSize isSigned) = some (lhsSize, value % 2 ^ (8 * lhsSize)) := by
  unfold compound
  cases isSigned with
  | true =>
    have he : value = pattern 64 (sext (8 * rhsSize) value) := he
    rcases hs with rfl | rfl | rfl | rfl <;> rcases hss with rfl | rfl | rfl | rfl <;>
      first
      | (exfalso; omega)
      | (simp [executes, leBytes_length, ofLe_leBytes, opSize, sext, pattern] at he ⊢
         repeat' split at he
         all_goals (repeat' split)
         all_goals omega)
  | false =>
    have he : value < 2 ^ (8 * rhsSize) := he
    rcases hs with rfl | rfl | rfl | rfl <;> rcases hss with rfl | rfl | rfl | rfl <;>
      first
      | (exfalso; omega)
      | (have h7 : s8Max = 127 := rfl
         by_cases h127 : value ≤ s8Max <;>
         simp [h127, executes, leBytes_length, ofLe_leBytes, opSize, sext, pattern] at he ⊢ <;>
         (repeat' split) <;> omega)

example : Extended 200 1 false ∧ compound 200 1 4 false = .withImm 0x81 4 [200, 0, 0, 0] := by
  refine ⟨?_, by decide +kernel⟩
  unfold Extended
  decide +kernel

/-- **C57**, stores. -/
theorem C57_store (value size : Nat) (hv : value < 2 ^ 64) (hs : Size size) :
    executes (store value size size) = some (size, value % 2 ^ (8 * size)) := by
  unfold store
  rcases hs with rfl | rfl | rfl | rfl
  · simp [executes, leBytes_length, ofLe_leBytes]
  · simp [executes, leBytes_length, ofLe_leBytes, opSize, sext, pattern]; split <;> omega
  · simp [executes, leBytes_length, ofLe_leBytes, opSize, sext, pattern]; split <;> omega
  · rw [if_pos rfl]
    exact viaRegister_ok hv (.inr (.inr (.inr rfl))) (.inr (.inr (.inr rfl))) (Nat.le_refl _)

/-- **C57**, the comparisons of a `switch`: the controlling expression has been promoted, so it has 4 or 8 bytes. -/
theorem C57_switch (value size : Nat) (hv : value < 2 ^ 64) (hs : size = 4 ∨ size = 8) :
    executes (switchCase value size) = some (size, value % 2 ^ (8 * size)) := by
  unfold switchCase
  rcases hs with rfl | rfl
  · simp [executes, sizedBytes, leBytes_length, ofLe_leBytes, opSize, sext, pattern]; split <;> omega
  · rw [if_pos rfl]
    exact viaRegister_ok hv (.inr (.inr (.inr rfl))) (.inr (.inr (.inr rfl))) (Nat.le_refl _)

/-- **C57**, increments of pointers: the pointer moves by the size of the type it points to, if this size is at most
`0x7fffffff`. Missing: larger types, see `C57_pointer_increment_wrong`. -/
theorem C57_pointer_increment_partial (pointee : Nat) (h : pointee ≤ 0x7fffffff) :
    executes (pointerIncrement pointee) = some (8, pointee) := by
  unfold pointerIncrement s8Max
  split
  · simp [executes, leBytes_length, ofLe_leBytes, opSize, sext, pattern]; split <;> omega
  · simp [executes, leBytes_length, ofLe_leBytes, opSize, sext, pattern]; split <;> omega

/-- For all sizes from `0x80000000` to `0xffffffff` the pointer moves in the wrong direction: arrays are limited to
`0x7fffffff` bytes (`src/main.c:1694`), but a structure of two such arrays is larger. -/
theorem C57_pointer_increment_wrong (pointee : Nat) (h : 0x80000000 ≤ pointee) (h' : pointee ≤ 0xffffffff) :
    executes (pointerIncrement pointee) = some (8, pointee + 2 ^ 64 - 2 ^ 32) := by
  unfold pointerIncrement s8Max
  rw [if_pos (by omega)]
  simp [executes, leBytes_length, ofLe_leBytes, opSize, sext, pattern]; split <;> omega

example : Size 4 ∧ binaryOp 0xfffffffffffffff9 4 4 false = .viaMov false [0xf9, 0xff, 0xff, 0xff] 4 := by
  exact ⟨.inr (.inr (.inl rfl)), by decide +kernel⟩
example : binaryOp 0x7fffffff 4 4 false = .withImm 0x81 4 [0xff, 0xff, 0xff, 0x7f] := by decide +kernel
example : compound 300 2 2 false = .withImm 0x81 2 [44, 1] ∧ executes (compound 300 2 2 false) = some (2, 300) := by
  decide +kernel
example : store 0xffffffffffffffff 1 1 = .withImm 0xc6 1 [0xff] := by decide +kernel
example : switchCase 0x80000000 4 = .withImm 0x81 4 [0, 0, 0, 0x80] := by decide +kernel
example : pointerIncrement 127 = .withImm 0x83 8 [127] ∧ pointerIncrement 128 = .withImm 0x81 8 [128, 0, 0, 0] := by decide +kernel
example : Extended (2 ^ 64 - 3) 1 true ∧ binaryOp (2 ^ 64 - 3) 1 8 true = .withImm 0x83 8 [0xfd] := by
  refine ⟨?_, by decide +kernel⟩
  unfold Extended
  decide +kernel

/-! ## Conversions of immediates -/

open Verif.IntType Verif.Spec.IntType Verif.Cast Verif.Props.Cast Verif.Spec.Fold

/-- The immediate of a literal of type `t` and value `v` (`integer_literal_to_bytes`): the value in 64 bits. -/
def immOf (t : Ty) (v : Int) : Loc := ⟨pattern 64 v, t.bits⟩

/-- The low bits of the converted immediate: in the immediate itself or in the register it was loaded into. -/
def result : Loc ⊕ Nat → Nat
  | .inl l => l.value
  | .inr r => r

theorem load_mod (l : Loc) (old : Nat) (hb : l.bits = 8 ∨ l.bits = 16 ∨ l.bits = 32 ∨ l.bits = 64) (hv : l.value < 2 ^ 64) :
    load l old % 2 ^ l.bits = l.value % 2 ^ l.bits := by
  obtain ⟨v, b⟩ := l
  dsimp only at hb hv
  unfold load
  dsimp only
  rcases hb with rfl | rfl | rfl | rfl <;> (repeat' split) <;> simp [writeReg] <;> omega

/-- **C18**, immediates: one conversion of an immediate that holds the value of its type in all 64 bits gives the converted value.
Missing: several conversions one after the other, see `C18_immediate_wrong`. -/
theorem C18_immediate_partial (src dst : Ty) (hd : isInteger dst) (old : Nat) (v w : Int)
    (ho : old < 2 ^ 64) (hs : isInteger src) (h : InRange src v) (hw : Converts dst v w) :
    Holds dst (result (castImm (kind src dst) (immOf src v) old)) w := by
  obtain ⟨n, hn, hlt, hmod⟩ : ∃ n, pattern 64 v = n ∧ n < 2 ^ 64 ∧ (2 ^ 64 : Int) ∣ (n : Int) - v :=
    ⟨_, rfl, by unfold pattern; omega, by unfold pattern; omega⟩
  unfold immOf
  rw [hn]
  by_cases hb : dst = .bool
  · subst hb
    by_cases hsb : src = .bool
    · subst hsb
      simp only [Converts, if_true] at hw
      simp [Holds, isInteger, InRange, minVal, maxVal, Ty.bits, kind, castImm, result] at *
      split at hw <;> omega
    · have hk : kind src .bool = .toBool := by simp [kind, hsb]
      rw [hk]
      simp only [castImm, result]
      simp only [Converts, if_true] at hw
      have hl := load_mod ⟨n, src.bits⟩ old (by cases src <;> simp [Ty.bits]) hlt
      dsimp only at hl
      rcases testSetne_eq src.bits (load ⟨n, src.bits⟩ old) (load ⟨n, src.bits⟩ old) with ⟨h1, h2⟩ | ⟨h1, h2⟩ <;>
        rw [h2] <;> rw [hl] at h1 <;> refine ⟨trivial, ?_, ?_⟩ <;>
        cases src <;> first | exact absurd hs id | exact absurd rfl hsb |
          (simp [isInteger, InRange, minVal, maxVal, Ty.bits] at * <;> split at hw <;> omega)
  · cases src <;> first | exact absurd hs id | (cases dst <;> first | exact absurd hd id | exact absurd rfl hb |
      (simp [Holds, isInteger, Converts, InRange, minVal, maxVal, Ty.bits, kind, table, castImm, result, load, writeReg] at *
       try split at hw
       all_goals (try split)
       all_goals omega))

/-- Two conversions of an immediate. -/
def castTwice (src mid dst : Ty) (l : Loc) (old : Nat) : Nat :=
  match castImm (kind src mid) l old with
  | .inl l => result (castImm (kind mid dst) l old)
  | .inr r => runReg mid.bits (kind mid dst) r

/-- `(int)(unsigned char)(0, 300)` is 300 instead of 44, and `(long long)(int)(0, 0xffffffffu)` is 4294967295 instead of
-1: the first conversion changes the size or the type of the immediate but not its value, and the extension loads that value. -/
theorem C18_immediate_wrong (old : Nat) :
    (Converts .u8 300 44 ∧ Converts .s32 44 44 ∧ castTwice .s32 .u8 .s32 (immOf .s32 300) old = 300) ∧
    (Converts .s32 0xffffffff (-1) ∧ Converts .s64 (-1) (-1) ∧
      castTwice .u32 .s32 .s64 (immOf .u32 0xffffffff) old = 0xffffffff) := by
  refine ⟨⟨by decide, by decide, ?_⟩, by decide, by decide, ?_⟩
  · simp [castTwice, kind, table, castImm, result, immOf, pattern, load, writeReg, Ty.bits]
  · simp [castTwice, kind, table, castImm, result, immOf, pattern, load, writeReg, Ty.bits]

example : InRange .s8 (-3) ∧ Converts .u32 (-3) 0xfffffffd ∧ castImm (kind .s8 .u32) (immOf .s8 (-3)) 7 = .inr 0xfffffffd := by
  decide +kernel

end Verif.Props.Imm
