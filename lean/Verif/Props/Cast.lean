import Verif.Model.Cast
import Verif.Props.Fold

/-!
# C18: run-time integer casts
-/
namespace Verif.Props.Cast
open Verif.IntType Verif.Spec.IntType Verif.Spec.X64 Verif.Cast Verif.Spec.Fold Verif.Fold

/-- The low bits of the register (or memory cell) `r` hold the value `v` of type `t`; the upper
bits are arbitrary. -/
def Holds (t : Ty) (r : Nat) (v : Int) : Prop :=
  isInteger t ∧ InRange t v ∧ (2 ^ t.bits : Int) ∣ (r : Int) - v
instance (t : Ty) (r : Nat) (v : Int) : Decidable (Holds t r v) := by unfold Holds; infer_instance

theorem testSetne_eq (n dst src : Nat) :
    (src % 2 ^ n = 0 ∧ testSetne n dst src = dst - dst % 256) ∨
    (src % 2 ^ n ≠ 0 ∧ testSetne n dst src = dst - dst % 256 + 1) := by
  by_cases h : src % 2 ^ n = 0 <;> simp [testSetne, writeReg, h]

/-- C18, run time: for every pair of integer types and every value, the instruction chosen for
the cast turns a register holding `v` (with anything in the unused upper bits) into a register
holding `v` converted to the target type. -/
theorem C18_register_cast (src dst : Ty) (hd : isInteger dst) (r : Nat) (v w : Int)
    (hr : r < 2 ^ 64) (h : Holds src r v) (hw : Converts dst v w) :
    Holds dst (runReg src.bits (kind src dst) r) w ∧ runReg src.bits (kind src dst) r < 2 ^ 64 := by
  obtain ⟨hs, hv, hdv⟩ := h
  by_cases hb : dst = .bool
  · subst hb
    simp only [Converts, if_true] at hw
    cases src <;> first | exact absurd hs id |
      (simp only [kind, runReg, reduceCtorEq, if_false, if_true] at *
       first
         | (rcases testSetne_eq 8 r r with ⟨h1, h2⟩ | ⟨h1, h2⟩ <;> simp only [Ty.bits, h2, writeReg] at * <;>
             simp [Holds, isInteger, InRange, minVal, maxVal, Ty.bits] at * <;> split at hw <;> omega)
         | (rcases testSetne_eq 16 r r with ⟨h1, h2⟩ | ⟨h1, h2⟩ <;> simp only [Ty.bits, h2, writeReg] at * <;>
             simp [Holds, isInteger, InRange, minVal, maxVal, Ty.bits] at * <;> split at hw <;> omega)
         | (rcases testSetne_eq 32 r r with ⟨h1, h2⟩ | ⟨h1, h2⟩ <;> simp only [Ty.bits, h2, writeReg] at * <;>
             simp [Holds, isInteger, InRange, minVal, maxVal, Ty.bits] at * <;> split at hw <;> omega)
         | (rcases testSetne_eq 64 r r with ⟨h1, h2⟩ | ⟨h1, h2⟩ <;> simp only [Ty.bits, h2, writeReg] at * <;>
             simp [Holds, isInteger, InRange, minVal, maxVal, Ty.bits] at * <;> split at hw <;> omega)
         | (simp [Holds, isInteger, InRange, minVal, maxVal, Ty.bits] at * <;> split at hw <;> omega))
  cases src <;> first | exact absurd hs id | (cases dst <;> first | exact absurd hd id | exact absurd rfl hb |
    (simp [Holds, isInteger, Converts, InRange, minVal, maxVal, Ty.bits, kind, table, runReg, movsx, movzx, mov, sext, pattern,
      writeReg, testSetne] at *
     try split at hw
     all_goals first | omega | (split <;> omega)))

/-- C18, run time, operand in memory: the same for a value that is loaded from memory; `old` is
the previous content of the register it is loaded into. -/
theorem C18_memory_cast (src dst : Ty) (hd : isInteger dst) (old bytes : Nat) (v w : Int)
    (ho : old < 2 ^ 64) (h : Holds src bytes v) (hw : Converts dst v w) :
    Holds dst (runMem src.bits (kind src dst) old bytes) w := by
  obtain ⟨hs, hv, hdv⟩ := h
  by_cases hb : dst = .bool
  · subst hb
    simp only [Converts, if_true] at hw
    cases src <;> first | exact absurd hs id |
      (simp only [kind, runMem, reduceCtorEq, if_false, if_true] at *
       first
         | (rcases testSetne_eq 8 (writeReg 8 old bytes) (writeReg 8 old bytes) with ⟨h1, h2⟩ | ⟨h1, h2⟩ <;> simp only [Ty.bits, h2, writeReg] at * <;>
             simp [Holds, isInteger, InRange, minVal, maxVal, Ty.bits] at * <;> split at hw <;> omega)
         | (rcases testSetne_eq 16 (writeReg 16 old bytes) (writeReg 16 old bytes) with ⟨h1, h2⟩ | ⟨h1, h2⟩ <;> simp only [Ty.bits, h2, writeReg] at * <;>
             simp [Holds, isInteger, InRange, minVal, maxVal, Ty.bits] at * <;> split at hw <;> omega)
         | (rcases testSetne_eq 32 (writeReg 32 old bytes) (writeReg 32 old bytes) with ⟨h1, h2⟩ | ⟨h1, h2⟩ <;> simp only [Ty.bits, h2, writeReg] at * <;>
             simp [Holds, isInteger, InRange, minVal, maxVal, Ty.bits] at * <;> split at hw <;> omega)
         | (rcases testSetne_eq 64 (writeReg 64 old bytes) (writeReg 64 old bytes) with ⟨h1, h2⟩ | ⟨h1, h2⟩ <;> simp only [Ty.bits, h2, writeReg] at * <;>
             simp [Holds, isInteger, InRange, minVal, maxVal, Ty.bits] at * <;> split at hw <;> omega)
         | (simp [Holds, isInteger, InRange, minVal, maxVal, Ty.bits] at * <;> split at hw <;> omega))
  cases src <;> first | exact absurd hs id | (cases dst <;> first | exact absurd hd id | exact absurd rfl hb |
    (simp [Holds, isInteger, Converts, InRange, minVal, maxVal, Ty.bits, kind, table, runMem, movsx, movzx, mov, sext, pattern,
      writeReg, testSetne] at *
     try split at hw
     all_goals first | omega | (split <;> omega)))

/-- C18: the compile-time cast of a literal and the run-time cast of a register that holds the
literal's value hold the same value afterwards. -/
theorem C18_literal_agrees_with_run_time (dst : Ty) (hd : isInteger dst) (l : Lit) (v : Int) (r : Nat)
    (hl : Represents l v) (hf : Fits l) (hr : r < 2 ^ 64) (h : Holds l.ty r v) :
    ∃ w, Represents (castLit dst l) w ∧ Holds dst (runReg l.ty.bits (kind l.ty dst) r) w := by
  have : ∃ w, Converts dst v w := by
    by_cases hb : dst = .bool
    · subst hb; exact ⟨_, rfl⟩
    · exact ⟨_, Lemmas.Fold.hostConv_converts hd hb v⟩
  obtain ⟨w, hw⟩ := this
  exact ⟨w, (Props.Fold.C18_literal_cast dst hd l v w hl hf hw).2, (C18_register_cast l.ty dst hd r v w hr h hw).1⟩

-- a byte 0x80 with garbage above it, cast from signed char to unsigned long long
example : Holds .s8 0xdeadbeef80 (-128) ∧ Converts .u64 (-128) 0xffffffffffffff80 ∧
    runReg 8 (kind .s8 .u64) 0xdeadbeef80 = 0xffffffffffffff80 := by decide

end Verif.Props.Cast
