import Verif.Lemmas.Md5

/-!
# C84: the digest of a source file is the MD5 digest

`Verif.Spec.Md5.digest` is the description in RFC 1321, with the table of sines of real numbers.
-/
namespace Verif.Props.Md5
open Verif.Model.Md5
open Verif.Lemmas.Md5

/-- C84: For every file that was loaded with 128 bytes behind its contents, the digest is computed without access to other memory, and it is the MD5 digest of the contents. The
contents stay as they are. -/
theorem C84_digest (content padding : List Nat) (hp : padding.length = 128) :
    ∃ memory hash, hashInplace (content ++ padding) content.length (content.length + 128) = some (memory, hash) ∧ hash.bytes = Verif.Spec.Md5.digest content ∧
      memory.length = content.length + 128 ∧ memory.take content.length = content := by
  have hl := length_eq content.length
  obtain ⟨hash, h1, h2⟩ := hash_eq content padding (content.length + 128) (by omega) (by omega)
  refine ⟨_, hash, h1, h2, ?_, ?_⟩
  · rw [List.length_append, padded_length, List.length_drop]
    omega
  · unfold Verif.Spec.Md5.padded
    simp only [List.append_assoc]
    rw [List.take_left]

/-- C84: The numbers in the table are the first 32 bits, after the point, of the sines of 1 to 64 (without their sign). -/
theorem C84_sines (i : Nat) (h : i < 64) : sines[i]? = some ⌊(2 : ℝ) ^ 32 * |Real.sin ((i + 1 : ℕ) : ℝ)|⌋₊ := by
  have := table ⟨i, h⟩
  rw [Verif.Lemmas.Sine.floor_of (i + 1) (by omega) _ this.1 this.2, List.getD_eq_getElem?_getD]
  have hl : i < sines.length := h
  rw [List.getElem?_eq_getElem hl]
  rfl

/-- C84: With less than what the padding needs, the function does not touch the memory: the assertion fails. -/
theorem C84_assert (memory : List Nat) (n max : Nat) (h : max < n + 9) : hashInplace memory n max = none := by
  have hl := length_eq n
  unfold hashInplace
  simp only
  rw [if_pos (by omega)]

/-- The message "abc" has the digest of the test suite in RFC 1321, 900150983cd24fb0d6963f7d28e17f72. -/
example : ((hashInplace ([0x61, 0x62, 0x63] ++ List.replicate 128 7) 3 131).map (fun r => r.2.bytes)) =
    some [0x90, 0x01, 0x50, 0x98, 0x3c, 0xd2, 0x4f, 0xb0, 0xd6, 0x96, 0x3f, 0x7d, 0x28, 0xe1, 0x7f, 0x72] := by decide +kernel

/-- A message of 62 bytes takes two blocks. -/
example : ((hashInplace (List.replicate 62 0x41 ++ List.replicate 128 0xff) 62 190).map (fun r => r.2.bytes.length)) = some 16 ∧ alignUp64 (62 + 1 + 8) = 128 := by
  decide +kernel

example : (List.replicate 128 0xff).length = 128 := List.length_replicate

end Verif.Props.Md5
