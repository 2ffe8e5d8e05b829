import Verif.Props.ImageData

/-!
# C79: programs that meet the assumptions, and programs for which the code is wrong
-/
namespace Verif.Props.Image
open Verif.Model.Image Verif.Model.BaseReloc Verif.Spec.Image Verif.Lemmas.Image

/-- A program with two functions, an import by name and one by number, two strings, a floating point constant, an export, objects, and variables of threads. -/
def sample : Program where
  functions := [[0x48, 0x8d, 0x05, 0, 0, 0, 0, 0xff, 0x15, 0, 0, 0, 0, 0xc3], [0xc3]]
  stubs := [(0, 1)]
  bss := [(4, 4), (100, 16)]
  dlls := [⟨[107, 46, 100], [⟨false, 3, [69]⟩, ⟨true, 7, []⟩]⟩]
  debug := some ([1, 2, 3, 4, 5, 6, 7, 8, 9, 10, 11, 12, 13, 14, 15, 16], [97])
  strings := [([104, 105], 1), ([104, 105], 1), ([65, 0], 2)]
  floats := [[0, 0, 128, 63]]
  exports := [([98], 1), ([97], 0)]
  exePath := [97, 46]
  tls := [(4, [1, 0, 0, 0]), (1, [2])]
  tlsIndex := 0
  data := [(8, [0, 0, 0, 0, 0, 0, 0, 0]), (1, [])]
  patches := [⟨.ripRelative, .func 0, 3, .string 1, 1, 7⟩, ⟨.ripRelative, .func 0, 9, .imported 0 0, 0, 13⟩, ⟨.absolute, .data 0, 0, .imported 0 1, 0, 0⟩]
  unwind := [[1, 0, 0, 0], [1, 0, 0, 0]]
  imageBase := 0x140000000
  entry := some 1
  isDll := false
  noDynamicBase := false
  subsystem := 3
  time := 5

set_option maxRecDepth 10000

theorem sample_valid : Valid sample where
  small := by decide +kernel
  bssAligned := by decide
  tlsAligned := by decide
  dataAligned := by decide
  elements := by decide
  manyStrings := by decide
  floats := by decide
  stubs := fun s hs => by
    rw [show s = (0, 1) from List.mem_singleton.1 hs]
    exact ⟨_, rfl, by decide⟩
  stubsOnce := by decide
  ordinals := fun d hd i hi => by
    rw [show d = ⟨[107, 46, 100], [⟨false, 3, [69]⟩, ⟨true, 7, []⟩]⟩ from List.mem_singleton.1 hd] at hi
    simp only [List.mem_cons, List.not_mem_nil, or_false] at hi
    rcases hi with rfl | rfl <;> decide
  exports := by decide
  exportsOnce := by decide
  manyExports := by decide
  unwind := rfl
  unwindAligned := by decide
  patches := fun q hq => by
    simp only [sample, List.mem_cons, List.not_mem_nil, or_false] at hq
    rcases hq with rfl | rfl | rfl <;> exact ⟨_, rfl, by decide⟩
  manyPatches := by decide
  base := by decide
  entry := fun i hi => by cases hi; decide
  tlsIndex := fun _ => by decide

example : Accepted (file sample) := C79_accepted sample sample_valid

/-- The program starts at its second function. -/
example : entryPoint (file sample) = 4112 ∧ memory sample 4112 = 0xc3 := by
  refine ⟨((C79_entry sample sample_valid).2 1 rfl).trans (by decide +kernel), ?_⟩
  have h := C79_contents sample sample_valid (.func 1) [0xc3] rfl 0 (by decide) (by decide)
  rw [show address sample (.func 1) = 4112 by decide +kernel] at h
  exact h

example : Holds (memory sample) (address sample (.float 0)) [0, 0, 128, 63] := C79_floats sample sample_valid 0 _ rfl
example : Holds (memory sample) (sourceRva sample (.string 2)) [65, 0, 0, 0] := C79_strings sample sample_valid 2 [65, 0] 2 rfl

/-- Equal literals are shared. -/
example : sourceRva sample (.string 0) = sourceRva sample (.string 1) := by decide +kernel

example : memory sample (sourceRva sample (.bss 1) + 99) = 0 := C79_bss_zero sample sample_valid 1 _ rfl 99 (by decide)
example : sourceRva sample (.bss 0) + 4 ≤ sourceRva sample (.bss 1) := C79_bss_disjoint sample sample_valid 0 1 _ _ rfl rfl (by decide)
example := C79_disjoint sample sample_valid (.func 0) (.data 0) _ _ rfl rfl (by decide)
example := C79_bss_apart sample sample_valid 0 _ rfl (.tls 1) _ rfl

/-- The first patch refers to the second character of the second string, the second to the import by name, the third to the stub of the import by number. -/
example : (address sample (.func 0) + 7 : Int) + signed (number (memory sample) 4 (address sample (.func 0) + 3)) = sourceRva sample (.string 1) + 1 :=
  C79_rip_relative sample sample_valid [] _ ⟨.ripRelative, .func 0, 3, .string 1, 1, 7⟩ rfl (fun r hr => by
    simp only [List.mem_cons, List.not_mem_nil, or_false] at hr
    rcases hr with rfl | rfl <;> decide) rfl _ rfl (by decide) (by decide +kernel) (by decide +kernel) (fun i h => by cases h)
example : (number (memory sample) 8 (address sample (.data 0)) : Int) = imageBase (file sample) + stubRva sample 0 1 := by
  have := C79_absolute_partial sample sample_valid [⟨.ripRelative, .func 0, 3, .string 1, 1, 7⟩, ⟨.ripRelative, .func 0, 9, .imported 0 0, 0, 13⟩] []
    ⟨.absolute, .data 0, 0, .imported 0 1, 0, 0⟩ rfl (fun r hr => by cases hr) rfl (by decide +kernel) (by decide +kernel) (fun i h => by cases h)
  exact this.trans (by show _ + (((stubRva sample 0 1 : Nat) : Int) + 0) = _; omega)
example : JumpsThrough (memory sample) (stubRva sample 0 1) (slotRva sample 0 1) := C79_stubs sample sample_valid 0 1 (by decide)
example : Imports (memory sample) (directory (file sample) 1).1 [([107, 46, 100], [.name 3 [69], .ordinal 7], slotRva sample 0 0)] :=
  C79_imports sample sample_valid (by decide +kernel)
example := C79_exports sample sample_valid (by decide)
example := (C79_unwind sample sample_valid).2
example := C79_tls sample sample_valid (by decide)
example := C79_relocations sample sample_valid
example := C79_debug sample sample_valid _ _ rfl
example : address sample (.data 0) % 8 = 0 := C79_data_aligned_partial sample sample_valid 0 _ rfl (by decide)
example : sourceRva sample (.bss 1) % 16 = 0 := C79_bss_aligned_partial sample sample_valid 1 _ rfl (by decide)
example : address sample (.float 0) % 4 = 0 := C79_floats_aligned sample sample_valid 0 _ rfl
example := C79_tls_aligned_partial sample sample_valid _ rfl (by decide) 1 _ rfl (by decide)

/-- A program with one function and nothing else. -/
def small : Program where
  functions := [[0xc3]]
  stubs := []
  bss := [(4, 4)]
  dlls := []
  debug := none
  strings := []
  floats := []
  exports := []
  exePath := []
  tls := []
  tlsIndex := 0
  data := []
  patches := []
  unwind := [[1, 0, 0, 0]]
  imageBase := 0x140000000
  entry := some 0
  isDll := false
  noDynamicBase := false
  subsystem := 3
  time := 5

theorem small_valid (strings : List (List Nat × Nat)) (tls data : List (Nat × List Nat)) (patches : List Patch)
    (h1 : (endCursor { small with strings := strings, tls := tls, data := data, patches := patches }).va < 2 ^ 31)
    (h2 : ∀ d ∈ tls, 0 < d.1) (h3 : ∀ d ∈ data, 0 < d.1) (h4 : ∀ s ∈ strings, s.2 = 1 ∨ s.2 = 2 ∨ s.2 = 4) (h5 : strings.length < 2 ^ 61)
    (h6 : ∀ q ∈ patches, ∃ b, bytesOf { small with strings := strings, tls := tls, data := data, patches := patches } q.dest = some b ∧
      q.at_ + patchSize q.kind ≤ b.length) (h7 : patches.length < 2 ^ 30) :
    Valid { small with strings := strings, tls := tls, data := data, patches := patches } where
  small := h1
  bssAligned := by show ∀ d ∈ [(4, 4)], _; decide
  tlsAligned := h2
  dataAligned := h3
  elements := h4
  manyStrings := h5
  floats := fun _ h => by cases h
  stubs := fun _ h => by cases h
  stubsOnce := .nil
  ordinals := fun _ h => by cases h
  exports := fun _ h => by cases h
  exportsOnce := .nil
  manyExports := by show 0 < _; decide
  unwind := rfl
  unwindAligned := by show ∀ u ∈ [[1, 0, 0, 0]], _; decide
  patches := h6
  manyPatches := h7
  base := by show 0x140000000 + 2 ^ 31 ≤ _; decide
  entry := fun i h => by
    have : (0 : Nat) = i := Option.some.inj h
    subst this
    show 0 < 1
    decide
  tlsIndex := fun _ => by show 0 < 1; decide

/-- **C79.** An initialized object that has to be aligned to 1024 bytes is not. -/
theorem C79_data_aligned_wrong : ∃ p, Valid p ∧ p.data[0]? = some (1024, [1]) ∧ address p (.data 0) % 1024 ≠ 0 :=
  ⟨_, small_valid [] [] [(1024, [1])] [] (by decide +kernel) (by decide) (by decide) (by decide) (by decide) (fun _ h => by cases h) (by decide), rfl,
    by decide +kernel⟩

/-- **C79.** The copies of a variable of threads that has to be aligned to 4 bytes are not, if the first variable of threads has a smaller alignment. -/
theorem C79_tls_aligned_wrong : ∃ p, Valid p ∧ p.tls[1]? = some (4, [1, 0, 0, 0]) ∧ (address p (.tls 1) - address p .tlsStart) % 4 ≠ 0 :=
  ⟨_, small_valid [([65], 1)] [(1, [1]), (4, [1, 0, 0, 0])] [] [] (by decide +kernel) (by decide) (by decide) (by decide) (by decide) (fun _ h => by cases h)
    (by decide), rfl, by decide +kernel⟩

/-- **C79.** A string literal of wide characters is at an odd address, as it shares its bytes with the string literal `"\0"`. -/
theorem C79_wide_string_aligned_wrong : ∃ p, Valid p ∧ p.strings[2]? = some ([], 2) ∧ sourceRva p (.string 2) % 2 ≠ 0 :=
  ⟨_, small_valid [([], 1), ([0], 1), ([], 2)] [] [] [] (by decide +kernel) (by decide) (by decide) (by decide) (by decide) (fun _ h => by cases h)
    (by decide), rfl, by decide +kernel⟩

/-- **C79.** The address of a character inside of a string literal that is stored in memory is the one of the first character. -/
theorem C79_absolute_wrong : ∃ p q, Valid p ∧ p.patches = [q] ∧ q.kind = .absolute ∧ q.source = .string 0 ∧ q.offset = 2 ∧ p.strings[0]? = some ([65, 66, 67], 1) ∧
    number (memory p) 8 (address p q.dest + q.at_) = imageBase (file p) + sourceRva p (.string 0) :=
  ⟨_, _, small_valid [([65, 66, 67], 1)] [] [(8, [0, 0, 0, 0, 0, 0, 0, 0])] [⟨.absolute, .data 0, 0, .string 0, 2, 0⟩] (by decide +kernel) (by decide)
    (by decide) (by decide) (by decide) (fun q h => by rw [List.mem_singleton.1 h]; exact ⟨_, rfl, by decide⟩) (by decide), rfl, rfl, rfl, rfl, rfl,
    by decide +kernel⟩

/-- **C79.** The address of an imported function without a stub is the start of the image. -/
example : absoluteSource sample ⟨.absolute, .data 0, 0, .imported 0 0, 0, 0⟩ = sample.imageBase := by decide +kernel

end Verif.Props.Image
