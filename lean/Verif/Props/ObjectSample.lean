import Verif.Props.ObjectSections

/-!
# C80: examples of object files, and what is wrong with some
-/
namespace Verif.Props.Object
open Verif.Model.BaseReloc hiding relocate
open Verif.Model.Object
open Verif.Lemmas.Object
open Verif.Spec.Image (byte number Holds signed)
open Verif.Spec.Object (Link relocate linked raw put address startOf indexOf content symbolAt symbolCount sectionAt sectionCount sectionOf machine Defined
  Undefined Tentative)

set_option maxRecDepth 100000

theorem powers {a : Nat} (h : a ∈ [1, 2, 4, 8, 16, 32]) : PowerOfTwo a := by
  simp only [List.mem_cons, List.not_mem_nil, or_false] at h
  rcases h with rfl | rfl | rfl | rfl | rfl | rfl
  · exact ⟨0, by omega, rfl⟩
  · exact ⟨1, by omega, rfl⟩
  · exact ⟨2, by omega, rfl⟩
  · exact ⟨3, by omega, rfl⟩
  · exact ⟨4, by omega, rfl⟩
  · exact ⟨5, by omega, rfl⟩

/-- A program without anything. -/
def empty : Program where
  directives := []
  functions := []
  externFunctions := []
  externVars := []
  autos := []
  bss := []
  data := []
  literals := []
  tls := []
  selectany := []
  strings1 := []
  strings2 := []
  strings4 := []
  floats := []
  doubles := []
  floatHash := fun b => b.getD 0 0
  debugTypes := [4, 0, 0, 0]
  debugSymbols := [4, 0, 0, 0, 0, 0, 0, 0, 0, 0]
  debugRelocations := []
  patches := []

/-- Two functions, of which the first one calls an imported function and uses an object, a string and a constant, the second one a thread-local object; objects with the
addresses of functions and objects. -/
def sample : Program :=
  { empty with
    functions := [⟨[109, 97, 105, 110], [0xff, 0x15, 0, 0, 0, 0, 0x48, 0x8d, 0x05, 0, 0, 0, 0, 0x48, 0x8d, 0x0d, 0, 0, 0, 0, 0xf3, 0x0f, 0x10, 0x05, 0, 0, 0, 0, 0xc3], false,
        [1, 4, 1, 0, 4, 0x42, 0, 0]⟩,
      ⟨[97, 95, 108, 111, 110, 103, 95, 110, 97, 109, 101], [0x8b, 0x81, 0, 0, 0, 0, 0xc3], true, [1, 4, 1, 0, 4, 0x42, 0, 0]⟩]
    externFunctions := [⟨[112, 117, 116, 115], true, true⟩]
    externVars := [([101], false)]
    autos := [([116], false, 12)]
    bss := [([98], 3, 1), ([99], 8, 8)]
    data := [⟨[100], 8, [1, 2, 3, 4, 5, 6, 7, 8, 9, 0, 0, 0, 0, 0, 0, 0, 0], false⟩, ⟨[102], 16, [0, 0, 0, 0, 0, 0, 0, 0], true⟩]
    literals := [(8, [0, 0, 0, 0, 0, 0, 0, 0, 7])]
    tls := [⟨[108], 4, [5, 0, 0, 0], false⟩]
    selectany := [⟨[115], 16, [6], false⟩]
    strings1 := [[104, 105], [104, 105], [104]]
    strings2 := [[104, 0]]
    floats := [[0, 0, 0x80, 0x3f]]
    doubles := [[0, 0, 0, 0, 0, 0, 0xf0, 0x3f]]
    debugRelocations := [(4, .func 1)]
    patches := [⟨.ripRelative, .func 0, 2, .externFunc 0, 0, 6⟩, ⟨.ripRelative, .func 0, 9, .data 0, 4, 13⟩, ⟨.ripRelative, .func 0, 16, .string 1 1, 0, 20⟩,
      ⟨.ripRelative, .func 0, 24, .float 0, 0, 28⟩, ⟨.sectionOffset, .func 1, 2, .tls 0, 0, 6⟩, ⟨.absolute, .data 0, 9, .externFunc 0, 0, 0⟩,
      ⟨.absolute, .data 1, 0, .func 1, 0, 0⟩, ⟨.absolute, .literal 0, 0, .data 0, 8, 0⟩] }

theorem sample_patches : ∀ q ∈ sample.patches, (∃ b, target sample q.dest = some b ∧ q.at_ + width q.kind ≤ b.length ∧
    (q.kind ≠ .absolute → ∀ i, i < 4 → b[q.at_ + i]? = some 0)) ∧ Exists sample q.source ∧ (patchSection q.dest = .text ↔ q.kind ≠ .absolute) := by
  intro q hq
  simp only [sample, List.mem_cons, List.not_mem_nil, or_false] at hq
  rcases hq with rfl | rfl | rfl | rfl | rfl | rfl | rfl | rfl
  · exact ⟨⟨_, rfl, by decide, by decide⟩, by show 0 < 1; decide, by decide⟩
  · exact ⟨⟨_, rfl, by decide, by decide⟩, by show 0 < 2; decide, by decide⟩
  · exact ⟨⟨_, rfl, by decide, by decide⟩, .inl ⟨rfl, by show 1 < 3; decide⟩, by decide⟩
  · exact ⟨⟨_, rfl, by decide, by decide⟩, by show 0 < 1; decide, by decide⟩
  · exact ⟨⟨_, rfl, by decide, by decide⟩, by show 0 < 1; decide, by decide⟩
  · exact ⟨⟨_, rfl, by decide, by decide⟩, by show 0 < 1; decide, by decide⟩
  · exact ⟨⟨_, rfl, by decide, by decide⟩, by show 1 < 2; decide, by decide⟩
  · exact ⟨⟨_, rfl, by decide, by decide⟩, by show 0 < 2; decide, by decide⟩

theorem sample_valid : Valid sample where
  functionNames := by unfold Name; decide
  externNames := by unfold Name; decide
  externVarNames := by unfold Name; decide
  autoNames := by unfold Name; decide
  bssNames := by unfold Name; decide
  dataNames := by unfold Name; decide
  tlsNames := by unfold Name; decide
  selectanyNames := by unfold Name; decide
  bssAligns := fun v h => powers (by revert v; decide)
  dataAligns := fun v h => powers (by revert v; decide)
  literalAligns := fun v h => powers (by revert v; decide)
  tlsAligns := fun v h => powers (by revert v; decide)
  selectanyAligns := fun v h => powers (by revert v; decide)
  floats := by decide
  doubles := by decide
  manyStrings1 := by decide
  manyStrings2 := by decide
  manyStrings4 := by decide
  manyFloats := by decide
  manyDoubles := by decide
  patchKinds := fun q h => (sample_patches q h).2.2
  patchFits := fun q h => (sample_patches q h).1
  patchApart := by decide
  patchSources := fun q h => (sample_patches q h).2.1
  autoSizes := by decide
  bssSize := by decide
  fewSections := by decide
  small := by decide +kernel

/-- A linker that puts sections to multiples of 64 KB. -/
def far : Link where
  base := fun n => 0x140000000 + 0x10000 * n
  start := fun n => 0x140000000 + 0x10000 * n
  index := fun n => n
  external := fun name => 0x150000000 + 16 * name.length
  externalStart := fun _ => 0x150000000
  externalIndex := fun _ => 99
  image := 0x140000000

theorem far_aligned : far.Aligned (file sample) := by
  intro n h1 h2
  have hc : sectionCount (file sample) = 11 := by decide +kernel
  rw [hc] at h2
  have key : ∀ n, n ≤ 11 → 1 ≤ n → far.base n % (sectionAt (file sample) n).alignment = 0 := by decide +kernel
  exact key n h2 h1

/-! ## The theorems for the sample -/

example : machine (file sample) = 0x8664 ∧ sectionCount (file sample) = 11 ∧ symbolCount (file sample) = 44 := by decide +kernel

example := C80_header sample sample_valid
example := C80_sections sample sample_valid (n := 3) (by decide) (by rw [(header_spec sample_valid (records_good sample_valid)).2.1]; decide +kernel)
example := C80_function sample sample_valid (i := 1) rfl
example := C80_object sample sample_valid (i := 1) rfl
example := C80_literal sample sample_valid (i := 0) rfl
example := C80_thread_local sample sample_valid (i := 0) rfl
example := C80_selectany sample sample_valid (i := 0) rfl
example := C80_zero sample sample_valid far (i := 1) rfl
example := C80_zero_apart sample sample_valid (i := 0) (j := 1) rfl rfl (by decide)
example := (C80_external_function sample sample_valid (i := 0) rfl).2 rfl
example := C80_external_object sample sample_valid (i := 0) rfl
example := C80_tentative sample sample_valid (i := 0) rfl rfl (by decide)

theorem sample_selectany : NoSelectanyPatch sample := by
  intro q hq i
  simp only [sample, List.mem_cons, List.not_mem_nil, or_false] at hq
  rcases hq with rfl | rfl | rfl | rfl | rfl | rfl | rfl | rfl <;> simp

example : content (file sample) far (symbolOf sample (.func 0)) 28 = 0xc3 := C80_code sample sample_valid far (i := 0) rfl (x := 28) rfl (by unfold Untouched; decide)
example : content (file sample) far (symbolOf sample (.tls 0)) 0 = 5 :=
  C80_thread_local_bytes sample sample_valid far (i := 0) rfl (x := 0) rfl (by unfold Untouched; decide)
example : content (file sample) far (symbolOf sample (.data 0)) 8 = 9 :=
  C80_object_bytes_partial sample sample_valid sample_selectany far (i := 0) rfl (x := 8) rfl (by unfold Untouched; decide)
example : content (file sample) far (symbolOf sample (.literal 0)) 8 = 7 :=
  C80_literal_bytes_partial sample sample_valid sample_selectany far (i := 0) rfl (x := 8) rfl (by unfold Untouched; decide)
example : content (file sample) far (symbolOf sample (.selectany 0)) 0 = 6 :=
  C80_selectany_bytes sample sample_valid far (i := 0) rfl (x := 0) rfl (by unfold Untouched; decide)
example := C80_string sample sample_valid far (element := 1) (i := 1) (.inl ⟨rfl, rfl⟩)
example := C80_string sample sample_valid far (element := 2) (i := 0) (.inr (.inl ⟨rfl, rfl⟩))
example := C80_float sample sample_valid far (i := 0) rfl
example := C80_double sample sample_valid far (i := 0) rfl
example := C80_apart sample sample_valid (d := .data 1) (e := .literal 0) rfl rfl (by decide) (by decide +kernel)

/-- `lea rax, [d + 4]`. -/
example : (0x140020000 + 13 : Int) + signed (number (content (file sample) far (symbolOf sample (.func 0))) 4 9) = 0x140070000 + 4 := by
  have a : address (file sample) far (symbolOf sample (.func 0)) = 0x140020000 := by decide +kernel
  have b : address (file sample) far (symbolOf sample (.data 0)) = 0x140070000 := by decide +kernel
  have := C80_rip_relative sample sample_valid far (q := ⟨.ripRelative, .func 0, 9, .data 0, 4, 13⟩) (by simp [sample]) rfl (i := 0) rfl
    (by simp only []; rw [a, b]; decide) (by simp only []; rw [a, b]; decide)
  simp only [a, b] at this
  exact this

/-- The thread-local object is at the start of its section. -/
example : number (content (file sample) far (symbolOf sample (.func 1))) 4 2 = 0 := by
  have a : address (file sample) far (symbolOf sample (.tls 0)) = 0x140080000 := by decide +kernel
  have b : startOf (file sample) far (symbolOf sample (.tls 0)) = 0x140080000 := by decide +kernel
  have := C80_section_offset sample sample_valid far (q := ⟨.sectionOffset, .func 1, 2, .tls 0, 0, 6⟩) (by simp [sample]) rfl (i := 1) rfl
    (by simp only []; rw [a, b]; decide) (by simp only []; rw [a, b]; decide)
  simp only [a, b] at this
  omega

/-- The address of the stub of `puts`. -/
example : (number (content (file sample) far (symbolOf sample (.data 0))) 8 9 : Int) = 0x150000040 := by
  have a : address (file sample) far (addressSymbol sample (.externFunc 0)) = 0x150000040 := by decide +kernel
  have := C80_absolute_partial sample sample_valid sample_selectany far (q := ⟨.absolute, .data 0, 9, .externFunc 0, 0, 0⟩) (by simp [sample]) rfl
  simp only [a] at this
  exact this

example := C80_function_aligned sample sample_valid far far_aligned (i := 1) rfl
example := C80_object_aligned_partial sample sample_valid far far_aligned (i := 1) rfl (by decide)
example := C80_literal_aligned_partial sample sample_valid far far_aligned (i := 0) rfl (by decide)
example := C80_thread_local_aligned_partial sample sample_valid far far_aligned (i := 0) rfl (by decide)
example := C80_zero_aligned sample sample_valid far far_aligned (i := 1) rfl
example := C80_selectany_aligned sample sample_valid far far_aligned (i := 0) rfl

example := C80_function_table sample sample_valid far (i := 1) rfl (by decide +kernel) (by decide +kernel) (by decide +kernel) (by decide +kernel)
example := C80_unwind_partial sample sample_valid far (i := 1) (c := 1) rfl (fun g h => by cases h; rfl) (fun j g hj h => by
  have : j = 0 := by omega
  subst this; cases h; rfl)

theorem sample_debug : ValidDebug sample where
  sources := fun r hr => by
    simp only [sample, List.mem_cons, List.not_mem_nil, or_false] at hr
    subst hr
    show 1 < 2; decide
  zeros := by
    intro r hr
    simp only [sample, List.mem_cons, List.not_mem_nil, or_false] at hr
    subst hr
    decide
  apart := by
    show List.Pairwise _ [(4, Source.func 1)]
    exact List.pairwise_singleton _ _

example := C80_debug sample sample_valid sample_debug far

/-! ## Findings -/

/-- Three functions with unwind information of different sizes. -/
def three : Program :=
  { empty with
    functions := [⟨[97], [0xc3], false, [1, 0, 0, 0]⟩, ⟨[98], [0xc3], false, [1, 4, 1, 0, 4, 0x42, 0, 0]⟩, ⟨[99], [0xc3], false, [1, 4, 1, 0, 4, 0x22, 0, 0]⟩] }

theorem three_valid : Valid three where
  functionNames := by unfold Name; decide
  externNames := by unfold Name; decide
  externVarNames := by unfold Name; decide
  autoNames := by unfold Name; decide
  bssNames := by unfold Name; decide
  dataNames := by unfold Name; decide
  tlsNames := by unfold Name; decide
  selectanyNames := by unfold Name; decide
  bssAligns := fun v h => powers (by revert v; decide)
  dataAligns := fun v h => powers (by revert v; decide)
  literalAligns := fun v h => powers (by revert v; decide)
  tlsAligns := fun v h => powers (by revert v; decide)
  selectanyAligns := fun v h => powers (by revert v; decide)
  floats := by decide
  doubles := by decide
  manyStrings1 := by decide
  manyStrings2 := by decide
  manyStrings4 := by decide
  manyFloats := by decide
  manyDoubles := by decide
  patchKinds := fun q h => by cases h
  patchFits := fun q h => by cases h
  patchApart := by decide
  patchSources := fun q h => by cases h
  autoSizes := by decide
  bssSize := by decide
  fewSections := by decide
  small := by decide +kernel

/-- **Finding.** The unwind information of the third function is that of the second one from its middle on: the size of the unwind information is always that of the
first function. -/
theorem C80_unwind_wrong : ∃ (p : Program) (l : Link) (i : Nat) (f : Function), Valid p ∧ p.functions[i]? = some f ∧
    ¬ Holds (content (file p) l (symbolOf p (.func i) + 1)) 0 f.unwind := by
  refine ⟨three, far, 2, _, three_valid, rfl, fun h => ?_⟩
  have := h 0 (by decide)
  revert this
  decide +kernel

/-- An object that is aligned to 32 bytes, after another one. -/
def aligned : Program := { empty with data := [⟨[97], 1, [1], false⟩, ⟨[98], 32, [2], false⟩] }

theorem aligned_valid : Valid aligned where
  functionNames := by unfold Name; decide
  externNames := by unfold Name; decide
  externVarNames := by unfold Name; decide
  autoNames := by unfold Name; decide
  bssNames := by unfold Name; decide
  dataNames := by unfold Name; decide
  tlsNames := by unfold Name; decide
  selectanyNames := by unfold Name; decide
  bssAligns := fun v h => powers (by revert v; decide)
  dataAligns := fun v h => powers (by revert v; decide)
  literalAligns := fun v h => powers (by revert v; decide)
  tlsAligns := fun v h => powers (by revert v; decide)
  selectanyAligns := fun v h => powers (by revert v; decide)
  floats := by decide
  doubles := by decide
  manyStrings1 := by decide
  manyStrings2 := by decide
  manyStrings4 := by decide
  manyFloats := by decide
  manyDoubles := by decide
  patchKinds := fun q h => by cases h
  patchFits := fun q h => by cases h
  patchApart := by decide
  patchSources := fun q h => by cases h
  autoSizes := by decide
  bssSize := by decide
  fewSections := by decide
  small := by decide +kernel

/-- **Finding.** An object with an alignment of more than 16 may not be aligned: its position in the file is, but the section does not start at a multiple of 32 in the
file. -/
theorem C80_aligned_wrong : ∃ (p : Program) (l : Link) (i : Nat) (v : Var), Valid p ∧ l.Aligned (file p) ∧ p.data[i]? = some v ∧
    address (file p) l (symbolOf p (.data i)) % v.align ≠ 0 := by
  refine ⟨aligned, far, 1, ⟨[98], 32, [2], false⟩, aligned_valid, ?_, rfl, by decide +kernel⟩
  intro n h1 h2
  have hc : sectionCount (file aligned) = 4 := by decide +kernel
  rw [hc] at h2
  have key : ∀ n, n ≤ 4 → 1 ≤ n → far.base n % (sectionAt (file aligned) n).alignment = 0 := by decide +kernel
  exact key n h2 h1

/-- An object with `__declspec(selectany)` that contains the address of an object. -/
def pointer : Program :=
  { empty with
    data := [⟨[97], 8, [1, 2, 3, 4, 5, 6, 7, 8], false⟩]
    selectany := [⟨[98], 8, [0, 0, 0, 0, 0, 0, 0, 0], false⟩]
    patches := [⟨.absolute, .selectany 0, 0, .data 0, 0, 0⟩] }

theorem pointer_valid : Valid pointer where
  functionNames := by unfold Name; decide
  externNames := by unfold Name; decide
  externVarNames := by unfold Name; decide
  autoNames := by unfold Name; decide
  bssNames := by unfold Name; decide
  dataNames := by unfold Name; decide
  tlsNames := by unfold Name; decide
  selectanyNames := by unfold Name; decide
  bssAligns := fun v h => powers (by revert v; decide)
  dataAligns := fun v h => powers (by revert v; decide)
  literalAligns := fun v h => powers (by revert v; decide)
  tlsAligns := fun v h => powers (by revert v; decide)
  selectanyAligns := fun v h => powers (by revert v; decide)
  floats := by decide
  doubles := by decide
  manyStrings1 := by decide
  manyStrings2 := by decide
  manyStrings4 := by decide
  manyFloats := by decide
  manyDoubles := by decide
  patchKinds := fun q h => by
    simp only [pointer, List.mem_cons, List.not_mem_nil, or_false] at h
    subst h; decide
  patchFits := fun q h => by
    simp only [pointer, List.mem_cons, List.not_mem_nil, or_false] at h
    subst h; exact ⟨_, rfl, by decide, by decide⟩
  patchApart := by
    show List.Pairwise _ [_]
    exact List.pairwise_singleton _ _
  patchSources := fun q h => by
    simp only [pointer, List.mem_cons, List.not_mem_nil, or_false] at h
    subst h; show 0 < 1; decide
  autoSizes := by decide
  bssSize := by decide
  fewSections := by decide
  small := by decide +kernel

/-- **Finding.** The address in an object with `__declspec(selectany)` is missing, and instead the object at the start of `.data` is changed. -/
theorem C80_selectany_wrong : ∃ (p : Program) (l : Link) (q : Patch) (d : Var), Valid p ∧ q ∈ p.patches ∧ q.kind = .absolute ∧
    number (content (file p) l (symbolOf p (destSource q.dest))) 8 q.at_ ≠ address (file p) l (addressSymbol p q.source) + q.offset ∧
    p.data[0]? = some d ∧ Untouched p (.data 0) 2 ∧ some (content (file p) l (symbolOf p (.data 0)) 2) ≠ d.bytes[2]? := by
  refine ⟨pointer, far, ⟨.absolute, .selectany 0, 0, .data 0, 0, 0⟩, _, pointer_valid, by simp [pointer], rfl, by decide +kernel, rfl, ?_, by decide +kernel⟩
  unfold Untouched
  decide

/-- An object without bytes. -/
def nothing : Program := { empty with autos := [([97], false, 0)] }

theorem nothing_valid : Valid nothing where
  functionNames := by unfold Name; decide
  externNames := by unfold Name; decide
  externVarNames := by unfold Name; decide
  autoNames := by unfold Name; decide
  bssNames := by unfold Name; decide
  dataNames := by unfold Name; decide
  tlsNames := by unfold Name; decide
  selectanyNames := by unfold Name; decide
  bssAligns := fun v h => powers (by revert v; decide)
  dataAligns := fun v h => powers (by revert v; decide)
  literalAligns := fun v h => powers (by revert v; decide)
  tlsAligns := fun v h => powers (by revert v; decide)
  selectanyAligns := fun v h => powers (by revert v; decide)
  floats := by decide
  doubles := by decide
  manyStrings1 := by decide
  manyStrings2 := by decide
  manyStrings4 := by decide
  manyFloats := by decide
  manyDoubles := by decide
  patchKinds := fun q h => by cases h
  patchFits := fun q h => by cases h
  patchApart := by decide
  patchSources := fun q h => by cases h
  autoSizes := by decide
  bssSize := by decide
  fewSections := by decide
  small := by decide +kernel

/-- **Finding.** A tentative definition of a structure without members, which is possible with the extensions of the compiler, is not defined: the linker takes the symbol for one
of another object. -/
theorem C80_tentative_wrong : ∃ (p : Program), Valid p ∧ p.autos[0]? = some ([97], false, 0) ∧ Undefined (file p) (symbolOf p (.auto 0)) [97] := by
  refine ⟨nothing, nothing_valid, rfl, ?_⟩
  unfold Undefined
  decide +kernel

end Verif.Props.Object
