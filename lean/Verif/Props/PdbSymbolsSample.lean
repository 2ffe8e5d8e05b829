import Verif.Props.PdbSymbols

/-!
# C82: a program, and enumerators that are not found
-/
namespace Verif.Props.PdbSymbols
open Verif.Model.PdbSymbols
open Verif.Spec.PdbSymbols (describe lookup addressMap bucket)
open Verif.Lemmas.PdbRead Verif.Lemmas.PdbRecords

/-- `main` and a static `f`, an import with its stub, an enumerator, two objects, a type. -/
def sample : Program where
  text := ⟨0x1000, 1⟩
  rdata := ⟨0x3000, 3⟩
  bss := ⟨0x2000, 2⟩
  data := ⟨0x4000, 4⟩
  functions := [⟨[109, 97, 105, 110], 0x1010, false, 4⟩, ⟨[102], 0x1000, true, 100⟩]
  imports := [([95, 95, 105, 109, 112, 95, 112], 0x3008)]
  stubs := [([112], 0x1030)]
  constants := [([65], 0x1001, -200)]
  uninitialized := [⟨[117], 0x2004, false, 0x74⟩]
  initialized := [⟨[105], 0x4008, true, 0x74⟩]
  typedefs := [([84], 0x1002)]

theorem sample_valid : Valid sample where
  functions := by unfold Name; decide
  imports := by unfold Name; decide
  stubs := by unfold Name; decide
  constants := by unfold Name; decide
  uninitialized := by unfold ObjectFine Name; decide
  initialized := by unfold ObjectFine Name; decide
  typedefs := by unfold Name; decide
  ids := by decide
  different := by decide
  size := by decide +kernel

example : SmallConstants sample := by unfold SmallConstants; decide
example : globalsNamed sample [65] = [[0x1107, 0x1001, -200]] ∧ globalsNamed sample [117] = [[0x110d, 0x74, 4, 2]] := by decide
example := C82_globals_partial sample sample_valid (by unfold SmallConstants; decide) [65]
example : ∃ s, publicStream (symbols sample).publics = some s := C82_public_written sample
example : publicFunctions sample = [([109, 97, 105, 110], [0x110e, 2, 0x10, 1]), ([95, 95, 105, 109, 112, 95, 112], [0x110e, 0, 8, 3]), ([112], [0x110e, 0, 0x30, 1])] := by decide
example := fun s h => C82_publics sample sample_valid (s := s) h [112]
example := C82_records sample sample_valid

example : ∃ s, publicStream (symbols sample).publics = some s ∧ (addressMap s).length = 3 := by
  obtain ⟨s, hs⟩ := C82_public_written sample
  have := (C82_addresses sample sample_valid hs).2.1.length_eq
  rw [List.length_map] at this
  exact ⟨s, hs, this⟩

/-- A program with the enumerator `A = -40000`. -/
def low : Program := { sample with functions := [], imports := [], stubs := [], constants := [([65], 0x1001, -40000)], uninitialized := [], initialized := [], typedefs := [] }

theorem low_valid : Valid low where
  functions := fun _ h => by cases h
  imports := fun _ h => by cases h
  stubs := fun _ h => by cases h
  constants := by unfold Name; decide
  uninitialized := fun _ h => by cases h
  initialized := fun _ h => by cases h
  typedefs := fun _ h => by cases h
  ids := by decide
  different := by decide
  size := by decide +kernel

/-- **Finding.** Enumerators below -32768 are not found by their name: the two bytes between the tag and the value (`C47_signed_wrong`) shift the name. -/
theorem C82_globals_wrong : ∃ (p : Program) (n : List Nat), Valid p ∧ globalsNamed p n = [[0x1107, 0x1001, -40000]] ∧
    lookup (symbols p).records (hashStream (symbols p).globals) 0 n = [] :=
  ⟨low, [65], low_valid, by decide, by
    have hall : ∀ o, o ∈ bucket (hashStream (symbols low).globals) 0 (Verif.Spec.PdbSymbols.hash [65] % 4096) → o = 0 := by
      intro o ho
      have hh := (symbols_eq low).2.1
      have he : ((placed 0 (entries low)).filter (fun x => !x.2.isPublic)).map sym = [⟨[65], 0, 0⟩] := by decide
      rw [he] at hh
      have hat : At (hashStream (symbols low).globals) 0 (hashStream (symbols low).globals) := at_of_drop (post := []) (by simp)
      have hi : Verif.Spec.PdbSymbols.hash [65] % 4096 < 4096 := Nat.mod_lt _ (by omega)
      rw [bucket_eq (N := 4096 + 1) (parts hat hh (by decide) rfl) hh (by decide) (by decide) rfl (by omega)] at ho
      obtain ⟨y, hy, rfl⟩ := List.mem_map.mp ho
      have := (List.mem_filter.mp ((hh.chains _).mem_iff.mp hy)).1
      rw [List.mem_singleton] at this
      rw [this]
    unfold lookup
    rw [List.filter_eq_nil_iff]
    intro o ho
    rw [hall o ho]
    decide +kernel⟩

end Verif.Props.PdbSymbols
