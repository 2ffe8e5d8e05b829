import Verif.Model.DebugLines
import Verif.Model.PdbSymbols

/-!
# Model: the table of names in PDB files

The stream `/names` (/repo/src/coff_writer.c 2247–2325). Of the files only the paths matter. Numbers are natural numbers; the theorems assume that sizes fit into 32 bits. The
hash is a number of 32 bits, and so is its sum with `table_index`.
-/
namespace Verif.Model.Names
open Verif.Model.BaseReloc (u32)
open Verif.Model.PdbSymbols (stringHash)
open Verif.Model.DebugLines (Files names)

/-- `string_count` (/repo/src/coff_writer.c 2268, 2284). -/
def stringCount (files : Files) : Nat := (files.filter Option.isSome).length

/-- The loop over `table_index` (/repo/src/coff_writer.c 2310–2316); the first argument is how many steps there are. -/
def place (count hash offset : Nat) : Nat → Nat → List Nat → List Nat
  | 0, _, buckets => buckets
  | n + 1, tableIndex, buckets =>
    let hashIndex := (hash + tableIndex) % 2 ^ 32 % count
    if buckets.getD hashIndex 0 ≠ 0 then place count hash offset n (tableIndex + 1) buckets
    else buckets.set hashIndex offset

/-- `string_from_cstring`. -/
def cstring (buffer : List Nat) (p : Nat) : List Nat := (buffer.drop p).takeWhile (fun b => decide (b ≠ 0))

/-- The loop over the strings (/repo/src/coff_writer.c 2306–2319), from the offset `p` on. Every step advances by at least one byte. -/
def fill (count : Nat) (buffer : List Nat) : Nat → Nat → List Nat → List Nat
  | 0, _, buckets => buckets
  | n + 1, p, buckets =>
    if p < buffer.length then
      let s := cstring buffer p
      fill count buffer n (p + s.length + 1) (place count (stringHash s) p count 0 buckets)
    else buckets

/-- The buckets (/repo/src/coff_writer.c 2300–2319); the new memory is zero. -/
def buckets (files : Files) : List Nat :=
  let count := 2 * stringCount files
  fill count (names files) (names files).length 1 (List.replicate count 0)

/-- The stream. -/
def stream (files : Files) : List Nat :=
  u32 0xeffeeffe ++ u32 1 ++ u32 (names files).length ++ names files ++ u32 (2 * stringCount files) ++ (buckets files).flatMap u32 ++ u32 (stringCount files)

end Verif.Model.Names
