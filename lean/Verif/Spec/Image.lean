/-!
# Specification: executables of Windows

What the loader of Windows and the processor make of the bytes of an executable (PE format). The file starts with the stub for DOS; the four bytes at 0x3c are
the position of the header. After the header there is the table of sections. The loader copies the bytes of every section to its address; what is behind them is zero.
All addresses are relative to the start of the image.
-/
namespace Verif.Spec.Image

/-- The byte at a position of the file. -/
def byte (file : List Nat) (i : Nat) : Nat := file.getD i 0

/-- The number of `n` bytes at an address, the lowest byte first. -/
def number (mem : Nat → Nat) : Nat → Nat → Nat
  | 0, _ => 0
  | n + 1, a => mem a + 256 * number mem n (a + 1)

/-- A section: where it is in the image and in the file. -/
structure Section where
  address : Nat
  size : Nat
  raw : Nat
  pointer : Nat
deriving DecidableEq

/-- The position of the header. -/
def header (file : List Nat) : Nat := number (byte file) 4 0x3c

/-- The field of `n` bytes at `offset` of the "optional header". -/
def field (file : List Nat) (n offset : Nat) : Nat := number (byte file) n (header file + 24 + offset)

/-- The entry `i` of the table of sections, which follows the "optional header". -/
def sectionAt (file : List Nat) (i : Nat) : Section :=
  let at_ := header file + 24 + number (byte file) 2 (header file + 20) + 40 * i
  ⟨number (byte file) 4 (at_ + 12), number (byte file) 4 (at_ + 8), number (byte file) 4 (at_ + 16), number (byte file) 4 (at_ + 20)⟩

/-- The table of sections. -/
def sections (file : List Nat) : List Section := (List.range (number (byte file) 2 (header file + 6))).map (sectionAt file)

def entryPoint (file : List Nat) : Nat := field file 4 16
def imageBase (file : List Nat) : Nat := field file 8 24
def sizeOfImage (file : List Nat) : Nat := field file 4 56
def sizeOfHeaders (file : List Nat) : Nat := field file 4 60

/-- The data directory `i`: its address and its size. -/
def directory (file : List Nat) (i : Nat) : Nat × Nat := (field file 4 (112 + 8 * i), field file 4 (116 + 8 * i))

/-- The byte at an address of the loaded image. -/
def loaded (file : List Nat) (a : Nat) : Nat :=
  match (sections file).find? (fun s => s.address ≤ a && a < s.address + s.size) with
  | some s => if a - s.address < s.raw then byte file (s.pointer + (a - s.address)) else 0
  | none => if a < sizeOfHeaders file then byte file a else 0

/-- Sections follow each other without gaps, each starts on a page. -/
def Consecutive : Nat → List Section → Nat → Prop
  | a, [], e => a = e
  | a, s :: rest, e => s.address = a ∧ a % 0x1000 = 0 ∧ 0 < s.size ∧ Consecutive ((a + s.size + 0xfff) / 0x1000 * 0x1000) rest e

/-- What the loader demands of the file. -/
structure Accepted (file : List Nat) : Prop where
  dos : byte file 0 = 0x4d ∧ byte file 1 = 0x5a
  signature : number (byte file) 4 (header file) = 0x4550
  machine : number (byte file) 2 (header file + 4) = 0x8664
  magic : field file 2 0 = 0x20b
  alignment : field file 4 32 = 0x1000 ∧ field file 4 36 = 0x200
  directories : field file 4 108 = 16
  headers : sizeOfHeaders file ≤ file.length ∧ header file + 24 + number (byte file) 2 (header file + 20) + 40 * (sections file).length ≤ sizeOfHeaders file
  consecutive : Consecutive ((sizeOfHeaders file + 0xfff) / 0x1000 * 0x1000) (sections file) (sizeOfImage file)
  inFile : ∀ s ∈ sections file, s.raw % 0x200 = 0 ∧ s.pointer % 0x200 = 0 ∧ s.pointer + s.raw ≤ file.length
  /-- The bytes of different sections are different. -/
  disjoint : (sections file).Pairwise (fun s t => s.raw = 0 ∨ t.raw = 0 ∨ s.pointer + s.raw ≤ t.pointer)

/-- The bytes are at the address. -/
def Holds (mem : Nat → Nat) (a : Nat) (bytes : List Nat) : Prop := ∀ i (h : i < bytes.length), mem (a + i) = bytes[i]

/-- A displacement of 32 bits. -/
def signed (v : Nat) : Int := if v < 2 ^ 31 then v else (v : Int) - 2 ^ 32

/-- What is imported: a number, or a name and a hint. -/
inductive Wanted where
  | ordinal (n : Nat)
  | name (hint : Nat) (s : List Nat)

/-- The entry of a table of imports. -/
def Entry (mem : Nat → Nat) (v : Nat) : Wanted → Prop
  | .ordinal n => v = 2 ^ 63 + n
  | .name hint s => v < 2 ^ 31 ∧ number mem 2 v = hint ∧ Holds mem (v + 2) (s ++ [0])

/-- The table at an address has these imports and ends after them. -/
def Table (mem : Nat → Nat) (a : Nat) (ws : List Wanted) : Prop :=
  (∀ i (h : i < ws.length), Entry mem (number mem 8 (a + 8 * i)) ws[i]) ∧ number mem 8 (a + 8 * ws.length) = 0

/-- The descriptor at an address: the library, what is imported from it, and where the loader puts the addresses. -/
def Descriptor (mem : Nat → Nat) (a : Nat) (name : List Nat) (ws : List Wanted) (slots : Nat) : Prop :=
  Holds mem (number mem 4 (a + 12)) (name ++ [0]) ∧ number mem 4 (a + 16) = slots ∧ slots % 8 = 0 ∧
    Table mem (number mem 4 a) ws ∧ Table mem slots ws

/-- The import directory: a descriptor for every library, then one of zeros. -/
def Imports (mem : Nat → Nat) (a : Nat) (libs : List (List Nat × List Wanted × Nat)) : Prop :=
  (∀ i (h : i < libs.length), Descriptor mem (a + 20 * i) libs[i].1 libs[i].2.1 libs[i].2.2) ∧
    Holds mem (a + 20 * libs.length) (List.replicate 20 0)

/-- The instruction `jmp [slot]` of 6 bytes at an address. -/
def JumpsThrough (mem : Nat → Nat) (a slot : Nat) : Prop :=
  mem a = 0xff ∧ mem (a + 1) = 0x25 ∧ (a : Int) + 6 + signed (number mem 4 (a + 2)) = slot

/-- Names are ordered as by `strcmp`. -/
def Before : List Nat → List Nat → Prop
  | [], [] => False
  | [], _ :: _ => True
  | _ :: _, [] => False
  | a :: as, b :: bs => a < b ∨ (a = b ∧ Before as bs)

/-- The export directory: the names with their addresses. The loader searches for a name by halving, so that they have to be in order. -/
def Exports (mem : Nat → Nat) (a : Nat) (l : List (List Nat × Nat)) : Prop :=
  number mem 4 (a + 20) = l.length ∧ number mem 4 (a + 24) = l.length ∧
    (∀ i (h : i < l.length), Holds mem (number mem 4 (number mem 4 (a + 32) + 4 * i)) (l[i].1 ++ [0]) ∧
      number mem 2 (number mem 4 (a + 36) + 2 * i) < l.length ∧
      number mem 4 (number mem 4 (a + 28) + 4 * number mem 2 (number mem 4 (a + 36) + 2 * i)) = l[i].2) ∧
    l.Pairwise (fun x y => Before x.1 y.1)

/-- The exception directory: begin, end and unwind information of the functions, in ascending order. -/
def Functions (mem : Nat → Nat) (a : Nat) (l : List (Nat × Nat × List Nat)) : Prop :=
  (∀ i (h : i < l.length), number mem 4 (a + 12 * i) = l[i].1 ∧ number mem 4 (a + 12 * i + 4) = l[i].2.1 ∧
      number mem 4 (a + 12 * i + 8) % 4 = 0 ∧ Holds mem (number mem 4 (a + 12 * i + 8)) l[i].2.2) ∧
    l.Pairwise (fun x y => x.2.1 ≤ y.1)

end Verif.Spec.Image
