import Verif.Spec.Image

/-!
# Specification: source lines in debug information

How a debugger finds the source line of an address. The debug information (CodeView format) is a sequence of subsections: a kind, a size, the contents; each starts at a
multiple of four. Kind 0xf3 has the names of files, kind 0xf4 says for every file where its name is and what the MD5 digest of its contents is, and there
is one subsection of kind 0xf2 for every function.
-/
namespace Verif.Spec.DebugLines
open Verif.Spec.Image (byte number)

structure Subsection where
  kind : Nat
  start : Nat
  size : Nat
deriving DecidableEq

/-- The subsections from a position on. -/
def subsections (b : List Nat) : Nat → Nat → List Subsection
  | 0, _ => []
  | n + 1, p =>
    if p + 8 ≤ b.length then
      ⟨number (byte b) 4 p, p + 8, number (byte b) 4 (p + 4)⟩ :: subsections b n ((p + 8 + number (byte b) 4 (p + 4) + 3) / 4 * 4)
    else []

/-- The bytes up to the first zero. -/
def untilZero (bytes : List Nat) : List Nat := bytes.takeWhile (fun b => decide (b ≠ 0))

/-- What is known of a source file: its name, and the digest of its contents. -/
structure Source where
  name : List Nat
  md5 : List Nat
deriving DecidableEq

/-- The file that is described at a position: where its name is, the size of the digest, the kind of the digest (1 is MD5), the digest. -/
def source (b names : List Nat) (p : Nat) : Option Source :=
  if byte b (p + 4) = 16 ∧ byte b (p + 5) = 1 then some ⟨untilZero (names.drop (number (byte b) 4 p)), (b.drop (p + 6)).take 16⟩ else none

/-- From an offset in the function on, the code is for a line of a file. Files are known by their position in the subsection of kind 0xf4. -/
structure Record where
  offset : Nat
  file : Nat
  line : Nat
deriving DecidableEq

/-- The records in the blocks between two positions: a block is a file, the number of records, the size of the block, the records. Of the four bytes for the line,
the last one is for other information. -/
def records (b : List Nat) : Nat → Nat → Nat → List Record
  | 0, _, _ => []
  | n + 1, p, e =>
    if p < e then
      (List.range (number (byte b) 4 (p + 4))).map (fun i => ⟨number (byte b) 4 (p + 12 + 8 * i), number (byte b) 4 p, number (byte b) 3 (p + 16 + 8 * i)⟩) ++
        records b n (p + number (byte b) 4 (p + 8)) e
    else []

/-- The records of a function: the position of the function takes eight bytes, its size four; then there are the blocks. -/
def recordsOf (b : List Nat) (s : Subsection) : List Record := records b s.size (s.start + 12) (s.start + s.size)

/-- The record for a byte of the code: the last one that does not start after it. -/
def recordFor (rs : List Record) (c : Nat) : Option Record := (rs.filter (fun r => decide (r.offset ≤ c))).getLast?

/-- File and line of a byte of the code, if the function has that many. -/
def lineIn (b names : List Nat) (subs : List Subsection) (s : Subsection) (c : Nat) : Option (Source × Nat) :=
  if c < number (byte b) 4 (s.start + 8) then do
    let r ← recordFor (recordsOf b s) c
    let files ← subs.find? (fun s => s.kind = 0xf4)
    let f ← source b names (files.start + r.file)
    return (f, r.line)
  else none

/-- Object files: the section starts with the number 4; a relocation says which function a subsection is about. -/
def objectLine (b : List Nat) (relocations : List (Nat × Nat)) (function c : Nat) : Option (Source × Nat) :=
  if number (byte b) 4 0 = 4 then do
    let subs := subsections b b.length 4
    let s ← subs.find? (fun s => s.kind = 0xf2 ∧ (s.start, function) ∈ relocations)
    let names ← subs.find? (fun s => s.kind = 0xf3)
    lineIn b ((b.drop names.start).take names.size) subs s c
  else none

/-- PDB files: the names are elsewhere; the subsection has the number of the section of the code and the offset of the function in it. -/
def pdbLine (b names : List Nat) (section_ address : Nat) : Option (Source × Nat) := do
  let subs := subsections b b.length 0
  let s ← subs.find? (fun s => s.kind = 0xf2 ∧ number (byte b) 2 (s.start + 4) = section_ ∧ number (byte b) 4 s.start ≤ address ∧
    address < number (byte b) 4 s.start + number (byte b) 4 (s.start + 8))
  lineIn b names subs s (address - number (byte b) 4 s.start)

/-- What happens while a function is compiled: a statement (or a part of one) starts, in a file at a line; code is generated for something. -/
inductive Event where
  | starts (file line : Nat)
  | code (bytes : Nat)

/-- The lines of the bytes of the code: that of the statement, in the file of the function, that started last. -/
def linesOf (file : Nat) : Nat → List Event → List Nat
  | _, [] => []
  | line, .starts f l :: rest => linesOf file (if f = file then l else line) rest
  | line, .code n :: rest => List.replicate n line ++ linesOf file line rest

end Verif.Spec.DebugLines
