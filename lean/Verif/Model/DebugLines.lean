import Verif.Model.BaseReloc
import Verif.Model.Md5

/-!
# Model: line information

The parser notes the lines of statements (/repo/src/parse.c 1421–1445), the code generator replaces positions in the intermediate representation by positions in the
code (/repo/src/emit_x64.c 2571–2612, 4705–4709), and the writers of object files and PDB files write them (/repo/src/obj_writer.c 999–1118).

Simplifications: the nodes of the intermediate representation are their sizes and the sizes of their code; nodes that the parser takes back are left out, and `IR_skip` is
one node with what it skips. Positions are natural numbers; the theorems assume that they fit into 32 bits. `smm` values that start with -1 are `none`. Arenas
start at a multiple of four and are zero where nothing was written.
-/
namespace Verif.Model.DebugLines
open Verif.Model.BaseReloc (u32 u16)

/-- `struct function_line_information` (/repo/src/ast.c 790–793). -/
structure Entry where
  line : Nat
  offset : Nat
deriving DecidableEq

/-- What the parser does: `function_maybe_add_line_information` with a token, or a node of a size in the arena, with the size of its code. -/
inductive Event where
  | mark (file line : Nat)
  | node (size bytes : Nat)

/-- The state of the parser: `last_line_pushed`, `last_offset_pushed`, the position in the arena, `line_information` (/repo/src/main.c 3324–3329). -/
structure Parser where
  lastLine : Option Nat
  lastOffset : Option Nat
  position : Nat
  entries : List Entry

/-- The start (/repo/src/main.c 3327–3328). -/
def Parser.start : Parser := ⟨none, none, 0, []⟩

/-- `function_maybe_add_line_information` (/repo/src/parse.c 1421–1445). -/
def addLine (functionFile : Nat) (p : Parser) (file line : Nat) : Parser :=
  if file = functionFile ∧ p.lastLine ≠ some line then
    { p with
      lastLine := some line
      lastOffset := some p.position
      entries := if p.lastOffset = some p.position then p.entries.dropLast ++ [⟨line, ((p.entries.getLast?).map (·.offset)).getD 0⟩]
        else p.entries ++ [⟨line, p.position⟩] }
  else p

/-- A step of the parser. -/
def parseStep (functionFile : Nat) (p : Parser) : Event → Parser
  | .mark file line => addLine functionFile p file line
  | .node size _ => { p with position := p.position + size }

def parse (functionFile : Nat) (events : List Event) : Parser := events.foldl (parseStep functionFile) .start

/-- The nodes: their sizes and the sizes of their code. -/
def nodes : List Event → List (Nat × Nat)
  | [] => []
  | .mark _ _ :: rest => nodes rest
  | .node s b :: rest => (s, b) :: nodes rest

/-- The loop over the nodes (/repo/src/emit_x64.c 2602–2612): `current` is `current_offset`, `emitted` is `get_bytes_emitted`. The result: the entries with
their new offsets, and the entries that were not reached. -/
def remap : List (Nat × Nat) → Nat → Nat → List Entry → List Entry × List Entry
  | [], _, _, es => ([], es)
  | (size, bytes) :: rest, current, emitted, [] => remap rest (current + size) (emitted + bytes) []
  | (size, bytes) :: rest, current, emitted, e :: es =>
    if e.offset = current then
      let r := remap rest (current + size) (emitted + bytes) es
      (⟨e.line, emitted⟩ :: r.1, r.2)
    else remap rest (current + size) (emitted + bytes) (e :: es)

/-- The entries at the end: one that was not reached is dropped, two fail the assertion (/repo/src/emit_x64.c 4705–4709). -/
def finish (r : List Entry × List Entry) : Option (List Entry) := if r.2.length ≤ 1 then some r.1 else none

/-- A function: the file and the line of the token that opens its body (`scope->token`), the file of the first token of the body, which is the one
after it (/repo/src/main.c 3277–3282, 3315, 3329), the size of the code before (/repo/src/emit_x64.c 4852) and after the body, and the position in the section. -/
structure Function where
  file : Nat
  line : Nat
  bodyFile : Nat
  events : List Event
  prolog : Nat
  epilog : Nat
  textOffset : Nat

/-- `function->byte_size` (/repo/src/emit_x64.c 4955). -/
def Function.byteSize (f : Function) : Nat := f.prolog + ((nodes f.events).map (·.2)).sum + f.epilog

/-- `function->line_information` after code generation. -/
def Function.entries (f : Function) : Option (List Entry) := finish (remap (nodes f.events) 0 f.prolog (parse f.bodyFile f.events).entries)

/-- `struct file`: the path, the contents, and the 128 bytes that are behind them in memory (/repo/src/preprocess.c 2656–2662). -/
structure File where
  path : List Nat
  content : List Nat
  padding : List Nat

/-- `globals.file_table.data`. -/
abbrev Files := List (Option File)

/-- Slashes become backslashes (/repo/src/obj_writer.c 2117–2119, /repo/src/coff_writer.c 2276–2279). -/
def backslashes (path : List Nat) : List Nat := path.map (fun c => if c = 0x2f then 0x5c else c)

/-- The strings of the files, and `offset_in_names` of each (/repo/src/obj_writer.c 2110–2121, /repo/src/coff_writer.c 2270–2293); `at_` is the size so far. -/
def strings : Files → Nat → List Nat × List Nat
  | [], _ => ([], [])
  | none :: rest, at_ =>
    let r := strings rest at_
    (r.1, 0 :: r.2)
  | some f :: rest, at_ =>
    let s := backslashes f.path ++ [0]
    let r := strings rest (at_ + s.length)
    (s ++ r.1, at_ :: r.2)

/-- The table of strings starts with the empty string (/repo/src/obj_writer.c 2108, /repo/src/coff_writer.c 2266). -/
def names (files : Files) : List Nat := 0 :: (strings files 1).1

/-- `offset_in_names`. -/
def nameOffsets (files : Files) : List Nat := (strings files 1).2

/-- The record of a file (/repo/src/obj_writer.c 1016–1034). -/
def checksum (f : File) (offsetInNames : Nat) : Option (List Nat) :=
  (Md5.hashInplace (f.content ++ f.padding) f.content.length (f.content.length + 128)).map
    (fun r => u32 offsetInNames ++ u16 0x110 ++ r.2.bytes ++ [0, 0])

/-- The loop over the files, with `offset_in_f4` of each (/repo/src/obj_writer.c 1012–1035). -/
def checksums : Files → List Nat → Nat → Option (List Nat × List Nat)
  | [], _, _ => some ([], [])
  | none :: rest, offsets, at_ => do
    let r ← checksums rest offsets.tail at_
    return (r.1, 0 :: r.2)
  | some f :: rest, offsets, at_ => do
    let c ← checksum f (offsets.headD 0)
    let r ← checksums rest offsets.tail (at_ + c.length)
    return (c ++ r.1, at_ :: r.2)

/-- The start of a subsection, its size and its contents, and the alignment at the end (/repo/src/obj_writer.c 1008–1009, 1036–1037). -/
def subsection (kind : Nat) (content : List Nat) : List Nat :=
  u32 kind ++ u32 content.length ++ content ++ List.replicate ((4 - content.length % 4) % 4) 0

/-- The records of a function (/repo/src/obj_writer.c 1097–1108). -/
def records (line : Nat) (entries : List Entry) : List Nat :=
  u32 0 ++ u32 (line ||| 0x80000000) ++ entries.flatMap (fun e => u32 e.offset ++ u32 (e.line ||| 0x80000000))

/-- The contents that `codeview_push_debug_s_lines` writes (/repo/src/obj_writer.c 1055–1113). `where_` is the offset and the number of the section, zero if a
relocation fills them in. -/
def lines (f : Function) (entries : List Entry) (offsetInF4 : Nat) (where_ : Nat × Nat) : List Nat :=
  let r := records f.line entries
  u32 where_.1 ++ u16 where_.2 ++ u16 0 ++ u32 f.byteSize ++ (u32 offsetInF4 ++ u32 (r.length / 8) ++ u32 (12 + r.length)) ++ r

/-- The subsection of kind 0xf1 that describes a function (/repo/src/obj_writer.c 2145–2199): its contents, and the relocations in it. -/
structure Symbols where
  content : List Nat
  relocations : List (Nat × Nat)

/-- The part of `.debug$S` for the functions, from the position `at_` on, with the relocations (/repo/src/obj_writer.c 2133–2202). The relocation of a subsection of kind
0xf2 is for its first field (/repo/src/obj_writer.c 1066–1069). -/
def functionPart : List (Function × Symbols) → List Nat → Nat → Nat → Option (List Nat × List (Nat × Nat))
  | [], _, _, _ => some ([], [])
  | (f, s) :: rest, offsetsInF4, number, at_ => do
    let es ← f.entries
    let a := subsection 0xf1 s.content
    let b := subsection 0xf2 (lines f es (offsetsInF4.getD f.file 0) (0, 0))
    let r ← functionPart rest offsetsInF4 (number + 1) (at_ + (a ++ b).length)
    return (a ++ b ++ r.1, s.relocations.map (fun x => (at_ + 8 + x.1, x.2)) ++ (at_ + a.length + 8, number) :: r.2)

/-- The section `.debug$S` (/repo/src/obj_writer.c 2037–): the number 4, the name of the object and the compiler, the names of the files, their digests, the functions, and
the other symbols. -/
def debugSection (first last : List Nat) (lastRelocations : List (Nat × Nat)) (files : Files) (functions : List (Function × Symbols)) :
    Option (List Nat × List (Nat × Nat)) := do
  let c ← checksums files (nameOffsets files) 0
  let a := u32 4 ++ subsection 0xf1 first ++ subsection 0xf3 (names files) ++ subsection 0xf4 c.1
  let r ← functionPart functions c.2 0 a.length
  return (a ++ r.1 ++ subsection 0xf1 last, r.2 ++ lastRelocations.map (fun x => ((a ++ r.1).length + 8 + x.1, x.2)))

/-- The loop over the functions (/repo/src/coff_writer.c 2714–2718). -/
def pdbPart (section_ : Nat) : List Function → List Nat → Option (List Nat)
  | [], _ => some []
  | f :: rest, offsetsInF4 => do
    let es ← f.entries
    let r ← pdbPart section_ rest offsetsInF4
    return subsection 0xf2 (lines f es (offsetsInF4.getD f.file 0) (f.textOffset, section_)) ++ r

/-- The line information of a PDB file (/repo/src/coff_writer.c 2709–2721). -/
def pdbLines (section_ : Nat) (files : Files) (functions : List Function) : Option (List Nat) := do
  let c ← checksums files (nameOffsets files) 0
  let r ← pdbPart section_ functions c.2
  return subsection 0xf4 c.1 ++ r

end Verif.Model.DebugLines
