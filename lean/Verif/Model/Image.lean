import Verif.Model.BaseReloc
import Verif.Model.ErrorOrder
import Verif.Model.Sort
import Verif.Model.Align

/-!
# Model: the writer of executables

`print_coff` writes the image of an executable into an arena: the headers, then the sections `.text`, `.bss`, `.rdata`, `.data`, `.reloc` and `.pdata`
(/repo/src/coff_writer.c 760–1860). A section is a sequence of pushes; a pointer that a push returned is modelled by a name for that push. What is
written later through such pointers is a list of writes into the file. The arena is zero where nothing was pushed and starts at a page.

Simplifications: all pushes come before all writes (what is pushed later never moves what was pushed earlier). Addresses are natural numbers; where the
code truncates to 32 bits, the theorems assume images of less than 2 GB. The time stamp, the GUID and the paths are parameters.
-/
namespace Verif.Model.Image
open Verif.Model.BaseReloc Verif.Sort Verif.ErrorOrder Verif.Align

/-- What pushes are called. -/
inductive Key where
  | func (i : Nat) | stub (i : Nat)
  | descriptors | dllName (d : Nat) | slots (d : Nat) | hint (d i : Nat) | importName (d i : Nat) | lookup (d : Nat)
  | debugInfo | debugDirectory
  | string (i : Nat) | float (i : Nat)
  | exportAddresses | exportNames | exportOrdinals | exportDllName | exportDirectory | exportName (i : Nat)
  | tlsStart | tls (i : Nat) | tlsEnd | tlsCallbacks | tlsDirectory
  | data (i : Nat)
  | reloc
  | runtime | unwind (i : Nat)
deriving DecidableEq

/-- `struct dll_import_node` (/repo/src/coff_writer.c 1226–1232): by number, or by name with a hint. -/
structure Import where
  byOrdinal : Bool
  ordinal : Nat
  name : List Nat

/-- `struct dll_node`. -/
structure Dll where
  name : List Nat
  imports : List Import

/-- `patch->source`. -/
inductive Source where
  | func (i : Nat)
  | bss (i : Nat)
  | data (i : Nat)
  | tls (i : Nat)
  | imported (d i : Nat)
  | string (i : Nat)
  | float (i : Nat)

/-- `patch->kind`. -/
inductive Kind where
  | ripRelative | absolute | sectionOffset
deriving DecidableEq

/-- `struct patch_node`. -/
structure Patch where
  kind : Kind
  dest : Key
  /-- `location_offset_in_dest_declaration` -/
  at_ : Nat
  source : Source
  /-- `location_offset_in_source_declaration` -/
  offset : Int
  ripAt : Nat

/-- What the earlier stages gathered (/repo/src/coff_writer.c 617–755). -/
structure Program where
  /-- the code of the functions -/
  functions : List (List Nat)
  /-- the functions of libraries that need a stub: library and import -/
  stubs : List (Nat × Nat)
  /-- sizes and alignments -/
  bss : List (Nat × Nat)
  dlls : List Dll
  /-- the GUID and the path of the debug information -/
  debug : Option (List Nat × List Nat)
  /-- the bytes without the terminator and the size of an element -/
  strings : List (List Nat × Nat)
  floats : List (List Nat)
  /-- names and functions -/
  exports : List (List Nat × Nat)
  exePath : List Nat
  /-- alignments and contents -/
  tls : List (Nat × List Nat)
  /-- the uninitialized object for the index of thread local storage -/
  tlsIndex : Nat
  /-- alignments and contents -/
  data : List (Nat × List Nat)
  patches : List Patch
  /-- the unwind information of the functions, see `Verif.Model.Unwind` -/
  unwind : List (List Nat)
  imageBase : Nat
  /-- the function at the entry point -/
  entry : Option Nat
  isDll : Bool
  noDynamicBase : Bool
  subsystem : Nat
  time : Nat

/-- A push: the alignment, the value of the padding, and the bytes. `push_align` is a push without bytes and without name
(/repo/src/std.c 751–759, 815–830). -/
structure Push where
  key : Option Key
  align : Nat
  fill : Nat
  bytes : List Nat

/-- How many bytes `align_up(at, align)` adds (/repo/src/std.c 246). -/
def padding (at_ align : Nat) : Nat := (align - at_ % align) % align

/-- `align_up` (/repo/src/std.c 246). -/
def alignUp (x align : Nat) : Nat := (x + (align - 1)) / align * align

def zeros (n : Nat) : List Nat := List.replicate n 0

/-- `*push_struct(arena, u64) = v`. -/
def u64 (v : Nat) : List Nat := u32 (v % 2 ^ 32) ++ u32 (v / 2 ^ 32)

/-- The bytes of pushes, from the position `at_` of the arena on. -/
def lay : Nat → List Push → List Nat
  | _, [] => []
  | at_, p :: ps =>
    List.replicate (padding at_ p.align) p.fill ++ (p.bytes ++ lay (at_ + padding at_ p.align + p.bytes.length) ps)

/-- Where a push is: its position in the file and its address in the image. -/
structure Placed where
  key : Option Key
  ptr : Nat
  rva : Nat
  bytes : List Nat

/-- The places of pushes; `make_relative_virtual_address` (/repo/src/coff_writer.c 1055) is the address `va` of the position `at_` plus the distance. -/
def place : Nat → Nat → List Push → List Placed
  | _, _, [] => []
  | at_, va, p :: ps =>
    let n := padding at_ p.align
    ⟨p.key, at_ + n, va + n, p.bytes⟩ :: place (at_ + n + p.bytes.length) (va + n + p.bytes.length) ps

/-- Where the next section starts in the file and in the image (`section_virtual_address_at`). -/
structure Cursor where
  file : Nat
  va : Nat

/-- After a section of `n` bytes: `fill_section_header` (/repo/src/coff_writer.c 1042–1053). Without bytes nothing changes. -/
def Cursor.after (c : Cursor) (n : Nat) : Cursor := ⟨alignUp (c.file + n) 0x200, alignUp (c.va + n) 0x1000⟩

/-- The functions, each filled up with `0xcc`, then the stubs `jmp [rip + offset]` (/repo/src/coff_writer.c 1074–1101). -/
def textPushes (p : Program) : List Push :=
  p.functions.zipIdx.flatMap (fun f => [⟨some (.func f.2), 1, 0, f.1⟩, ⟨none, 16, 0xcc, []⟩]) ++
    p.stubs.zipIdx.map (fun s => ⟨some (.stub s.2), 1, 0, [0xff, 0x25, 0, 0, 0, 0]⟩)

/-- The offsets of the uninitialized objects and their total size (/repo/src/coff_writer.c 1122–1135). -/
def bssOffsets : Nat → List (Nat × Nat) → List Nat × Nat
  | size, [] => ([], size)
  | size, (n, align) :: ds =>
    let n := if n = 0 then 1 else n
    let at_ := alignUp size align
    let r := bssOffsets (at_ + n) ds
    (at_ :: r.1, r.2)

/-- `bss_size` (/repo/src/coff_writer.c 1138). -/
def bssSize (p : Program) : Nat := alignUp (bssOffsets 0 p.bss).2 0x1000

/-- The pushes for a library: its name, the table of addresses, hints and names, a copy of the table. `push_array_copy` multiplies the size of the elements
twice (/repo/src/std.c 759), so that there is space for eight times as many (/repo/src/coff_writer.c 1215–1243). -/
def dllPushes (k : Nat) (d : Dll) : List Push :=
  [⟨some (.dllName k), 1, 0, d.name ++ [0]⟩, ⟨some (.slots k), 8, 0, zeros (8 * (d.imports.length + 1))⟩] ++
    d.imports.zipIdx.flatMap (fun im =>
      if im.1.byOrdinal then []
      else [⟨some (.hint k im.2), 2, 0, u16 im.1.ordinal⟩, ⟨some (.importName k im.2), 1, 0, im.1.name ++ [0]⟩]) ++
    [⟨some (.lookup k), 8, 0, zeros (8 * (8 * (d.imports.length + 1)))⟩]

/-- The import directory (/repo/src/coff_writer.c 1159–1243). -/
def importPushes (p : Program) : List Push :=
  if p.dlls = [] then []
  else ⟨some .descriptors, 4, 0, zeros (20 * (p.dlls.length + 1))⟩ :: p.dlls.zipIdx.flatMap (fun d => dllPushes d.2 d.1)

/-- The record that names the file with the debug information: it is contiguous, as it starts at 4 modulo 8 (/repo/src/coff_writer.c 1279–1293). -/
def debugRecord (guid path : List Nat) : List Nat := [0x52, 0x53, 0x44, 0x53] ++ guid ++ u32 1 ++ path ++ [0]

/-- The debug directory (/repo/src/coff_writer.c 1271–1350). -/
def debugPushes (p : Program) : List Push :=
  match p.debug with
  | none => []
  | some (guid, path) =>
    [⟨none, 8, 0, []⟩, ⟨none, 4, 0, zeros 4⟩, ⟨some .debugInfo, 1, 0, debugRecord guid path⟩, ⟨none, 4, 0, []⟩, ⟨some .debugDirectory, 4, 0, zeros 28⟩]

/-- `string_djb2_hash` (/repo/src/std.c 1303–1310). -/
def djb2 (s : List Nat) : Nat := s.foldl (fun h c => (h * 32 + h + c) % 2 ^ 64) 5381

/-- The table of strings: its cells hold the number of the string that was emitted; and the strings that were emitted, with terminator and alignment. -/
structure Strings where
  cells : List (Option Nat)
  emitted : List (List Nat × Nat)

/-- The comparison with a string of the table (/repo/src/coff_writer.c 1401–1403). -/
def sameString (have_ value : List Nat) (element : Nat) : Bool :=
  have_.length = value.length + element && (have_.drop value.length).take element = zeros element && have_.take value.length = value

/-- The search in the table (/repo/src/coff_writer.c 1377–1408): `table_index` goes from `k` to the capacity. The result is the number of the string
in the list of those that were emitted. -/
def intern (value : List Nat) (element : Nat) (s : Strings) : Nat → Nat → Strings × Option Nat
  | 0, _ => (s, none)
  | fuel + 1, k =>
    let index := (djb2 value + k) % s.cells.length
    match s.cells.getD index none with
    | none => (⟨s.cells.set index (some s.emitted.length), s.emitted ++ [(value ++ zeros element, element)]⟩, some s.emitted.length)
    | some e =>
      if sameString (s.emitted.getD e ([], 0)).1 value element then (s, some e)
      else intern value element s fuel (k + 1)

/-- The loop over the literals of all threads (/repo/src/coff_writer.c 1367–1411). -/
def internAll : Strings → List (List Nat × Nat) → Strings × List (Option Nat)
  | s, [] => (s, [])
  | s, (value, element) :: rest =>
    let r := intern value element s s.cells.length 0
    let rs := internAll r.1 rest
    (rs.1, r.2 :: rs.2)

/-- `capacity` (/repo/src/coff_writer.c 1364). -/
def capacity (n : Nat) : Nat := (roundUpPow2_64 (BitVec.ofNat 64 (n * 3 / 2))).toNat

/-- The strings of the program (/repo/src/coff_writer.c 1354–1414). -/
def interned (p : Program) : Strings × List (Option Nat) := internAll ⟨List.replicate (capacity p.strings.length) none, []⟩ p.strings

/-- `push_zero_align`, the bytes and the terminator (/repo/src/coff_writer.c 1382–1384). -/
def stringPushes (p : Program) : List Push :=
  (interned p).1.emitted.zipIdx.map (fun s => ⟨some (.string s.2), s.1.2, 0, s.1.1⟩)

/-- Constants of type `float` and `double` are aligned to their size (/repo/src/coff_writer.c 1417–1434). -/
def floatPushes (p : Program) : List Push :=
  p.floats.zipIdx.map (fun f => ⟨some (.float f.2), f.1.length, 0, f.1⟩)

/-- `function_node_smaller` (/repo/src/coff_writer.c 1479–1482). -/
def exportSmaller (a b : List Nat × Nat) : Bool := lexSmaller a.1 b.1

/-- `sll_sort(dllexports, scratch, function_node_smaller)` (/repo/src/coff_writer.c 1484). -/
def sorted (p : Program) : List (List Nat × Nat) := (sllSort exportSmaller (6 * p.exports.length + 1) p.exports).getD []

/-- The export directory (/repo/src/coff_writer.c 1436–1503). The fields of the directory are contiguous. -/
def exportPushes (p : Program) : List Push :=
  if p.exports = [] then []
  else
    [⟨some .exportAddresses, 4, 0, zeros (4 * p.exports.length)⟩, ⟨some .exportNames, 4, 0, zeros (4 * p.exports.length)⟩,
      ⟨some .exportOrdinals, 2, 0, zeros (2 * p.exports.length)⟩, ⟨some .exportDllName, 1, 0, p.exePath ++ [0]⟩, ⟨none, 4, 0, []⟩,
      ⟨some .exportDirectory, 4, 0, zeros 40⟩] ++
    (sorted p).zipIdx.map (fun e => ⟨some (.exportName e.2), 1, 0, e.1.1 ++ [0]⟩)

/-- Objects are never empty (/repo/src/coff_writer.c 1523, 1582). -/
def nonempty (bytes : List Nat) : List Nat := if bytes = [] then [0] else bytes

/-- Thread local storage (/repo/src/coff_writer.c 1505–1558). -/
def tlsPushes (p : Program) : List Push :=
  match p.tls with
  | [] => []
  | first :: _ =>
    [⟨some .tlsStart, first.1, 0, []⟩] ++ p.tls.zipIdx.map (fun d => ⟨some (.tls d.2), d.1.1, 0, nonempty d.1.2⟩) ++
      [⟨some .tlsEnd, 1, 0, []⟩, ⟨some .tlsCallbacks, 8, 0, zeros 8⟩, ⟨none, 0x40, 0, []⟩, ⟨some .tlsDirectory, 8, 0, zeros 40⟩]

/-- The section `.rdata` (/repo/src/coff_writer.c 1152–1566). -/
def rdataPushes (p : Program) : List Push :=
  importPushes p ++ debugPushes p ++ stringPushes p ++ floatPushes p ++ exportPushes p ++ tlsPushes p

/-- The section `.data` (/repo/src/coff_writer.c 1569–1590). -/
def dataPushes (p : Program) : List Push :=
  p.data.zipIdx.map (fun d => ⟨some (.data d.2), d.1.1, 0, nonempty d.1.2⟩)

/-- `size_of_headers` and the first section (/repo/src/coff_writer.c 1019–1027): 208 bytes for DOS, 4 bytes signature, 20 and 240 bytes of
headers, 8 entries of 40 bytes. -/
def sizeOfHeaders : Nat := alignUp (208 + 4 + 20 + 240 + 8 * 40) 0x200

def textCursor : Cursor := ⟨sizeOfHeaders, alignUp sizeOfHeaders 0x1000⟩
def textBytes (p : Program) : List Nat := lay textCursor.file (textPushes p)

/-- The section `.bss` has no bytes in the file (/repo/src/coff_writer.c 1137–1147). -/
def bssCursor (p : Program) : Cursor := textCursor.after (textBytes p).length
def rdataCursor (p : Program) : Cursor := ⟨(bssCursor p).file, (bssCursor p).va + bssSize p⟩
def rdataBytes (p : Program) : List Nat := lay (rdataCursor p).file (rdataPushes p)
def dataCursor (p : Program) : Cursor := (rdataCursor p).after (rdataBytes p).length
def dataBytes (p : Program) : List Nat := lay (dataCursor p).file (dataPushes p)
def relocCursor (p : Program) : Cursor := (dataCursor p).after (dataBytes p).length

/-- What has an address when the patches are applied. -/
def early (p : Program) : List Placed :=
  place textCursor.file textCursor.va (textPushes p) ++ place (rdataCursor p).file (rdataCursor p).va (rdataPushes p) ++
    place (dataCursor p).file (dataCursor p).va (dataPushes p)

/-- `relative_virtual_address` of what was pushed under a name; it is zero if there is none. -/
def rvaIn (l : List Placed) (k : Key) : Nat :=
  match l.find? (fun x => x.key = some k) with
  | some x => x.rva
  | none => 0

/-- `tls_data_rva` (/repo/src/coff_writer.c 1150, 1511). -/
def tlsStart (p : Program) : Nat := rvaIn (early p) .tlsStart

/-- The address of an uninitialized object (/repo/src/coff_writer.c 1132). -/
def bssRva (p : Program) (i : Nat) : Nat := (bssCursor p).va + (bssOffsets 0 p.bss).1.getD i 0

/-- The address of the pointer to an imported function (/repo/src/coff_writer.c 1239, 1246–1256). -/
def slotRva (p : Program) (d i : Nat) : Nat := rvaIn (early p) (.slots d) + 8 * i

/-- `stub_relative_virtual_address` of an import (/repo/src/coff_writer.c 1099); it is zero if there is no stub. -/
def stubRva (p : Program) (d i : Nat) : Nat :=
  match p.stubs.idxOf? (d, i) with
  | some k => rvaIn (early p) (.stub k)
  | none => 0

/-- The address of a string literal (/repo/src/coff_writer.c 1389, 1405). -/
def stringRva (p : Program) (i : Nat) : Nat :=
  match (interned p).2.getD i none with
  | some e => rvaIn (early p) (.string e)
  | none => 0

/-- `relative_virtual_address` of the source of a patch. -/
def sourceRva (p : Program) : Source → Nat
  | .func i => rvaIn (early p) (.func i)
  | .bss i => bssRva p i
  | .data i => rvaIn (early p) (.data i)
  | .tls i => rvaIn (early p) (.tls i)
  | .imported d i => slotRva p d i
  | .string i => stringRva p i
  | .float i => rvaIn (early p) (.float i)

/-- `source_location` of an absolute patch: functions of libraries are called through their stub, and the offset into a string is
forgotten (/repo/src/coff_writer.c 1702–1722). -/
def absoluteSource (p : Program) (q : Patch) : Int :=
  match q.source with
  | .imported d i => stubRva p d i + p.imageBase + q.offset
  | .string i => stringRva p i + p.imageBase
  | s => sourceRva p s + p.imageBase + q.offset

/-- A number of 32 bits in two's complement. -/
def s32 (v : Int) : List Nat := u32 (v % 2 ^ 32).toNat

/-- A number of 64 bits in two's complement. -/
def s64 (v : Int) : List Nat := u64 (v % 2 ^ 64).toNat

/-- The bytes a patch writes (/repo/src/coff_writer.c 1645–1766). The offset is not used for floating point constants. -/
def patchBytes (p : Program) (q : Patch) : List Nat :=
  match q.kind with
  | .ripRelative =>
    let offset := match q.source with | .float _ => 0 | _ => q.offset
    s32 (sourceRva p q.source + offset - (rvaIn (early p) q.dest + q.ripAt))
  | .absolute => s64 (absoluteSource p q)
  | .sectionOffset => s32 (sourceRva p q.source - tlsStart p)

/-- The places of absolute addresses, for the base relocations (/repo/src/coff_writer.c 1726–1752). -/
def relocated (p : Program) : List Nat :=
  if p.noDynamicBase then []
  else (p.patches.filter (·.kind = .absolute)).map (fun q => rvaIn (early p) q.dest + q.at_)

/-- The section `.reloc` (/repo/src/coff_writer.c 1622–1640, 1768–1802): with an address in thread local storage there is a block for its directory. -/
def relocPushes (p : Program) : List Push :=
  [⟨some .reloc, 1, 0, write (blocks (if p.tls = [] then none else some (rvaIn (early p) .tlsDirectory)) (relocated p))⟩]

def relocBytes (p : Program) : List Nat := lay (relocCursor p).file (relocPushes p)
def pdataCursor (p : Program) : Cursor := (relocCursor p).after (relocBytes p).length

/-- The section `.pdata`: the table of functions, then the unwind information (/repo/src/coff_writer.c 1805–1846). -/
def pdataPushes (p : Program) : List Push :=
  ⟨some .runtime, 4, 0, zeros (12 * p.functions.length)⟩ :: p.unwind.zipIdx.map (fun u => ⟨some (.unwind u.2), 1, 0, u.1⟩)

def pdataBytes (p : Program) : List Nat := lay (pdataCursor p).file (pdataPushes p)
def endCursor (p : Program) : Cursor := (pdataCursor p).after (pdataBytes p).length

/-- Everything that is pushed. -/
def placed (p : Program) : List Placed :=
  early p ++ place (relocCursor p).file (relocCursor p).va (relocPushes p) ++ place (pdataCursor p).file (pdataCursor p).va (pdataPushes p)

/-- A write through a pointer: the push, the offset in it, the bytes. -/
structure Write where
  key : Key
  offset : Nat
  bytes : List Nat

/-- The entry for an import (/repo/src/coff_writer.c 1228–1236). -/
def importEntry (p : Program) (k j : Nat) (im : Import) : Nat :=
  if im.byOrdinal then 0x8000000000000000 ||| im.ordinal else rvaIn (early p) (.hint k j)

/-- The writes for a library (/repo/src/coff_writer.c 1212–1247). -/
def dllWrites (p : Program) (k : Nat) (d : Dll) : List Write :=
  d.imports.zipIdx.map (fun im => ⟨.slots k, 8 * im.2, u64 (importEntry p k im.2 im.1)⟩) ++
    [⟨.lookup k, 0, d.imports.zipIdx.flatMap (fun im => u64 (importEntry p k im.2 im.1)) ++ u64 0⟩,
      ⟨.descriptors, 20 * k, u32 (rvaIn (early p) (.lookup k)) ++ u32 0 ++ u32 0 ++ u32 (rvaIn (early p) (.dllName k)) ++ u32 (rvaIn (early p) (.slots k))⟩]

/-- The displacements of the stubs (/repo/src/coff_writer.c 1258–1268). -/
def stubWrites (p : Program) : List Write :=
  p.stubs.zipIdx.map (fun s => ⟨.stub s.2, 2, s32 ((slotRva p s.1.1 s.1.2 : Int) - (rvaIn (early p) (.stub s.2) + 6))⟩)

/-- The position of a push in the file. -/
def ptrIn (l : List Placed) (k : Key) : Nat :=
  match l.find? (fun x => x.key = some k) with
  | some x => x.ptr
  | none => 0

/-- The debug directory (/repo/src/coff_writer.c 1339–1350). -/
def debugWrites (p : Program) : List Write :=
  match p.debug with
  | none => []
  | some (guid, path) =>
    [⟨.debugDirectory, 0, u32 0 ++ u32 0 ++ u16 0 ++ u16 0 ++ u32 2 ++ u32 (debugRecord guid path).length ++ u32 (rvaIn (early p) .debugInfo) ++
      u32 (ptrIn (early p) .debugInfo)⟩]

/-- The export directory (/repo/src/coff_writer.c 1449–1502). -/
def exportWrites (p : Program) : List Write :=
  if p.exports = [] then []
  else
    ⟨.exportDirectory, 0, u32 0 ++ u32 0xffffffff ++ u16 0 ++ u16 0 ++ u32 (rvaIn (early p) .exportDllName) ++ u32 1 ++ u32 p.exports.length ++
      u32 p.exports.length ++ u32 (rvaIn (early p) .exportAddresses) ++ u32 (rvaIn (early p) .exportNames) ++ u32 (rvaIn (early p) .exportOrdinals)⟩ ::
    (sorted p).zipIdx.flatMap (fun e =>
      [⟨.exportNames, 4 * e.2, u32 (rvaIn (early p) (.exportName e.2))⟩, ⟨.exportAddresses, 4 * e.2, u32 (rvaIn (early p) (.func e.1.2))⟩,
        ⟨.exportOrdinals, 2 * e.2, u16 e.2⟩])

/-- The directory of thread local storage (/repo/src/coff_writer.c 1541–1557). -/
def tlsWrites (p : Program) : List Write :=
  if p.tls = [] then []
  else [⟨.tlsDirectory, 0, u64 (p.imageBase + rvaIn (early p) .tlsStart) ++ u64 (p.imageBase + rvaIn (early p) .tlsEnd) ++
    u64 (p.imageBase + bssRva p p.tlsIndex) ++ u64 (p.imageBase + rvaIn (early p) .tlsCallbacks) ++ u32 0 ++ u32 0x00D00000⟩]

/-- The patches. -/
def patchWrites (p : Program) : List Write := p.patches.map (fun q => ⟨q.dest, q.at_, patchBytes p q⟩)

/-- The table of functions (/repo/src/coff_writer.c 1829–1840). -/
def runtimeWrites (p : Program) : List Write :=
  p.functions.zipIdx.map (fun f => ⟨.runtime, 12 * f.2, u32 (rvaIn (early p) (.func f.2)) ++ u32 (rvaIn (early p) (.func f.2) + f.1.length) ++
    u32 (rvaIn (placed p) (.unwind f.2))⟩)

/-- All writes, in order. -/
def writes (p : Program) : List Write :=
  p.dlls.zipIdx.flatMap (fun d => dllWrites p d.2 d.1) ++ stubWrites p ++ debugWrites p ++ exportWrites p ++ tlsWrites p ++ patchWrites p ++ runtimeWrites p

/-- `memcpy` into the file. -/
def poke (file : List Nat) (at_ : Nat) (bytes : List Nat) : List Nat := file.take at_ ++ bytes ++ file.drop (at_ + bytes.length)

/-- Write through a pointer. -/
def apply (l : List Placed) (file : List Nat) (w : Write) : List Nat := poke file (ptrIn l w.key + w.offset) w.bytes

/-- An entry of the table of sections: name, size, address, size in the file, position in the file, characteristics. -/
structure Header where
  name : List Nat
  size : Nat
  va : Nat
  raw : Nat
  ptr : Nat
  flags : Nat

/-- `fill_section_header`; there is none if the section is empty (/repo/src/coff_writer.c 1042–1053, 1103, 1563, 1592, 1792, 1843). -/
def header (name : List Nat) (c : Cursor) (bytes : List Nat) (flags : Nat) : List Header :=
  if bytes = [] then [] else [⟨name, bytes.length, c.va, alignUp (c.file + bytes.length) 0x200 - c.file, c.file, flags⟩]

/-- The entry for `.bss` (/repo/src/coff_writer.c 1140–1147). -/
def bssHeader (p : Program) : List Header :=
  if bssSize p = 0 then [] else [⟨[46, 98, 115, 115, 0, 0, 0, 0], bssSize p, (bssCursor p).va, 0, 0, 0xC0000080⟩]

/-- The entries in the order of the sections. -/
def sectionHeaders (p : Program) : List Header :=
  header [46, 116, 101, 120, 116, 0, 0, 0] textCursor (textBytes p) 0x60000020 ++ bssHeader p ++
    header [46, 114, 100, 97, 116, 97, 0, 0] (rdataCursor p) (rdataBytes p) 0x40000040 ++
    header [46, 100, 97, 116, 97, 0, 0, 0] (dataCursor p) (dataBytes p) 0xC0000040 ++
    header [46, 114, 101, 108, 111, 99, 0, 0] (relocCursor p) (relocBytes p) 0x42000040 ++
    header [46, 112, 100, 97, 116, 97, 0, 0] (pdataCursor p) (pdataBytes p) 0x40000040

/-- `struct coff_section_header`: 40 bytes. -/
def headerBytes (h : Header) : List Nat :=
  h.name ++ u32 h.size ++ u32 h.va ++ u32 h.raw ++ u32 h.ptr ++ u32 0 ++ u32 0 ++ u16 0 ++ u16 0 ++ u32 h.flags

/-- `DOS_STUB` (/repo/src/coff_writer.c 781–795). -/
def dosStub : List Nat := [
  0x4d, 0x5a, 0x90, 0x00, 0x03, 0x00, 0x00, 0x00, 0x04, 0x00, 0x00, 0x00, 0xff, 0xff, 0x00, 0x00,
  0xb8, 0x00, 0x00, 0x00, 0x00, 0x00, 0x00, 0x00, 0x40, 0x00, 0x00, 0x00, 0x00, 0x00, 0x00, 0x00,
  0x00, 0x00, 0x00, 0x00, 0x00, 0x00, 0x00, 0x00, 0x00, 0x00, 0x00, 0x00, 0x00, 0x00, 0x00, 0x00,
  0x00, 0x00, 0x00, 0x00, 0x00, 0x00, 0x00, 0x00, 0x00, 0x00, 0x00, 0x00, 0xd0, 0x00, 0x00, 0x00,
  0x0e, 0x1f, 0xba, 0x0e, 0x00, 0xb4, 0x09, 0xcd, 0x21, 0xb8, 0x01, 0x4c, 0xcd, 0x21, 0x54, 0x68,
  0x69, 0x73, 0x20, 0x70, 0x72, 0x6f, 0x67, 0x72, 0x61, 0x6d, 0x20, 0x63, 0x61, 0x6e, 0x6e, 0x6f,
  0x74, 0x20, 0x62, 0x65, 0x20, 0x72, 0x75, 0x6e, 0x20, 0x69, 0x6e, 0x20, 0x44, 0x4f, 0x53, 0x20,
  0x6d, 0x6f, 0x64, 0x65, 0x2e, 0x0d, 0x0d, 0x0a, 0x24, 0x00, 0x00, 0x00, 0x00, 0x00, 0x00, 0x00,
  0xfd, 0xa2, 0x09, 0x47, 0xb9, 0xc3, 0x67, 0x14, 0xb9, 0xc3, 0x67, 0x14, 0xb9, 0xc3, 0x67, 0x14,
  0x9b, 0xa3, 0x66, 0x15, 0xba, 0xc3, 0x67, 0x14, 0xb9, 0xc3, 0x66, 0x14, 0xb6, 0xc3, 0x67, 0x14,
  0x1b, 0xa0, 0x63, 0x15, 0xb8, 0xc3, 0x67, 0x14, 0x1b, 0xa0, 0x65, 0x15, 0xb8, 0xc3, 0x67, 0x14,
  0x52, 0x69, 0x63, 0x68, 0xb9, 0xc3, 0x67, 0x14, 0x00, 0x00, 0x00, 0x00, 0x00, 0x4e, 0x44, 0x47,
  0x00, 0x00, 0x00, 0x00, 0x00, 0x00, 0x00, 0x00, 0x00, 0x00, 0x00, 0x00, 0x00, 0x00, 0x00, 0x00]

/-- A flag if a condition holds. -/
def flag (b : Bool) (v : Nat) : Nat := if b then v else 0

/-- The file header: 20 bytes (/repo/src/coff_writer.c 842–850, 988, 1853). -/
def fileHeader (p : Program) : List Nat :=
  u16 0x8664 ++ u16 (sectionHeaders p).length ++ u32 p.time ++ u32 0 ++ u32 0 ++ u16 240 ++
    u16 (0x22 + flag p.noDynamicBase 1 + flag p.isDll 0x2000)

/-- The data directories that are used: 0 exports, 1 imports, 3 exceptions, 5 relocations, 6 debug, 9 thread local storage
(/repo/src/coff_writer.c 1207, 1347, 1473, 1556, 1796, 1824). -/
def directories (p : Program) : List (Nat × Nat) :=
  [if p.exports = [] then (0, 0) else (rvaIn (early p) .exportDirectory, 40),
    if p.dlls = [] then (0, 0) else (rvaIn (early p) .descriptors, 20 * (p.dlls.length + 1)),
    (0, 0), ((pdataCursor p).va, 12 * p.functions.length), (0, 0),
    if relocBytes p = [] then (0, 0) else ((relocCursor p).va, (relocBytes p).length),
    if p.debug = none then (0, 0) else (rvaIn (early p) .debugDirectory, 28),
    (0, 0), (0, 0), if p.tls = [] then (0, 0) else (rvaIn (early p) .tlsDirectory, 40),
    (0, 0), (0, 0), (0, 0), (0, 0), (0, 0), (0, 0)]

/-- `address_of_entry_point` (/repo/src/coff_writer.c 1106–1110). -/
def entryRva (p : Program) : Nat :=
  match p.entry with
  | some i => rvaIn (early p) (.func i)
  | none => 0

/-- The "optional header": 240 bytes (/repo/src/coff_writer.c 988–1013, 1848–1851). `size_of_code` and the sums of the sizes of data, which nothing
reads, are left at zero. -/
def optionalHeader (p : Program) : List Nat :=
  u16 0x20b ++ [14, 11] ++ u32 0 ++ u32 0 ++ u32 0 ++ u32 (entryRva p) ++ u32 0x1000 ++ u64 p.imageBase ++ u32 0x1000 ++ u32 0x200 ++
    u16 6 ++ u16 0 ++ u16 0 ++ u16 0 ++ u16 6 ++ u16 0 ++ u32 0 ++ u32 (endCursor p).va ++ u32 sizeOfHeaders ++ u32 0 ++ u16 p.subsystem ++
    u16 (0x120 + flag (!p.isDll) 0x8000 + flag (!p.noDynamicBase) 0x40) ++ u64 0x100000 ++ u64 0x100000 ++ u64 0 ++ u64 0 ++ u32 0 ++ u32 16 ++
    (directories p).flatMap (fun d => u32 d.1 ++ u32 d.2)

/-- All headers, filled up to a multiple of 512 bytes. -/
def headers (p : Program) : List Nat :=
  let h := dosStub ++ [0x50, 0x45, 0, 0] ++ fileHeader p ++ optionalHeader p ++ (sectionHeaders p).flatMap headerBytes
  h ++ zeros (sizeOfHeaders - h.length)

/-- `push_align(arena, FILE_ALIGNMENT)` after a section. -/
def filled (c : Cursor) (bytes : List Nat) : List Nat := bytes ++ zeros (alignUp (c.file + bytes.length) 0x200 - (c.file + bytes.length))

/-- The file before the writes. -/
def pushed (p : Program) : List Nat :=
  headers p ++ filled textCursor (textBytes p) ++ filled (rdataCursor p) (rdataBytes p) ++ filled (dataCursor p) (dataBytes p) ++
    filled (relocCursor p) (relocBytes p) ++ filled (pdataCursor p) (pdataBytes p)

/-- The file. -/
def file (p : Program) : List Nat := (writes p).foldl (apply (placed p)) (pushed p)

end Verif.Model.Image
