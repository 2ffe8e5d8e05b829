import Verif.Model.Image

/-!
# Model: the writer of object files

`print_obj` writes an object file into an arena (/repo/src/obj_writer.c 1120–3152): a header, the table of sections, the contents of the sections, the table of
symbols, the table of long names, the relocations. What is gathered before that (/repo/src/obj_writer.c 1138–1327) is the input.

Simplifications: the contents of the sections `.debug$T` and `.debug$S` are parameters, with the list of the places that need an address. The arena starts at a page
and is zero where nothing was pushed. The lists of all threads are concatenated, in the order in which the loops see them. Positions are natural numbers; the
theorems assume files of less than 2 GB.
-/
namespace Verif.Model.Object
open Verif.Model.BaseReloc
open Verif.Model.Image (Push Placed padding alignUp zeros u64 s32 s64 lay place poke djb2 capacity)

/-- A function with code (/repo/src/obj_writer.c 1260–1271). `unwind` is what `push_unwind_information_for_function` pushes (/repo/src/obj_writer.c 1535). -/
structure Function where
  name : List Nat
  code : List Nat
  isStatic : Bool
  unwind : List Nat

/-- A function without code (/repo/src/obj_writer.c 1280, 1296, 1319). -/
structure Extern where
  name : List Nat
  isImport : Bool
  needsStub : Bool

/-- An object with contents (/repo/src/obj_writer.c 1200–1236, 1275). `isStatic`: `static` at file scope or in a function (/repo/src/obj_writer.c 2649). -/
structure Var where
  name : List Nat
  align : Nat
  bytes : List Nat
  isStatic : Bool

/-- `patch->source` (/repo/src/obj_writer.c 2908–2930). -/
inductive Source where
  | func (i : Nat) | externFunc (i : Nat) | externVar (i : Nat) | auto (i : Nat) | bss (i : Nat) | data (i : Nat) | literal (i : Nat) | tls (i : Nat)
  | selectany (i : Nat) | string (element i : Nat) | float (i : Nat) | double (i : Nat)

/-- `patch->dest_declaration` (/repo/src/obj_writer.c 2819–2842). -/
inductive Dest where
  | func (i : Nat) | data (i : Nat) | literal (i : Nat) | tls (i : Nat) | selectany (i : Nat)
deriving DecidableEq

/-- `patch->kind` (/repo/src/obj_writer.c 2880, 2959). -/
inductive Kind where
  | ripRelative | absolute | sectionOffset
deriving DecidableEq

/-- `struct patch_node`, as it is used in /repo/src/obj_writer.c 2878–2930. -/
structure Patch where
  kind : Kind
  dest : Dest
  at_ : Nat
  source : Source
  offset : Int
  ripAt : Nat

/-- What was gathered (/repo/src/obj_writer.c 1138–1327). The objects in `bss` are all `static` (/repo/src/obj_writer.c 1209–1213). -/
structure Program where
  directives : List Nat
  functions : List Function
  externFunctions : List Extern
  /-- names; if they are imported from a library -/
  externVars : List (List Nat × Bool)
  /-- names, if they are imported from a library, sizes -/
  autos : List (List Nat × Bool × Nat)
  /-- names, sizes, alignments -/
  bss : List (List Nat × Nat × Nat)
  data : List Var
  /-- compound literals: alignments and contents -/
  literals : List (Nat × List Nat)
  tls : List Var
  selectany : List Var
  /-- the string literals with elements of one, two and four bytes, without terminator -/
  strings1 : List (List Nat)
  strings2 : List (List Nat)
  strings4 : List (List Nat)
  floats : List (List Nat)
  doubles : List (List Nat)
  /-- `xor_shift64` of the value as a `double` -/
  floatHash : List Nat → Nat
  debugTypes : List Nat
  debugSymbols : List Nat
  /-- `debug_symbols_relocations` -/
  debugRelocations : List (Nat × Source)
  patches : List Patch

/-- A table with open addressing (/repo/src/obj_writer.c 1618–1626, 1709): the cells hold the number of the value, the values are in the order in which they were pushed. -/
structure Table where
  cells : List (Option Nat)
  values : List (List Nat)

/-- Search for a value in the table; put it there if an empty cell comes first (/repo/src/obj_writer.c 1640–1671, 1717–1745). Values are compared byte by byte. -/
def intern (hash : List Nat → Nat) (value : List Nat) (t : Table) : Nat → Nat → Table × Option Nat
  | 0, _ => (t, none)
  | fuel + 1, k =>
    let index := (hash value + k) % t.cells.length
    match t.cells.getD index none with
    | none => (⟨t.cells.set index (some t.values.length), t.values ++ [value]⟩, some t.values.length)
    | some e => if t.values.getD e [] = value then (t, some e) else intern hash value t fuel (k + 1)

/-- The loop over the literals (/repo/src/obj_writer.c 1630, 1711). -/
def internAll (hash : List Nat → Nat) : Table → List (List Nat) → Table × List (Option Nat)
  | t, [] => (t, [])
  | t, value :: rest =>
    let r := intern hash value t t.cells.length 0
    let rs := internAll hash r.1 rest
    (rs.1, r.2 :: rs.2)

/-- The table starts empty, with space for one and a half times as many (/repo/src/obj_writer.c 1625–1626, 1708–1709). -/
def interned (hash : List Nat → Nat) (l : List (List Nat)) : Table × List (Option Nat) :=
  internAll hash ⟨List.replicate (capacity l.length) none, []⟩ l

/-- The literals of a group: 0, 1, 2 the strings with elements of 1, 2, 4 bytes, 3 `float`, 4 `double` (/repo/src/obj_writer.c 1616, 1695). -/
def group (p : Program) : Nat → Table × List (Option Nat)
  | 0 => interned djb2 p.strings1
  | 1 => interned djb2 p.strings2
  | 2 => interned djb2 p.strings4
  | 3 => interned p.floatHash p.floats
  | _ => interned p.floatHash p.doubles

/-- The alignment of a group (/repo/src/obj_writer.c 1628, 1697–1698). -/
def groupAlign : Nat → Nat
  | 0 => 1
  | 1 => 2
  | 2 => 4
  | 3 => 4
  | _ => 8

/-- The size of the terminator (/repo/src/obj_writer.c 1646). -/
def groupTerminator : Nat → Nat
  | 0 => 1
  | 1 => 2
  | 2 => 4
  | _ => 0

/-- The pushes of a group: `push_zero_align`, then the values with terminators (/repo/src/obj_writer.c 1628, 1645–1646, 1698, 1723–1733). -/
def groupPushes (p : Program) (g : Nat) : List Push :=
  ⟨none, groupAlign g, 0, []⟩ :: (group p g).1.values.map (fun v => ⟨none, 1, 0, v ++ zeros (groupTerminator g)⟩)

/-- The section `.rdata` (/repo/src/obj_writer.c 1590–1763). -/
def rdataPushes (p : Program) : List Push := (List.range 5).flatMap (groupPushes p)

/-- The section `.text` (/repo/src/obj_writer.c 1479–1493). -/
def textPushes (p : Program) : List Push := p.functions.flatMap (fun f => [⟨none, 1, 0, f.code⟩, ⟨none, 16, 0xcc, []⟩])

/-- The section `.data` (/repo/src/obj_writer.c 1773–1801). -/
def dataPushes (p : Program) : List Push :=
  p.data.map (fun d => ⟨none, d.align, 0, d.bytes⟩) ++ p.literals.map (fun d => ⟨none, d.1, 0, d.2⟩)

/-- The section `.tls$` (/repo/src/obj_writer.c 1820–1841). -/
def tlsPushes (p : Program) : List Push := p.tls.map (fun d => ⟨none, d.align, 0, d.bytes⟩)

/-- The sections for objects with `__declspec(selectany)` (/repo/src/obj_writer.c 2319–2343). -/
def selectanyPushes (p : Program) : List Push := p.selectany.map (fun d => ⟨none, 1, 0, d.bytes⟩)

/-- The offset of push `j`, if the section starts at the position `at_` (/repo/src/obj_writer.c 1490, 1648, 1799, 1840). -/
def offsetAt (at_ : Nat) (ps : List Push) (j : Nat) : Nat :=
  match (place at_ 0 ps)[j]? with
  | some x => x.rva
  | none => 0

/-- The offsets of the objects without initial value and the size of the section `.bss` (/repo/src/obj_writer.c 1549–1566). -/
def bssOffsets : Nat → List (List Nat × Nat × Nat) → List Nat × Nat
  | size, [] => ([], size)
  | size, (_, n, align) :: ds =>
    let at_ := alignUp size align
    let r := bssOffsets (at_ + n) ds
    (at_ :: r.1, r.2)

/-- Align if something follows (`push_align` inside of `if`, /repo/src/obj_writer.c 1472–1475, 1765–1768, 1811–1814). -/
def alignIf (b : Bool) (x align : Nat) : Nat := if b then alignUp x align else x

/-- `.drectve` (/repo/src/obj_writer.c 1443, 1458–1470; /repo/src/std.c 1445–1454): after the header and the table of sections, which has space for the ten sections and those for `selectany`. The terminator
is replaced by a space. -/
def drectveAt (p : Program) : Nat := 20 + 40 * (p.selectany.length + 10)
def drectveBytes (p : Program) : List Nat := p.directives ++ [32]

/-- `.text` (/repo/src/obj_writer.c 1472–1499). -/
def textAt (p : Program) : Nat := alignIf (p.functions ≠ []) (drectveAt p + (drectveBytes p).length) 16
def textBytes (p : Program) : List Nat := lay (textAt p) (textPushes p)

/-- `.pdata` (/repo/src/obj_writer.c 1501–1525): three numbers per function. -/
def pdataAt (p : Program) : Nat := alignIf (p.functions ≠ []) (textAt p + (textBytes p).length) 4
def pdataBytes (p : Program) : List Nat := p.functions.flatMap (fun f => u32 0 ++ u32 f.code.length ++ u32 0)

/-- `.xdata` (/repo/src/obj_writer.c 1527–1542). -/
def xdataAt (p : Program) : Nat := pdataAt p + (pdataBytes p).length
def xdataBytes (p : Program) : List Nat := p.functions.flatMap (·.unwind)

/-- `.rdata` (/repo/src/obj_writer.c 1592–1593, 1759). -/
def rdataAt (p : Program) : Nat := alignUp (xdataAt p + (xdataBytes p).length) 16
def rdataBytes (p : Program) : List Nat := lay (rdataAt p) (rdataPushes p)

/-- `.data` (/repo/src/obj_writer.c 1765–1769, 1806). -/
def dataAt (p : Program) : Nat := alignIf (p.data ≠ [] || p.literals.length ≠ 0) (rdataAt p + (rdataBytes p).length) 16
def dataBytes (p : Program) : List Nat := lay (dataAt p) (dataPushes p)

/-- `.tls$` (/repo/src/obj_writer.c 1811–1816, 1846). -/
def tlsAt (p : Program) : Nat := alignIf (p.tls ≠ []) (dataAt p + (dataBytes p).length) 16
def tlsBytes (p : Program) : List Nat := lay (tlsAt p) (tlsPushes p)

/-- `.debug$T`, `.debug$S` and those for `selectany` (/repo/src/obj_writer.c 1855–1862, 2028–2037, 2322). -/
def typesAt (p : Program) : Nat := alignUp (tlsAt p + (tlsBytes p).length) 4
def symbolsAt (p : Program) : Nat := alignUp (typesAt p + p.debugTypes.length) 4
def selectanyAt (p : Program) : Nat := symbolsAt p + p.debugSymbols.length

/-- The table of symbols; `push_data` aligns to four bytes (/repo/src/obj_writer.c 2394). -/
def tableAt (p : Program) : Nat := alignUp (selectanyAt p + (lay (selectanyAt p) (selectanyPushes p)).length) 4

/-- The sections (/repo/src/obj_writer.c 1447–1456, 2325). -/
inductive Section where
  | drectve | text | pdata | xdata | bss | rdata | data | tls | types | symbols | selectany (i : Nat)
deriving DecidableEq

/-- The sections that there are, in the order of the table (`section_headers + section_header_count++`, /repo/src/obj_writer.c 1459, 1473, 1502, 1528, 1545,
1757, 1766, 1812, 1853, 2026, 2324). -/
def sectionIds (p : Program) : List Section :=
  [.drectve] ++ (if p.functions = [] then [] else [.text, .pdata, .xdata]) ++ (if p.bss = [] then [] else [.bss]) ++
    (if rdataBytes p = [] then [] else [.rdata]) ++ (if p.data = [] ∧ p.literals = [] then [] else [.data]) ++
    (if p.tls = [] then [] else [.tls]) ++ [.types, .symbols] ++ (List.range p.selectany.length).map .selectany

/-- The number of a section, from one on: `(section - section_headers) + 1` (/repo/src/obj_writer.c 2459). -/
def sectionNumber (p : Program) (s : Section) : Nat := (sectionIds p).idxOf s + 1

/-- `pointer_to_raw_data` (/repo/src/obj_writer.c 1467, 1496, 1522, 1539, 1759, 1806, 1846, 2014, 2309, 2340). -/
def position (p : Program) : Section → Nat
  | .drectve => drectveAt p
  | .text => textAt p
  | .pdata => pdataAt p
  | .xdata => xdataAt p
  | .bss => 0
  | .rdata => rdataAt p
  | .data => dataAt p
  | .tls => tlsAt p
  | .types => typesAt p
  | .symbols => symbolsAt p
  | .selectany i => selectanyAt p + offsetAt (selectanyAt p) (selectanyPushes p) i

/-- The bytes that were pushed for a section (/repo/src/obj_writer.c 1458–2343). -/
def pushedBytes (p : Program) : Section → List Nat
  | .drectve => drectveBytes p
  | .text => textBytes p
  | .pdata => pdataBytes p
  | .xdata => xdataBytes p
  | .bss => []
  | .rdata => rdataBytes p
  | .data => dataBytes p
  | .tls => tlsBytes p
  | .types => p.debugTypes
  | .symbols => p.debugSymbols
  | .selectany i => match p.selectany[i]? with | some d => d.bytes | none => []

/-- `size_of_raw_data` (/repo/src/obj_writer.c 1468, 1497, 1523, 1540, 1566, 1760, 1807, 1847, 2015, 2310, 2341). -/
def sectionSize (p : Program) : Section → Nat
  | .bss => (bssOffsets 0 p.bss).2
  | s => (pushedBytes p s).length

/-- The names (/repo/src/obj_writer.c 1460, 1495, 1521, 1538, 1565, 1758, 1805, 1845, 2339). -/
def sectionName : Section → List Nat
  | .drectve => [46, 100, 114, 101, 99, 116, 118, 101]
  | .text => [46, 116, 101, 120, 116]
  | .pdata => [46, 112, 100, 97, 116, 97]
  | .xdata => [46, 120, 100, 97, 116, 97]
  | .bss => [46, 98, 115, 115]
  | .rdata => [46, 114, 100, 97, 116, 97]
  | .data | .selectany _ => [46, 100, 97, 116, 97]
  | .tls => [46, 116, 108, 115, 36]
  | .types => [46, 100, 101, 98, 117, 103, 36, 84]
  | .symbols => [46, 100, 101, 98, 117, 103, 36, 83]

/-- `section_alignment`: the maximum of the alignments (/repo/src/obj_writer.c 1547–1556, 1771–1787). -/
def maxAlign (l : List Nat) : Nat := l.foldl max 1

/-- `(count_trailing_zeros64(alignment) + 1) << 20`; alignments are powers of two (/repo/src/obj_writer.c 1563, 1803). -/
def alignFlag (a : Nat) : Nat := (Nat.log2 a + 1) * 0x100000

/-- `characteristics` (/repo/src/obj_writer.c 1469, 1498, 1524, 1541, 1567, 1761, 1808, 1848, 2016, 2311, 2342). -/
def sectionFlags (p : Program) : Section → Nat
  | .drectve => 0x00100000 + 0x200 + 0x800
  | .text => 0x20 + 0x00500000 + 0x40000000 + 0x20000000
  | .pdata | .xdata => 0x40 + 0x00300000 + 0x40000000
  | .bss => 0x80 + alignFlag (maxAlign (p.bss.map (·.2.2))) + 0x40000000 + 0x80000000
  | .rdata => 0x40 + 0x00500000 + 0x40000000
  | .data => 0x40 + alignFlag (maxAlign (p.data.map (·.align) ++ p.literals.map (·.1))) + 0x40000000 + 0x80000000
  | .tls => 0x40 + alignFlag (maxAlign (p.tls.map (·.align))) + 0x40000000 + 0x80000000
  | .types | .symbols => 0x40 + 0x02000000 + 0x00100000 + 0x40000000
  | .selectany i => 0x40 + alignFlag (match p.selectany[i]? with | some d => d.align | none => 1) + 0x40000000 + 0x80000000 + 0x1000

/-- `relative_virtual_address`, in object files the offset in the section (/repo/src/obj_writer.c 1492, 1559, 1799, 1840). -/
def textOffset (p : Program) (i : Nat) : Nat := offsetAt (textAt p) (textPushes p) (2 * i)
def dataOffset (p : Program) (i : Nat) : Nat := offsetAt (dataAt p) (dataPushes p) i
def literalOffset (p : Program) (i : Nat) : Nat := offsetAt (dataAt p) (dataPushes p) (p.data.length + i)
def tlsOffset (p : Program) (i : Nat) : Nat := offsetAt (tlsAt p) (tlsPushes p) i
def bssOffset (p : Program) (i : Nat) : Nat := (bssOffsets 0 p.bss).1.getD i 0

/-- How many pushes of `.rdata` come before a group (/repo/src/obj_writer.c 1616, 1695). -/
def before (p : Program) (g : Nat) : Nat := ((List.range g).flatMap (groupPushes p)).length

/-- `float_start_offset`, `double_start_offset`: where a group starts (/repo/src/obj_writer.c 1700–1704). -/
def groupStart (p : Program) (g : Nat) : Nat := offsetAt (rdataAt p) (rdataPushes p) (before p g)

/-- The offset of value `e` of a group (/repo/src/obj_writer.c 1648, 1743). -/
def groupOffset (p : Program) (g e : Nat) : Nat := offsetAt (rdataAt p) (rdataPushes p) (before p g + 1 + e)

/-- A record of the table of symbols (/repo/src/obj_writer.c 2347–2394, 2407–2421). -/
inductive Record where
  | symbol (name : List Nat) (value section_ type cls auxiliary : Nat)
  | auxiliary (bytes : List Nat)

/-- For every section there is a symbol and a record with its size, and for `selectany` that any one may be taken (/repo/src/obj_writer.c 2398–2429). -/
def sectionRecords (p : Program) : List Record :=
  (sectionIds p).zipIdx.flatMap (fun s =>
    [.symbol (sectionName s.1) 0 (s.2 + 1) 0 3 1,
      .auxiliary (u32 (sectionSize p s.1) ++ u16 0 ++ u16 0 ++ u32 0 ++ u16 0 ++ [match s.1 with | .selectany _ => 2 | _ => 0] ++ [0, 0, 0])])

/-- How far `unwind_info_offset` is advanced: by the size of the unwind information of the first function, as the number of codes is always read there, and
without the exception handlers that may follow (/repo/src/obj_writer.c 2486–2488). -/
def unwindStep (p : Program) : Nat :=
  let codes := (xdataBytes p).getD 2 0
  4 + (codes + codes % 2) * 2

/-- `$unwind$`, `$pdata$`, `__imp_` (/repo/src/obj_writer.c 2469, 2492, 2518). -/
def unwindPrefix : List Nat := [36, 117, 110, 119, 105, 110, 100, 36]
def pdataPrefix : List Nat := [36, 112, 100, 97, 116, 97, 36]
def importPrefix : List Nat := [95, 95, 105, 109, 112, 95]

/-- Three symbols for every function: the function, its unwind information, its entry in `.pdata` (/repo/src/obj_writer.c 2434–2508). -/
def functionRecords (p : Program) : List Record :=
  p.functions.zipIdx.flatMap (fun f =>
    [.symbol f.1.name (textOffset p f.2) (sectionNumber p .text) 0x20 (if f.1.isStatic then 3 else 2) 0,
      .symbol (unwindPrefix ++ f.1.name) (unwindStep p * f.2) (sectionNumber p .xdata) 0 3 0,
      .symbol (pdataPrefix ++ f.1.name) (12 * f.2) (sectionNumber p .pdata) 0 3 0])

/-- The name of what may be imported from a library (/repo/src/obj_writer.c 2516–2519). -/
def importName (isImport : Bool) (name : List Nat) : List Nat := if isImport then importPrefix ++ name else name

/-- The symbols for a function without code, with a second one for the stub if it is needed (/repo/src/obj_writer.c 2510–2557). -/
def externRecords (f : Extern) : List Record :=
  .symbol (importName f.isImport f.name) 0 0 (if f.isImport then 0 else 0x20) 2 0 ::
    (if f.needsStub then [.symbol f.name 0 0 0x20 2 0] else [])

/-- The digits of `%x`, the last one first (/repo/src/obj_writer.c 2658, 2725). -/
def hexDigits : Nat → Nat → List Nat
  | 0, _ => []
  | fuel + 1, n =>
    let d := if n % 16 < 10 then 48 + n % 16 else 87 + n % 16
    if n < 16 then [d] else d :: hexDigits fuel (n / 16)

/-- `%x` (/repo/src/obj_writer.c 2658, 2725). -/
def hex (n : Nat) : List Nat := (hexDigits (n + 1) n).reverse

/-- The records before those of the compound literals, whose names have their number (/repo/src/obj_writer.c 2559–2651, 2658). -/
def recordsBeforeLiterals (p : Program) : List Record :=
  sectionRecords p ++ functionRecords p ++ p.externFunctions.flatMap externRecords ++
    p.externVars.map (fun v => .symbol (importName v.2 v.1) 0 0 0 2 0) ++
    p.autos.map (fun v => .symbol (importName v.2.1 v.1) v.2.2 0 0 2 0) ++
    p.bss.zipIdx.map (fun v => .symbol v.1.1 (bssOffset p v.2) (sectionNumber p .bss) 0 3 0) ++
    p.data.zipIdx.map (fun v => .symbol v.1.name (dataOffset p v.2) (sectionNumber p .data) 0 (if v.1.isStatic then 3 else 2) 0)

/-- The records before those of the literals in `.rdata` (/repo/src/obj_writer.c 2653–2719). -/
def recordsBeforeStrings (p : Program) : List Record :=
  recordsBeforeLiterals p ++
    p.literals.zipIdx.map (fun v => .symbol ([36, 83, 108, 105, 116] ++ hex ((recordsBeforeLiterals p).length + v.2)) (literalOffset p v.2)
      (sectionNumber p .data) 0 3 0) ++
    p.tls.zipIdx.map (fun v => .symbol v.1.name (tlsOffset p v.2) (sectionNumber p .tls) 0 (if v.1.isStatic then 3 else 2) 0) ++
    p.selectany.zipIdx.map (fun v => .symbol v.1.name 0 (sectionNumber p (.selectany v.2)) 0 2 0)

/-- How many strings were pushed in the groups before (`string_index`, /repo/src/obj_writer.c 1614, 1649). -/
def stringsBefore (p : Program) (g : Nat) : Nat := ((List.range g).flatMap (fun g => (group p g).1.values)).length

/-- The symbols for the strings (/repo/src/obj_writer.c 2721–2739). -/
def stringRecords (p : Program) : List Record :=
  (List.range 3).flatMap (fun g =>
    (group p g).1.values.zipIdx.map (fun v => .symbol ([36, 83] ++ hex (stringsBefore p g + v.2)) (groupOffset p g v.2) (sectionNumber p .rdata) 0 3 0))

/-- `__real@` and the bytes, the highest first (/repo/src/obj_writer.c 2747, 2765). -/
def realName (bytes : List Nat) : List Nat :=
  [95, 95, 114, 101, 97, 108, 64] ++ bytes.reverse.flatMap (fun b => hex (b / 16) ++ hex (b % 16))

/-- The symbols for constants of type `float` or `double`, at equal distances from the start of the group (/repo/src/obj_writer.c 2741–2775). -/
def realRecords (p : Program) (g size : Nat) : List Record :=
  (group p g).1.values.zipIdx.map (fun v => .symbol (realName v.1) (groupStart p g + size * v.2) (sectionNumber p .rdata) 0 3 0)

/-- The table of symbols (/repo/src/obj_writer.c 2398–2778). -/
def records (p : Program) : List Record := recordsBeforeStrings p ++ stringRecords p ++ realRecords p 3 4 ++ realRecords p 4 8

/-- The value that literal `i` of a group became (/repo/src/obj_writer.c 1657, 1669, 1743). -/
def literalIn (p : Program) (g i : Nat) : Nat :=
  match (group p g).2.getD i none with
  | some e => e
  | none => 0

/-- The group of strings with elements of this size (/repo/src/obj_writer.c 1616). -/
def groupOf (element : Nat) : Nat := if element = 1 then 0 else if element = 2 then 1 else 2

/-- `symbol_table_index`: how many records were pushed before, and the number of the symbol for literals (/repo/src/obj_writer.c 2444, 2512, 2561, 2586, 2612, 2634, 2655,
2676, 2702, 2721, 2741, 2759, 2908–2930). -/
def symbolOf (p : Program) : Source → Nat
  | .func i => (sectionRecords p).length + 3 * i
  | .externFunc i => (sectionRecords p ++ functionRecords p ++ (p.externFunctions.take i).flatMap externRecords).length
  | .externVar i => (sectionRecords p ++ functionRecords p ++ p.externFunctions.flatMap externRecords).length + i
  | .auto i => (sectionRecords p ++ functionRecords p ++ p.externFunctions.flatMap externRecords).length + p.externVars.length + i
  | .bss i => (sectionRecords p ++ functionRecords p ++ p.externFunctions.flatMap externRecords).length + p.externVars.length + p.autos.length + i
  | .data i => (sectionRecords p ++ functionRecords p ++ p.externFunctions.flatMap externRecords).length + p.externVars.length + p.autos.length + p.bss.length + i
  | .literal i => (recordsBeforeLiterals p).length + i
  | .tls i => (recordsBeforeLiterals p).length + p.literals.length + i
  | .selectany i => (recordsBeforeLiterals p).length + p.literals.length + p.tls.length + i
  | .string element i => (recordsBeforeStrings p).length + (stringsBefore p (groupOf element) + literalIn p (groupOf element) i)
  | .float i => (recordsBeforeStrings p ++ stringRecords p).length + (groupOffset p 3 (literalIn p 3 i) - groupStart p 3) / 4
  | .double i => (recordsBeforeStrings p ++ stringRecords p ++ realRecords p 3 4).length + (groupOffset p 4 (literalIn p 4 i) - groupStart p 4) / 8

/-- The symbol an address of 64 bits refers to: the stub of an imported function (/repo/src/obj_writer.c 2973–2983, 3028–3038). -/
def addressSymbol (p : Program) (s : Source) : Nat :=
  match s with
  | .externFunc i => symbolOf p s + (match p.externFunctions[i]? with | some f => if f.needsStub then 1 else 0 | none => 0)
  | s => symbolOf p s

/-- Where in its section the destination of a patch is. For `selectany`, the field is zero (/repo/src/obj_writer.c 2715, 2884, 2966,
3021). -/
def destOffset (p : Program) : Dest → Nat
  | .func i => textOffset p i
  | .data i => dataOffset p i
  | .literal i => literalOffset p i
  | .tls i => tlsOffset p i
  | .selectany _ => 0

/-- The list that a patch is put into: that for `selectany` is the one of `.data` (/repo/src/obj_writer.c 2826–2842). -/
def patchSection : Dest → Section
  | .func _ => .text
  | .data _ | .literal _ | .selectany _ => .data
  | .tls _ => .tls

/-- The section whose bytes are written, through `memory_location` (/repo/src/obj_writer.c 2332, 2901, 2969, 3024). -/
def writtenSection : Dest → Section
  | .func _ => .text
  | .data _ | .literal _ => .data
  | .selectany i => .selectany i
  | .tls _ => .tls

/-- The patches of a section; each is put in front of the others (/repo/src/obj_writer.c 2826–2842). -/
def patchesOf (p : Program) (s : Section) : List Patch := (p.patches.filter (fun q => patchSection q.dest = s)).reverse

/-- What is written to the place of a patch: what has to be added to the address of the source. For `ripRelative`, zero is not
written (/repo/src/obj_writer.c 2890–2906, 2969, 3024). -/
def addend (q : Patch) : List Nat :=
  match q.kind with
  | .ripRelative =>
    let v := q.at_ + 4 - q.ripAt + q.offset
    if v % 2 ^ 32 = 0 then [] else s32 v
  | .absolute => s64 q.offset
  | .sectionOffset => []

/-- The bytes of a section after the patches (/repo/src/obj_writer.c 2878–2903, 2958–2969, 3013–3024). -/
def sectionBytes (p : Program) (s : Section) : List Nat :=
  (p.patches.reverse.filter (fun q => writtenSection q.dest = s)).foldl (fun b q => poke b (destOffset p q.dest + q.at_) (addend q)) (pushedBytes p s)

/-- `struct coff_relocation` (/repo/src/obj_writer.c 2849–2853). -/
structure Reloc where
  offset : Nat
  symbol : Nat
  kind : Nat

/-- The relocation of a patch (/repo/src/obj_writer.c 2884–2930, 2964–2983, 3019–3038). -/
def relocOf (p : Program) (q : Patch) : Reloc :=
  match q.kind with
  | .ripRelative => ⟨destOffset p q.dest + q.at_, symbolOf p q.source, 4⟩
  | .absolute => ⟨destOffset p q.dest + q.at_, addressSymbol p q.source, 1⟩
  | .sectionOffset => ⟨destOffset p q.dest + q.at_, symbolOf p q.source, 0xb⟩

/-- The relocations of a section: for `.pdata` three per function, the last one to the unwind information (/repo/src/obj_writer.c 3074–3087); for the debug information two
per place (/repo/src/obj_writer.c 3113–3126). -/
def relocsOf (p : Program) : Section → List Reloc
  | .text => (patchesOf p .text).map (relocOf p)
  | .data => (patchesOf p .data).map (relocOf p)
  | .tls => (patchesOf p .tls).map (relocOf p)
  | .pdata => (List.range p.functions.length).flatMap (fun i =>
      [⟨12 * i, symbolOf p (.func i), 3⟩, ⟨12 * i + 4, symbolOf p (.func i), 3⟩, ⟨12 * i + 8, symbolOf p (.func i) + 1, 3⟩])
  | .symbols => p.debugRelocations.flatMap (fun r => [⟨r.1, symbolOf p r.2, 0xb⟩, ⟨r.1 + 4, symbolOf p r.2, 0xa⟩])
  | _ => []

/-- Ten bytes (/repo/src/obj_writer.c 2848–2853). -/
def relocBytes (r : Reloc) : List Nat := u32 r.offset ++ u32 r.symbol ++ u16 r.kind

/-- The relocations of a section in the file: if there are more than fit into 16 bits, their number is in an additional first one (/repo/src/obj_writer.c 2858–2875). -/
def relocTable (rs : List Reloc) : List Nat :=
  (if rs.length ≤ 0xffff then [] else u32 (rs.length + 1) ++ u32 0 ++ u16 0) ++ rs.flatMap relocBytes

/-- The sections that may have relocations, in the order in which they are written (/repo/src/obj_writer.c 2855, 2935, 2990, 3044, 3090). -/
def relocated : List Section := [.text, .data, .tls, .pdata, .symbols]

/-- The bytes of the table of symbols and the table of long names, if `at_` bytes of the latter were used before
(/repo/src/obj_writer.c 2431–2775; the same code for all symbols). -/
def writeRecords : Nat → List Record → List Nat × List Nat
  | _, [] => ([], [])
  | at_, .auxiliary b :: rs => let r := writeRecords at_ rs; (b ++ r.1, r.2)
  | at_, .symbol name value sec type cls aux :: rs =>
    if name.length ≤ 8 then
      let r := writeRecords at_ rs
      (name ++ zeros (8 - name.length) ++ u32 value ++ u16 sec ++ u16 type ++ [cls, aux] ++ r.1, r.2)
    else
      let r := writeRecords (at_ + name.length + 1) rs
      (u32 0 ++ u32 at_ ++ u32 value ++ u16 sec ++ u16 type ++ [cls, aux] ++ r.1, name ++ [0] ++ r.2)

/-- The bytes of the table of symbols (/repo/src/obj_writer.c 2398–2775). -/
def symbolBytes (p : Program) : List Nat := (writeRecords 4 (records p)).1

/-- The size of the table includes the size itself (/repo/src/obj_writer.c 2784–2793). -/
def nameBytes (p : Program) : List Nat :=
  let names := (writeRecords 4 (records p)).2
  u32 (names.length + 4) ++ names

/-- Where the relocations start (/repo/src/obj_writer.c 2856). -/
def relocsAt (p : Program) : Nat := tableAt p + (symbolBytes p).length + (nameBytes p).length

/-- `pointer_to_relocations` (/repo/src/obj_writer.c 2856, 2936, 2991, 3053, 3092). -/
def relocPointer (p : Program) (s : Section) : Nat :=
  if relocsOf p s = [] then 0
  else relocsAt p + ((relocated.takeWhile (· ≠ s)).flatMap (fun s => relocTable (relocsOf p s))).length

/-- An entry of the table of sections: 40 bytes (/repo/src/obj_writer.c 1384–1441, 2856–2865). -/
def headerBytes (p : Program) (s : Section) : List Nat :=
  sectionName s ++ zeros (8 - (sectionName s).length) ++ u32 0 ++ u32 0 ++ u32 (sectionSize p s) ++ u32 (position p s) ++ u32 (relocPointer p s) ++ u32 0 ++
    u16 (min (relocsOf p s).length 0xffff) ++ u16 0 ++
    u32 (sectionFlags p s + if (relocsOf p s).length ≤ 0xffff then 0 else 0x01000000)

/-- The header (/repo/src/obj_writer.c 1340–1382, 3136–3138). -/
def fileHeader (p : Program) : List Nat :=
  u16 0x8664 ++ u16 (sectionIds p).length ++ u32 0 ++ u32 (tableAt p) ++ u32 (records p).length ++ u16 0 ++ u16 0

/-- Put parts at their positions in the arena, with zeros between them (/repo/src/obj_writer.c 1338–3134). -/
def assemble : Nat → List (Nat × List Nat) → List Nat
  | _, [] => []
  | at_, (pos, bytes) :: rest => zeros (pos - at_) ++ bytes ++ assemble (pos + bytes.length) rest

/-- The file (/repo/src/obj_writer.c 3134–3142). -/
def file (p : Program) : List Nat :=
  assemble 0 ([(0, fileHeader p ++ (sectionIds p).flatMap (headerBytes p))] ++
    ((sectionIds p).filter (· ≠ .bss)).map (fun s => (position p s, sectionBytes p s)) ++
    [(tableAt p, symbolBytes p ++ nameBytes p ++ relocated.flatMap (fun s => relocTable (relocsOf p s)))])

end Verif.Model.Object
