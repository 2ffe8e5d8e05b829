import Verif.Model.Image
import Verif.Model.Leaf

/-!
# Model: the symbols in PDB files

The stream of symbol records and the streams to find them by name and by address, as `print_coff` writes them (/repo/src/coff_writer.c 37–64, 268–325,
3010–3465).

Simplifications: arenas start at a page and are zero where nothing was pushed. What is known about functions and objects is the input. Numbers
are natural numbers; the theorems assume that the streams have less than 2 GB.
-/
namespace Verif.Model.PdbSymbols
open Verif.Model.BaseReloc (u16 u32)
open Verif.Model.Image (zeros)

/-- `*(u32 *)`, of four bytes (/repo/src/coff_writer.c 40–45). -/
def word (bytes : List Nat) : Nat := bytes.getD 0 0 + 256 * bytes.getD 1 0 + 65536 * bytes.getD 2 0 + 16777216 * bytes.getD 3 0

/-- The loop over full words (/repo/src/coff_writer.c 43–45). -/
def words : Nat → List Nat → Nat → Nat
  | 0, _, ret => ret
  | n + 1, s, ret => words n (s.drop 4) (ret ^^^ word (s.take 4))

/-- `pdb_string_hash` (/repo/src/coff_writer.c 37–64). -/
def stringHash (s : List Nat) : Nat :=
  let ret := words (s.length / 4) s 0
  let remaining := s.length % 4
  let at_ := s.length / 4 * 4
  let (ret, remaining, at_) := if remaining ≥ 2 then (ret ^^^ (s.getD at_ 0 + 256 * s.getD (at_ + 1) 0), remaining - 2, at_ + 2) else (ret, remaining, at_)
  let ret := if remaining ≠ 0 then ret ^^^ s.getD at_ 0 else ret
  let ret := ret ||| 0x20202020
  let ret := ret ^^^ (ret >>> 11)
  ret ^^^ (ret >>> 16)

/-- `struct gsi_hash_bucket`, without what is not used (/repo/src/coff_writer.c 269–275). -/
structure Symbol where
  name : List Nat
  offset : Nat
  rva : Nat
deriving DecidableEq

/-- The comparison of names of the same length: the first difference counts (/repo/src/coff_writer.c 303–308). -/
def nameLess : List Nat → List Nat → Bool
  | a :: as, b :: bs => if a ≠ b then decide (a < b) else nameLess as bs
  | _, _ => false

/-- `should_insert` (/repo/src/coff_writer.c 298–309). -/
def shouldInsert (a b : List Nat) : Bool := if a.length < b.length then true else if a.length = b.length then nameLess a b else false

/-- Insert into a chain. The last symbol of the chain is not compared (/repo/src/coff_writer.c 288–322). -/
def insert (new : Symbol) : List Symbol → List Symbol
  | [] => [new]
  | [b] => [b, new]
  | b :: c :: rest => if shouldInsert new.name b.name then new :: b :: c :: rest else b :: insert new (c :: rest)

/-- The hash table: the chain of every bucket, and the two counters (/repo/src/coff_writer.c 3011–3018). -/
structure Table where
  chain : Nat → List Symbol
  buckets : Nat
  symbols : Nat

/-- `global_symbol_stream_hash_table_add` and the additions to the counters (/repo/src/coff_writer.c 277–325, 3061–3062). -/
def add (t : Table) (s : Symbol) : Table :=
  let h := stringHash s.name % 4096
  ⟨fun i => if i = h then insert s (t.chain i) else t.chain i, t.buckets + (if t.chain h = [] then 1 else 0), t.symbols + 1⟩

/-- A function with code (/repo/src/coff_writer.c 3047–3076). -/
structure Function where
  name : List Nat
  rva : Nat
  isStatic : Bool
  symbolOffset : Nat

/-- An object (/repo/src/coff_writer.c 3147–3182). -/
structure Object where
  name : List Nat
  rva : Nat
  isStatic : Bool
  type : Nat

/-- A section: its address and its number (/repo/src/coff_writer.c 1917–1920). -/
structure Section where
  address : Nat
  id : Nat

/-- What the symbols are made of. The names of the imports start with `__imp_`. -/
structure Program where
  text : Section
  rdata : Section
  bss : Section
  data : Section
  functions : List Function
  /-- names and addresses -/
  imports : List (List Nat × Nat)
  stubs : List (List Nat × Nat)
  /-- names, types and values of enumerators -/
  constants : List (List Nat × Nat × Int)
  uninitialized : List Object
  initialized : List Object
  /-- names and types -/
  typedefs : List (List Nat × Nat)

/-- A record of a symbol: if it is public, the numbers before the name, and the value for constants (/repo/src/coff_writer.c 3047–3198). -/
structure Entry where
  isPublic : Bool
  kind : Nat
  fields : List Nat
  value : Option Int
  name : List Nat
  rva : Nat

/-- The records of a function (/repo/src/coff_writer.c 3047–3076). `offset_in_text_section` is the address in the section (/repo/src/coff_writer.c 1085–1087). -/
def functionEntries (p : Program) (f : Function) : List Entry :=
  ⟨false, if f.isStatic then 0x1127 else 0x1125, u32 0 ++ u32 f.symbolOffset ++ u16 1, none, f.name, f.rva⟩ ::
    (if f.isStatic then [] else [⟨true, 0x110e, u32 2 ++ u32 (f.rva - p.text.address) ++ u16 p.text.id, none, f.name, f.rva⟩])

/-- The record of an object (/repo/src/coff_writer.c 3147–3182). -/
def objectEntry (s : Section) (o : Object) : Entry :=
  ⟨false, if o.isStatic then 0x110c else 0x110d, u32 o.type ++ u32 (o.rva - s.address) ++ u16 s.id, none, o.name, o.rva⟩

/-- All records in their order (/repo/src/coff_writer.c 3045–3198). -/
def entries (p : Program) : List Entry :=
  p.functions.flatMap (functionEntries p) ++
    p.imports.map (fun i => ⟨true, 0x110e, u32 0 ++ u32 (i.2 - p.rdata.address) ++ u16 p.rdata.id, none, i.1, i.2⟩) ++
    p.stubs.map (fun i => ⟨true, 0x110e, u32 0 ++ u32 (i.2 - p.text.address) ++ u16 p.text.id, none, i.1, i.2⟩) ++
    p.constants.map (fun c => ⟨false, 0x1107, u32 c.2.1, some c.2.2, c.1, 0⟩) ++
    p.uninitialized.map (objectEntry p.bss) ++ p.initialized.map (objectEntry p.data) ++
    p.typedefs.map (fun t => ⟨false, 0x1108, u32 t.2, none, t.1, 0⟩)

/-- The bytes `push_f3f2f1_align` pushes (/repo/src/obj_writer.c 34–40). -/
def alignBytes (size : Nat) : List Nat :=
  let n := (4 - size % 4) % 4
  (List.range n).map (fun i => 0xf0 + (n - i))

/-- A record that starts at an address: what comes after the length, with the alignment (/repo/src/coff_writer.c 3039–3040). -/
def recordBody (at_ : Nat) (e : Entry) : List Nat :=
  let body := u16 e.kind ++ e.fields ++ (match e.value with | some v => Verif.Leaf.pushSigned 0 (at_ + 4 + e.fields.length) v | none => []) ++ e.name ++ [0]
  body ++ alignBytes (at_ + 2 + body.length)

/-- The record with its length (/repo/src/coff_writer.c 3039–3040). -/
def record (at_ : Nat) (e : Entry) : List Nat := u16 (recordBody at_ e).length ++ recordBody at_ e

/-- The stream of records and the two hash tables (/repo/src/coff_writer.c 3045–3198). -/
structure Symbols where
  records : List Nat
  globals : Table
  publics : Table

/-- Push a record and add the symbol to its table; `ref_offset` is where the record starts (/repo/src/coff_writer.c 3050–3062). -/
def pushEntry (s : Symbols) (e : Entry) : Symbols :=
  let symbol : Symbol := ⟨e.name, s.records.length, e.rva⟩
  ⟨s.records ++ record s.records.length e, if e.isPublic then s.globals else add s.globals symbol, if e.isPublic then add s.publics symbol else s.publics⟩

/-- The tables start empty (/repo/src/coff_writer.c 3010–3020). -/
def symbols (p : Program) : Symbols := (entries p).foldl pushEntry ⟨[], ⟨fun _ => [], 0, 0⟩, ⟨fun _ => [], 0, 0⟩⟩

/-- `records`, `bitmap`, `offsets` with `bit`, `bit_index`, `offset_at` (/repo/src/coff_writer.c 3236–3245). -/
structure Writer where
  records : List Nat
  bitmap : List Nat
  offsets : List Nat
  bit : Nat
  bitIndex : Nat
  offsetAt : Nat

/-- The loop over the buckets (/repo/src/coff_writer.c 3246–3272). -/
def writeBucket (w : Writer) (chain : List Symbol) : Writer :=
  let bit := if chain ≠ [] then w.bit ||| (1 <<< w.bitIndex) else w.bit
  let bitIndex := w.bitIndex + 1
  let (bitmap, bit, bitIndex) := if bitIndex = 32 then (w.bitmap ++ [bit], 0, 0) else (w.bitmap, bit, bitIndex)
  if chain = [] then ⟨w.records, bitmap, w.offsets, bit, bitIndex, w.offsetAt⟩
  else ⟨w.records ++ chain.map (fun s => s.offset + 1), bitmap, w.offsets ++ [w.offsetAt], bit, bitIndex, w.offsetAt + 12 * chain.length⟩

/-- All 4097 buckets, and the last bits (/repo/src/coff_writer.c 3246–3273). -/
def writeBuckets (t : Table) : Writer :=
  let w := (List.range (4096 + 1)).foldl (fun w i => writeBucket w (t.chain i)) ⟨[], [], [], 0, 0, 0⟩
  { w with bitmap := w.bitmap ++ [w.bit] }

/-- The hash stream (/repo/src/coff_writer.c 3225–3278). The arrays are as long as the counters say; that they are filled exactly (the assertions) is a theorem. -/
def hashStream (t : Table) : List Nat :=
  let w := writeBuckets t
  u32 (2 ^ 32 - 1) ++ u32 (0xeffe0000 + 19990810) ++ u32 (t.symbols * 2 * 4) ++ u32 ((4096 + 32) / 32 * 4 + t.buckets * 4) ++
    w.records.flatMap (fun r => u32 r ++ u32 1) ++ w.bitmap.flatMap u32 ++ w.offsets.flatMap u32

/-! The sort. `relative_virtual_addresses` and `symbol_offsets` are always swapped together, so they are one list of pairs. -/

/-- Swap two elements (/repo/src/coff_writer.c 3395–3411). -/
def swap (a : List (Nat × Nat)) (i j : Nat) : List (Nat × Nat) := (a.set i (a.getD j (0, 0))).set j (a.getD i (0, 0))

/-- `while(a[left_it] <= piveot && left_it < right_it) left_it++` (/repo/src/coff_writer.c 3388). -/
def scanLeft (a : List (Nat × Nat)) (pivot right : Nat) : Nat → Nat → Nat
  | 0, left => left
  | fuel + 1, left => if (a.getD left (0, 0)).1 ≤ pivot ∧ left < right then scanLeft a pivot right fuel (left + 1) else left

/-- `while(a[right_it] > piveot) right_it--` (/repo/src/coff_writer.c 3390). -/
def scanRight (a : List (Nat × Nat)) (pivot : Nat) : Nat → Nat
  | 0 => 0
  | right + 1 => if (a.getD (right + 1) (0, 0)).1 > pivot then scanRight a pivot right else right + 1

/-- The loop `while(left_it < right_it)` (/repo/src/coff_writer.c 3387–3413). -/
def partition (pivot : Nat) : Nat → List (Nat × Nat) → Nat → Nat → List (Nat × Nat) × Nat × Nat
  | 0, a, l, r => (a, l, r)
  | fuel + 1, a, l, r =>
    if l < r then
      let l := scanLeft a pivot r a.length l
      let r := scanRight a pivot r
      partition pivot fuel (if l < r then swap a l r else a) l r
    else (a, l, r)

/-- The loop of the sort; the result is `none` if the loop has not ended or the stack has more than `capacity` entries (/repo/src/coff_writer.c 3372–3459). -/
def sortLoop (capacity : Nat) : Nat → List (Nat × Nat) → Nat → Nat → List Nat → Option (List (Nat × Nat))
  | 0, _, _, _, _ => none
  | fuel + 1, a, left, right, stack =>
    if stack.length > capacity then none
    else
      let pop := fun (a : List (Nat × Nat)) (left : Nat) (stack : List Nat) =>
        match stack with
        | [] => some a
        | r :: stack => sortLoop capacity fuel a left r stack
      if left < right then
        let (a, l, r) := partition (a.getD left (0, 0)).1 a.length a left right
        let a := swap a left r
        let stack := if l < right then right :: stack else stack
        if left + 1 < r then
          if stack.length + 1 > capacity then none else pop a left ((r - 1) :: stack)
        else if stack.length > capacity then none else pop a (left + 1) stack
      else pop a left stack

/-- The quicksort (/repo/src/coff_writer.c 3364–3460). -/
def sortByAddress (a : List (Nat × Nat)) : Option (List (Nat × Nat)) :=
  if a.length > 1 then sortLoop a.length ((a.length + 1) * (2 * a.length + 2)) a 0 (a.length - 1) [] else some a

/-- The symbols in the order of the buckets (/repo/src/coff_writer.c 3352–3361). -/
def tableSymbols (t : Table) : List Symbol := (List.range (4096 + 1)).flatMap t.chain

/-- The stream of the public symbols (/repo/src/coff_writer.c 3282–3462). -/
def publicStream (t : Table) : Option (List Nat) :=
  match sortByAddress ((tableSymbols t).map (fun s => (s.rva, s.offset))) with
  | none => none
  | some sorted =>
    some (u32 (hashStream t).length ++ u32 (t.symbols * 4) ++ u32 0 ++ u32 0 ++ u16 0 ++ u16 0 ++ u32 0 ++ u32 0 ++ hashStream t ++
      sorted.flatMap (fun s => u32 s.2))

end Verif.Model.PdbSymbols
