import Verif.Model.Image

/-!
# Model: the writer of multistream files

`write_msf` writes the streams of a PDB file (/repo/src/coff_writer.c 353–607).

Simplifications: numbers are natural numbers. The theorems assume that the sizes and page numbers fit into the 32 bits of the file format, and that
no stream has more than 2^32 - 4096 bytes, so that `offset_in_stream` does not wrap. All writes succeed.
-/
namespace Verif.Model.Msf
open Verif.Model.BaseReloc (u32)
open Verif.Model.Image (zeros)

/-- `(size + 0xfff)/0x1000` (/repo/src/coff_writer.c 359, 372). -/
def pages (size : Nat) : Nat := (size + 0xfff) / 0x1000

/-- `aligned_total_size` in pages (/repo/src/coff_writer.c 357–360). -/
def streamPages (ss : List (List Nat)) : Nat := (ss.map (fun s => pages s.length)).sum

/-- `stream_table_stream_size` (/repo/src/coff_writer.c 371). -/
def tableSize (ss : List (List Nat)) : Nat := 4 + 4 * (ss.length + 1) + 4 * streamPages ss

/-- `stream_table_page_list_size` (/repo/src/coff_writer.c 375). -/
def listSize (ss : List (List Nat)) : Nat := 4 * pages (tableSize ss)

/-- `aligned_total_size/0x1000` (/repo/src/coff_writer.c 377–378, 402). -/
def dataPages (ss : List (List Nat)) : Nat := streamPages ss + pages (tableSize ss) + pages (listSize ss)

/-- `amount_of_pages` (/repo/src/coff_writer.c 402–406). -/
def amountOfPages (ss : List (List Nat)) : Nat := dataPages ss + 2 * ((dataPages ss + (0x1000 - 2 - 1)) / (0x1000 - 2)) + 1

/-- `stream_table_page_list_end` (/repo/src/coff_writer.c 419, 425). -/
def listEnd (ss : List (List Nat)) : Nat := 3 + pages (listSize ss) + 2 * (pages (listSize ss) / (0x1000 - 2))

/-- `stream_table_stream_page_end` (/repo/src/coff_writer.c 420, 426). -/
def tableEnd (ss : List (List Nat)) : Nat :=
  3 + (pages (listSize ss) + pages (tableSize ss)) + 2 * ((pages (listSize ss) + pages (tableSize ss)) / (0x1000 - 2))

/-- The loops over pages that leave out the maps of free pages (/repo/src/coff_writer.c 430–433, 454–457). -/
def pageNumbers (a b : Nat) : List Nat := ((List.range (b - a)).map (a + ·)).filter (fun p => !(p % 0x1000 = 1 || p % 0x1000 = 2))

/-- `stream_table_page_list` (/repo/src/coff_writer.c 428–435). -/
def pageList (ss : List (List Nat)) : List Nat := (pageNumbers (listEnd ss) (tableEnd ss)).flatMap u32

/-- `stream_table_stream` (/repo/src/coff_writer.c 437–459). -/
def table (ss : List (List Nat)) : List Nat :=
  u32 (ss.length + 1) ++ u32 0 ++ ss.flatMap (fun s => u32 s.length) ++ (pageNumbers (tableEnd ss) (amountOfPages ss)).flatMap u32

/-- "Microsoft C/C++ MSF 7.00\r\n\032DS\0\0\0" (/repo/src/coff_writer.c 508). -/
def signature : List Nat :=
  [77, 105, 99, 114, 111, 115, 111, 102, 116, 32, 67, 47, 67, 43, 43, 32, 77, 83, 70, 32, 55, 46, 48, 48, 13, 10, 26, 68, 83, 0, 0, 0]

/-- The header, with the numbers of the pages of the page list (/repo/src/coff_writer.c 461–521). -/
def header (ss : List (List Nat)) : List Nat :=
  let front := signature ++ u32 0x1000 ++ u32 1 ++ u32 (amountOfPages ss) ++ u32 (tableSize ss) ++ u32 0 ++
    (List.range (pages (listSize ss))).flatMap (fun i => u32 (3 + i))
  front ++ zeros (0x1000 - front.length)

/-- `buffer[byte_index] |= (u8)(1 << bit_index)` (/repo/src/coff_writer.c 567–572). -/
def setBit (buffer : List Nat) (i : Nat) : List Nat := buffer.set (i / 8) (buffer.getD (i / 8) 0 ||| 1 <<< (i % 8))

/-- The map of free pages number `k` (/repo/src/coff_writer.c 551–575). -/
def freePageMap (amount k : Nat) : List Nat :=
  if (k + 1) * 0x8000 ≤ amount then zeros 0x1000
  else if amount < k * 0x8000 then List.replicate 0x1000 0xff
  else (List.range ((k + 1) * 0x8000 - amount)).foldl (fun b i => setBit b (amount + i - k * 0x8000)) (zeros 0x1000)

/-- The file, `write_offset`, `next_free_page_maps` (/repo/src/coff_writer.c 530–533). -/
structure Writer where
  out : List Nat
  offset : Nat
  next : Nat

/-- Write two maps of free pages if it is time to (/repo/src/coff_writer.c 550–582). -/
def writeMaps (amount : Nat) (w : Writer) : Writer :=
  if w.offset = w.next then
    ⟨w.out ++ freePageMap amount (w.next / 0x1000 / 0x1000) ++ zeros 0x1000, w.offset + 0x2000, w.next + 0x1000 * 0x1000⟩
  else w

/-- The loop that writes a stream up to the next maps or its end, and fills the last page (/repo/src/coff_writer.c 547–602). -/
def writeStream (amount : Nat) (data : List Nat) : Nat → Nat → Writer → Writer
  | 0, _, w => w
  | fuel + 1, at_, w =>
    if at_ < data.length then
      let w := writeMaps amount w
      let size := min (data.length - at_) (w.next - w.offset)
      let fill := if size % 0x1000 = 0 then 0 else 0x1000 - size % 0x1000
      writeStream amount data fuel (at_ + (size + fill)) ⟨w.out ++ ((data.drop at_).take size ++ zeros fill), w.offset + (size + fill), w.next⟩
    else w

/-- `write_msf` (/repo/src/coff_writer.c 353–607): nothing is written if there is not enough space in the header. -/
def writeMsf (ss : List (List Nat)) : Option (List Nat) :=
  if pages (listSize ss) > (0x1000 - 52) / 4 then none
  else some ((pageList ss :: table ss :: ss).foldl (fun w s => writeStream (amountOfPages ss) s s.length 0 w) ⟨header ss, 0x1000, 0x1000⟩).out

end Verif.Model.Msf
