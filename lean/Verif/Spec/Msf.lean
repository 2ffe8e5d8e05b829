import Verif.Spec.Image

/-!
# Specification: multistream files

The format of PDB files, as debuggers read it. The file is a sequence of pages. The first page has the size of a page, the number of pages, and the number of
the map of free pages that counts. A table says of which pages every stream consists. The table is spread over pages as well: their numbers are in a list, and the
list is spread over pages, whose numbers are in the first page.
-/
namespace Verif.Spec.Msf
open Verif.Spec.Image (byte number)

def pageSize (file : List Nat) : Nat := number (byte file) 4 32
def activeMap (file : List Nat) : Nat := number (byte file) 4 36
def pageCount (file : List Nat) : Nat := number (byte file) 4 40
def tableSize (file : List Nat) : Nat := number (byte file) 4 44

/-- How many pages are needed for some bytes. -/
def pagesFor (file : List Nat) (size : Nat) : Nat := (size + pageSize file - 1) / pageSize file

/-- The bytes that are spread over the pages with these numbers. -/
def inPages (file : List Nat) (page : Nat → Nat) (o : Nat) : Nat := byte file (page (o / pageSize file) * pageSize file + o % pageSize file)

/-- The pages of the list, of the table, and the table. -/
def listPage (file : List Nat) (i : Nat) : Nat := number (byte file) 4 (52 + 4 * i)
def tablePage (file : List Nat) (i : Nat) : Nat := number (inPages file (listPage file)) 4 (4 * i)
def table (file : List Nat) : Nat → Nat := inPages file (tablePage file)

/-- The table: the number of streams, their sizes, their pages. -/
def streamCount (file : List Nat) : Nat := number (table file) 4 0
def streamSize (file : List Nat) (s : Nat) : Nat := number (table file) 4 (4 * (1 + s))
def pagesBefore (file : List Nat) (s : Nat) : Nat := ((List.range s).map (fun t => pagesFor file (streamSize file t))).sum
def streamPage (file : List Nat) (s i : Nat) : Nat := number (table file) 4 (4 * (1 + streamCount file + pagesBefore file s + i))

/-- The bytes of a stream. -/
def stream (file : List Nat) (s : Nat) : List Nat := (List.range (streamSize file s)).map (inPages file (streamPage file s))

/-- Pages that are maps of free pages: the pages 1 and 2, and from there on every `pageSize` pages. -/
def isMap (file : List Nat) (p : Nat) : Bool := p % pageSize file = 1 || p % pageSize file = 2

/-- The bits of the active map say which pages are free. -/
def isFree (file : List Nat) (p : Nat) : Bool :=
  (byte file ((activeMap file + p / 8 / pageSize file * pageSize file) * pageSize file + p / 8 % pageSize file)).testBit (p % 8)

/-- All pages with a purpose. -/
def usedPages (file : List Nat) : List Nat :=
  [0] ++ (List.range (pageCount file)).filter (isMap file) ++ (List.range (pagesFor file (4 * pagesFor file (tableSize file)))).map (listPage file) ++
    (List.range (pagesFor file (tableSize file))).map (tablePage file) ++
    (List.range (streamCount file)).flatMap (fun s => (List.range (pagesFor file (streamSize file s))).map (streamPage file s))

end Verif.Spec.Msf
