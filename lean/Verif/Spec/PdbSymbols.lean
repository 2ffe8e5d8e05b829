import Verif.Spec.Image
import Verif.Spec.Leaf

/-!
# Specification: finding symbols in PDB files

How a debugger finds symbols by name and by address. One stream has the records of the symbols. A hash table refers to them by their offset: for every one of 4097 buckets
there is a bit that says if it has symbols; for those that have some, there is the position of the first reference, times 12, as the table
had 12 bytes per symbol in the memory of 32-bit programs. References are offsets plus one. The public symbols also have a list that is sorted by address.
-/
namespace Verif.Spec.PdbSymbols
open Verif.Spec.Image (byte number)

/-- The bytes up to the first zero. -/
def untilZero (bytes : List Nat) : List Nat := bytes.takeWhile (fun b => decide (b ≠ 0))

/-- The lane of a byte in the hash: words of four bytes; of the last up to three bytes, the third one is taken for the first lane again. -/
def lane (n i : Nat) : Nat := if i < n / 4 * 4 then i % 4 else i % 4 % 2

/-- The exclusive or of all bytes, in their lanes. -/
def mix (name : List Nat) : Nat := (List.range name.length).foldl (fun h i => h ^^^ (byte name i <<< (8 * lane name.length i))) 0

/-- The hash of a name: large and small letters are not distinguished. -/
def hash (name : List Nat) : Nat :=
  let h := mix name ||| 0x20202020
  let h := h ^^^ (h >>> 11)
  h ^^^ (h >>> 16)

/-- The kind of a record: 0x1125 and 0x1127 for functions, 0x110e for public symbols, 0x110c and 0x110d for objects, 0x1107 for constants, 0x1108 for types. -/
def kind (records : List Nat) (o : Nat) : Nat := number (byte records) 2 (o + 2)

/-- The numbers in a record: the first one, the second one, and a small one. -/
def first (records : List Nat) (o : Nat) : Nat := number (byte records) 4 (o + 4)
def second (records : List Nat) (o : Nat) : Nat := number (byte records) 4 (o + 8)
def third (records : List Nat) (o : Nat) : Nat := number (byte records) 2 (o + 12)

/-- The value of a constant. -/
def value (records : List Nat) (o : Nat) : Option Int := (Leaf.readLeaf (records.drop (o + 8))).map (·.1)

/-- The name of the symbol that a record is about. -/
def name (records : List Nat) (o : Nat) : Option (List Nat) :=
  if kind records o ∈ [0x1125, 0x1127, 0x110e, 0x110c, 0x110d] then some (untilZero (records.drop (o + 14)))
  else if kind records o = 0x1108 then some (untilZero (records.drop (o + 8)))
  else if kind records o = 0x1107 then (Leaf.readLeaf (records.drop (o + 8))).map (fun r => untilZero r.2)
  else none

/-- What a record says about its symbol: the kind; for functions, public symbols and objects the three numbers; for types the number of the type; for
constants the type and the value. -/
def describe (records : List Nat) (o : Nat) : List Int :=
  if kind records o ∈ [0x1125, 0x1127, 0x110e, 0x110c, 0x110d] then [(kind records o : Int), (first records o : Int), (second records o : Int), (third records o : Int)]
  else if kind records o = 0x1108 then [(kind records o : Int), (first records o : Int)]
  else if kind records o = 0x1107 then
    match value records o with
    | some v => [(kind records o : Int), (first records o : Int), v]
    | none => []
  else []

/-- The next record. -/
def next (records : List Nat) (o : Nat) : Nat := o + 2 + number (byte records) 2 o

/-- The positions of the records from `o` to the end. -/
inductive Walk (records : List Nat) : Nat → List Nat → Prop
  | done : Walk records records.length []
  | step {o : Nat} {rest : List Nat} : o < records.length → o % 4 = 0 → Walk records (next records o) rest → Walk records o (o :: rest)

/-! The hash table at the offset `a` of a stream. -/

def recordsSize (s : List Nat) (a : Nat) : Nat := number (byte s) 4 (a + 8)
def bitsAt (s : List Nat) (a : Nat) : Nat := a + 16 + recordsSize s a
def present (s : List Nat) (a i : Nat) : Bool := (byte s (bitsAt s a + i / 8)).testBit (i % 8)
/-- How many of the buckets before a bucket have symbols. -/
def rank (s : List Nat) (a i : Nat) : Nat := ((List.range i).filter (present s a)).length
def startsAt (s : List Nat) (a : Nat) : Nat := bitsAt s a + 4 * 129
/-- The size of the bits and starts. -/
def tailSize (s : List Nat) (a : Nat) : Nat := number (byte s) 4 (a + 12)
def startCount (s : List Nat) (a : Nat) : Nat := (tailSize s a - 4 * 129) / 4
/-- The first reference of the `k`-th bucket that has symbols, or the end. -/
def start (s : List Nat) (a k : Nat) : Nat := if k < startCount s a then number (byte s) 4 (startsAt s a + 4 * k) / 12 else recordsSize s a / 8
/-- A reference. -/
def reference (s : List Nat) (a i : Nat) : Nat := number (byte s) 4 (a + 16 + 8 * i) - 1

/-- The references of a bucket. -/
def bucket (s : List Nat) (a i : Nat) : List Nat :=
  if present s a i then
    (List.range (start s a (rank s a i + 1) - start s a (rank s a i))).map (fun j => reference s a (start s a (rank s a i) + j))
  else []

/-- All references. -/
def references (s : List Nat) (a : Nat) : List Nat := (List.range 4097).flatMap (bucket s a)

/-- The records of the symbols with a name. -/
def lookup (records s : List Nat) (a : Nat) (n : List Nat) : List Nat := (bucket s a (hash n % 4096)).filter (fun o => name records o = some n)

/-- The list of the public symbols, sorted by address: it follows the hash table, which is at 28. -/
def addressMap (s : List Nat) : List Nat := (List.range (number (byte s) 4 4 / 4)).map (fun i => number (byte s) 4 (28 + number (byte s) 4 0 + 4 * i))

end Verif.Spec.PdbSymbols
