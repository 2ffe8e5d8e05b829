import Verif.Spec.PdbSymbols

/-!
# Specification: the table of names in PDB files

The stream `/names`: the numbers 0xeffeeffe and 1, the size of the strings, the strings, each with a zero byte at the end, the number of buckets, the buckets, the number of
names. A name is searched from the bucket of its hash on, the first bucket comes after the last one; a bucket has the offset of a string, or zero if it is
empty, which ends the search.
-/
namespace Verif.Spec.Names
open Verif.Spec.Image (byte number)
open Verif.Spec.PdbSymbols (untilZero)

def sizeOfStrings (s : List Nat) : Nat := number (byte s) 4 8
/-- The string at an offset. -/
def stringAt (s : List Nat) (o : Nat) : List Nat := untilZero ((s.drop (12 + o)).take (sizeOfStrings s - o))
def bucketCount (s : List Nat) : Nat := number (byte s) 4 (12 + sizeOfStrings s)
def bucket (s : List Nat) (i : Nat) : Nat := number (byte s) 4 (16 + sizeOfStrings s + 4 * i)
def nameCount (s : List Nat) : Nat := number (byte s) 4 (16 + sizeOfStrings s + 4 * bucketCount s)
def valid (s : List Nat) : Prop := number (byte s) 4 0 = 0xeffeeffe ∧ number (byte s) 4 4 = 1

/-- The search, from the `i`-th bucket on. -/
def searchFrom (s name : List Nat) : Nat → Nat → Option Nat
  | 0, _ => none
  | n + 1, i =>
    let o := bucket s (i % bucketCount s)
    if o = 0 then none else if stringAt s o = name then some o else searchFrom s name n (i + 1)

/-- The offset of a name. -/
def search (s name : List Nat) : Option Nat := searchFrom s name (bucketCount s) (Spec.PdbSymbols.hash name)

end Verif.Spec.Names
