import Verif.Spec.ToU64

/-!
# Specification: import libraries

The archive format of the PE specification: a signature, then members with a header of 60 bytes.
The second member is an index of the symbols, sorted by name. A member that describes an import is
a header of 20 bytes, the name of the symbol and the name of the dll.
-/
namespace Verif.Spec.Archive

open Verif.Spec.ToU64

/-- Two bytes, least significant first. -/
def le16 (n : Nat) : List Nat := [n % 256, n / 256 % 256]

/-- Four bytes, least significant first. -/
def le32 (n : Nat) : List Nat := [n % 256, n / 256 % 256, n / 65536 % 256, n / 16777216 % 256]

/-- The header of a member of `n` bytes named `ident`: the name is 16 bytes, padded with blanks,
then come 32 bytes that do not matter here, the size is a decimal number of 10 bytes padded with
blanks, then two characters. -/
def Header (ident : List Nat) (n : Nat) (h : List Nat) : Prop :=
  ∃ other digits ending, other.length = 32 ∧ ending.length = 2 ∧ ident.length ≤ 16 ∧ digits.length ≤ 10 ∧
    IsDecimal digits ∧ value 10 (digits.map (· - 48)) = n ∧
    h = ident ++ List.replicate (16 - ident.length) 32 ++ other ++
      (digits ++ List.replicate (10 - digits.length) 32) ++ ending

/-- At `off` there is a member with this name and these contents. -/
def Member (file : List Nat) (off : Nat) (ident data : List Nat) : Prop :=
  ∃ h rest, Header ident data.length h ∧ file.drop off = h ++ data ++ rest

/-- Members start at even offsets. -/
def next (off n : Nat) : Nat := off + 60 + n + n % 2

/-- `s` comes before `t` in a dictionary. -/
inductive Before : List Nat → List Nat → Prop
  | nil {c cs} : Before [] (c :: cs)
  | head {c d cs ds} : c < d → Before (c :: cs) (d :: ds)
  | tail {c cs ds} : Before cs ds → Before (c :: cs) (c :: ds)

/-- The contents of the second member: the offsets of the members and, for every symbol in the order
of the names, the number of its member (counted from 1) and its name. -/
def index (offs : List Nat) (syms : List (List Nat × Nat)) : List Nat :=
  le32 offs.length ++ offs.flatMap le32 ++ le32 syms.length ++ syms.flatMap (fun s => le16 s.2) ++
    syms.flatMap (fun s => s.1 ++ [0])

/-- A library with these members and symbols. Behind the two indexes there is another member or
nothing. -/
structure IsLibrary (file offs : List Nat) (syms : List (List Nat × Nat)) : Prop where
  signature : file.take 8 = [33, 60, 97, 114, 99, 104, 62, 10]
  indexes : ∃ first, Member file 8 [47] first ∧ Member file (next 8 first.length) [47] (index offs syms) ∧
    (file.length < next (next 8 first.length) (index offs syms).length + 60 ∨
      ∃ ident data, Member file (next (next 8 first.length) (index offs syms).length) ident data)
  nonempty : syms ≠ []
  offsets : ∀ o ∈ offs, o < 2^32
  small : offs.length < 2^16 ∧ syms.length < 2^32
  numbered : ∀ s ∈ syms, 1 ≤ s.2 ∧ s.2 ≤ offs.length
  names : ∀ s ∈ syms, 0 ∉ s.1
  sorted : syms.Pairwise (fun s t => Before s.1 t.1)

/-- The contents of a member that says that `name` is imported from `dll`. `kind` is 0 for code, 1
for data and 2 for constants, `nameType` is 0 if the dll exports the symbol by the number `hint`
only. -/
def importMember (version machine stamp : List Nat) (name dll : List Nat) (hint kind nameType reserved : Nat) : List Nat :=
  [0, 0, 255, 255] ++ version ++ machine ++ stamp ++ le32 (name.length + 1 + (dll.length + 1)) ++ le16 hint ++
    le16 (kind + 4 * nameType + 32 * reserved) ++ name ++ [0] ++ dll ++ [0]

/-- A member that is not an import but an object file. -/
def IsObject (data : List Nat) : Prop :=
  20 ≤ data.length ∧ data.take 4 ≠ [0, 0, 255, 255]

end Verif.Spec.Archive
