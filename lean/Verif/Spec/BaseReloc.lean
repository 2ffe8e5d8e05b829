/-!
# Specification: the table of base relocations of an executable

What the loader of Windows reads (PE format, "The .reloc Section"). The table is a sequence of blocks. Each block starts with the address of a page
(4 bytes) and the size of the block in bytes, including these two (4 bytes); then there are
entries of 2 bytes. The upper 4 bits of an entry are its kind: 0 is padding, 10 means that the 8 bytes
at the address of the page plus the lower 12 bits are an address.
-/
namespace Verif.Spec.BaseReloc

/-- A number of `n` bytes, the lowest byte first. -/
def number : Nat → List Nat → Nat
  | 0, _ => 0
  | _ + 1, [] => 0
  | n + 1, b :: bs => b + 256 * number n bs

/-- What the entries of a block say: the addresses to relocate, or `none` if there is an entry of another kind. -/
def entries (page : Nat) : List Nat → Option (List Nat)
  | lo :: hi :: rest =>
    let e := lo + 256 * hi
    match e / 4096, entries page rest with
    | 0, some l => some l
    | 10, some l => some ((page + e % 4096) :: l)
    | _, _ => none
  | [] => some []
  | _ => none

/-- The addresses in a table, in order; `none` if it is malformed. Blocks start at multiples of four bytes. -/
def table (bytes : List Nat) : Option (List Nat) :=
  if h : bytes = [] then some []
  else
    let page := number 4 bytes
    let size := number 4 (bytes.drop 4)
    if hs : 8 ≤ size ∧ size ≤ bytes.length ∧ size % 4 = 0 then
      match entries page ((bytes.take size).drop 8), table (bytes.drop size) with
      | some a, some b => some (a ++ b)
      | _, _ => none
    else none
termination_by bytes.length
decreasing_by
  have : bytes.length ≠ 0 := fun h0 => h (List.length_eq_zero_iff.1 h0)
  rw [List.length_drop]; omega

end Verif.Spec.BaseReloc
