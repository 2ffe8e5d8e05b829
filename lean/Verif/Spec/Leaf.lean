/-!
# Specification: reading a CodeView numeric leaf

As a debugger does: a 16-bit little-endian number below 0x8000 is the value itself, otherwise it says how many bytes
follow and whether they are signed.
-/
namespace Verif.Spec.Leaf

/-- The number with the given bytes, least significant first. -/
def fromLe : List Nat → Nat
  | [] => 0
  | b :: bs => b + 256 * fromLe bs

/-- Two's complement of `n` bytes. -/
def signed (n : Nat) (v : Nat) : Int := if v < 2 ^ (8 * n - 1) then v else (v : Int) - 2 ^ (8 * n)

/-- The kinds of integer leaves: number of bytes and whether signed (LF_CHAR, LF_SHORT, LF_USHORT, LF_LONG, LF_ULONG,
LF_QUADWORD, LF_UQUADWORD). -/
def kind (tag : Nat) : Option (Nat × Bool) :=
  if tag = 0x8000 then some (1, true)
  else if tag = 0x8001 then some (2, true)
  else if tag = 0x8002 then some (2, false)
  else if tag = 0x8003 then some (4, true)
  else if tag = 0x8004 then some (4, false)
  else if tag = 0x8009 then some (8, true)
  else if tag = 0x800a then some (8, false)
  else none

/-- The value and the rest of the bytes. -/
def readLeaf (bs : List Nat) : Option (Int × List Nat) :=
  let tag := fromLe (bs.take 2)
  if bs.length < 2 then none
  else if tag < 0x8000 then some (tag, bs.drop 2)
  else match kind tag with
    | none => none
    | some (n, isSigned) =>
      let v := fromLe ((bs.drop 2).take n)
      if bs.length < 2 + n then none
      else some (if isSigned then signed n v else v, bs.drop (2 + n))

end Verif.Spec.Leaf
