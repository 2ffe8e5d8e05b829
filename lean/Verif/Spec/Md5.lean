import Mathlib.Analysis.Complex.Trigonometric
import Mathlib.Algebra.Order.Floor.Semiring

/-!
# Specification: MD5

The digest of a sequence of bytes, as RFC 1321 describes it in its sections 3.1 to 3.5.
-/
namespace Verif.Spec.Md5

abbrev Word := BitVec 32

/-- The bytes of a number, the lowest one first. -/
def bytes : Nat → Nat → List Nat
  | 0, _ => []
  | k + 1, v => v % 256 :: bytes k (v / 256)

/-- 3.1 and 3.2: the message is followed by a one bit and by as many zero bits as it takes for 64 bits to be missing to a multiple of 512; these are the number of bits of
the message, the low word first. -/
def padded (m : List Nat) : List Nat := m ++ [0x80] ++ List.replicate ((119 - m.length % 64) % 64) 0 ++ bytes 8 (8 * m.length)

/-- 3.3: the four words at the start. -/
def start : Word × Word × Word × Word := (0x67452301, 0xefcdab89, 0x98badcfe, 0x10325476)

/-- 3.4: the four functions. -/
def F (X Y Z : Word) : Word := (X &&& Y) ||| (~~~X &&& Z)
def G (X Y Z : Word) : Word := (X &&& Z) ||| (Y &&& ~~~Z)
def H (X Y Z : Word) : Word := X ^^^ Y ^^^ Z
def I (X Y Z : Word) : Word := Y ^^^ (X ||| ~~~Z)

/-- "Let T[i] denote the i-th element of the table, which is equal to the integer part of 4294967296 times abs(sin(i)), where i is in radians." -/
noncomputable def T (i : Nat) : Word := BitVec.ofNat 32 ⌊(2 : ℝ) ^ 32 * |Real.sin i|⌋₊

/-- The words of a block of 64 bytes. -/
def X (block : List Nat) (k : Nat) : Word :=
  BitVec.ofNat 32 (block.getD (4 * k) 0 + 256 * block.getD (4 * k + 1) 0 + 65536 * block.getD (4 * k + 2) 0 + 16777216 * block.getD (4 * k + 3) 0)

/-- "Let [abcd k s i] denote the operation a = b + ((a + F(b,c,d) + X[k] + T[i]) <<< s)." -/
noncomputable def op (f : Word → Word → Word → Word) (block : List Nat) (a b c d : Word) (ksi : Nat × Nat × Nat) : Word :=
  b + (a + f b c d + X block ksi.1 + T ksi.2.2).rotateLeft ksi.2.1

/-- A line of the description, [ABCD k s i] [DABC k s i] [CDAB k s i] [BCDA k s i], and the lines after it. -/
noncomputable def lines (f : Word → Word → Word → Word) (block : List Nat) :
    List ((Nat × Nat × Nat) × (Nat × Nat × Nat) × (Nat × Nat × Nat) × (Nat × Nat × Nat)) → Word × Word × Word × Word → Word × Word × Word × Word
  | [], s => s
  | (o₁, o₂, o₃, o₄) :: rest, (A, B, C, D) =>
    let A := op f block A B C D o₁
    let D := op f block D A B C o₂
    let C := op f block C D A B o₃
    let B := op f block B C D A o₄
    lines f block rest (A, B, C, D)

/-- The operations of the four rounds. -/
def round1 : List ((Nat × Nat × Nat) × (Nat × Nat × Nat) × (Nat × Nat × Nat) × (Nat × Nat × Nat)) :=
  [((0, 7, 1), (1, 12, 2), (2, 17, 3), (3, 22, 4)), ((4, 7, 5), (5, 12, 6), (6, 17, 7), (7, 22, 8)),
   ((8, 7, 9), (9, 12, 10), (10, 17, 11), (11, 22, 12)), ((12, 7, 13), (13, 12, 14), (14, 17, 15), (15, 22, 16))]
def round2 : List ((Nat × Nat × Nat) × (Nat × Nat × Nat) × (Nat × Nat × Nat) × (Nat × Nat × Nat)) :=
  [((1, 5, 17), (6, 9, 18), (11, 14, 19), (0, 20, 20)), ((5, 5, 21), (10, 9, 22), (15, 14, 23), (4, 20, 24)),
   ((9, 5, 25), (14, 9, 26), (3, 14, 27), (8, 20, 28)), ((13, 5, 29), (2, 9, 30), (7, 14, 31), (12, 20, 32))]
def round3 : List ((Nat × Nat × Nat) × (Nat × Nat × Nat) × (Nat × Nat × Nat) × (Nat × Nat × Nat)) :=
  [((5, 4, 33), (8, 11, 34), (11, 16, 35), (14, 23, 36)), ((1, 4, 37), (4, 11, 38), (7, 16, 39), (10, 23, 40)),
   ((13, 4, 41), (0, 11, 42), (3, 16, 43), (6, 23, 44)), ((9, 4, 45), (12, 11, 46), (15, 16, 47), (2, 23, 48))]
def round4 : List ((Nat × Nat × Nat) × (Nat × Nat × Nat) × (Nat × Nat × Nat) × (Nat × Nat × Nat)) :=
  [((0, 6, 49), (7, 10, 50), (14, 15, 51), (5, 21, 52)), ((12, 6, 53), (3, 10, 54), (10, 15, 55), (1, 21, 56)),
   ((8, 6, 57), (15, 10, 58), (6, 15, 59), (13, 21, 60)), ((4, 6, 61), (11, 10, 62), (2, 15, 63), (9, 21, 64))]

/-- What is done with a block: the four rounds, then the words from before are added. -/
noncomputable def block (b : List Nat) (s : Word × Word × Word × Word) : Word × Word × Word × Word :=
  let r := lines I b round4 (lines H b round3 (lines G b round2 (lines F b round1 s)))
  (s.1 + r.1, s.2.1 + r.2.1, s.2.2.1 + r.2.2.1, s.2.2.2 + r.2.2.2)

/-- The blocks, one after the other. -/
noncomputable def blocks : Nat → List Nat → Word × Word × Word × Word → Word × Word × Word × Word
  | 0, _, s => s
  | n + 1, m, s => blocks n (m.drop 64) (block (m.take 64) s)

/-- 3.5: the digest, the words A, B, C, D, the lowest byte first. -/
noncomputable def digest (m : List Nat) : List Nat :=
  let s := blocks ((padded m).length / 64) (padded m) start
  bytes 4 s.1.toNat ++ bytes 4 s.2.1.toNat ++ bytes 4 s.2.2.1.toNat ++ bytes 4 s.2.2.2.toNat

end Verif.Spec.Md5
