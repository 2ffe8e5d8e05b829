/-!
# Model: MD5

`hash_md5_inplace` (/repo/src/std.c 1862–1959). Memory is a list of bytes; a failing `assert` and an access behind the memory are `none`.
-/
namespace Verif.Model.Md5

/-- `shifts` (/repo/src/std.c 1875–1880). -/
def shifts : List Nat :=
  [7, 12, 17, 22, 7, 12, 17, 22, 7, 12, 17, 22, 7, 12, 17, 22,
   5,  9, 14, 20, 5,  9, 14, 20, 5,  9, 14, 20, 5,  9, 14, 20,
   4, 11, 16, 23, 4, 11, 16, 23, 4, 11, 16, 23, 4, 11, 16, 23,
   6, 10, 15, 21, 6, 10, 15, 21, 6, 10, 15, 21, 6, 10, 15, 21]

/-- `sines` (/repo/src/std.c 1883–1900). -/
def sines : List Nat :=
  [0xd76aa478, 0xe8c7b756, 0x242070db, 0xc1bdceee,
   0xf57c0faf, 0x4787c62a, 0xa8304613, 0xfd469501,
   0x698098d8, 0x8b44f7af, 0xffff5bb1, 0x895cd7be,
   0x6b901122, 0xfd987193, 0xa679438e, 0x49b40821,
   0xf61e2562, 0xc040b340, 0x265e5a51, 0xe9b6c7aa,
   0xd62f105d, 0x02441453, 0xd8a1e681, 0xe7d3fbc8,
   0x21e1cde6, 0xc33707d6, 0xf4d50d87, 0x455a14ed,
   0xa9e3e905, 0xfcefa3f8, 0x676f02d9, 0x8d2a4c8a,
   0xfffa3942, 0x8771f681, 0x6d9d6122, 0xfde5380c,
   0xa4beea44, 0x4bdecfa9, 0xf6bb4b60, 0xbebfbc70,
   0x289b7ec6, 0xeaa127fa, 0xd4ef3085, 0x04881d05,
   0xd9d4d039, 0xe6db99e5, 0x1fa27cf8, 0xc4ac5665,
   0xf4292244, 0x432aff97, 0xab9423a7, 0xfc93a039,
   0x655b59c3, 0x8f0ccc92, 0xffeff47d, 0x85845dd1,
   0x6fa87e4f, 0xfe2ce6e0, 0xa3014314, 0x4e0811a1,
   0xf7537e82, 0xbd3af235, 0x2ad7d2bb, 0xeb86d391]

/-- The four words (/repo/src/std.c 1902–1905). -/
structure Hash where
  h0 : BitVec 32
  h1 : BitVec 32
  h2 : BitVec 32
  h3 : BitVec 32
deriving DecidableEq

/-- The word `i` at the position `block` of the memory (/repo/src/std.c 1909–1910), on a machine that stores the lowest byte first. -/
def word (msg : List Nat) (block i : Nat) : BitVec 32 :=
  BitVec.ofNat 32 (msg.getD (block + 4 * i) 0 + 256 * msg.getD (block + 4 * i + 1) 0 + 65536 * msg.getD (block + 4 * i + 2) 0 +
    16777216 * msg.getD (block + 4 * i + 3) 0)

/-- The mix and the index of the word (/repo/src/std.c 1921–1933). -/
def mix (h : Hash) (i : Nat) : BitVec 32 × Nat :=
  if i < 16 then (h.h3 ^^^ (h.h1 &&& (h.h2 ^^^ h.h3)), i)
  else if i < 32 then (h.h2 ^^^ (h.h3 &&& (h.h1 ^^^ h.h2)), (5 * i + 1) &&& 15)
  else if i < 48 then (h.h1 ^^^ h.h2 ^^^ h.h3, (3 * i + 5) &&& 15)
  else (h.h2 ^^^ (h.h1 ||| ~~~h.h3), (7 * i) &&& 15)

/-- The body of the inner loop (/repo/src/std.c 1917–1943). -/
def step (msg : List Nat) (block : Nat) (h : Hash) (i : Nat) : Hash :=
  let (m, wordIndex) := mix h i
  let toRotate := h.h0 + m + BitVec.ofNat 32 (sines.getD i 0) + word msg block wordIndex
  let rotateBy := shifts.getD i 0
  ⟨h.h3, h.h1 + ((toRotate <<< rotateBy) ||| (toRotate >>> (32 - rotateBy))), h.h1, h.h2⟩

/-- The body of the outer loop (/repo/src/std.c 1908–1949). -/
def blockStep (msg : List Nat) (hash : Hash) (block : Nat) : Hash :=
  let b := (List.range 64).foldl (step msg block) hash
  ⟨hash.h0 + b.h0, hash.h1 + b.h1, hash.h2 + b.h2, hash.h3 + b.h3⟩

/-- Bytes of a number in memory, the lowest one first. -/
def le : Nat → Nat → List Nat
  | 0, _ => []
  | k + 1, v => v % 256 :: le k (v / 256)

/-- `align_up(x, 64)` (/repo/src/std.c 1864). -/
def alignUp64 (x : Nat) : Nat := (x + 63) / 64 * 64

/-- Write bytes at a position of the memory: `memset`, `memcpy` and assignments (/repo/src/std.c 1867–1871). -/
def write (msg : List Nat) (p : Nat) (b : List Nat) : List Nat := msg.take p ++ b ++ msg.drop (p + b.length)

/-- What the memory is after the preparation (/repo/src/std.c 1864–1871). -/
def prepare (msg : List Nat) (initialLength : Nat) : List Nat :=
  let length := alignUp64 (initialLength + 1 + 8)
  let msg := write msg initialLength (List.replicate (length - initialLength) 0)
  let msg := write msg initialLength [1 <<< 7]
  write msg (length - 8) (le 8 (8 * initialLength))

/-- `hash_md5_inplace` (/repo/src/std.c 1862–1958): the memory afterwards and the result. The loop over `block_it` runs `length / 64` times, as the length is a
multiple of 64. -/
def hashInplace (msg : List Nat) (initialLength maxLength : Nat) : Option (List Nat × Hash) :=
  let length := alignUp64 (initialLength + 1 + 8)
  if maxLength < length then none
  else if msg.length < length then none
  else
    let msg := prepare msg initialLength
    some (msg, (List.range (length / 64)).foldl (fun h j => blockStep msg h (64 * j)) ⟨0x67452301, 0xefcdab89, 0x98badcfe, 0x10325476⟩)

/-- The result as bytes: `md5._u8` (/repo/src/std.c 1953–1956, /repo/src/obj_writer.c 1033). -/
def Hash.bytes (h : Hash) : List Nat := le 4 h.h0.toNat ++ le 4 h.h1.toNat ++ le 4 h.h2.toNat ++ le 4 h.h3.toNat

end Verif.Model.Md5
