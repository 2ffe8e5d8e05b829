import Verif.Model.ToU64

/-!
# Model: reading import libraries (`src/ar.c:21-227`, `263-400`, `src/explain.c:312-440`)

A file is the list of its bytes, a pointer into it is an offset. A read of a byte behind the file
is the outcome `oob` (the buffer has one byte more, the zero terminator of
`load_file_into_arena`, `src/std.c:1780-1787`, which is not part of the file).

Simplifications: messages are not modelled (`error` is `return 1`, a library that is skipped with a
warning is `none`); the string table is the list of its strings instead of pointers into the file;
the unaligned reads of `u32` and `u16` are reads of bytes.
-/
namespace Verif.Archive

/-- The result of code that reads the file. -/
inductive Res (α : Type)
  | ok (a : α)
  | error
  | oob
deriving DecidableEq, Repr

/-- Sequencing. -/
def Res.bind {α β : Type} : Res α → (α → Res β) → Res β
  | .ok a, k => k a
  | .error, _ => .error
  | .oob, _ => .oob

/-- One byte. -/
def byteAt (f : List Nat) (i : Nat) : Res Nat :=
  match f[i]? with
  | some b => .ok b
  | none => .oob

/-- An array of bytes in a `struct ar_file_header`. -/
def bytesAt (f : List Nat) (i n : Nat) : Res (List Nat) :=
  if i + n ≤ f.length then .ok ((f.drop i).take n) else .oob

/-- `*(u16 *)p`. -/
def u16At (f : List Nat) (i : Nat) : Res Nat :=
  (byteAt f i).bind fun a => (byteAt f (i + 1)).bind fun b => .ok (a + 256 * b)

/-- `*(u32 *)p`. -/
def u32At (f : List Nat) (i : Nat) : Res Nat :=
  (u16At f i).bind fun a => (u16At f (i + 2)).bind fun b => .ok (a + 65536 * b)

/-- `string_from_cstring`, `src/std.c:1254-1260`. -/
def cstring (f : List Nat) (i : Nat) : Res (List Nat) :=
  if h : i < f.length then
    if f[i] = 0 then .ok [] else (cstring f (i + 1)).bind fun s => .ok (f[i] :: s)
  else .oob
termination_by f.length - i

/-- `string_strip_whitespace`, `src/std.c:1187-1199`. -/
def strip (s : List Nat) : List Nat :=
  ((s.reverse.dropWhile (· == 32)).reverse).dropWhile (· == 32)

/-- `string_compare_lexically`, `src/std.c:1128-1138`: negative, zero or positive. -/
def compareLex : List Nat → List Nat → Int
  | [], [] => 0
  | [], _ :: _ => -1
  | _ :: _, [] => 1
  | a :: as, b :: bs => if a < b then -1 else if a > b then 1 else compareLex as bs

/-- The field `file_size_in_bytes` of the header at `p`, `src/ar.c:91-94`, `363-365`. -/
def sizeField (f : List Nat) (p : Nat) : Res (Option Nat) :=
  (bytesAt f (p + 48) 10).bind fun s => .ok (ToU64.stringToU64 (strip s))

/-- The loop over the first headers, `src/ar.c:86-128`. `le` is the base and the size of the
little-endian index. -/
def scan (f : List Nat) (idx p : Nat) (le : Option (Nat × Nat)) : Res (Option (Nat × Nat)) :=
  if _h : p + 60 ≤ f.length then
    (bytesAt f p 16).bind fun ident =>
    (sizeField f p).bind fun sz =>
    match sz with
    | none => .error
    | some size =>
      if size > f.length ∨ p + 60 + size > f.length then .error
      else if idx = 0 ∧ strip ident = [47] then scan f (idx + 1) (p + 60 + (size + size % 2)) le
      else if idx = 1 ∧ strip ident = [47] then scan f (idx + 1) (p + 60 + (size + size % 2)) (some (p + 60, size))
      else .ok le
  else .ok le
termination_by f.length - p

/-- The loop over the string buffer, `src/ar.c:193-200`. -/
def strings (f : List Nat) (it stop : Nat) : Res (List (List Nat)) :=
  if _h : it < stop then
    (cstring f it).bind fun s =>
    (strings f (it + (s.length + 1)) stop).bind fun rest => .ok (s :: rest)
  else .ok []
termination_by stop - it

/-- `struct library_node`, `src/main.c:295-312`. -/
structure Library where
  members : Nat
  memberOffsets : Nat
  symbols : Nat
  symbolMemberIndices : Nat
  names : List (List Nat)
deriving DecidableEq, Repr

/-- `!<arch>\n`. -/
def magic : List Nat := [33, 60, 97, 114, 99, 104, 62, 10]

/-- The part of `ar_parse_file` after the headers, `src/ar.c:150-226`. -/
def parseIndex (f : List Nat) (base size : Nat) : Res (Option Library) :=
  if size < 4 then .error
  else
    (byteAt f (base + size - 1)).bind fun last =>
    if last ≠ 0 then .error
    else
      (u32At f base).bind fun members =>
      if base + 4 + 4 * (members + 1) > base + size then .error
      else
        (u32At f (base + 4 + 4 * members)).bind fun symbols =>
        if symbols = 0 then .ok none
        else
          let indices := base + 4 + 4 * members + 4
          if indices + 2 * symbols ≥ base + size then .error
          else
            (strings f (indices + 2 * symbols) (base + size)).bind fun names =>
            if names.length ≠ symbols then .error
            else .ok (some ⟨members, base + 4, symbols, indices, names⟩)

/-- `ar_parse_file`, `src/ar.c:21-227`. -/
def parse (f : List Nat) : Res (Option Library) :=
  if f.length < 8 ∨ f.take 8 ≠ magic then .error
  else if f.length = 8 then .ok none
  else
    (scan f 0 8 none).bind fun le =>
    match le with
    | none => .error
    | some (base, size) => parseIndex f base size

/-- The binary search, `src/ar.c:286-304`. -/
def bsearch (names : List (List Nat)) (name : List Nat) (min max : Int) : Option Nat :=
  if _h : max - min ≥ 0 then
    let mid := min + (max - min) / 2
    let c := compareLex name (names.getD mid.toNat [])
    if c = 0 then some mid.toNat
    else if c < 0 then bsearch names name min (mid - 1)
    else bsearch names name (mid + 1) max
  else none
termination_by (max + 1 - min).toNat
decreasing_by all_goals omega

/-- `enum ar_symbol_lookup_result` with the header it found and the size of the member. -/
inductive Found
  | failed
  | importHeader (at_ size : Nat)
  | objectFile (at_ size : Nat)
deriving DecidableEq, Repr

/-- The part of `ar_lookup_symbol` that looks at the member, `src/ar.c:352-400`. -/
def lookupMember (f : List Nat) (name : List Nat) (off : Nat) : Res Found :=
  if off + 60 > f.length then .ok .failed
  else
    (sizeField f off).bind fun sz =>
    match sz with
    | none => .ok .failed
    | some size =>
      if size > f.length ∨ off + size > f.length then .ok .failed
      else if size < 20 then .ok .failed
      else
        (u16At f (off + 60)).bind fun sig1 =>
        (u16At f (off + 62)).bind fun sig2 =>
        if sig1 = 0 ∧ sig2 = 65535 then
          if size ≤ 20 + name.length + 1 then .ok .failed
          else
            (byteAt f (off + 60 + (size - 1))).bind fun last =>
            if last ≠ 0 then .ok .failed else .ok (.importHeader (off + 60) size)
        else .ok (.objectFile (off + 60) size)

/-- `ar_lookup_symbol`, `src/ar.c:263-400`. -/
def lookup (f : List Nat) (lib : Library) (name : List Nat) : Res Found :=
  match bsearch lib.names name 0 ((lib.names.length : Int) - 1) with
  | none => .ok .failed
  | some i =>
    (u16At f (lib.symbolMemberIndices + 2 * i)).bind fun k =>
    if k = 0 ∨ k > lib.members then .ok .failed
    else
      (u32At f (lib.memberOffsets + 4 * (k - 1))).bind fun off =>
      lookupMember f name off

/-- `struct dll_import_node` and the name of its dll. -/
structure Import where
  dll : List Nat
  name : List Nat
  hint : Nat
  byOrdinal : Bool
deriving DecidableEq, Repr

/-- What is made of the import header at `p`, `src/explain.c:415-439`. `name_type` are the bits
2 to 4 of the last field. -/
def importOf (f : List Nat) (p : Nat) (name : List Nat) : Res Import :=
  (cstring f (p + 20 + (name.length + 1))).bind fun dll =>
  (u16At f (p + 16)).bind fun hint =>
  (u16At f (p + 18)).bind fun flags =>
  .ok ⟨dll, name, hint, flags / 4 % 8 = 0⟩

/-- What one library has for a name: the loop body of `src/explain.c:335-352` looks at nothing
else. -/
inductive Kind
  | none
  | imported (i : Nat)
  | object
deriving DecidableEq, Repr

/-- The loop over the libraries, `src/explain.c:335-352`: the import header that was found, whether
a library with an object file was seen, and whether that object file is used. -/
def search (dllimport : Bool) : List Kind → Bool → Option Nat × Bool × Bool
  | [], seen => (none, seen, false)
  | .none :: ks, seen => search dllimport ks seen
  | .imported i :: _, seen => (some i, seen, false)
  | .object :: ks, _ => if dllimport then search dllimport ks true else (none, true, true)

/-- How the declaration is resolved, `src/explain.c:369-414`. -/
inductive Outcome
  | undefined
  | static
  | importedButStatic
  | imported (i : Nat) (name : List Nat) (warn : Bool)
deriving DecidableEq, Repr

/-- `lookup_declaration_in_libraries` for a function, `src/explain.c:312-414`. `kinds` says what
the libraries have for a name, `alts` are the `/ALTERNATENAME`s. The loop need not end, `fuel` is
the number of turns that are made; `none` is that it has not ended by then. -/
def resolve (kinds : List Nat → List Kind) (alts : List (List Nat × List Nat)) (dllimport : Bool) :
    Nat → List Nat → Option Outcome
  | 0, _ => none
  | fuel + 1, name =>
    match search dllimport (kinds name) false with
    | (some i, seen, _) => some (.imported i name seen)
    | (none, true, true) => some .static
    | (none, true, false) => some .importedButStatic
    | (none, false, _) =>
      match alts.find? (fun a => a.1 == name) with
      | some a => resolve kinds alts dllimport fuel a.2
      | none => some .undefined

end Verif.Archive
