import Verif.Spec.StringLit

/-!
# Model: string and character literals
(`src/preprocess.c:435-880`, `src/parse.c:4369-4473, 4674-4756`)

Strings are lists of bytes. `assert` is on, as in the development build; an assertion is the outcome `assertion`. An error
does not stop the conversion, it sets a flag.
-/
namespace Verif.StringLit
open Verif.Spec.StringLit (Enc)

/-- `parse_hex_string_to_u64`, `src/preprocess.c:435-465`: value, overflow, rest. The top four bits of the value are
nonzero exactly if it is at least `2^60`. -/
def parseHex : Nat → Bool → List Nat → Nat × Bool × List Nat
  | value, overflow, [] => (value, overflow, [])
  | value, overflow, c :: s =>
    if 57 ≥ c ∧ c ≥ 48 then parseHex ((value * 16 % 2 ^ 64 + (c - 48)) % 2 ^ 64) (overflow || 2 ^ 60 ≤ value) s
    else if 102 ≥ c ∧ c ≥ 97 then parseHex ((value * 16 % 2 ^ 64 + (c - 97 + 10)) % 2 ^ 64) (overflow || 2 ^ 60 ≤ value) s
    else if 70 ≥ c ∧ c ≥ 65 then parseHex ((value * 16 % 2 ^ 64 + (c - 65 + 10)) % 2 ^ 64) (overflow || 2 ^ 60 ≤ value) s
    else (value, overflow, c :: s)

/-- The loop over octal digits, `src/preprocess.c:499-506`. -/
def octal : Nat → Nat → List Nat → Nat × List Nat
  | 0, v, s => (v, s)
  | _ + 1, v, [] => (v, [])
  | k + 1, v, c :: s => if 48 ≤ c ∧ c ≤ 55 then octal k (8 * v + (c - 48)) s else (v, c :: s)

/-- `u8_is_hex_number`. -/
def isHex (c : Nat) : Bool := (48 ≤ c && c ≤ 57) || (97 ≤ c && c ≤ 102) || (65 ≤ c && c ≤ 70)

/-- What an escape sequence gives: code point, rest of the string, whether an error was reported. -/
structure Esc where
  value : Nat
  rest : List Nat
  error : Bool := false
deriving DecidableEq, Repr

/-- `case 'U': case 'u':`, `src/preprocess.c:538-560`. -/
def ucn (size : Nat) (s : List Nat) : Esc :=
  if s.length < size then ⟨0, [], true⟩
  else
    let r := parseHex 0 false (s.take size)
    ⟨r.1 % 2 ^ 32, s.drop size, r.2.2 ≠ []⟩

/-- `case 'x':`, `src/preprocess.c:518-536`. -/
def hex (max : Nat) (s : List Nat) : Esc :=
  if isHex (s.headD 0) = false then ⟨0, s, true⟩
  else
    let r := parseHex 0 false s
    ⟨r.1 % 2 ^ 32, r.2.2, r.2.1 || max < r.1⟩

/-- `eat_escape_from_string_and_return_codepoint`, `src/preprocess.c:468-567`; `none` is the assertion in line 470. -/
def escape (max : Nat) : List Nat → Option Esc
  | [] => none
  | c :: s =>
    match c with
    | 39 => some ⟨39, s, false⟩
    | 34 => some ⟨34, s, false⟩
    | 63 => some ⟨63, s, false⟩
    | 92 => some ⟨92, s, false⟩
    | 97 => some ⟨7, s, false⟩
    | 98 => some ⟨8, s, false⟩
    | 102 => some ⟨12, s, false⟩
    | 110 => some ⟨10, s, false⟩
    | 114 => some ⟨13, s, false⟩
    | 116 => some ⟨9, s, false⟩
    | 118 => some ⟨11, s, false⟩
    | 101 => some ⟨27, s, false⟩
    | 120 => some (hex max s)
    | 117 => some (ucn 4 s)
    | 85 => some (ucn 8 s)
    | c =>
      if 48 ≤ c ∧ c ≤ 55 then
        let r := octal 2 (c - 48) s
        some ⟨r.1, r.2, max < r.1⟩
      else some ⟨0, s, true⟩

/-- The number of ones from bit `b - 1` downwards, `src/preprocess.c:579-583`. -/
def ones (c : Nat) : Nat → Nat
  | 0 => 0
  | b + 1 => if c.testBit b then ones c b + 1 else 0

/-- The loop over continuation bytes, `src/preprocess.c:604-613`; `none` is the error in line 608. -/
def continuation : Nat → Nat → List Nat → Option (Nat × List Nat)
  | 0, cp, s => some (cp, s)
  | _ + 1, _, [] => none
  | k + 1, cp, c :: s =>
    if c &&& 192 ≠ 128 then none else continuation k (cp ||| 2 ^ (6 * k) * (c &&& 63) % 2 ^ 32) s

/-- `utf8_read_codepoint`, `src/preprocess.c:570-616`, of a string that starts with `c`; `none` is the shift by more than 31
bits in line 599. -/
def readCodepoint (c : Nat) (s : List Nat) : Option Esc :=
  if c &&& 128 ≠ 128 then some ⟨c, s, false⟩
  else
    let size := ones c 7
    if size > s.length then some ⟨0, s, true⟩
    else if 6 * size ≥ 32 then none
    else
      match continuation size (2 ^ (6 * size) * (c &&& (2 ^ (8 - (size + 1)) - 1)) % 2 ^ 32) s with
      | some (cp, s') => some ⟨cp, s', false⟩
      | none => some ⟨0, s, true⟩

/-- `string_eat_newline`, `src/std.c:1088-1104`. -/
def eatNewline : List Nat → Option (List Nat)
  | 10 :: s => some s
  | 13 :: 10 :: s => some s
  | 13 :: s => some s
  | _ => none

/-- `utf8_bytes`, `src/preprocess.c:733-742`. -/
def trailingBytes (bitSize : Nat) : Nat :=
  if bitSize / 6 + 1 + 1 + bitSize % 6 > 8 then bitSize / 6 + 1 else bitSize / 6

/-- Encoding of `\u` and `\U` as UTF-8, `src/preprocess.c:724-769`; `none` is the shift by more than 31 bits in line 761. -/
def encodeUtf8 (cp : Nat) : Option (List Nat) :=
  if cp < 128 then some [cp]
  else
    let n := trailingBytes (Nat.log2 cp + 1)
    let mask := (2 ^ (n + 1) - 1) <<< (8 - (n + 1)) % 256
    if 6 * n ≥ 32 then none
    else some ((mask ||| cp >>> (6 * n)) % 256 :: (List.range n).map (fun i => 128 ||| (cp >>> (6 * (n - 1 - i)) &&& 63)))

/-- Encoding as UTF-16, `src/preprocess.c:789-803` and 827-841: the units and whether an error was reported; `none` is the
assertion. -/
def encodeUtf16 (cp : Nat) : Option (List Nat × Bool) :=
  let error := decide (0xD800 ≤ cp ∧ cp < 0xE000)
  if cp < 0x10000 then some ([cp], error)
  else if cp - 0x10000 < 0x100000 then
    some ([0xD800 ||| ((cp - 0x10000) >>> 10 &&& 1023), 0xDD00 ||| ((cp - 0x10000) &&& 1023)], error)
  else none

/-- One iteration of `while(to_escape.size)`. -/
inductive Step where
  | out (units : List Nat) (rest : List Nat) (error : Bool)
  /-- The string ends in a backslash: the character after it is read, and an assertion fails. -/
  | pastEnd
  | assertion
  | ub
deriving DecidableEq, Repr

/-- `src/preprocess.c:698-708`, 786-805 and 858-862. -/
def stepChar (k : Enc) (c : Nat) (s : List Nat) : Step :=
  match k with
  | .utf8 => .out [c] s false
  | .utf16 =>
    match readCodepoint c s with
    | none => .ub
    | some e =>
      match encodeUtf16 e.value with
      | none => .assertion
      | some (us, err) => .out us e.rest (e.error || err)
  | .utf32 =>
    match readCodepoint c s with
    | none => .ub
    | some e => .out [e.value] e.rest e.error

/-- `needs_encoding`, `src/preprocess.c:719`. -/
def needsEncoding (s : List Nat) : Bool := s.headD 0 ||| 32 == 117

/-- `src/preprocess.c:710-775`, 807-846 and 864-870. -/
def stepEscape (k : Enc) (s : List Nat) : Step :=
  match eatNewline s with
  | some s' => .out [] s' false
  | none =>
    match k with
    | .utf8 =>
      match escape 0xff s with
      | none => .pastEnd
      | some e =>
        if needsEncoding s = true then
          match encodeUtf8 e.value with
          | none => .ub
          | some us => .out us e.rest e.error
        else .out [e.value % 256] e.rest e.error
    | .utf16 =>
      match escape 0xffff s with
      | none => .pastEnd
      | some e =>
        if needsEncoding s = true then
          match encodeUtf16 e.value with
          | none => .assertion
          | some (us, err) => .out us e.rest (e.error || err)
        else .out [e.value % 65536] e.rest e.error
    | .utf32 =>
      match escape 0xffffffff s with
      | none => .pastEnd
      | some e => .out [e.value] e.rest e.error

def step (k : Enc) : List Nat → Step
  | [] => .out [] [] false
  | c :: s => if c ≠ 92 then stepChar k c s else stepEscape k s

/-- How a conversion ends. -/
inductive Outcome where
  | ok (units : List Nat) (error : Bool)
  /-- A string ended in a backslash; whether an error was reported before. -/
  | pastEnd (error : Bool)
  | assertion
  | ub
  /-- A write behind the buffer. -/
  | overrun
  /-- The loop is still running. -/
  | running
deriving DecidableEq, Repr

/-- The loop over one string, with a buffer for `size` units (`handle_escaping_out`). -/
def run (k : Enc) (size : Nat) : Nat → List Nat → Bool → List Nat → Outcome
  | _, out, error, [] => .ok out error
  | 0, _, _, _ => .running
  | fuel + 1, out, error, s =>
    match step k s with
    | .out us rest e =>
      if out.length + us.length > size then .overrun else run k size fuel (out ++ us) (error || e) rest
    | .pastEnd => .pastEnd error
    | .assertion => .assertion
    | .ub => .ub

/-- The loop over the strings; each string needs at most one iteration per byte (`C04_in_bounds`). -/
def runAll (k : Enc) (size : Nat) : List Nat → Bool → List (List Nat) → Outcome
  | out, error, [] => .ok out error
  | out, error, s :: strings =>
    match run k size s.length out error s with
    | .ok out' error' => runAll k size out' error' strings
    | o => o

/-- `escape_and_convert_string_array`, `src/preprocess.c:650-880`, with the `total_characters` computed in
`src/parse.c:4698, 4731`. -/
def convert (k : Enc) (strings : List (List Nat)) : Outcome :=
  runAll k (strings.map List.length).sum [] false strings

/-- `string_prefix_to_kind`, `src/preprocess.c:619-643`; `none` is `STRING_KIND_invalid`. -/
def prefixToKind : List Nat → Option Enc
  | [] => some .utf8
  | [76] => some .utf16
  | [117] => some .utf16
  | [85] => some .utf32
  | [117, 56] => some .utf8
  | [117, 49, 54] => some .utf16
  | [117, 51, 50] => some .utf32
  | _ => none

/-- `eat_until_char` and `strip_quotes`, `src/std.c:1236-1246, 1332-1338`: the kind and the string between the quotes. -/
def stripToken (delimiter : Nat) (token : List Nat) : Option Enc × List Nat :=
  (prefixToKind (token.takeWhile (· ≠ delimiter)), (token.dropWhile (· ≠ delimiter)).tail.dropLast)

/-- `if(string_kind > composed_string_kind)`, `src/parse.c:4724`; kinds are element sizes. -/
def composed : Option Enc → Option Enc → Option Enc
  | none, b => b
  | some a, none => some a
  | some a, some b => if b.size > a.size then some b else some a

/-- `case TOKEN_string_literal:`, `src/parse.c:4674-4756`: the kind, the number of elements of the array (with the
terminator) and the elements. -/
def literal (tokens : List (List Nat)) : Option (Enc × Outcome) :=
  let parts := tokens.map (stripToken 34)
  match parts.foldl (fun k p => composed k p.1) none with
  | none => none
  | some k => some (k, convert k (parts.map Prod.snd))

end Verif.StringLit
