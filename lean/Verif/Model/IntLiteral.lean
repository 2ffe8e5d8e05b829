/-!
# Model: integer literals

Models the digit loops and the suffix parser of `src/preprocess.c` and the
choice of a type for an integer literal in `src/parse.c`.

Simplifications: a token is its list of bytes. A `u64` is a `Nat` with an
explicit `% 2^64` after each operation that may wrap. Reports are returned as
Boolean flags. `u32` subtraction `c - '0'` is `(c + 2^32 - 48) % 2^32`, which is
how the C expression wraps for bytes below `'0'`.
-/
namespace Verif.IntLiteral

/-- `enum number_kind`, `src/preprocess.c:911-936`, integer kinds only. -/
inductive NumberKind
  | invalid | int | unsigned | long | unsignedLong | longLong | unsignedLongLong
  | s8 | s16 | s32 | s64 | u8 | u16 | u32 | u64
deriving DecidableEq, Repr

/-- Result of the literal parsers: `struct parsed_integer`
(`src/preprocess.c:910-937`) and whether the "Compile time overflow." warning
was reported. -/
structure Parsed where
  value : Nat
  overflow : Bool
  kind : NumberKind
deriving DecidableEq, Repr

/-- `data[i] - '0'` as `u32`. -/
def subZero (c : UInt8) : Nat := (c.toNat + 2^32 - 48) % 2^32

/-- `c | 32`, used by `string_match_case_insensitive`, `src/std.c:1038-1046`. -/
def lower (c : UInt8) : UInt8 := c ||| 32

/-- `string_match_case_insensitive`, `src/std.c:1038-1046`: equal length and
equal bytes after `| 32`. -/
def matchCI (a b : List UInt8) : Bool := a.map lower == b.map lower

/-- Bytes of an ASCII string. -/
def str (s : String) : List UInt8 := s.toList.map (fun c => UInt8.ofNat c.toNat)

/-- `parse_integer_suffix`, `src/preprocess.c:939-971`. -/
def parseIntegerSuffix (s : List UInt8) : NumberKind :=
  match s.length with
  | 0 => .int
  | 1 => if matchCI s (str "u") then .unsigned else if matchCI s (str "l") then .long else .invalid
  | 2 => if matchCI s (str "ul") then .unsignedLong else if matchCI s (str "lu") then .unsignedLong
         else if matchCI s (str "ll") then .longLong else if matchCI s (str "i8") then .s8 else .invalid
  | 3 => if matchCI s (str "i16") then .s16 else if matchCI s (str "i32") then .s32
         else if matchCI s (str "i64") then .s64 else if matchCI s (str "ui8") then .u8
         else if matchCI s (str "ull") then .unsignedLongLong
         else if matchCI s (str "llu") then .unsignedLongLong else .invalid
  | 4 => if matchCI s (str "ui16") then .u16 else if matchCI s (str "ui32") then .u32
         else if matchCI s (str "ui64") then .u64 else .invalid
  | _ => .invalid

/-- The loop of `parse_base10_literal`, `src/preprocess.c:983-999`.
`val`/`ov` are the loop variables; the result also has the remaining bytes (the
suffix). -/
def base10Loop : List UInt8 → Nat → Bool → Nat × Bool × List UInt8
  | [], val, ov => (val, ov, [])
  | c :: cs, val, ov =>
    if c == 39 then base10Loop cs val ov
    else
      let number := subZero c
      if number > 9 then (val, ov, c :: cs)
      else
        let ov := ov || decide ((val / 2^32) * 10 > 2^32 - 1)
        let val := (val * 10) % 2^64
        let newVal := (val + number) % 2^64
        base10Loop cs newVal (ov || decide (newVal < val))

/-- `parse_base10_literal`, `src/preprocess.c:976-1012`. -/
def parseBase10 (tok : List UInt8) : Parsed :=
  let r := base10Loop tok 0 false
  { value := r.1, overflow := r.2.1, kind := parseIntegerSuffix r.2.2 }

/-- The loop of `parse_binary_literal`, `src/preprocess.c:1059-1070`. -/
def binaryLoop : List UInt8 → Nat → Bool → Nat × Bool × List UInt8
  | [], val, ov => (val, ov, [])
  | c :: cs, val, ov =>
    if c == 39 then binaryLoop cs val ov
    else
      let bin := subZero c
      if bin > 1 then (val, ov, c :: cs)
      else binaryLoop cs (((val <<< 1) % 2^64) ||| bin) (ov || (val &&& 0x8000000000000000 != 0))

/-- `parse_binary_literal`, `src/preprocess.c:1046-1086`. The "Incomplete binary
literal" error for the token `0b` is not modelled here. -/
def parseBinary (tok : List UInt8) : Parsed :=
  let r := binaryLoop (tok.drop 2) 0 false
  { value := r.1, overflow := r.2.1, kind := parseIntegerSuffix r.2.2 }

/-- The loop of `parse_octal_literal`, `src/preprocess.c:1107-1126`. -/
def octalLoop : List UInt8 → Nat → Bool → Nat × Bool × List UInt8
  | [], val, ov => (val, ov, [])
  | c :: cs, val, ov =>
    if c == 39 then octalLoop cs val ov
    else
      let oct := subZero c
      if oct > 7 then (val, ov, c :: cs)
      else octalLoop cs ((val * 8 + oct) % 2^64) (ov || (val &&& 0x7000000000000000 != 0))

/-- `parse_octal_literal`, `src/preprocess.c:1088-1141`: skips `0` or `0o`/`0O`.
The "not valid in base 8" error is not modelled separately: such a digit starts
an (always invalid) suffix. -/
def parseOctal (tok : List UInt8) : Parsed :=
  let start := if tok[1]? = some 111 ∨ tok[1]? = some 79 then 2 else 1
  let r := octalLoop (tok.drop start) 0 false
  { value := r.1, overflow := r.2.1, kind := parseIntegerSuffix r.2.2 }

/-- The digit classification in `parse_hex_literal`, `src/preprocess.c:1163-1174`. -/
def hexNumber (c : UInt8) : Option Nat :=
  if 57 ≥ c.toNat ∧ c.toNat ≥ 48 then some (c.toNat - 48)
  else if 102 ≥ c.toNat ∧ c.toNat ≥ 97 then some (c.toNat - 97 + 10)
  else if 70 ≥ c.toNat ∧ c.toNat ≥ 65 then some (c.toNat - 65 + 10)
  else none

/-- The loop of `parse_hex_literal`, `src/preprocess.c:1158-1181`. -/
def hexLoop : List UInt8 → Nat → Bool → Nat × Bool × List UInt8
  | [], val, ov => (val, ov, [])
  | c :: cs, val, ov =>
    if c == 39 then hexLoop cs val ov
    else match hexNumber c with
      | none => (val, ov, c :: cs)
      | some number =>
        let ov := ov || (val &&& (15 <<< 60) != 0)
        let val := (val <<< 4) % 2^64
        let newVal := (val + number) % 2^64
        hexLoop cs newVal (ov || decide (newVal < val))

/-- `parse_hex_literal`, `src/preprocess.c:1143-1198`. -/
def parseHex (tok : List UInt8) : Parsed :=
  let r := hexLoop (tok.drop 2) 0 false
  { value := r.1, overflow := r.2.1, kind := parseIntegerSuffix r.2.2 }

/-- The compiler's integer types an integer literal can get
(`globals.typedef_*`). -/
inductive LitType | s8 | s16 | s32 | s64 | u8 | u16 | u32 | u64
deriving DecidableEq, Repr

/-- Type and 64-bit payload of the literal node, and which warnings are given:
`tooLarge` is `WARNING_integer_literal_too_large_to_be_signed`, `truncated` is
`WARNING_compile_time_truncation`. -/
structure Typed where
  type : LitType
  tooLarge : Bool := false
  truncated : Bool := false
deriving DecidableEq, Repr

def LitType.min : LitType → Int
  | .s8 => -128 | .s16 => -32768 | .s32 => -2147483648 | .s64 => -9223372036854775808
  | .u8 | .u16 | .u32 | .u64 => 0
def LitType.max : LitType → Int
  | .s8 => 127 | .s16 => 32767 | .s32 => 2147483647 | .s64 => 9223372036854775807
  | .u8 => 255 | .u16 => 65535 | .u32 => 4294967295 | .u64 => 18446744073709551615

/-- `(smm)val` for a `u64`. -/
def toSmm (val : Nat) : Int := if val < 2^63 then val else (val : Int) - 2^64

/-- `explicit_number_kind_case`, `src/parse.c:4474-4481`. The comparison against
the `u64` limits is done in unsigned arithmetic in C, hence never warns. -/
def explicitKind (t : LitType) (val : Nat) : Typed :=
  { type := t
    truncated := match t with
      | .u64 => false
      | t => decide (t.min > toSmm val) || decide (t.max < toSmm val) }

/-- Typing of `TOKEN_base10_literal`, `src/parse.c:4485-4570`; `none` is the
error exit for an invalid suffix. -/
def typeBase10 (k : NumberKind) (val : Nat) : Option Typed :=
  match k with
  | .invalid => none
  | .s8 => some (explicitKind .s8 val) | .s16 => some (explicitKind .s16 val)
  | .s32 => some (explicitKind .s32 val) | .s64 => some (explicitKind .s64 val)
  | .u8 => some (explicitKind .u8 val) | .u16 => some (explicitKind .u16 val)
  | .u32 => some (explicitKind .u32 val) | .u64 => some (explicitKind .u64 val)
  | .long | .int =>
    if val ≤ 2147483647 then some { type := .s32 }
    else if val ≤ 9223372036854775807 then some { type := .s64 }
    else some { type := .u64, tooLarge := true }
  | .longLong =>
    if val ≤ 9223372036854775807 then some { type := .s64 }
    else some { type := .u64, tooLarge := true }
  | .unsignedLong | .unsigned =>
    if val ≤ 4294967295 then some { type := .u32 } else some { type := .u64 }
  | .unsignedLongLong => some { type := .u64 }

/-- Typing of octal, binary and hex literals, `src/parse.c:4572-4671`. -/
def typeOther (k : NumberKind) (val : Nat) : Option Typed :=
  match k with
  | .invalid => none
  | .s8 => some (explicitKind .s8 val) | .s16 => some (explicitKind .s16 val)
  | .s32 => some (explicitKind .s32 val) | .s64 => some (explicitKind .s64 val)
  | .u8 => some (explicitKind .u8 val) | .u16 => some (explicitKind .u16 val)
  | .u32 => some (explicitKind .u32 val) | .u64 => some (explicitKind .u64 val)
  | .long | .int =>
    if val ≤ 2147483647 then some { type := .s32 }
    else if val ≤ 4294967295 then some { type := .u32 }
    else if val ≤ 9223372036854775807 then some { type := .s64 }
    else some { type := .u64 }
  | .longLong =>
    if val ≤ 9223372036854775807 then some { type := .s64 } else some { type := .u64 }
  | .unsignedLong | .unsigned =>
    if val ≤ 4294967295 then some { type := .u32 } else some { type := .u64 }
  | .unsignedLongLong => some { type := .u64 }

end Verif.IntLiteral
