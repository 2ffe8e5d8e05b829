/-!
# Model: `string_to_u64` (`src/std.c:1667-1686`)

A string is its list of bytes; a `u64` is a `Nat` with an explicit `% 2^64`. `none` is
`*_out_success = false`.
-/
namespace Verif.ToU64

/-- `u8_parse_hex_to_binary`, `src/std.c:983-988`. -/
def hexDigit (c : Nat) : Nat :=
  if 57 ≥ c ∧ c ≥ 48 then c - 48
  else if 102 ≥ c ∧ c ≥ 97 then c - 97 + 10
  else if 70 ≥ c ∧ c ≥ 65 then c - 65 + 10
  else 0

/-- The loop over a hexadecimal string. It starts at index 0: the characters of `0x` count as the
digit 0. -/
def hexLoop : List Nat → Nat → Nat
  | [], ret => ret
  | c :: cs, ret => hexLoop cs ((ret * 16 % 2^64 + hexDigit c) % 2^64)

/-- The other loop. `str.data[i] - '0'` is an `int`, converted to `u64`. -/
def decLoop : List Nat → Nat → Option Nat
  | [], ret => some ret
  | c :: cs, ret =>
    let val := (c + 2^64 - 48) % 2^64
    if val > 10 then none
    else decLoop cs ((ret * 10 % 2^64 + val) % 2^64)

/-- `string_to_u64`. -/
def stringToU64 (str : List Nat) : Option Nat :=
  if str.length > 2 ∧ str[0]? = some 48 ∧ str[1]?.map (· ||| 32) = some 120 then some (hexLoop str 0)
  else decLoop str 0

end Verif.ToU64
