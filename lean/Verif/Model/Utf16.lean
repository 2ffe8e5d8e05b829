/-!
# Model: `utf16le_to_utf8` (`src/std.c:2161-2210`)

The input is the list of `u16` units, the output the list of bytes of the returned string, which
includes the terminating zero (`size = string_end - string_start`).
-/
namespace Verif.Utf16

/-- Decoding of one character, `src/std.c:2166-2180`: the code point and the number of units. -/
def decode (d0 : Nat) (rest : List Nat) : Nat × Nat :=
  match rest with
  | d1 :: _ =>
    if 0xD800 ≤ d0 ∧ d0 ≤ 0xDC00 ∧ 0xDC00 ≤ d1 ∧ d1 < 0xE000 then
      (((d0 - 0xD800) <<< 10) ||| ((d1 - 0xDC00) + 0x10000), 2)
    else (d0, 1)
  | [] => (d0, 1)

/-- Encoding as UTF-8, `src/std.c:2186-2200`; nothing is written above 0x10FFFF. -/
def encode (cp : Nat) : List Nat :=
  if cp ≤ 0x7F then [cp % 256]
  else if cp ≤ 0x7FF then [(3 <<< 6) ||| ((cp >>> 6) &&& 31), (1 <<< 7) ||| (cp &&& 63)]
  else if cp ≤ 0xFFFF then [(7 <<< 5) ||| ((cp >>> 12) &&& 15), (1 <<< 7) ||| ((cp >>> 6) &&& 63), (1 <<< 7) ||| (cp &&& 63)]
  else if cp ≤ 0x10FFFF then
    [(15 <<< 4) ||| ((cp >>> 18) &&& 7), (1 <<< 7) ||| ((cp >>> 12) &&& 63), (1 <<< 7) ||| ((cp >>> 6) &&& 63), (1 <<< 7) ||| (cp &&& 63)]
  else []

/-- The loop `while(length > 0)`. -/
def loop : Nat → List Nat → List Nat
  | 0, _ => []
  | _ + 1, [] => []
  | n + 1, d0 :: rest =>
    let r := decode d0 rest
    encode r.1 ++ loop n ((d0 :: rest).drop r.2)

/-- `utf16le_to_utf8`. The loop runs at most once per unit. -/
def utf16leToUtf8 (data : List Nat) : List Nat := loop data.length data ++ [0]

end Verif.Utf16
