/-!
# Model: enumerators

Models the enumerator loop of `parse_declaration_specifiers`, `src/parse.c:8292-8340`.

Simplifications: an explicit value is the mathematical value of the constant expression;
`integer_literal_as_s64` (`src/parse.c:195-219`) turns it into an `s64`, which changes it
only if it is an unsigned 64-bit value of 2^63 or more. Registration of the enumerators
is left out. After a reported error the declaration is not used, so the loop stops.
-/
namespace Verif.Enum

/-- Conversion to an `s64`: the representative modulo 2^64 in the range of `s64`. -/
def toS64 (v : Int) : Int := (v + 2^63) % 2^64 - 2^63

/-- Conversion to an `s32`. -/
def toS32 (v : Int) : Int := (v + 2^31) % 2^32 - 2^31

/-- The enumerator loop, `src/parse.c:8292-8340`. An element of the list is the explicit
value, if there is one. The result is the list of `literal->_s32`, or `none` after the
"outside of the range" error. -/
def enumerators : List (Option Int) → Int → Option (List Int)
  | [], _ => some []
  | e :: es, current =>
    let current := match e with
      | some v => toS64 v
      | none => current
    if -2^31 ≤ current ∧ current ≤ 2^31 - 1 then
      (enumerators es (current + 1)).map (toS32 current :: ·)
    else if 2^31 - 1 < current ∧ current ≤ 2^32 - 1 then
      let current := toS32 current
      (enumerators es (current + 1)).map (toS32 current :: ·)
    else none

end Verif.Enum
