import Verif.Model.StringLit

/-!
# Model: character constants (`src/preprocess.c:884-907`, `src/parse.c:4369-4473`)
-/
namespace Verif.CharLit
open Verif.Spec.StringLit (Enc) 
open Verif.StringLit

/-- The types a character constant can have. -/
inductive CharType where
  | s32 | s64 | u16 | u32
deriving DecidableEq, Repr

/-- A type and the 64 bits of the value, or an error, or one of the bad outcomes of the conversion. -/
inductive Result where
  | value (type : CharType) (bits : Nat)
  | error
  | bad (o : Outcome)
deriving DecidableEq, Repr

/-- A little-endian read of `n` bytes. -/
def readLe : Nat → List Nat → Nat
  | 0, _ => 0
  | n + 1, bs => bs.headD 0 + 256 * readLe n bs.tail

/-- Conversion of the low `bits` bits, read as a signed number, to `u64`. -/
def signExtend (bits v : Nat) : Nat := if v < 2 ^ (bits - 1) then v else v + (2 ^ 64 - 2 ^ bits)

/-- `src/parse.c:4405-4458`: `units` are the elements in the buffer, `after` the bytes that follow them in memory. -/
def fromUnits (k : Enc) (units after : List Nat) : Result :=
  if units = [] then .error
  else
    match k with
    | .utf8 =>
      if units.length = 1 then .value .s32 (signExtend 8 (readLe 1 (units ++ after)))
      else if units.length = 2 then .value .s32 (readLe 2 (units ++ after))
      else if units.length ≤ 4 then .value .s32 (signExtend 32 (readLe 4 (units ++ after)))
      else if units.length ≤ 8 then .value .s64 (readLe 8 (units ++ after))
      else .error
    | .utf16 => if units.length > 1 then .error else .value .u16 (units.headD 0)
    | .utf32 => if units.length > 1 then .error else .value .u32 (units.headD 0)

/-- `case TOKEN_character_literal:`; an error reported by the conversion is an error. -/
def constant (token after : List Nat) : Result :=
  match stripToken 39 token with
  | (none, _) => .error
  | (some k, body) =>
    match convert k [body] with
    | .ok _ true => .error
    | .ok units false => fromUnits k units after
    | o => .bad o

end Verif.CharLit
