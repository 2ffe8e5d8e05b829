/-!
# Specification: integer literals (C11 6.4.4.1)
-/
namespace Verif.Spec.IntLiteral

/-- The digit value of an ASCII character, for bases up to 16. -/
def digitValue (c : UInt8) : Option Nat :=
  let n := c.toNat
  if 48 ≤ n ∧ n ≤ 57 then some (n - 48)
  else if 97 ≤ n ∧ n ≤ 102 then some (n - 87)
  else if 65 ≤ n ∧ n ≤ 70 then some (n - 55)
  else none

/-- `c` is a digit in base `b`. -/
def IsDigit (b : Nat) (c : UInt8) : Prop := ∃ d, digitValue c = some d ∧ d < b

/-- The mathematical value of a digit string in base `b`: most significant digit
first, separators `'` do not count. -/
def value (b : Nat) : List UInt8 → Nat
  | [] => 0
  | c :: cs =>
    match digitValue c with
    | some d => d * b ^ (cs.filter (· ≠ 39)).length + value b cs
    | none => value b cs

/-- The bytes of a literal's body: digits of base `b` and separators. -/
def Body (b : Nat) (cs : List UInt8) : Prop := ∀ c ∈ cs, c = 39 ∨ IsDigit b c

/-- What can follow the body: nothing, or something that is neither a digit nor a
separator. -/
def SuffixOk (b : Nat) (s : List UInt8) : Prop := ∀ c, s.head? = some c → c ≠ 39 ∧ ¬ IsDigit b c

/-- The standard integer types that appear in C11 6.4.4.1p5. -/
inductive CType | int | uint | long | ulong | llong | ullong
deriving DecidableEq, Repr

/-- The value bits and signedness in the LLP64 data model. -/
def CType.maxValue : CType → Nat
  | .int | .long => 2^31 - 1
  | .uint | .ulong => 2^32 - 1
  | .llong => 2^63 - 1
  | .ullong => 2^64 - 1

inductive Suffix | none | u | l | ul | ll | ull
deriving DecidableEq, Repr

/-- The table of C11 6.4.4.1p5. -/
def candidates (decimal : Bool) : Suffix → List CType
  | .none => if decimal then [.int, .long, .llong] else [.int, .uint, .long, .ulong, .llong, .ullong]
  | .u => [.uint, .ulong, .ullong]
  | .l => if decimal then [.long, .llong] else [.long, .ulong, .llong, .ullong]
  | .ul => [.ulong, .ullong]
  | .ll => if decimal then [.llong] else [.llong, .ullong]
  | .ull => [.ullong]

/-- The first candidate that can represent the value. -/
def cType (decimal : Bool) (s : Suffix) (v : Nat) : Option CType :=
  (candidates decimal s).find? (fun t => v ≤ t.maxValue)

end Verif.Spec.IntLiteral

namespace Verif.Spec.IntLiteral

/-- The spellings C11 6.4.4.1p1 allows for each suffix. -/
def Suffix.spellings : Suffix → List String
  | .none => [""]
  | .u => ["u", "U"]
  | .l => ["l", "L"]
  | .ul => ["ul", "uL", "Ul", "UL", "lu", "lU", "Lu", "LU"]
  | .ll => ["ll", "LL"]
  | .ull => ["ull", "uLL", "Ull", "ULL", "llu", "llU", "LLu", "LLU"]

/-- The bytes of an ASCII string. -/
def bytes (s : String) : List UInt8 := s.toList.map (fun c => UInt8.ofNat c.toNat)

end Verif.Spec.IntLiteral
