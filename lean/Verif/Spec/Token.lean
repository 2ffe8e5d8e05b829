/-!
# Specification: kinds of preprocessing tokens and the punctuators of C11 (6.4.6)
-/
namespace Verif.Spec.Token

inductive Kind where
  | invalid | whitespace | newline | comment | characterLiteral | stringLiteral | identifier
  | base10Literal | floatLiteral | hexLiteral | floatHexLiteral | binaryLiteral | octalLiteral
  | atSign | backtick | hash | hashhash | equals | logicalEquals
  | openParen | closedParen | openCurly | closedCurly | openIndex | closedIndex
  | semicolon | colon | comma | dot | dotdotdot
  | bigger | biggerEquals | rightShift | rightShiftEquals
  | smaller | smallerEquals | leftShift | leftShiftEquals
  | bitwiseNot | logicalNot | logicalUnequals | questionMark
  | plus | plusEquals | increment | minus | minusEquals | decrement | arrow
  | and | andEquals | logicalAnd | or | orEquals | logicalOr
  | xor | xorEquals | times | timesEquals | slash | divEquals | mod | modEquals
deriving DecidableEq, Repr

/-- The punctuators of C11 without the digraphs. -/
def punctuators : List (Kind × List Char) :=
  [(.openIndex, ['[']), (.closedIndex, [']']), (.openParen, ['(']), (.closedParen, [')']), (.openCurly, ['{']),
   (.closedCurly, ['}']), (.dot, ['.']), (.arrow, ['-', '>']), (.increment, ['+', '+']), (.decrement, ['-', '-']),
   (.and, ['&']), (.times, ['*']), (.plus, ['+']), (.minus, ['-']), (.bitwiseNot, ['~']), (.logicalNot, ['!']),
   (.slash, ['/']), (.mod, ['%']), (.leftShift, ['<', '<']), (.rightShift, ['>', '>']), (.smaller, ['<']),
   (.bigger, ['>']), (.smallerEquals, ['<', '=']), (.biggerEquals, ['>', '=']), (.logicalEquals, ['=', '=']),
   (.logicalUnequals, ['!', '=']), (.xor, ['^']), (.or, ['|']), (.logicalAnd, ['&', '&']), (.logicalOr, ['|', '|']),
   (.questionMark, ['?']), (.colon, [':']), (.semicolon, [';']), (.dotdotdot, ['.', '.', '.']), (.equals, ['=']),
   (.timesEquals, ['*', '=']), (.divEquals, ['/', '=']), (.modEquals, ['%', '=']), (.plusEquals, ['+', '=']),
   (.minusEquals, ['-', '=']), (.leftShiftEquals, ['<', '<', '=']), (.rightShiftEquals, ['>', '>', '=']),
   (.andEquals, ['&', '=']), (.xorEquals, ['^', '=']), (.orEquals, ['|', '=']), (.comma, [',']), (.hash, ['#']),
   (.hashhash, ['#', '#'])]

/-- The digraphs. -/
def digraphs : List (Kind × List Char) :=
  [(.openIndex, ['<', ':']), (.closedIndex, [':', '>']), (.openCurly, ['<', '%']), (.closedCurly, ['%', '>']),
   (.hash, ['%', ':']), (.hashhash, ['%', ':', '%', ':'])]

/-- The bytes of a spelling. -/
def bytes (s : List Char) : List Nat := s.map Char.toNat

/-- `k` with spelling `s` is the longest of the given punctuators that the text starts with. -/
def Longest (table : List (Kind × List Char)) (k : Kind) (s : List Nat) (text : List Nat) : Prop :=
  (∃ cs, (k, cs) ∈ table ∧ s = bytes cs) ∧ s <+: text ∧
  ∀ k' cs', (k', cs') ∈ table → bytes cs' <+: text → (bytes cs').length ≤ s.length

/-- Characters of identifiers: letters, digits, `_`, `$` and all bytes of multi-byte UTF-8 sequences. -/
def IdentChar (c : Nat) : Prop :=
  (48 ≤ c ∧ c ≤ 57) ∨ (65 ≤ c ∧ c ≤ 90) ∨ (97 ≤ c ∧ c ≤ 122) ∨ c = 95 ∨ c = 36 ∨ (128 ≤ c ∧ c ≤ 255)

instance (c : Nat) : Decidable (IdentChar c) := by unfold IdentChar; infer_instance

/-- The djb2 hash of 64 bits. -/
def djb2 (s : List Nat) : Nat := s.foldl (fun h c => (h * 33 + c) % 2 ^ 64) 5381

end Verif.Spec.Token
