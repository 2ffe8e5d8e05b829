/-!
# Specification: the operator `#`

C11 6.10.3.2: `#` and a parameter are replaced by a string literal with the spelling of the argument: white space
before and after the argument is deleted, each other occurrence of white space is a single space, and
in string literals and character constants a backslash is put before each `"` and each backslash.
-/
namespace Verif.Spec.Stringize

inductive Tok
  | space
  /-- a string literal or character constant, with its quotes -/
  | literal (s : List Char)
  | word (s : List Char)
  | comma
  | lparen
  | rparen
deriving DecidableEq, Repr

def Tok.isSpace : Tok → Bool
  | .space => true
  | _ => false

/-- Puts a backslash before the characters of `special`. -/
def escape (special : List Char) : List Char → List Char
  | [] => []
  | c :: cs => if c ∈ special then '\\' :: c :: escape special cs else c :: escape special cs

/-- The spelling of a token in the string. -/
def Tok.spell (special : List Char) : Tok → List Char
  | .space => []
  | .literal s => escape special s
  | .word s => s
  | .comma => [',']
  | .lparen => ['(']
  | .rparen => [')']

/-- The text of tokens; `pending` says whether there is white space before them. -/
def text (special : List Char) : Bool → List Tok → List Char
  | _, [] => []
  | pending, t :: ts => if t.isSpace then text special true ts else (if pending then [' '] else []) ++ t.spell special ++ text special false ts

/-- The string literal for an argument, where a backslash is put before the characters `special`. -/
def literal (special : List Char) (arg : List Tok) : List Char := '"' :: text special false (arg.dropWhile Tok.isSpace) ++ ['"']

/-- The string literal that C prescribes. -/
def stringize (arg : List Tok) : List Char := literal ['"', '\\'] arg

/-- The characters that a string literal stands for; only `\"`, `\'` and `\\` are looked at. -/
def contents : List Char → List Char
  | '\\' :: c :: cs => if c = '"' ∨ c = '\\' ∨ c = '\'' then c :: contents cs else '\\' :: c :: contents cs
  | c :: cs => c :: contents cs
  | [] => []

/-- Parentheses are balanced, and all commas are in parentheses unless `commas` holds. -/
def argument (commas : Bool) : Nat → List Tok → Bool
  | d, [] => d == 0
  | d, .lparen :: ts => argument commas (d + 1) ts
  | 0, .rparen :: _ => false
  | d + 1, .rparen :: ts => argument commas d ts
  | d, .comma :: ts => (commas || d != 0) && argument commas d ts
  | d, .space :: ts => argument commas d ts
  | d, .literal _ :: ts => argument commas d ts
  | d, .word _ :: ts => argument commas d ts

/-- The arguments with commas between them. -/
def join : List (List Tok) → List Tok
  | [] => []
  | [a] => a
  | a :: as => a ++ .comma :: join as

end Verif.Spec.Stringize
