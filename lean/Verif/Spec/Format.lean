/-!
# Specification: the format string of a printlike function

Bytes are numbers. A format string is a list of pieces: text, `%%`, the conversions of `printf` (C11 7.21.6.1), `%?`, and `{...}`: `{}` and `{:...}` print the next argument, `{name}` and
`{name:...}` print a variable, `{name=}` prints the name first. A brace that is not one of them is text.
-/
namespace Verif.Spec.Format

/-- `+`, `-`, space, `#`, `0`. -/
def Flag (c : Nat) : Prop := c = 43 ∨ c = 45 ∨ c = 32 ∨ c = 35 ∨ c = 48

def Digit (c : Nat) : Prop := 48 ≤ c ∧ c ≤ 57

/-- Letters, digits, `_`, `$`, and bytes that are not ASCII. -/
def Letter (c : Nat) : Prop := (97 ≤ c ∧ c ≤ 122) ∨ (65 ≤ c ∧ c ≤ 90) ∨ Digit c ∨ c = 95 ∨ c = 36 ∨ 128 ≤ c

/-- A number, or `*`: the next argument. -/
inductive Count
  | digits (l : List Nat)
  | star
deriving DecidableEq, Repr

/-- Flags, width and precision. -/
structure Options where
  flags : List Nat
  width : Count
  precision : Option Count
deriving DecidableEq, Repr

inductive Piece
  /-- Text without `%` and `{`. -/
  | text (l : List Nat)
  /-- `%%`. -/
  | percent
  /-- `%`, options, a length modifier, a conversion specifier. -/
  | conversion (o : Options) (length : List Nat) (c : Nat)
  /-- `%`, options, `?`. -/
  | infer (o : Options)
  /-- A brace and a word. -/
  | brace (word : List Nat)
  /-- `{name}`, `{name=}`, `{}`. -/
  | short (name : List Nat) (equals : Bool)
  /-- `{name:...}`, `{name=:...}`, `{:...}`. -/
  | long (name : List Nat) (equals : Bool) (o : Options) (type : List Nat)

def writeCount : Count → List Nat
  | .digits l => l
  | .star => [42]

def writePrecision : Option Count → List Nat
  | none => []
  | some c => 46 :: writeCount c

def writeOptions (o : Options) : List Nat := o.flags ++ writeCount o.width ++ writePrecision o.precision

def writeEquals (equals : Bool) : List Nat := if equals then [61] else []

def write : Piece → List Nat
  | .text l => l
  | .percent => [37, 37]
  | .conversion o length c => 37 :: (writeOptions o ++ length ++ [c])
  | .infer o => 37 :: (writeOptions o ++ [63])
  | .brace word => 123 :: word
  | .short name equals => 123 :: (name ++ writeEquals equals ++ [125])
  | .long name equals o type => 123 :: (name ++ writeEquals equals ++ [58] ++ writeOptions o ++ type ++ [125])

/-- A width does not start with `0`, which is a flag. -/
structure GoodOptions (o : Options) : Prop where
  flags : ∀ c ∈ o.flags, Flag c
  width : ∀ l, o.width = .digits l → (∀ c ∈ l, Digit c) ∧ l.head? ≠ some 48
  precision : ∀ l, o.precision = some (.digits l) → ∀ c ∈ l, Digit c

/-- "", `hh`, `h`, `l`, `ll`, `j`, `z`, `t`, `L`. -/
def lengths : List (List Nat) := [[], [104, 104], [104], [108], [108, 108], [106], [122], [116], [76]]

/-- `d i o u x X f F e E g G a A c s p n`. -/
def conversions : List Nat := [100, 105, 111, 117, 120, 88, 102, 70, 101, 69, 103, 71, 97, 65, 99, 115, 112, 110]

/-- A name is that of a variable; only a name can have `=`. -/
def GoodName (declared : List Nat → Bool) (name : List Nat) (equals : Bool) : Prop :=
  (∀ c ∈ name, Letter c) ∧ (name ≠ [] → declared name = true) ∧ (name = [] → equals = false)

/-- Well-formed pieces. -/
def Good (declared : List Nat → Bool) : Piece → Prop
  | .text l => ∀ c ∈ l, c ≠ 37 ∧ c ≠ 123
  | .percent => True
  | .conversion o length c => GoodOptions o ∧ length ∈ lengths ∧ c ∈ conversions
  | .infer o => GoodOptions o
  | .brace word => ∀ c ∈ word, Letter c
  | .short name equals => GoodName declared name equals
  | .long name equals o type => GoodName declared name equals ∧ GoodOptions o ∧ (∀ c ∈ type, Letter c) ∧ ∀ c ∈ type.head?, ¬ Digit c

/-- What can follow a brace and a word for the brace to be text: not more letters, and nothing that continues a specifier. -/
def Ends (rest : List Nat) : Prop :=
  ∀ c ∈ rest.head?, ¬ Letter c ∧ c ≠ 61 ∧ c ≠ 58 ∧ c ≠ 46 ∧ c ≠ 35 ∧ c ≠ 42 ∧ c ≠ 125

def Format (declared : List Nat → Bool) : List Piece → Prop
  | [] => True
  | p :: ps => Good declared p ∧ (∀ word, p = .brace word → Ends (ps.flatMap write)) ∧ Format declared ps

/-- What is printed: an argument of the call, or a variable. -/
inductive Value
  | argument (i : Nat)
  | variable_ (name : List Nat)
deriving DecidableEq, Repr

/-- What the format string becomes: bytes, and places for which the type of a value decides. -/
inductive Atom
  | byte (c : Nat)
  | infer (v : Value) (flags width precision type : List Nat)
deriving DecidableEq, Repr

def bytes (l : List Nat) : List Atom := l.map .byte

/-- How many arguments are read for `*`. -/
def stars (o : Options) : Nat := (if o.width = .star then 1 else 0) + (if o.precision = some .star then 1 else 0)

/-- How many arguments a piece reads. -/
def reads : Piece → Nat
  | .text _ => 0
  | .percent => 0
  | .conversion o _ _ => stars o + 1
  | .infer o => stars o + 1
  | .brace _ => 0
  | .short name _ => if name = [] then 1 else 0
  | .long name _ o _ => stars o + if name = [] then 1 else 0

def readsAll (ps : List Piece) : Nat := (ps.map reads).sum

/-- The text of a precision. -/
def precisionText : Option Count → List Nat
  | none => []
  | some c => writeCount c

/-- `name = `. -/
def nameText (name : List Nat) (equals : Bool) : List Atom := if equals then bytes (name ++ [32, 61, 32]) else []

def valueOf (name : List Nat) (i : Nat) : Value := if name = [] then .argument i else .variable_ name

/-- What a piece becomes; `i` is the next argument. -/
def becomes (i : Nat) : Piece → List Atom
  | .infer o => [.infer (.argument (i + stars o)) o.flags (writeCount o.width) (precisionText o.precision) []]
  | .short name equals => nameText name equals ++ [.infer (valueOf name i) [] [] [] []]
  | .long name equals o type => nameText name equals ++ [.infer (valueOf name (i + stars o)) o.flags (writeCount o.width) (precisionText o.precision) type]
  | p => bytes (write p)

def becomesAll : Nat → List Piece → List Atom
  | _, [] => []
  | i, p :: ps => becomes i p ++ becomesAll (i + reads p) ps

/-- The arguments that are read for `*`. -/
def starred (i : Nat) : Piece → List Nat
  | .conversion o _ _ => List.range' i (stars o)
  | .infer o => List.range' i (stars o)
  | .long _ _ o _ => List.range' i (stars o)
  | _ => []

def starredAll : Nat → List Piece → List Nat
  | _, [] => []
  | i, p :: ps => starred i p ++ starredAll (i + reads p) ps

end Verif.Spec.Format
