import Verif.Spec.Utf

/-!
# Specification: string literals (C11 5.1.1.2, 6.4.4.4, 6.4.5)

A string literal is a prefix and a list of elements between quotes. `render` gives the characters in the file, `meaning` the
elements of the array.
-/
namespace Verif.Spec.StringLit
open Verif.Spec.Utf

/-- The element type of a literal. -/
inductive Enc where
  | utf8 | utf16 | utf32
deriving DecidableEq, Repr

/-- Size of an element in bytes. -/
def Enc.size : Enc → Nat
  | .utf8 => 1 | .utf16 => 2 | .utf32 => 4

/-- The largest value of an element. -/
def Enc.max (k : Enc) : Nat := 2 ^ (8 * k.size) - 1

/-- The prefixes. -/
inductive Prefix where
  | none | u8 | u | L | U
deriving DecidableEq, Repr

def Prefix.spelling : Prefix → List Nat
  | .none => []
  | .u8 => ['u'.toNat, '8'.toNat]
  | .u => ['u'.toNat]
  | .L => ['L'.toNat]
  | .U => ['U'.toNat]

def Prefix.enc : Prefix → Enc
  | .none | .u8 => .utf8
  | .u | .L => .utf16
  | .U => .utf32

/-- The wider of two element types; adjacent literals are joined with the widest. -/
def Enc.join (a b : Enc) : Enc := if a.size < b.size then b else a

/-- The simple escapes and the values they stand for (C11 5.2.2); `\e` is a common extension. -/
def simpleEscapes : List (Char × Nat) :=
  [('\'', 39), ('"', 34), ('?', 63), ('\\', 92), ('a', 7), ('b', 8), ('f', 12), ('n', 10), ('r', 13), ('t', 9), ('v', 11),
   ('e', 27)]

def OctalDigit (c : Nat) : Prop := '0'.toNat ≤ c ∧ c ≤ '7'.toNat

instance (c : Nat) : Decidable (OctalDigit c) := by unfold OctalDigit; infer_instance

def HexDigit (c : Nat) : Prop :=
  ('0'.toNat ≤ c ∧ c ≤ '9'.toNat) ∨ ('a'.toNat ≤ c ∧ c ≤ 'f'.toNat) ∨ ('A'.toNat ≤ c ∧ c ≤ 'F'.toNat)

instance (c : Nat) : Decidable (HexDigit c) := by unfold HexDigit; infer_instance

def octalValue (ds : List Nat) : Nat := ds.foldl (fun v c => 8 * v + (c - '0'.toNat)) 0

def hexDigitValue (c : Nat) : Nat :=
  if c ≤ '9'.toNat then c - '0'.toNat else if c ≤ 'F'.toNat then c - 'A'.toNat + 10 else c - 'a'.toNat + 10

def hexValue (ds : List Nat) : Nat := ds.foldl (fun v c => 16 * v + hexDigitValue c) 0

/-- An element of a literal. -/
inductive Elem where
  /-- a character, written in UTF-8 -/
  | char (c : Nat)
  | simple (c : Char) (value : Nat)
  /-- `\ooo` -/
  | octal (digits : List Nat)
  /-- `\xhh` -/
  | hex (digits : List Nat)
  /-- `\uhhhh` -/
  | ucn4 (digits : List Nat)
  /-- `\Uhhhhhhhh` -/
  | ucn8 (digits : List Nat)
  /-- a backslash and the end of the line, which is removed -/
  | splice (carriageReturn : Bool)
deriving DecidableEq, Repr

def Elem.render : Elem → List Nat
  | .char c => utf8 c
  | .simple c _ => ['\\'.toNat, c.toNat]
  | .octal ds => '\\'.toNat :: ds
  | .hex ds => '\\'.toNat :: 'x'.toNat :: ds
  | .ucn4 ds => '\\'.toNat :: 'u'.toNat :: ds
  | .ucn8 ds => '\\'.toNat :: 'U'.toNat :: ds
  | .splice true => ['\\'.toNat, 13, 10]
  | .splice false => ['\\'.toNat, 10]

def render (es : List Elem) : List Nat := es.flatMap Elem.render

/-- The elements of a code point. -/
def encode : Enc → Nat → List Nat
  | .utf8, c => utf8 c
  | .utf16, c => utf16 c
  | .utf32, c => [c]

def Elem.meaning (k : Enc) : Elem → List Nat
  | .char c => encode k c
  | .simple _ v => [v]
  | .octal ds => [octalValue ds]
  | .hex ds => [hexValue ds]
  | .ucn4 ds => encode k (hexValue ds)
  | .ucn8 ds => encode k (hexValue ds)
  | .splice _ => []

def meaning (k : Enc) (es : List Elem) : List Nat := es.flatMap (Elem.meaning k)

/-- Grammar of an element. -/
def Elem.Wf : Elem → Prop
  | .char c => Scalar c ∧ c ≠ '\\'.toNat
  | .simple c v => (c, v) ∈ simpleEscapes
  | .octal ds => 1 ≤ ds.length ∧ ds.length ≤ 3 ∧ ∀ c ∈ ds, OctalDigit c
  | .hex ds => 1 ≤ ds.length ∧ ∀ c ∈ ds, HexDigit c
  | .ucn4 ds => ds.length = 4 ∧ (∀ c ∈ ds, HexDigit c) ∧ Scalar (hexValue ds)
  | .ucn8 ds => ds.length = 8 ∧ (∀ c ∈ ds, HexDigit c) ∧ Scalar (hexValue ds)
  | .splice _ => True

/-- The value of a numeric escape fits an element (C11 6.4.4.4p9). -/
def Elem.Fits (k : Enc) : Elem → Prop
  | .octal ds => octalValue ds ≤ k.max
  | .hex ds => hexValue ds ≤ k.max
  | _ => True

instance (k : Enc) (e : Elem) : Decidable (e.Fits k) := by unfold Elem.Fits; split <;> infer_instance

/-- The first character that is not part of a splice. -/
def nextChar : List Elem → Option Nat
  | [] => none
  | .splice _ :: es => nextChar es
  | e :: _ => e.render.head?

/-- Numeric escapes are as long as possible. -/
def Longest : List Elem → Prop
  | [] => True
  | e :: es =>
    (match e with
     | .octal ds => ds.length = 3 ∨ ∀ c, nextChar es = some c → ¬ OctalDigit c
     | .hex _ => ∀ c, nextChar es = some c → ¬ HexDigit c
     | _ => True) ∧ Longest es

/-- The literals of the grammar. -/
def Wf (es : List Elem) : Prop := (∀ e ∈ es, e.Wf) ∧ Longest es

/-- The code points that are encoded (not written as numbers). -/
def Elem.codepoint? : Elem → Option Nat
  | .char c => some c
  | .ucn4 ds => some (hexValue ds)
  | .ucn8 ds => some (hexValue ds)
  | _ => none

/-- A literal in the file. -/
def spell (l : Prefix × List Elem) : List Nat := l.1.spelling ++ '"'.toNat :: render l.2 ++ ['"'.toNat]

end Verif.Spec.StringLit
