/-!
# Specification: instructions without operands in inline assembly

Each instruction is encoded as the manual of the processor says; `bytes { ... }` stands for the bytes that are written.
-/
namespace Verif.Spec.AsmBytes

/-- The characters of a word. -/
def ascii (s : String) : List Nat := s.toList.map Char.toNat

inductive Tok
  | text (s : List Nat)
  | comma
  | open_
  | close
deriving DecidableEq, Repr

/-- Instructions with neither operands nor prefixes, and their encodings. -/
def simple : List (String × List Nat) :=
  [("int3", [0xCC]), ("int1", [0xF1]), ("ud2", [0x0F, 0x0B]), ("ret", [0xC3]), ("pause", [0xF3, 0x90]), ("lfence", [0x0F, 0xAE, 0xE8]), ("mfence", [0x0F, 0xAE, 0xF0]), ("sfence", [0x0F, 0xAE, 0xF8]),
   ("rdtsc", [0x0F, 0x31]), ("rdtscp", [0x0F, 0x01, 0xF9]), ("cpuid", [0x0F, 0xA2]), ("xgetbv", [0x0F, 0x01, 0xD0])]

/-- Instructions that move or store strings, their opcodes and the sizes of what they move. -/
def strings : List (String × Nat × Nat) :=
  [("movsb", 0xA4, 1), ("movsw", 0xA5, 2), ("movsd", 0xA5, 4), ("movsq", 0xA5, 8), ("stosb", 0xAA, 1), ("stosw", 0xAB, 2), ("stosd", 0xAB, 4), ("stosq", 0xAB, 8)]

/-- The character of a hexadecimal digit. -/
def digit (upper : Bool) (v : Nat) : Nat := if v < 10 then 48 + v else if upper then 55 + v else 87 + v

/-- A byte as it is written: maybe `0x` or `0X`, two digits, and maybe a comma. -/
structure Written where
  base : Option Bool
  upperHigh : Bool
  high : Fin 16
  upperLow : Bool
  low : Fin 16
  comma : Bool

def Written.tokens (w : Written) : List Tok :=
  .text ((match w.base with | none => [] | some false => [48, 120] | some true => [48, 88]) ++ [digit w.upperHigh w.high, digit w.upperLow w.low]) :: (if w.comma then [.comma] else [])

def Written.value (w : Written) : Nat := 16 * w.high + w.low

inductive Item
  | simple (e : String × List Nat)
  | string (rep : Option String) (e : String × Nat × Nat)
  | bytes (l : List Written)

/-- The instruction is one of those above. -/
def Item.Known : Item → Prop
  | .simple e => e ∈ Spec.AsmBytes.simple
  | .string rep e => e ∈ strings ∧ ∀ s, rep = some s → s ∈ ["rep", "repe"]
  | .bytes _ => True

def Item.tokens : Item → List Tok
  | .simple e => [.text (ascii e.1)]
  | .string none e => [.text (ascii e.1)]
  | .string (some r) e => [.text (ascii r), .text (ascii e.1)]
  | .bytes l => .text (ascii "bytes") :: .open_ :: (l.flatMap Written.tokens ++ [.close])

/-- The repeat prefix, the operand size prefix, REX.W and the opcode. -/
def Item.code : Item → List Nat
  | .simple e => e.2
  | .string rep e => (if rep.isSome then [0xF3] else []) ++ (if e.2.2 = 2 then [0x66] else []) ++ (if e.2.2 = 8 then [0x48] else []) ++ [e.2.1]
  | .bytes l => l.map Written.value

end Verif.Spec.AsmBytes
