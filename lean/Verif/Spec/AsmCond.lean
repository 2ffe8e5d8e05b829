/-!
# Specification: conditions in inline assembly

What the names of conditions mean after `cmp x, y` and after a comparison of floating-point numbers, and how the processor decides by the number in an opcode.
-/
namespace Verif.Spec.AsmCond

structure Flags where
  carry : Bool
  zero : Bool
  sign : Bool
  overflow : Bool
  parity : Bool

/-- The condition with number `n`, for the low four bits of an opcode. -/
def holds (n : Nat) (f : Flags) : Bool :=
  (match n / 2 with
    | 0 => f.overflow
    | 1 => f.carry
    | 2 => f.zero
    | 3 => f.carry || f.zero
    | 4 => f.sign
    | 5 => f.parity
    | 6 => f.sign != f.overflow
    | _ => f.zero || (f.sign != f.overflow)) != (n % 2 == 1)

/-- The difference in `w + 1` bits. -/
def wrap (w : Nat) (d : Int) : Int := if d < - 2 ^ w then d + 2 * 2 ^ w else if 2 ^ w ≤ d then d - 2 * 2 ^ w else d

/-- The value without the sign. -/
def unsigned (w : Nat) (x : Int) : Int := if x < 0 then x + 2 * 2 ^ w else x

/-- The flags after `cmp x, y`, for numbers with `w + 1` bits. -/
def cmp (w : Nat) (x y : Int) (parity : Bool) : Flags :=
  { carry := decide (unsigned w x < unsigned w y), zero := decide (x = y), sign := decide (wrap w (x - y) < 0), overflow := decide (wrap w (x - y) ≠ x - y), parity := parity }

/-- Relations of two numbers. -/
inductive Relation
  | equal | notEqual
  | below | notBelow | belowEqual | above
  | less | notLess | lessEqual | greater

def Relation.Holds (w : Nat) (x y : Int) : Relation → Prop
  | .equal => x = y
  | .notEqual => x ≠ y
  | .below => unsigned w x < unsigned w y
  | .notBelow => unsigned w y ≤ unsigned w x
  | .belowEqual => unsigned w x ≤ unsigned w y
  | .above => unsigned w y < unsigned w x
  | .less => x < y
  | .notLess => y ≤ x
  | .lessEqual => x ≤ y
  | .greater => y < x

/-- The names of the relations. -/
def relations : List (String × Relation) :=
  [("e", .equal), ("z", .equal), ("ne", .notEqual), ("nz", .notEqual),
   ("b", .below), ("nae", .below), ("c", .below), ("nb", .notBelow), ("ae", .notBelow), ("nc", .notBelow), ("be", .belowEqual), ("na", .belowEqual), ("nbe", .above), ("a", .above),
   ("l", .less), ("nge", .less), ("nl", .notLess), ("ge", .notLess), ("le", .lessEqual), ("ng", .lessEqual), ("nle", .greater), ("g", .greater)]

/-- The names of conditions on a single flag. -/
def single : List (String × (Flags → Bool)) :=
  [("o", fun f => f.overflow), ("no", fun f => !f.overflow), ("s", fun f => f.sign), ("ns", fun f => !f.sign), ("p", fun f => f.parity), ("pe", fun f => f.parity), ("np", fun f => !f.parity), ("po", fun f => !f.parity)]

/-- Instructions with conditions, and the second byte of their opcodes without the condition. -/
def families : List (String × Nat) := [("j", 0x80), ("set", 0x90), ("cmov", 0x40)]

/-- How two floating-point numbers compare; one that is not a number is unordered to all. -/
inductive Order
  | lt | eq | gt | unordered
deriving DecidableEq

/-- What the processor compares by the number behind `cmpps` and the like. -/
def predicate (n : Nat) (o : Order) : Bool :=
  match n with
  | 0 => o == .eq
  | 1 => o == .lt
  | 2 => o == .lt || o == .eq
  | 3 => o == .unordered
  | 4 => !(o == .eq)
  | 5 => !(o == .lt)
  | 6 => !(o == .lt || o == .eq)
  | _ => !(o == .unordered)

/-- What the names say. -/
def comparisons : List (String × (Order → Bool)) :=
  [("eq", fun o => o == .eq), ("lt", fun o => o == .lt), ("le", fun o => o == .lt || o == .eq), ("unord", fun o => o == .unordered),
   ("neq", fun o => !(o == .eq)), ("nlt", fun o => !(o == .lt)), ("nle", fun o => !(o == .lt || o == .eq)), ("ord", fun o => !(o == .unordered))]

/-- What the names with "greater" say. -/
def greater : List (String × (Order → Bool)) :=
  [("ge", fun o => o == .gt || o == .eq), ("gt", fun o => o == .gt), ("nge", fun o => !(o == .gt || o == .eq)), ("ngt", fun o => !(o == .gt))]

/-- The kinds of operands. -/
def kinds : List String := ["ps", "ss", "pd", "sd"]

end Verif.Spec.AsmCond
