import Verif.Spec.Format

/-!
# Model: the format string of a printlike function

The loop over the format string (/repo/src/parse.c 3459–4074). What is left out: the warnings about the types of the arguments, the commas between them, and the places for which the
type of a value decides (see C90), which are `Atom.infer` here.
-/
namespace Verif.Model.Format
open Verif.Spec.Format (Atom Value bytes)

/-- The call: how many arguments follow the format string, which of them are integers, and the names that `lookup_declaration` finds. -/
structure Call where
  count : Nat
  integer : Nat → Bool
  declared : List Nat → Bool

/-- The characters "+- #0". -/
def isFlag (c : Nat) : Bool := c == 43 || c == 45 || c == 32 || c == 35 || c == 48

/-- The characters "0123456789". -/
def isDigit (c : Nat) : Bool := decide (48 ≤ c) && decide (c ≤ 57)

/-- The characters of `eat_identifier` (/repo/src/std.c 1212–1226). -/
def isLetter (c : Nat) : Bool :=
  (decide (97 ≤ c) && decide (c ≤ 122)) || (decide (65 ≤ c) && decide (c ≤ 90)) || isDigit c || c == 95 || c == 36 || decide (128 ≤ c)

/-- A `*` or digits (/repo/src/parse.c 3545–3565, 3922–3940). The argument for a `*` has to exist and to be an integer. -/
def count (call : Call) (l : List Nat) (used : Nat) : Option (List Nat × List Nat × Nat) :=
  match l with
  | 42 :: rest => if used = call.count then none else if call.integer used then some ([42], rest, used + 1) else none
  | l => some (l.takeWhile isDigit, l.dropWhile isDigit, used)

/-- The precision (/repo/src/parse.c 3570–3593, 3945–3968). -/
def precision (call : Call) (l : List Nat) (used : Nat) : Option (List Nat × List Nat × Nat) :=
  match l with
  | 46 :: rest => count call rest used
  | l => some ([], l, used)

structure Fields where
  flags : List Nat
  width : List Nat
  precision : List Nat
  rest : List Nat
  used : Nat

/-- Flags, width and precision; the code for `%` and for `{` is the same (/repo/src/parse.c 3538–3593, 3915–3968). -/
def fields (call : Call) (l : List Nat) (used : Nat) : Option Fields :=
  match count call (l.dropWhile isFlag) used with
  | none => none
  | some w =>
    match precision call w.2.1 w.2.2 with
    | none => none
    | some p => some ⟨l.takeWhile isFlag, w.1, p.1, p.2.1, p.2.2⟩

/-- The length modifiers (/repo/src/parse.c 3598–3615). -/
def length : List Nat → List Nat
  | 104 :: 104 :: rest => rest
  | 104 :: rest => rest
  | 108 :: 108 :: rest => rest
  | 108 :: rest => rest
  | 76 :: rest => rest
  | 106 :: rest => rest
  | 122 :: rest => rest
  | 116 :: rest => rest
  | rest => rest

/-- After `%` (/repo/src/parse.c 3535–3661). -/
def conversion (call : Call) (l : List Nat) (used : Nat) : Option (List Atom × List Nat × Nat) :=
  match fields call l used with
  | none => none
  | some f =>
    match length f.rest with
    | [] => none
    | c :: rest =>
      if f.used = call.count then none
      else if c = 63 then some ([.infer (.argument f.used) f.flags f.width f.precision []], rest, f.used + 1)
      else some (bytes (37 :: l.take (l.length - rest.length)), rest, f.used + 1)

/-- The fields between the name and the closing brace (/repo/src/parse.c 3912–3971). -/
def options (call : Call) (l : List Nat) (used : Nat) : Option (Fields × List Nat) :=
  match l with
  | [] => some (⟨[], [], [], [], used⟩, [])
  | c :: rest =>
    if c = 58 ∨ c = 46 ∨ c = 35 ∨ c = 42 then
      match fields call (if c = 58 then rest else l) used with
      | none => none
      | some f => some ({ f with rest := f.rest.dropWhile isLetter }, f.rest.takeWhile isLetter)
    else some (⟨[], [], [], l, used⟩, [])

/-- The value (/repo/src/parse.c 4031–4071): a variable, or the next argument. -/
def value (call : Call) (name : List Nat) (equals : Bool) (f : Fields) (type rest : List Nat) : Option (List Atom × List Nat × Nat) :=
  if name ≠ [] ∧ call.declared name then
    some ((if equals then bytes (name ++ [32, 61, 32]) else []) ++ [.infer (.variable_ name) f.flags f.width f.precision type], rest, f.used)
  else if name ≠ [] ∧ ¬(name = [115] ∨ name = [120]) then none
  else if f.used = call.count then none
  else some ([.infer (.argument f.used) f.flags f.width f.precision (if name ≠ [] then name else type)], rest, f.used + 1)

/-- After `{` (/repo/src/parse.c 3881–4071). -/
def brace (call : Call) (l : List Nat) (used : Nat) : Option (List Atom × List Nat × Nat) :=
  let name := l.takeWhile isLetter
  let l1 := l.dropWhile isLetter
  let equals := decide (name ≠ []) && decide (l1.head? = some 61)
  let l2 := if equals then l1.tail else l1
  match options call l2 used with
  | none => none
  | some (f, type) =>
    match f.rest with
    | 125 :: rest => value call name equals f type rest
    | rest =>
      if f.flags.any (fun c => c != 32) then none
      else some (bytes (123 :: l.take (l.length - rest.length)), rest, f.used)

/-- What is done at a `%` or `{` (/repo/src/parse.c 3471–4073). -/
def special (call : Call) (c : Nat) (l : List Nat) (used : Nat) : Option (List Atom × List Nat × Nat) :=
  if c = 37 then
    match l with
    | 37 :: rest => some (bytes [37, 37], rest, used)
    | l => conversion call l used
  else brace call l used

/-- The loop (/repo/src/parse.c 3459–4074); the first argument bounds the steps. The result is the format string and how many arguments were read; no result is an error. -/
def scan (call : Call) : Nat → List Nat → Nat → Option (List Atom × Nat)
  | 0, _, _ => none
  | n + 1, l, used =>
    match l.dropWhile (fun c => c != 37 && c != 123) with
    | [] => some (bytes (l.takeWhile (fun c => c != 37 && c != 123)), used)
    | c :: rest =>
      match special call c rest used with
      | none => none
      | some (atoms, rest, used) =>
        match scan call n rest used with
        | none => none
        | some r => some (bytes (l.takeWhile (fun c => c != 37 && c != 123)) ++ (atoms ++ r.1), r.2)

/-- The format string of a call. -/
def format (call : Call) (l : List Nat) : Option (List Atom × Nat) := scan call (l.length + 1) l 0

end Verif.Model.Format
