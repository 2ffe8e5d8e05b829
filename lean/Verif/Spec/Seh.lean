import Verif.Spec.Image

/-!
# Specification: which handlers an exception meets

`__try { … } __except(filter) { … }` and `__try { … } __finally { … }`. When an exception happens at an address, Windows calls the function `__C_specific_handler` for the
function of the address. It goes through a table of the function: the number of entries, and for every entry the start and the end of a part of the code, the address of a filter,
and the address of the code that handles the exception. For every entry whose part has the address, in the order of the table, the filter decides: positive,
the exception is handled; negative, the program continues where it was; zero, the search goes on. If the last address of the entry is zero, what is at the third one is
not a filter, but what has to be done before the function is left (`__finally`).
-/
namespace Verif.Spec.Seh
open Verif.Spec.Image (byte number)

/-- A function body: code; `__try` with `__except`: the filter, the body, the size of the jump over the code that handles the exception, that code; `__try` with
`__finally`. -/
inductive Body
  | done
  | code (bytes : Nat) (rest : Body)
  | except (filter : Nat) (inner : Body) (jump : Nat) (handler rest : Body)
  | finally_ (inner final rest : Body)

/-- How many bytes of code there are. -/
def Body.size : Body → Nat
  | .done => 0
  | .code n rest => n + rest.size
  | .except _ inner jump handler rest => inner.size + jump + handler.size + rest.size
  | .finally_ inner final rest => inner.size + final.size + rest.size

/-- What is around a byte of the code: the address of a filter and where the code is that handles the exception; or, without filter, the code after `__finally`. -/
structure Around where
  filter : Option Nat
  target : Nat
deriving DecidableEq

/-- For every byte of the code from an address on, what is around it, from the innermost to the outermost. -/
def around (outer : List Around) : Body → Nat → List (List Around)
  | .done, _ => []
  | .code n rest, a => List.replicate n outer ++ around outer rest (a + n)
  | .except filter inner jump handler rest, a =>
    let target := a + inner.size + jump
    around (⟨some filter, target⟩ :: outer) inner a ++ List.replicate jump (⟨some filter, target⟩ :: outer) ++ around outer handler target ++
      around outer rest (target + handler.size)
  | .finally_ inner final rest, a =>
    let target := a + inner.size
    around (⟨none, target⟩ :: outer) inner a ++ around outer final target ++ around outer rest (target + final.size)

/-- An entry of the table. -/
structure Entry where
  start : Nat
  end_ : Nat
  filter : Nat
  target : Nat
deriving DecidableEq

/-- The entries at a position. -/
def entries (b : List Nat) : Nat → Nat → List Entry
  | 0, _ => []
  | n + 1, p => ⟨number (byte b) 4 p, number (byte b) 4 (p + 4), number (byte b) 4 (p + 8), number (byte b) 4 (p + 12)⟩ :: entries b n (p + 16)

/-- The table: the number of entries, the entries. -/
def table (b : List Nat) (p : Nat) : List Entry := entries b (number (byte b) 4 p) (p + 4)

/-- The entries for an address. -/
def entriesAt (b : List Nat) (p address : Nat) : List Entry := (table b p).filter (fun e => decide (e.start ≤ address ∧ address < e.end_))

/-- What becomes of an exception. -/
inductive Outcome
  /-- The code at an address handles it. -/
  | handled (target : Nat)
  /-- The program continues. -/
  | continued
  /-- This function does not handle it. -/
  | passed
deriving DecidableEq

/-- Windows: the entries for the address, in the order of the table. -/
def dispatch (verdict : Nat → Int) : List Entry → Outcome
  | [] => .passed
  | e :: rest => if e.target = 0 then dispatch verdict rest else if 0 < verdict e.filter then .handled e.target else if verdict e.filter < 0 then .continued else dispatch verdict rest

/-- The language: the filters from the innermost to the outermost. -/
def decide_ (verdict : Nat → Int) : List Around → Outcome
  | [] => .passed
  | ⟨some f, t⟩ :: rest => if 0 < verdict f then .handled t else if verdict f < 0 then .continued else decide_ verdict rest
  | ⟨none, _⟩ :: rest => decide_ verdict rest

end Verif.Spec.Seh
