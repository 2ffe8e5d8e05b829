/-!
# Model: the scopes of a function (`src/main.c:1563-1596`, `1726-1801`, `src/parse.c:818-846`)

The declarations of a scope are in a table with open addressing and linear probing. A declaration is
a pair of its name (an atom, two atoms match exactly if they are the same string) and a number for
its address. `hash` is the hash of a name; nothing is assumed about it. The size of a table is zero
or a power of two and `x & (size - 1)` is written `x % size`. Memory never runs out and sizes do not
overflow. Warnings are left out.
-/
namespace Verif.Scope

/-- An entry of `scope->declarations`; `(struct ast_declaration *)1` is a tombstone. -/
inductive Cell
  | null
  | tomb
  | decl (k d : Nat)
deriving DecidableEq

/-- `struct ast_scope`, the fields for declarations and `SCOPE_FLAG_is_function_scope`. -/
structure Scope where
  function : Bool
  cells : Nat → Cell
  amount : Nat
  max : Nat

/-- `push_struct(context->arena, struct ast_scope)`: a scope of zero bytes, with its flag. -/
def Scope.new (function : Bool) : Scope := { function := function, cells := fun _ => .null, amount := 0, max := 0 }

/-- A write to a table. -/
def set (cells : Nat → Cell) (i : Nat) (c : Cell) : Nat → Cell := fun j => if j = i then c else cells j

/-- Put a declaration into the new table, `src/main.c:1757-1763`; `fuel` is the number of iterations
left and `o` is `new_index`. -/
def place (new : Nat → Cell) (newMax h : Nat) (c : Cell) : Nat → Nat → Nat → Cell
  | _, 0 => new
  | o, fuel + 1 => if new ((o + h) % newMax) = .null then set new ((o + h) % newMax) c else place new newMax h c (o + 1) fuel

/-- The loop over the chain of the hash `h`, `src/main.c:1743-1766`; `o` is `hash_chain_index`. The
result are the old and the new table. -/
def moveChain (hash : Nat → Nat) (max newMax h : Nat) (old new : Nat → Cell) : Nat → Nat → (Nat → Cell) × (Nat → Cell)
  | _, 0 => (old, new)
  | o, fuel + 1 => match old ((o + h) % max) with
    | .null => (old, new)
    | .tomb => moveChain hash max newMax h old new (o + 1) fuel
    | .decl k d =>
      if hash k ≠ h then moveChain hash max newMax h old new (o + 1) fuel
      else moveChain hash max newMax h (set old ((o + h) % max) .tomb) (place new newMax h (.decl k d) 0 newMax) (o + 1) fuel

/-- The loop over the old table, `src/main.c:1736-1767`. -/
def moveAll (hash : Nat → Nat) (max newMax : Nat) (old new : Nat → Cell) : Nat → Nat → (Nat → Cell) × (Nat → Cell)
  | _, 0 => (old, new)
  | i, fuel + 1 => match old i with
    | .null => moveAll hash max newMax old new (i + 1) fuel
    | .tomb => moveAll hash max newMax old new (i + 1) fuel
    | .decl k _ =>
      let r := moveChain hash max newMax (hash k) old new 0 max
      moveAll hash max newMax r.1 r.2 (i + 1) fuel

/-- `src/main.c:1732-1771`: grow the table if it is half full, and count the declaration. -/
def maybeGrow (hash : Nat → Nat) (s : Scope) : Scope :=
  if 2 * s.amount = s.max then
    let newMax := Nat.max (2 * s.max) 8
    { s with amount := s.amount + 1, max := newMax, cells := (moveAll hash s.max newMax s.cells (fun _ => .null) 0 s.max).2 }
  else { s with amount := s.amount + 1 }

/-- `src/main.c:1776-1800`: put the declaration before the others of the same name. -/
def push (max h : Nat) (cells : Nat → Cell) (k d : Nat) : Nat → Nat → Nat → Cell
  | _, 0 => cells
  | o, fuel + 1 => match cells ((o + h) % max) with
    | .null => set cells ((o + h) % max) (.decl k d)
    | .tomb => cells -- A tombstone would be dereferenced here; there is none (`NoTomb` in the proofs).
    | .decl k' d' =>
      if k = k' then push max h (set cells ((o + h) % max) (.decl k d)) k' d' (o + 1) fuel
      else push max h cells k d (o + 1) fuel

/-- `parser_register_declaration_in_scope`, `src/main.c:1726-1801`. -/
def register (hash : Nat → Nat) (s : Scope) (k d : Nat) : Scope :=
  let s := maybeGrow hash s
  { s with cells := push s.max (hash k) s.cells k d 0 s.max }

/-- The search in one scope, `src/main.c:1569-1581`; `o` is `table_index`. -/
def find (max h : Nat) (cells : Nat → Cell) (k : Nat) : Nat → Nat → Option Nat
  | _, 0 => none
  | o, fuel + 1 => match cells ((o + h) % max) with
    | .null => none
    | .tomb => none
    | .decl k' d => if k = k' then some d else find max h cells k (o + 1) fuel

/-- `lookup_declaration`, `src/main.c:1563-1596`. The scopes are the chain of parents; `global` is
the lookup in the table of global declarations. -/
def lookup (hash : Nat → Nat) (global : Nat → Option Nat) : List Scope → Nat → Option Nat
  | [], k => global k
  | s :: rest, k => match find s.max (hash k) s.cells k 0 s.max with
    | some d => some d
    | none => if s.function then global k else lookup hash global rest k

/-- What the parser does to `context->current_scope` and its scopes. -/
inductive Op
  /-- `src/parse.c:8784-8788` and `src/main.c:3332-3333`: the scope of a function. -/
  | enterFunction
  /-- `parser_push_new_scope`, `src/parse.c:818-840`. -/
  | pushScope
  /-- `parser_scope_pop`, `src/parse.c:842-846`. -/
  | popScope
  /-- `register_declaration`, `src/main.c:1805-1810`, or `src/parse.c:8667`. -/
  | register (k d : Nat)
deriving DecidableEq

/-- One operation; `none` is a null pointer dereferenced, or a global declaration. -/
def Op.run (hash : Nat → Nat) : Op → List Scope → Option (List Scope)
  | .enterFunction, s => some (Scope.new true :: s)
  | .pushScope, [] => none
  | .pushScope, s => some (Scope.new false :: s)
  | .popScope, [] => none
  | .popScope, _ :: s => some s
  | .register _ _, [] => none
  | .register k d, c :: s => some (Verif.Scope.register hash c k d :: s)

/-- A sequence of operations. -/
def run (hash : Nat → Nat) : List Scope → List Op → Option (List Scope)
  | s, [] => some s
  | s, o :: os => (o.run hash s).bind fun s => run hash s os

end Verif.Scope
