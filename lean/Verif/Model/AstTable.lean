/-!
# Model: the table of global declarations (`src/main.c:80-247`)

Open addressing with linear probing. A key is an atom (`struct atom`, two atoms match exactly if they
are the same string), a value the declaration. `hash` is the string hash; nothing is assumed about
it. The capacity is a power of two and `x & mask` is written `x % cap`. Memory for the table never
runs out and the capacity does not overflow.
-/
namespace Verif.AstTable

/-- `struct ast_node`: `none` is a node of zero bytes. -/
abbrev Node := Option (Nat × Nat)

/-- An array of nodes. -/
abbrev Nodes := Nat → Node

/-- `struct ast_table`, `src/main.c:95-103`, without the fields for threads. -/
structure Table where
  nodes : Nodes
  amount : Nat
  cap : Nat

/-- `ast_table_create`, `src/main.c:106-119`. -/
def create (cap : Nat) : Table := { nodes := fun _ => none, amount := 0, cap := cap }

/-- A write to a node. -/
def setNode (nodes : Nodes) (i : Nat) (n : Node) : Nodes := fun j => if j = i then n else nodes j

/-- The search for a free node when growing, `src/main.c:143-149`; `fuel` is the number of iterations left. -/
def place (nodes : Nodes) (cap : Nat) (n : Node) : Nat → Nat → Nodes
  | _, 0 => nodes
  | i, fuel + 1 => match nodes i with
    | some _ => place nodes cap n ((i + 1) % cap) fuel
    | none => setNode nodes i n

/-- The loop over the old nodes, `src/main.c:139-150`: the nodes `0 … i - 1` have been moved. -/
def rehash (hash : Nat → Nat) (old : Nodes) (cap : Nat) : Nat → Nodes
  | 0 => fun _ => none
  | i + 1 => match old i with
    | none => rehash hash old cap i
    | some kv => place (rehash hash old cap i) cap (some kv) (hash kv.1 % cap) cap

/-- `maybe_grow_ast_table__internal`, `src/main.c:121-156`. -/
def maybeGrow (hash : Nat → Nat) (t : Table) : Table :=
  if t.amount + 1 > t.cap / 2 then { t with cap := t.cap * 2, nodes := rehash hash t.nodes (t.cap * 2) t.cap } else t

/-- The loop of `ast_table_add_or_return_previous_entry`, `src/main.c:195-216`. The outer `none` is
`invalid_code_path`; the inner option is the returned value. -/
def probeAdd (t : Table) (k v : Nat) : Nat → Nat → Option (Table × Option Nat)
  | _, 0 => none
  | i, fuel + 1 => match t.nodes i with
    | some (k', v') => if k' = k then some (t, some v') else probeAdd t k v ((i + 1) % t.cap) fuel
    | none => some ({ t with nodes := setNode t.nodes i (some (k, v)), amount := t.amount + 1 }, none)

/-- `ast_table_add_or_return_previous_entry`, `src/main.c:158-219`, run by one thread. -/
def add (hash : Nat → Nat) (t : Table) (k v : Nat) : Option (Table × Option Nat) :=
  let t := maybeGrow hash t
  probeAdd t k v (hash k % t.cap) t.cap

/-- The loop of `ast_table_get`, `src/main.c:229-244`. -/
def probeGet (t : Table) (k : Nat) : Nat → Nat → Option (Option Nat)
  | _, 0 => none
  | i, fuel + 1 => match t.nodes i with
    | none => some none
    | some (k', v') => if k' = k then some (some v') else probeGet t k ((i + 1) % t.cap) fuel

/-- `ast_table_get`, `src/main.c:221-247`, run by one thread. -/
def get (hash : Nat → Nat) (t : Table) (k : Nat) : Option (Option Nat) := probeGet t k (hash k % t.cap) t.cap

end Verif.AstTable
