import Verif.Spec.DefineTable

/-!
# Model: the table of macros (`register_define`, `lookup_define`, `src/preprocess.c:303-370`; `#define` 4150-4297
and `#undef` 4302-4319)

A chain of nodes is a list; that the list macros do what the list operations do is `Props/IntrusiveList`. A
node is a name and a definition. `hash` gives the hash of a name; masks are remainders, as capacities are powers
of two. `same` is the comparison of two definitions.
-/
namespace Verif.DefineTable
open Verif.Spec.DefineTable (Directive)

/-- `context->define_table` (`src/main.c:703-708`). -/
structure Table (D : Type) where
  capacity : Nat
  lists : Nat → List (Nat × D)
  amount : Nat

variable {D : Type}

/-- `memset(&context->define_table, 0, ...)`, `src/main.c:2693`. -/
def empty : Table D := ⟨0, fun _ => [], 0⟩

/-- `dll_push_back(new_lists[index], node)`, `src/preprocess.c:333`. -/
def pushBack (lists : Nat → List (Nat × D)) (i : Nat) (e : Nat × D) : Nat → List (Nat × D) :=
  fun j => if j = i then lists j ++ [e] else lists j

/-- The loops that fill the new lists, `src/preprocess.c:325-337`. -/
def rehash (hash : Nat → Nat) (t : Table D) (new : Nat) : Nat → List (Nat × D) :=
  (List.range t.capacity).foldl (fun acc i => (t.lists i).foldl (fun acc e => pushBack acc (hash e.1 % new) e) acc) (fun _ => [])

/-- `src/preprocess.c:319-343`. -/
def grow (hash : Nat → Nat) (t : Table D) : Table D :=
  if 2 * t.amount + 1 > t.capacity then
    let new := 2 * max t.capacity 256
    { t with capacity := new, lists := rehash hash t new }
  else t

/-- `register_define`, `src/preprocess.c:303-352`. -/
def register (hash : Nat → Nat) (t : Table D) (n : Nat) (d : D) : Table D :=
  let t := grow hash t
  let i := hash n % t.capacity
  { t with lists := fun j => if j = i then (n, d) :: t.lists j else t.lists j, amount := t.amount + 1 }

/-- `lookup_define`, `src/preprocess.c:354-370`. -/
def lookup (hash : Nat → Nat) (t : Table D) (n : Nat) : Option (Nat × D) :=
  (t.lists (hash n % t.capacity)).find? (fun e => e.1 == n)

/-- The first node with the name gets another definition, `src/preprocess.c:4289-4296`. -/
def setFirst (n : Nat) (d : D) : List (Nat × D) → List (Nat × D)
  | [] => []
  | e :: es => if e.1 == n then (n, d) :: es else e :: setFirst n d es

/-- `dll_remove` of the first node with the name, `src/preprocess.c:4314`. -/
def removeFirst (n : Nat) : List (Nat × D) → List (Nat × D)
  | [] => []
  | e :: es => if e.1 == n then es else e :: removeFirst n es

/-- `#define`, `src/preprocess.c:4150-4297`. -/
def define (hash : Nat → Nat) (same : D → D → Bool) (t : Table D) (n : Nat) (d : D) : Table D :=
  match lookup hash t n with
  | none => register hash t n d
  | some e =>
    if same d e.2 then t
    else { t with lists := fun j => if j = hash n % t.capacity then setFirst n d (t.lists j) else t.lists j }

/-- `#undef`, `src/preprocess.c:4302-4319`; `amount` stays. -/
def undef (hash : Nat → Nat) (t : Table D) (n : Nat) : Table D :=
  match lookup hash t n with
  | none => t
  | some e => { t with lists := fun j => if j = hash e.1 % t.capacity then removeFirst n (t.lists j) else t.lists j }

/-- A directive, `src/preprocess.c:3915-4319`. -/
def directive (hash : Nat → Nat) (same : D → D → Bool) (t : Table D) : Directive D → Table D
  | .define n d => define hash same t n d
  | .undef n => undef hash t n

/-- The table at the start of a file: the builtin macros, `src/main.c:2701-2741`. -/
def start (hash : Nat → Nat) (builtins : List (Nat × D)) : Table D :=
  builtins.foldl (fun t e => register hash t e.1 e.2) empty

/-- The table after some directives: the main loop over a file (`src/preprocess.c:3885-4540`), its other directives left out. -/
def run (hash : Nat → Nat) (same : D → D → Bool) (t : Table D) (ds : List (Directive D)) : Table D :=
  ds.foldl (directive hash same) t

end Verif.DefineTable
