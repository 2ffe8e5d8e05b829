import Verif.Model.AstTable
import Verif.Model.Chunk

/-!
# Model: which names are local to a file (`src/main.c:1282-1313, 2937-2999`, `src/parse.c:8517-8529, 8593-8601`)

While a file is split into declarations (`Verif.Model.Chunk`), every declared name is put into `is_token_static_table` of the
compilation unit. The parser later looks up the names of declarators there.

The table is open addressing with linear probing over the hash of the name; nothing is assumed about the hash function. The
capacity is a power of two and `x & mask` is written `x % cap`. The value of an entry is 1 if it is static.
-/

namespace Verif.StaticTable

open Verif.Chunk (Reg)
open Verif.AstTable (Nodes setNode)

/-- `is_token_static_table` (`src/main.c:383-389`). -/
structure Table where
  nodes : Nodes
  size : Nat
  cap : Nat

/-- The table of a new compilation unit (`src/main.c:4890-4892`). -/
def create (cap : Nat) : Table := { nodes := fun _ => none, size := 0, cap := cap }

/-- Doubling the table (`src/main.c:2942-2966`). The loop that moves the entries is that of `maybe_grow_ast_table__internal`. -/
def grow (hash : Nat → Nat) (t : Table) : Table :=
  if 2 * t.size + 1 > t.cap then { t with nodes := AstTable.rehash hash t.nodes (2 * t.cap) t.cap, cap := 2 * t.cap } else t

/-- `actually_static` (`src/main.c:2972`). -/
def actuallyStatic (r : Reg) : Bool := r.isStatic || (!r.isExtern && r.isInline)

/-- The loop over the entries (`src/main.c:2969-2999`) from offset `o`, with `fuel` iterations left. -/
def insertName (t : Table) (hash : Nat → Nat) (r : Reg) (o : Nat) : Nat → Table
  | 0 => t
  | fuel + 1 =>
    let index := (hash r.name + o) % t.cap
    match t.nodes index with
    | none => { t with nodes := setNode t.nodes index (some (r.name, (actuallyStatic r).toNat)), size := t.size + 1 }
    | some (k, v) =>
      if k = r.name then
        if v ≠ 0 then t
        else if r.isStatic = true then { t with nodes := setNode t.nodes index (some (k, 1)) }
        else t
      else insertName t hash r (o + 1) fuel

/-- Registration of one name (`src/main.c:2937-2999`). -/
def register (hash : Nat → Nat) (t : Table) (r : Reg) : Table :=
  let t := grow hash t
  insertName t hash r 0 t.cap

/-- `enum identifier_is_static_result`. -/
inductive Answer
  | static | nonStatic | notDefined
deriving DecidableEq, Repr

/-- The loop of `compilation_unit_is_static_table_lookup_whether_this_identifier_is_static` (`src/main.c:1288-1311`); `none` is
`invalid_code_path`. -/
def probe (t : Table) (hash : Nat → Nat) (n o : Nat) : Nat → Option Answer
  | 0 => none
  | fuel + 1 =>
    match t.nodes ((hash n + o) % t.cap) with
    | none => some .notDefined
    | some (k, v) =>
      if k = n then some (if v ≠ 0 then .static else .nonStatic)
      else probe t hash n (o + 1) fuel

/-- `compilation_unit_is_static_table_lookup_whether_this_identifier_is_static` (`src/main.c:1282-1313`). -/
def lookup (hash : Nat → Nat) (t : Table) (n : Nat) : Option Answer := probe t hash n 0 t.cap

/-- The declarators of one declaration at file scope (`src/parse.c:8564-8601`, `8980`): for each name whether its declaration
gets the flag `DECLARATION_FLAGS_is_static` (`src/parse.c:8685, 8895`). `flag` is `SPECIFIER_static`. -/
def flags (isStaticName : Nat → Bool) (flag : Bool) : List Nat → List Bool
  | [] => []
  | n :: ns =>
    let flag := flag || isStaticName n
    flag :: flags isStaticName flag ns

/-- The flags of a declaration; `inline` without `extern` implies `static` (`src/parse.c:8517-8529`). -/
def declaration (isStaticName : Nat → Bool) (isStatic isExtern isInline : Bool) (ns : List Nat) : List Bool :=
  flags isStaticName (isStatic || (isInline && !isExtern)) ns

end Verif.StaticTable
