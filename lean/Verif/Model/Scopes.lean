import Verif.Spec.Scopes
import Verif.Model.BaseReloc
import Verif.Model.PdbSymbols

/-!
# Model: the scopes of local variables in PDB files

The parser notes where scopes start and end in the intermediate representation (/repo/src/parse.c 818–846, /repo/src/main.c 3403, 3455), the code generator replaces
these positions by positions in the code (/repo/src/emit_x64.c 2575–2616, 4695–4701), and the writer of PDB files writes the symbols of the
module (/repo/src/coff_writer.c 2603–2707, /repo/src/obj_writer.c 744–891).

Simplifications: the nodes of the intermediate representation are their sizes and the sizes of their code; nodes that the parser takes back are left out, and nodes that are
generated with the one before are one node with it. A scope has its declarations in the order of its table; the declaration is a variable on the stack, or something that has no
record (a type, a function, a static variable, a member of an enumeration). Positions are natural numbers; the theorems assume that they fit into 32 bits. Arenas
start at a multiple of four and are zero where nothing was written.
-/
namespace Verif.Model.Scopes
open Verif.Model.BaseReloc (u32 u16)
open Verif.Model.PdbSymbols (alignBytes)
open Verif.Spec.Scopes (Declaration Body)

/-- `struct ast_scope`: `start_offset`, `end_offset`, `declarations`, `subscopes.first`, `subscopes.next` (/repo/src/ast.c, /repo/src/parse.c 818–840). -/
inductive Scopes
  | none
  | scope (start end_ : Nat) (declarations : List Declaration) (first next : Scopes)
deriving DecidableEq

/-- The scopes the parser makes (/repo/src/parse.c 818–846): `at_` is the position in the arena. The result has the position afterwards. -/
def parse : Body → Nat → Scopes × Nat
  | .done, at_ => (.none, at_)
  | .code size _ rest, at_ => parse rest (at_ + size)
  | .block ds inner rest, at_ =>
    let first := parse inner at_
    let next := parse rest first.2
    (.scope at_ first.2 ds first.1 next.1, next.2)

/-- `scope_offsets` (/repo/src/emit_x64.c 2575–2598): the loop over the pointers is the recursion over the tree. -/
def offsets : Scopes → List Nat
  | .none => []
  | .scope start end_ _ first next => start :: offsets first ++ end_ :: offsets next

/-- The nodes: their sizes and the sizes of their code. -/
def nodes : Body → List (Nat × Nat)
  | .done => []
  | .code size bytes rest => (size, bytes) :: nodes rest
  | .block _ inner rest => nodes inner ++ nodes rest

/-- The new offsets (/repo/src/emit_x64.c 2602–2616, 4692–4701): `current` is `current_offset`, `emitted` is `get_bytes_emitted`. There is no result if the assertion at
the end fails. -/
def remap : List (Nat × Nat) → Nat → Nat → List Nat → Option (List Nat)
  | [], current, emitted, os => if os.all (fun o => decide (o = current)) then some (os.map (fun _ => emitted)) else none
  | (size, bytes) :: rest, current, emitted, os =>
    (remap rest (current + size) (emitted + bytes) (os.dropWhile (fun o => decide (o = current)))).map
      ((os.takeWhile (fun o => decide (o = current))).map (fun _ => emitted) ++ ·)

/-- The assignments through the pointers (/repo/src/emit_x64.c 2615, 4700); the second result is the rest of the offsets. -/
def assign : Scopes → List Nat → Scopes × List Nat
  | .none, os => (.none, os)
  | .scope _ _ ds first next, os =>
    let a := assign first os.tail
    let b := assign next a.2.tail
    (.scope (os.headD 0) (a.2.headD 0) ds a.1 b.1, b.2)

/-- A function. -/
structure Function where
  isStatic : Bool
  name : List Nat
  type : Nat
  declarations : List Declaration
  body : Body
  prolog : Nat
  epilog : Nat
  textOffset : Nat
  stackSpace : Nat
  rspSubtractOffset : Nat

/-- `function->byte_size` (/repo/src/emit_x64.c 4955). -/
def Function.byteSize (f : Function) : Nat := f.prolog + ((nodes f.body).map (·.2)).sum + f.epilog

/-- The scope of the function after code generation. Its start is zero (/repo/src/parse.c 8781–8786), its end is the size (/repo/src/main.c 3455). -/
def Function.scope (f : Function) : Option Scopes :=
  let p := parse f.body 0
  let s := Scopes.scope 0 p.2 f.declarations p.1 .none
  (remap (nodes f.body) 0 f.prolog (offsets s)).map (fun os => (assign s os).1)

/-- A record (/repo/src/coff_writer.c 2605–2606). -/
def record (kind : Nat) (content : List Nat) : List Nat :=
  let body := u16 kind ++ content ++ alignBytes content.length
  u16 body.length ++ body

/-- The value of a conversion from `s32` to `u32`. -/
def wrap32 (v : Int) : Nat := (v % 4294967296).toNat

/-- `codeview_regrel32`, for declarations that are variables on the stack (/repo/src/obj_writer.c 782–827). -/
def declaration : Declaration → List Nat
  | .variable name below type => record 0x1111 (u32 (wrap32 (-below)) ++ u32 type ++ u16 334 ++ name ++ [0])
  | .other => []

/-- The loop over the declarations (/repo/src/obj_writer.c 782–827). -/
def declarations (ds : List Declaration) : List Nat := ds.flatMap declaration

/-- `codeview_block32` (/repo/src/obj_writer.c 746–780); the structure has 24 bytes. -/
def block (parent end_ size offset section_ : Nat) : List Nat :=
  u16 22 ++ u16 0x1103 ++ u32 parent ++ u32 end_ ++ u32 size ++ u32 offset ++ u16 section_ ++ [0, 0]

/-- `codeview_emit_debug_information_for_function__recursive` for scopes that are not that of the function, without relocations (/repo/src/obj_writer.c 744–840): a scope
and those after it. `at_` is where the records start. -/
def emit (textOffset section_ : Nat) : Scopes → Nat → Nat → List Nat
  | .none, _, _ => []
  | .scope start end_ ds first next, at_, parent =>
    if ds = [] then
      let inner := emit textOffset section_ first at_ parent
      inner ++ emit textOffset section_ next (at_ + inner.length) parent
    else
      let d := declarations ds
      let inner := emit textOffset section_ first (at_ + 24 + d.length) at_
      let pointerToEnd := at_ + 24 + d.length + inner.length
      block parent pointerToEnd (end_ - start) (start + textOffset) section_ ++ d ++ inner ++ (u16 2 ++ u16 6) ++
        emit textOffset section_ next (pointerToEnd + 4) parent

/-- The function for the scope of the function (/repo/src/obj_writer.c 759–839). -/
def emitFunction (textOffset section_ : Nat) : Scopes → Nat → Nat → List Nat
  | .none, _, _ => []
  | .scope _ _ ds first _, at_, parent => declarations ds ++ emit textOffset section_ first (at_ + (declarations ds).length) parent

/-- `codeview_frameproc` (/repo/src/obj_writer.c 845–887); the structure has 28 bytes. -/
def frame (stackSpace : Nat) : List Nat :=
  u16 30 ++ u16 0x1012 ++ u32 stackSpace ++ u32 0 ++ u32 0 ++ u32 0 ++ u32 0 ++ u16 0 ++ u16 0x8200 ++ u16 0x12 ++ [0, 0]

/-- `codeview_proc` (/repo/src/coff_writer.c 2660–2690). -/
def proc (f : Function) (section_ pointerToEnd : Nat) : List Nat :=
  record (if f.isStatic then 0x110f else 0x1110)
    (u32 0 ++ u32 pointerToEnd ++ u32 0 ++ u32 f.byteSize ++ u32 f.rspSubtractOffset ++ u32 f.byteSize ++ u32 f.type ++ u32 f.textOffset ++ u16 section_ ++ [0] ++
      f.name ++ [0])

/-- The records of a function (/repo/src/coff_writer.c 2655–2701); `pointer_to_end` is written when the position is known. -/
def functionSymbols (section_ : Nat) (f : Function) (at_ : Nat) : Option (List Nat) := do
  let s ← f.scope
  let start := at_ + (proc f section_ 0).length + (frame f.stackSpace).length
  let inner := emitFunction f.textOffset section_ s start at_
  return proc f section_ (start + inner.length) ++ frame f.stackSpace ++ inner ++ record 6 []

/-- The loop over the functions (/repo/src/coff_writer.c 2655–2701). -/
def functions (section_ : Nat) : List Function → Nat → Option (List Nat)
  | [], _ => some []
  | f :: rest, at_ => do
    let a ← functionSymbols section_ f at_
    let b ← functions section_ rest (at_ + a.length)
    return a ++ b

/-- `S_OBJNAME` and `S_COMPILE3` (/repo/src/coff_writer.c 2613–2653); `codeview_compile3` has 24 bytes. -/
def header (objectName : List Nat) : List Nat :=
  record 0x1101 (u32 0 ++ objectName ++ [0]) ++
    record 0x113c (u32 0 ++ u16 0xd0 ++ (u16 19 ++ u16 11 ++ u16 25506 ++ u16 0) ++ (u16 19 ++ u16 11 ++ u16 25506 ++ u16 0) ++ [0, 0] ++ [104, 108, 99, 0])

/-- The symbols of the module (/repo/src/coff_writer.c 2603–2707). -/
def symbols (section_ : Nat) (objectName : List Nat) (buildInfo : Nat) (fs : List Function) : Option (List Nat) := do
  let r ← functions section_ fs (4 + (header objectName).length)
  return u32 4 ++ header objectName ++ r ++ record 0x114c (u32 buildInfo)

end Verif.Model.Scopes
