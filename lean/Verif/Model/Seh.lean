import Verif.Spec.Seh
import Verif.Model.BaseReloc

/-!
# Model: tables of exception handlers

`__try` in the parser (/repo/src/parse.c 9652–9758), the markers in the code generator (/repo/src/emit_x64.c 4648–4661) and the table after the information for
unwinding (/repo/src/obj_writer.c 977–991).

Simplifications: code is its size; `IR_skip` and what it skips (the filter) have no code in this function. The filter is the address that its function gets. In
object files there are no relocations for the table (/repo/src/obj_writer.c 1527–1542); this is about executables.
-/
namespace Verif.Model.Seh
open Verif.Model.BaseReloc (u32 u16)
open Verif.Spec.Seh (Body)

/-- The intermediate representation: code, `IR_start_exception_block`, `IR_end_exception_block`. -/
inductive Node
  | code (bytes : Nat)
  | start (handler : Nat)
  | end_ (handler : Nat)

/-- `struct seh_exception_handler` (/repo/src/ast.c 734–739); `id` stands for the address of the structure. `filter_function` is null if nothing is assigned to it. -/
structure Handler where
  id : Nat
  filter : Option Nat

/-- The parser (/repo/src/parse.c 9652–9758): the nodes, and `current_function->seh_exception_handler`. The filter is assigned after the body (9720), nothing reads it before. -/
def parse : Body → List Handler → List Node × List Handler
  | .done, hs => ([], hs)
  | .code n rest, hs =>
    let r := parse rest hs
    (.code n :: r.1, r.2)
  | .except filter inner jump handler rest, hs =>
    let h : Handler := ⟨hs.length, some filter⟩
    let a := parse inner (h :: hs)
    let b := parse handler a.2
    let c := parse rest b.2
    (.start h.id :: a.1 ++ [.code jump, .end_ h.id] ++ b.1 ++ c.1, c.2)
  | .finally_ inner final rest, hs =>
    let h : Handler := ⟨hs.length, none⟩
    let a := parse inner (h :: hs)
    let b := parse final a.2
    let c := parse rest b.2
    (.start h.id :: a.1 ++ [.end_ h.id] ++ b.1 ++ c.1, c.2)

/-- `start_offset_in_function` and `end_offset_in_function` of the handlers. -/
structure Offsets where
  start : Nat → Nat
  end_ : Nat → Nat

/-- The code generator (/repo/src/emit_x64.c 4648–4661); `emitted` is `get_bytes_emitted`. -/
def generate : List Node → Nat → Offsets → Offsets
  | [], _, o => o
  | .code n :: rest, emitted, o => generate rest (emitted + n) o
  | .start h :: rest, emitted, o => generate rest emitted { o with start := fun i => if i = h then emitted else o.start i }
  | .end_ h :: rest, emitted, o => generate rest emitted { o with end_ := fun i => if i = h then emitted else o.end_ i }

/-- The loop over the handlers (/repo/src/obj_writer.c 984–989); `rva` is `function->relative_virtual_address`. There is no result if `filter_function` is null: it is
dereferenced. -/
def rows (rva : Nat) (o : Offsets) : List Handler → Option (List Nat)
  | [] => some []
  | h :: rest => do
    let f ← h.filter
    let r ← rows rva o rest
    return u32 (o.start h.id + rva) ++ u32 (o.end_ h.id + rva) ++ u32 f ++ u32 (o.end_ h.id + rva) ++ r

/-- What is written after the codes for unwinding (/repo/src/obj_writer.c 977–991): nothing without handlers, otherwise the address of `__C_specific_handler`, the number of
entries, the entries. The offsets are zero before code generation. -/
def data (specificHandler rva prolog : Nat) (body : Body) : Option (List Nat) :=
  let p := parse body []
  if p.2 = [] then some []
  else do
    let r ← rows rva (generate p.1 prolog ⟨fun _ => 0, fun _ => 0⟩) p.2
    return u32 specificHandler ++ u32 p.2.length ++ r

/-- `unwind_info->flags` (/repo/src/obj_writer.c 912): one if the function has a handler for exceptions. -/
def flags (body : Body) : Nat := if (parse body []).2 = [] then 0 else 1

end Verif.Model.Seh
