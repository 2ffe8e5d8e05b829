import Verif.Spec.StaticInit

/-!
# Model: static initializers

`evaluate_static_initializer` (/repo/src/main.c 2202–2622) interprets the intermediate code of an
initializer, a sequence of nodes in postfix order. Constants are written to the bytes of the object at once;
for addresses it records patches (`emit_patch`, /repo/src/main.c 947–966), which
the writer of executables (/repo/src/coff_writer.c 1642–1758) and the writer of object files
(/repo/src/obj_writer.c 2958–2985) apply when the objects have their addresses.

Simplifications. Bit-fields are left out (Model/Bitfield.lean). The nodes a compound literal
consists of are a part of its node here; there, they follow it, and it carries their size. The stack is a list; there it is an
array that grows when it is full. Assertions are compiled out. Errors end the interpretation here; after
`report_error` for a declaration that is local to a thread or imported, it goes on there, but there is no output
after an error.
-/
namespace Verif.Model.StaticInit
open Verif.Spec.StaticInit

mutual
/-- Nodes (/repo/src/ir.h). -/
inductive Node
  /-- `IR_integer_literal`, as `integer_literal_to_bytes` gives it (/repo/src/emit_x64.c 1542–1546). -/
  | int (v : Nat)
  /-- `IR_pointer_literal`. -/
  | ptr (v : Nat)
  /-- `IR_float_literal`, with as many bytes as its type has. -/
  | float (bs : List Nat)
  /-- `IR_string_literal`; the bytes are without the terminating zero. -/
  | string (id : Nat) (bs : List Nat)
  /-- `IR_identifier`. -/
  | ident (id : Nat) (fixed : Bool)
  /-- `IR_compound_literal` and the nodes of its initializer. -/
  | compound (id : Nat) (body : Code)
  /-- `IR_embed`. -/
  | embed (bs : List Nat)
  /-- `IR_member`. -/
  | member (offset : Nat)
  /-- `IR_load_address`. -/
  | loadAddress
  /-- `IR_load_address_lhs`. -/
  | loadAddressLhs
  /-- `IR_array_subscript`. -/
  | subscript (size : Nat)
  /-- `IR_add_u64`. -/
  | add
  /-- `IR_subtract_u64`. -/
  | sub
  /-- `IR_initializer` for a pointer, a number or a structure of `size` bytes. -/
  | init (offset size : Nat)
  /-- `IR_initializer` for an array of `size` bytes. -/
  | initArray (offset elem size : Nat)
  /-- `IR_pop_expression`. -/
  | pop
  /-- Any other node. -/
  | other
/-- Sequences of nodes. -/
inductive Code
  | nil
  | cons (n : Node) (rest : Code)
end

/-- Sequences after each other. -/
def Code.append : Code → Code → Code
  | .nil, d => d
  | .cons n c, d => .cons n (c.append d)

instance : Append Code := ⟨Code.append⟩

/-- What the `ir` of an entry of the stack points to (/repo/src/main.c 2226–2230). -/
inductive Ir
  | null
  | int (v : Nat)
  | ptr (v : Nat)
  | float (bs : List Nat)
  | embed (bs : List Nat)
  /-- A string literal or a declaration. -/
  | source (s : Source)
  deriving DecidableEq

/-- Entries of the stack (/repo/src/main.c 2226–2230). -/
structure Entry where
  ir : Ir
  offset : Nat
  isAddress : Bool

/-- `struct patch_node` for `PATCH_absolute` (/repo/src/main.c 936–945). -/
structure Patch where
  source : Source
  /-- `location_offset_in_source_declaration`. -/
  offset : Nat
  /-- `location_offset_in_dest_declaration`. -/
  dest : Nat

/-- The bytes of the object and the patches for it. -/
structure State where
  data : Nat → Nat
  patches : List Patch

/-- How the interpretation ends: it succeeds, there is an error, or a null pointer is dereferenced. -/
inductive Res (α : Type)
  | ok (a : α)
  | error
  | crash

/-- `memcpy(data + at, bytes, n)`. -/
def copy (data : Nat → Nat) (at_ n : Nat) (b : Nat → Nat) : Nat → Nat :=
  fun i => if at_ ≤ i ∧ i < at_ + n then b (i - at_) else data i

/-- The bytes of a number in memory. -/
def le (v k : Nat) : Nat := v / 256 ^ k % 256

/-- An operand of `IR_add_u64` or `IR_subtract_u64` (/repo/src/main.c 2405–2434): what is to be patched and the offset;
`none` means the initializer is not constant. -/
def operand (e : Entry) : Option (Ir × Nat) :=
  if e.isAddress then some (e.ir, e.offset)
  else match e.ir with
    | .ptr v => some (.null, v % 2 ^ 64)
    | .int v => some (.null, v % 2 ^ 64)
    | _ => none

/-- `IR_add_u64` and `IR_subtract_u64` (/repo/src/main.c 2399–2454). -/
def arith (add : Bool) (lhs rhs : Entry) : Option Entry :=
  match operand lhs, operand rhs with
  | some (pl, ol), some (pr, or_) =>
    let off := if add then (ol + or_) % 2 ^ 64 else (ol + (2 ^ 64 - or_)) % 2 ^ 64
    if pl = pr then some ⟨.null, off, true⟩
    else if pl ≠ .null ∧ pr ≠ .null then none
    else some ⟨if pl ≠ .null then pl else pr, off, true⟩
  | _, _ => none

/-- `emit_patch` (/repo/src/main.c 947–966); new patches are the last of the list. -/
def emitPatch (s : State) (src : Source) (offset dest : Nat) : State :=
  { s with patches := s.patches ++ [⟨src, offset, dest⟩] }

/-- `IR_initializer` for the entry on top of the stack (/repo/src/main.c 2456–2581). `array` is the size of
an element, if the left hand side is an array. -/
def initializer (s : State) (offset size : Nat) (array : Option Nat) (e : Entry) : Res State :=
  if e.isAddress then
    match e.ir with
    | .null => .ok { s with data := copy s.data offset size (le e.offset) }
    | .source src => .ok (emitPatch s src e.offset offset)
    | _ => .error
  else match e.ir with
    | .null => .crash
    | .int v => .ok { s with data := copy s.data offset size (le (v % 2 ^ 64)) }
    | .ptr v => .ok { s with data := copy s.data offset size (le (v % 2 ^ 64)) }
    | .float bs => .ok { s with data := copy s.data offset size (fun k => bs.getD k 0) }
    | .embed bs => .ok { s with data := copy s.data offset bs.length (fun k => bs.getD k 0) }
    | .source (.string _ bs) =>
      match array with
      | none => .error
      | some elem =>
        let data := copy s.data offset bs.length (fun k => bs.getD k 0)
        .ok { s with data :=
          if offset + bs.length + elem ≤ size then copy data (offset + bs.length) elem (fun _ => 0) else data }
    | .source (.declaration _ _) => .error

/-- Nodes other than compound literals, initializers and the end (/repo/src/main.c 2241–2454): they only
change the stack, the head of the list is the top of it. A stack with too few entries does not happen. -/
def step (n : Node) (stack : List Entry) : Res (List Entry) :=
  match n with
  | .int v => .ok (⟨.int v, 0, false⟩ :: stack)
  | .ptr v => .ok (⟨.ptr v, 0, false⟩ :: stack)
  | .float bs => .ok (⟨.float bs, 0, false⟩ :: stack)
  | .embed bs => .ok (⟨.embed bs, 0, false⟩ :: stack)
  | .string id bs => .ok (⟨.source (.string id bs), 0, false⟩ :: stack)
  | .ident id fixed => if fixed then .ok (⟨.source (.declaration id fixed), 0, false⟩ :: stack) else .error
  | .member o => match stack with
    | e :: rest => .ok ({ e with offset := (e.offset + o) % 2 ^ 64 } :: rest)
    | [] => .crash
  | .loadAddress => match stack with
    | e :: rest => .ok ({ e with isAddress := true } :: rest)
    | [] => .crash
  | .loadAddressLhs => match stack with
    | e :: f :: rest => .ok (e :: { f with isAddress := true } :: rest)
    | _ => .crash
  | .subscript n => match stack with
    | i :: e :: rest => match i.ir with
      | .int v => .ok ({ e with offset := (e.offset + v % 2 ^ 64 * n) % 2 ^ 64 } :: rest)
      | .null => .crash
      | _ => .error
    | _ => .crash
  | .add => match stack with
    | r :: l :: rest => match arith true l r with
      | some e => .ok (e :: rest)
      | none => .error
    | _ => .crash
  | .sub => match stack with
    | r :: l :: rest => match arith false l r with
      | some e => .ok (e :: rest)
      | none => .error
    | _ => .crash
  | _ => .error

/-- `evaluate_static_initializer__internal` (/repo/src/main.c 2202–2609). -/
def exec (root : Nat) : Code → List Entry → State → Res State
  | .nil, _, s => .ok s
  | .cons .pop _, _, s => .ok s
  | .cons (.compound _ body) (.cons (.init o _) rest), stack, s =>
    match exec (root + o) body [] s with
    | .ok s' => exec root rest stack s'
    | .error => .error
    | .crash => .crash
  | .cons (.compound _ body) (.cons (.initArray o _ _) rest), stack, s =>
    match exec (root + o) body [] s with
    | .ok s' => exec root rest stack s'
    | .error => .error
    | .crash => .crash
  | .cons (.compound id _) rest, stack, s =>
    exec root rest (⟨.source (.declaration id true), 0, false⟩ :: stack) s
  | .cons (.init o n) rest, stack, s => match stack with
    | e :: stack' => match initializer s (root + o) n none e with
      | .ok s' => exec root rest stack' s'
      | .error => .error
      | .crash => .crash
    | [] => .crash
  | .cons (.initArray o elem n) rest, stack, s => match stack with
    | e :: stack' => match initializer s (root + o) n (some elem) e with
      | .ok s' => exec root rest stack' s'
      | .error => .error
      | .crash => .crash
    | [] => .crash
  | .cons n rest, stack, s => match step n stack with
    | .ok stack' => exec root rest stack' s
    | .error => .error
    | .crash => .crash

/-- `evaluate_static_initializer` (/repo/src/main.c 2611–2622): the bytes are zero at first. -/
def evaluate (c : Code) : Res State := exec 0 c [] ⟨fun _ => 0, []⟩

/-- The 64 bits at `i`. -/
def word (data : Nat → Nat) (i : Nat) : Nat :=
  (List.range 8).foldl (fun a k => a + data (i + k) * 256 ^ k) 0

/-- `*(u64 *)(data + i) = v`. -/
def setWord (data : Nat → Nat) (i v : Nat) : Nat → Nat := copy data i 8 (le v)

/-- The address the writer of executables stores for a patch (/repo/src/coff_writer.c 1697–1722). -/
def exeSource (imageBase : Nat) (rva : Source → Nat) (p : Patch) : Nat :=
  match p.source with
  | .declaration id f => (rva (.declaration id f) + imageBase + p.offset) % 2 ^ 64
  | .string id t => (rva (.string id t) + imageBase) % 2 ^ 64

/-- Patches in an executable (/repo/src/coff_writer.c 1642–1758): addresses for the preferred base address are
stored, and a base relocation is recorded for each of them (Model/BaseReloc.lean). -/
def exePatch (imageBase : Nat) (rva : Source → Nat) (data : Nat → Nat) (ps : List Patch) : Nat → Nat :=
  ps.foldl (fun d p => setWord d p.dest (exeSource imageBase rva p)) data

/-- The loader adds the distance from the preferred base address at each place recorded. This is not code of the compiler; it is
what the format of executables says about `IMAGE_REL_BASED_DIR64`. -/
def exeLoad (delta : Nat) (data : Nat → Nat) (ps : List Patch) : Nat → Nat :=
  ps.foldl (fun d p => setWord d p.dest ((word d p.dest + delta) % 2 ^ 64)) data

/-- Patches in an object file (/repo/src/obj_writer.c 2958–2985): the offsets are stored in the bytes. -/
def objPatch (data : Nat → Nat) (ps : List Patch) : Nat → Nat :=
  ps.foldl (fun d p => setWord d p.dest (p.offset % 2 ^ 64)) data

/-- The linker adds the address of the symbol at each place. This is not code of the compiler; it is what the format of object
files says about `IMAGE_REL_AMD64_ADDR64`. -/
def objLink (at_ : Addresses) (data : Nat → Nat) (ps : List Patch) : Nat → Nat :=
  ps.foldl (fun d p => setWord d p.dest ((word d p.dest + at_ p.source) % 2 ^ 64)) data

/-! ## The nodes of an initializer

The parser pushes nodes in postfix order; the address of an array on the left of `+` or `-` is loaded after the right hand side
is there (/repo/src/parse.c 6083–6157, 1699–1729, 1732–1816). -/

mutual
/-- The nodes of an lvalue. -/
def lowerL : LExpr → Code
  | .object (.declaration id fixed) => .cons (.ident id fixed) .nil
  | .object (.string id bs) => .cons (.string id bs) .nil
  | .member e o => lowerL e ++ .cons (.member o) .nil
  | .index e i n => lowerL e ++ lowerV i ++ .cons (.subscript n) .nil
/-- The nodes of an expression. -/
def lowerV : VExpr → Code
  | .int v => .cons (.int v) .nil
  | .ptr v => .cons (.ptr v) .nil
  | .addr e => lowerL e ++ .cons .loadAddress .nil
  | .decay e => lowerL e ++ .cons .loadAddress .nil
  | .add (.decay e) b => lowerL e ++ lowerV b ++ .cons .loadAddressLhs (.cons .add .nil)
  | .sub (.decay e) b => lowerL e ++ lowerV b ++ .cons .loadAddressLhs (.cons .sub .nil)
  | .add a b => lowerV a ++ lowerV b ++ .cons .add .nil
  | .sub a b => lowerV a ++ lowerV b ++ .cons .sub .nil
end

mutual
/-- The nodes of an initializer for the part at `base` (/repo/src/parse.c 2039–2872); lists in braces
are initializers for the parts they are for, one after the other. -/
def lowerItem (base : Nat) : Item → Code
  | .value e n => lowerV e ++ .cons (.init base n) .nil
  | .float bs => .cons (.float bs) (.cons (.init base bs.length) .nil)
  | .file bs => .cons (.embed bs) (.cons (.init base 1) .nil)
  | .text id bs elem n => .cons (.string id bs) (.cons (.initArray base elem n) .nil)
  | .list true id is n => .cons (.compound id (lowerItems 0 is)) (.cons (.init base n) .nil)
  | .list false _ is _ => lowerItems base is
/-- The nodes of a list of initializers. -/
def lowerItems (base : Nat) : Items → Code
  | .nil => .nil
  | .cons o i rest => lowerItem (base + o) i ++ lowerItems base rest
end

/-- The nodes of the initializer of a declaration (/repo/src/parse.c 2678–2872). A list in braces, or a compound literal of the type of
the declaration, becomes an `IR_compound_literal`, and the interpretation ends after its nodes
(/repo/src/main.c 2207–2218); otherwise it ends at the `IR_pop_expression`. -/
def lowerDecl : Item → Code
  | .list _ _ is _ => lowerItems 0 is
  | i => lowerItem 0 i ++ .cons .pop .nil

end Verif.Model.StaticInit
