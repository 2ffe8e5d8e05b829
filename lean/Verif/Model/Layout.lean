import Verif.Model.Align

/-!
# Model: struct and union layout

Models the member loop of `parse_declaration_specifiers`, `src/parse.c:7947-8257`.

Simplifications: sizes are `Nat` (the code has a `@cleanup: overflow`); member names,
nested-member registration (8188-8207) and arrays of unknown size are left out, they
do not influence offsets. `assertFail` is the failing `assert` of line 8158, `error`
a reported error (the struct is then not laid out).
-/
namespace Verif.Layout
open Verif.Align

/-- One declarator in a struct or union. `size`, `align` are those of its (base) type,
`userAligned` is `TYPE_FLAG_is_user_aligned` of the type, `specAlign` the alignment
from the member's own specifiers (0 if there is none), `bits` the bit-field width, and
`named` whether it has an identifier; `compound` says that the type is a struct or
union (which may be an anonymous member). -/
structure Decl where
  size : Nat
  align : Nat
  userAligned : Bool := false
  specAlign : Nat := 0
  bits : Option Nat := none
  named : Bool := true
  compound : Bool := false
deriving DecidableEq, Repr

/-- A registered member (`struct compound_member`): offset and size of its (storage)
type, and bit index and width for bit-fields (`struct ast_bitfield_type`). -/
structure Placed where
  offset : Nat
  size : Nat
  align : Nat
  bits : Option (Nat × Nat)
deriving DecidableEq, Repr

/-- The compound-level inputs: `is_union`, `is_packed`, `declspec_alignment` and
`context->pragma_alignment`. -/
structure Config where
  isUnion : Bool
  isPacked : Bool
  declspecAlign : Nat
  pragmaAlign : Nat
deriving DecidableEq, Repr

/-- Loop variables, `src/parse.c:7947-7951`; `members` is in order of registration,
latest first. `unit` is `current_bitfield_type` (its size), `bitIndex` is
`current_bitfield_index`. -/
structure State where
  size : Nat := 0
  align : Nat
  unit : Option Nat := none
  bitIndex : Nat := 0
  members : List Placed := []
deriving DecidableEq, Repr

inductive Result (α : Type)
  | ok (a : α)
  | error
  | assertFail
deriving DecidableEq, Repr

/-- `decl_alignment`, `src/parse.c:8142-8150`. -/
def declAlignment (c : Config) (d : Decl) : Nat :=
  if d.specAlign ≠ 0 then d.specAlign
  else if c.isPacked then 1
  else if ¬ d.userAligned ∧ d.align > c.pragmaAlign then c.pragmaAlign
  else d.align

/-- Placement of a declarator, `src/parse.c:8142-8184`. `fits` is
`this_was_a_bitfield_type_that_fits`, `bits` the bit index and width. -/
def place (c : Config) (s : State) (d : Decl) (fits : Bool) (bits : Option (Nat × Nat)) : Result State :=
  let da := declAlignment c d
  if fits then
    match s.members with
    | [] => .assertFail
    | m :: _ =>
      match m.bits with
      | none => .assertFail
      | some _ => .ok { s with
          align := max da s.align
          members := { offset := m.offset, size := d.size, align := da, bits } :: s.members }
  else if c.isUnion then
    .ok { s with
      size := max d.size s.size
      align := max da s.align
      members := { offset := 0, size := d.size, align := da, bits } :: s.members }
  else
    let size := alignUp s.size da
    .ok { s with
      size := size + d.size
      align := max da s.align
      members := { offset := size, size := d.size, align := da, bits } :: s.members }

/-- One iteration of the declarator loop, `src/parse.c:7994-8211`. -/
def step (c : Config) (s : State) (d : Decl) : Result State :=
  match d.bits with
  | none =>
    if d.named ∨ d.compound then place c { s with unit := none, bitIndex := 0 } d false none
    else .error   -- "Declaration does not declare anything." (8185-8186)
  | some 0 =>
    if d.named then .error else .ok { s with unit := none, bitIndex := 0 }
  | some w =>
    if w > d.size * 8 then .error
    else
      let sameUnit := s.unit = some d.size ∧ s.bitIndex + w ≤ d.size * 8
      let fits := decide (sameUnit ∧ s.members ≠ [])
      let base := if sameUnit then s.bitIndex else 0
      let s' := if sameUnit then { s with bitIndex := s.bitIndex + w }
                else { s with unit := some d.size, bitIndex := w }
      if d.named then place c s' d fits (some (base, w)) else .ok s'

/-- The loop over all declarators. -/
def run (c : Config) : State → List Decl → Result State
  | s, [] => .ok s
  | s, d :: ds =>
    match step c s d with
    | .ok s' => run c s' ds
    | .error => .error
    | .assertFail => .assertFail

/-- The finished compound type. -/
structure Compound where
  size : Nat
  align : Nat
  members : List Placed
deriving DecidableEq, Repr

/-- `x & ~(a - 1)` for a power of two `a`; only used in the final size computation. -/
def clearLow (x a : Nat) : Nat := x - (x &&& (a - 1))

/-- The whole struct: initial state (7947-7951), loop, and the final
`size = (size + (alignment - 1)) & ~(alignment - 1)` (8251-8252). -/
def layout (c : Config) (ds : List Decl) : Result Compound :=
  match run c { align := c.declspecAlign } ds with
  | .ok s => .ok { size := clearLow (s.size + (s.align - 1)) s.align
                   align := s.align
                   members := s.members.reverse }
  | .error => .error
  | .assertFail => .assertFail

end Verif.Layout
