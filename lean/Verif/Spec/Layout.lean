import Verif.Model.Layout

/-!
# Specification: what a struct layout must satisfy

Only the data types `Decl`, `Placed`, `Config` of the model are used here.
-/
namespace Verif.Spec.Layout
open Verif.Layout (Decl Placed Config)

def IsPow2 (n : Nat) : Prop := ∃ k, n = 2^k

/-- The inputs are sane: all alignments are powers of two. -/
def ConfigOk (c : Config) : Prop := IsPow2 c.declspecAlign ∧ IsPow2 c.pragmaAlign
def DeclOk (d : Decl) : Prop := IsPow2 d.align ∧ (d.specAlign = 0 ∨ IsPow2 d.specAlign)

/-- The alignment a member must have: explicit `alignas` wins, then `packed`, then the
natural alignment capped by `#pragma pack` (user-aligned types are not capped). -/
def memberAlign (c : Config) (d : Decl) : Nat :=
  if d.specAlign ≠ 0 then d.specAlign
  else if c.isPacked then 1
  else if d.userAligned then d.align
  else min d.align c.pragmaAlign

/-- First bit and end bit of a member inside the object. -/
def firstBit (m : Placed) : Nat := 8 * m.offset + (match m.bits with | some (i, _) => i | none => 0)
def endBit (m : Placed) : Nat :=
  match m.bits with
  | some (i, w) => 8 * m.offset + i + w
  | none => 8 * m.offset + 8 * m.size

/-- Every member lies before all later ones. -/
def InOrder (ms : List Placed) : Prop := ms.Pairwise (fun a b => endBit a ≤ firstBit b)

/-- No two members share a bit. -/
def Disjoint (ms : List Placed) : Prop :=
  ms.Pairwise (fun a b => ∀ bit, ¬ (firstBit a ≤ bit ∧ bit < endBit a ∧ firstBit b ≤ bit ∧ bit < endBit b))

/-- Each bit-field stays inside its storage unit, and the unit inside the object. -/
def InBounds (size : Nat) (m : Placed) : Prop :=
  m.offset + m.size ≤ size ∧ ∀ i w, m.bits = some (i, w) → i + w ≤ 8 * m.size

/-- The plain (non bit-field) layout of a struct: each member at the least suitable
offset not below the end of its predecessor. `isNext e a o` says that `o` is the least
multiple of `a` that is at least `e`. -/
def IsNext (e a o : Nat) : Prop := a ∣ o ∧ e ≤ o ∧ ∀ o', a ∣ o' → e ≤ o' → o ≤ o'

/-- `Sequential c e ds ms e'`: starting at end offset `e`, the members `ms` are the
declarations `ds`, each placed at the next suitable offset; the last one ends at `e'`. -/
inductive Sequential (c : Config) : Nat → List Decl → List Placed → Nat → Prop
  | nil (e) : Sequential c e [] [] e
  | cons {e o e' d ds ms} : IsNext e (memberAlign c d) o → Sequential c (o + d.size) ds ms e' →
      Sequential c e (d :: ds)
        ({ offset := o, size := d.size, align := memberAlign c d, bits := none } :: ms) e'

/-- "Every anonymous bit-field of non-zero width either fits into the storage unit of
the bit-field before it, or comes before the first member." `u` is size and used bits
of the current unit, `first` whether there is no member yet. -/
def AnonOk : Option (Nat × Nat) → Bool → List Decl → Prop
  | _, _, [] => True
  | u, first, d :: ds =>
    match d.bits with
    | none => AnonOk none false ds
    | some 0 => AnonOk none first ds
    | some w =>
      match u with
      | some (size, used) =>
        if size = d.size ∧ used + w ≤ 8 * d.size then AnonOk (some (size, used + w)) (first && !d.named) ds
        else (d.named = true ∨ first = true) ∧ AnonOk (some (d.size, w)) (first && !d.named) ds
      | none => (d.named = true ∨ first = true) ∧ AnonOk (some (d.size, w)) (first && !d.named) ds

end Verif.Spec.Layout
