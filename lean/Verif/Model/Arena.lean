import Verif.Spec.Arena

/-!
# Model: memory arenas, `src/std.c:688-945`

Addresses and sizes are natural numbers: the reserved range is 1 TB, so no 64-bit sum below overflows unless a size was
already bogus. Filling with zeros is not modelled. The growth of the committed range by the floating-point factor is an
arbitrary number, a parameter of the operation.
-/
namespace Verif.Arena
open Verif.Spec.Arena (Event)

/-- `struct memory_arena`, `src/std.c:688-707`; a zero-initialized arena is all zeros. -/
structure Arena where
  base : Nat := 0
  current : Nat := 0
  committed : Nat := 0
  reserved : Nat := 0
deriving DecidableEq, Repr

/-- What an operation can do: finish, end the process with a message, or fail an assertion. -/
inductive Outcome (α : Type) where
  | ok (a : α)
  | panic
  | assertionFailed
deriving DecidableEq, Repr

/-- `global_dynamic_memory_size`, `src/std.c:716`. -/
def totalSize : Nat := 2 ^ 40
/-- `default_arena_size`, `src/std.c:717`. -/
def defaultSize : Nat := 8 * 2 ^ 30

/-- `create_memory_arena`, `src/std.c:718-752`: `start` is `global_dynamic_memory_base`, `top` is
`global_dynamic_memory_reserved`, added to atomically. The code compares the end of the arena with the end of the range,
that is, both sides of the test here plus `start`. -/
def create (start top size : Nat) : Outcome (Arena × Nat) :=
  let base := start + top
  if top + size > totalSize then .panic
  else .ok ({ base := base, current := base, committed := base, reserved := size }, top + size)

/-- The lazy initialization, `src/std.c:776-782, 806-812, 831-837`. -/
def ensure (start top : Nat) (a : Arena) : Outcome (Arena × Nat) :=
  if a.reserved = 0 then create start top defaultSize else .ok (a, top)

/-- `align_up`, `src/std.c:246`, and the masking of `src/std.c:886-887`: round up to a multiple. -/
def roundUp (x to : Nat) : Nat := (x + (to - 1)) / to * to

/-- `grow_arena`, `src/std.c:829-876`; `growth` is the larger of the two growth targets of lines 843-846. -/
def grow (start top : Nat) (a : Arena) (size growth : Nat) : Outcome (Arena × Nat) :=
  match ensure start top a with
  | .ok (a, top) =>
    let now := a.committed - a.base
    let growTo := max (now + roundUp size 0x1000) (min (roundUp growth 0x1000) a.reserved)
    if growTo > a.reserved then .panic
    else .ok ({ a with committed := a.base + growTo }, top)
  | .panic => .panic
  | .assertionFailed => .assertionFailed

/-- `push_struct_`, `src/std.c:878-904`: the address, the arena, `top`. -/
def push (start top : Nat) (a : Arena) (size alignment growth : Nat) : Outcome (Nat × Arena × Nat) :=
  let a := { a with current := roundUp a.current alignment }
  if a.current ≤ a.committed then
    if size > a.committed - a.current then
      match grow start top a size growth with
      | .ok (a, top) => .ok (a.current, { a with current := a.current + size }, top)
      | .panic => .panic
      | .assertionFailed => .assertionFailed
    else .ok (a.current, { a with current := a.current + size }, top)
  else .assertionFailed

/-- The operations of the program on numbered arenas. -/
inductive Op where
  /-- `create_memory_arena` into a zero-initialized arena -/
  | create (i size : Nat)
  | push (i size alignment growth : Nat)
  /-- `push_align`, `src/std.c:804-822` -/
  | align (i alignment : Nat)
  /-- `begin_temporary_memory` -/
  | begin (i : Nat)
  /-- `end_temporary_memory` of the innermost scope -/
  | close (i : Nat)
  /-- `solidify_temporary_memory` of the innermost scope -/
  | solidify (i : Nat)
  /-- `arena_reset`, `src/std.c:709-712` -/
  | reset (i : Nat)
deriving DecidableEq, Repr

/-- All arenas of the process and the `saved_current` of the open scopes, innermost first. -/
structure State where
  start : Nat
  /-- `src/std.c:725` -/
  top : Nat := 0x1000
  arenas : Nat → Arena := fun _ => {}
  temps : Nat → List Nat := fun _ => []

def update {α : Type} (f : Nat → α) (i : Nat) (x : α) : Nat → α := fun j => if j = i then x else f j

def State.put (s : State) (i : Nat) (a : Arena) (top : Nat) : State := { s with arenas := update s.arenas i a, top := top }

/-- One operation. -/
def step (s : State) : Op → Outcome (State × Event)
  | .create i size =>
    match create s.start s.top size with
    | .ok (a, top) => .ok (s.put i a top, .nothing)
    | .panic => .panic
    | .assertionFailed => .assertionFailed
  | .push i size alignment growth =>
    match push s.start s.top (s.arenas i) size alignment growth with
    | .ok (address, a, top) => .ok (s.put i a top, .allocated i address size alignment)
    | .panic => .panic
    | .assertionFailed => .assertionFailed
  | .align i alignment =>
    match ensure s.start s.top (s.arenas i) with
    | .ok (a, top) => .ok (s.put i { a with current := roundUp a.current alignment } top, .nothing)
    | .panic => .panic
    | .assertionFailed => .assertionFailed
  | .begin i =>
    -- `src/std.c:909-916`
    match ensure s.start s.top (s.arenas i) with
    | .ok (a, top) => .ok ({ s.put i a top with temps := update s.temps i (a.current :: s.temps i) }, .opened i)
    | .panic => .panic
    | .assertionFailed => .assertionFailed
  | .close i =>
    -- `src/std.c:918-936`
    match s.temps i with
    | [] => .assertionFailed
    | t :: ts =>
      let a := s.arenas i
      let resetTo := if t = 0 then a.base else t
      if t ≤ a.current then
        .ok ({ s.put i { a with current := resetTo } s.top with temps := update s.temps i ts }, .closed i)
      else .assertionFailed
  | .solidify i =>
    match s.temps i with
    | [] => .assertionFailed
    | _ :: ts => .ok ({ s with temps := update s.temps i ts }, .kept i)
  | .reset i => .ok (s.put i { s.arenas i with current := (s.arenas i).base } s.top, .reset i)

/-- A history of operations. -/
def run (s : State) : List Op → Outcome (State × List Event)
  | [] => .ok (s, [])
  | op :: ops =>
    match step s op with
    | .ok (s', e) =>
      match run s' ops with
      | .ok (s'', es) => .ok (s'', e :: es)
      | .panic => .panic
      | .assertionFailed => .assertionFailed
    | .panic => .panic
    | .assertionFailed => .assertionFailed

end Verif.Arena
