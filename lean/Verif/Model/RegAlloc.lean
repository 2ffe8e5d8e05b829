import Verif.Model.Align

/-!
# Model: the register allocator (`src/emit_x64.c:766-1125`)

`spill_register` (860-924), `allocate_specific_register` (926-938), `allocate_register` (965-1024),
`spill_all_allocated_volatile_registers` (1026-1042), `free_emit_location` (1044-1080), the counters
`prevent_spilling` and `prevent_freeing` (1083-1125), `emit_location_loaded` (768-792) and
`emit_allocate_temporary_stack_location` (850-858), together with the instructions that
they emit: the model executes an instruction when it is emitted, as control flow is straight between two jumps and all
registers are spilled before a jump (3760).

Simplifications: a location is a register, a stack slot or freed; immediates, flags and addresses with other base registers
than `rbp` hold no register of their own. Inline assembler, which reserves registers for the user, is left out. A
failed assertion, and the internal error when no register can be spilled, is the outcome `none`.
-/

namespace Verif.RegAlloc

/-- `enum register_kind`. -/
inductive Kind
  | gpr | xmm
deriving DecidableEq, Repr

/-- A register: its kind and its encoding. -/
structure Reg where
  kind : Kind
  num : Nat
deriving DecidableEq, Repr

/-- `volatile_general_purpose_registers` and `volatile_xmm_registers` (`src/emit_x64.c:941-962`): rcx, rdx, r8, r9, rax, r10, r11
and xmm0 to xmm5. -/
def volatiles : Kind → List Reg
  | .gpr => [⟨.gpr, 1⟩, ⟨.gpr, 2⟩, ⟨.gpr, 8⟩, ⟨.gpr, 9⟩, ⟨.gpr, 0⟩, ⟨.gpr, 10⟩, ⟨.gpr, 11⟩]
  | .xmm => [⟨.xmm, 0⟩, ⟨.xmm, 1⟩, ⟨.xmm, 2⟩, ⟨.xmm, 3⟩, ⟨.xmm, 4⟩, ⟨.xmm, 5⟩]

/-- Where a location is. `stack o` is the address `rbp - o`. -/
inductive Place
  | loaded (r : Reg)
  | stack (offset : Nat)
  | freed
deriving DecidableEq, Repr

/-- `struct emit_location` (`src/emit_x64.c:734-766`). -/
structure Loc where
  place : Place
  size : Nat
  preventSpilling : Nat := 0
  preventFreeing : Nat := 0
deriving DecidableEq, Repr

/-- The allocators, the locations created so far, and the machine: the registers, and the bytes below `rbp`
(`mem d` is the byte at `rbp - d`). -/
structure State where
  map : Reg → Option Nat
  rolling : Kind → Nat
  locs : Nat → Option Loc
  next : Nat
  /-- `function->stack_space_needed` -/
  base : Nat
  /-- `temporary_stack_allocator` -/
  temp : Nat
  regs : Reg → Nat
  mem : Nat → Nat

def upd {α β : Type} [DecidableEq α] (f : α → β) (a : α) (b : β) : α → β := fun x => if x = a then b else f x

/-- A store of the low `n` bytes of `v` at `rbp - offset`. -/
def store (mem : Nat → Nat) (offset : Nat) : Nat → Nat → (Nat → Nat)
  | 0, _ => mem
  | n + 1, v => store (upd mem offset (v % 256)) (offset - 1) n (v / 256)

/-- A load of `n` bytes from `rbp - offset`. -/
def load (mem : Nat → Nat) (offset : Nat) : Nat → Nat
  | 0 => 0
  | n + 1 => mem offset + 256 * load mem (offset - 1) n

/-- `is_power_of_two` for the sizes of registers. -/
def powerOfTwo (n : Nat) : Bool := n = 1 || n = 2 || n = 4 || n = 8 || n = 16 || n = 32

/-- `spill_register` (`src/emit_x64.c:860-924`). -/
def spill (s : State) (r : Reg) : Option State :=
  match s.map r with
  | none => none
  | some id =>
    match s.locs id with
    | none => none
    | some l =>
      if l.preventSpilling = 0 && powerOfTwo l.size then
        let temp := Align.alignUp s.temp l.size + l.size
        let offset := s.base + temp
        some { s with
          locs := upd s.locs id (some ⟨.stack offset, l.size, 0, l.preventFreeing⟩)
          map := upd s.map r none
          temp := temp
          mem := store s.mem offset l.size (s.regs r) }
      else none

/-- `allocate_specific_register` (`src/emit_x64.c:926-938`). -/
def allocateSpecific (s : State) (r : Reg) : Option State :=
  if (s.map r).isSome then spill s r else some s

/-- The order in which the registers are tried (`src/emit_x64.c:982-996`): from the rolling index to the end, then from the start. -/
def order (k : Kind) (at_ : Nat) : List Reg := (volatiles k).drop at_ ++ (volatiles k).take at_

/-- The location in the register is not locked (`src/emit_x64.c:1004, 1011`). -/
def unlocked (s : State) (r : Reg) : Bool :=
  match s.map r with
  | none => false
  | some id => match s.locs id with
    | none => false
    | some l => l.preventSpilling = 0

/-- `allocate_register` (`src/emit_x64.c:965-1024`). -/
def allocate (s : State) (k : Kind) : Option (Reg × State) :=
  let at_ := s.rolling k
  let s := { s with rolling := upd s.rolling k (if at_ + 1 ≥ (volatiles k).length then 0 else at_ + 1) }
  match (order k at_).find? (fun r => (s.map r).isNone) with
  | some r => some (r, s)
  | none =>
    match (order k at_).find? (unlocked s) with
    | some r => (spill s r).map (fun s => (r, s))
    | none => none

/-- `emit_location_loaded` (`src/emit_x64.c:768-792`) for the result `v` of an instruction that writes to `r`. -/
def newLoaded (s : State) (r : Reg) (size v : Nat) : Option State :=
  if (s.map r).isNone then
    some { s with
      regs := upd s.regs r v
      map := upd s.map r (some s.next)
      locs := upd s.locs s.next (some ⟨.loaded r, size, 0, 0⟩)
      next := s.next + 1 }
  else none

/-- `emit_allocate_temporary_stack_location` (`src/emit_x64.c:850-858`), and a store of `v` to it. There are no empty locations. -/
def newStack (s : State) (size align v : Nat) : Option State :=
  if 0 < size && powerOfTwo align then
    let temp := Align.alignUp s.temp align + size
    let offset := s.base + temp
    some { s with
      locs := upd s.locs s.next (some ⟨.stack offset, size, 0, 0⟩)
      next := s.next + 1
      temp := temp
      mem := store s.mem offset size v }
  else none

/-- `free_emit_location` (`src/emit_x64.c:1044-1080`). -/
def free (s : State) (id : Nat) : Option State :=
  match s.locs id with
  | none => none
  | some l =>
    match l.place with
    | .freed => none
    | .loaded r =>
      if l.preventFreeing ≠ 0 ∨ l.preventSpilling ≠ 0 then some s
      else some { s with map := upd s.map r none, locs := upd s.locs id (some { l with place := .freed }) }
    | .stack _ =>
      if l.preventFreeing ≠ 0 ∨ l.preventSpilling ≠ 0 then some s
      else some { s with locs := upd s.locs id (some { l with place := .freed }) }

/-- Spill the registers in the list that hold a location. -/
def spillList (s : State) : List Reg → Option State
  | [] => some s
  | r :: rs => (allocateSpecific s r).bind (fun s => spillList s rs)

/-- `spill_all_allocated_volatile_registers` (`src/emit_x64.c:1026-1042`). -/
def spillAll (s : State) : Option State := spillList s (volatiles .gpr ++ volatiles .xmm)

/-- Change the counters of a location. -/
def setLoc (s : State) (id : Nat) (f : Loc → Option Loc) : Option State :=
  (s.locs id).bind (fun l => (f l).map (fun l => { s with locs := upd s.locs id (some l) }))

/-- What the emitter does with locations. A created location gets the next number. -/
inductive Op
  /-- An instruction whose result `v` goes to any register of the kind. -/
  | compute (k : Kind) (size v : Nat)
  /-- An instruction whose result goes to a given register (`allocate_specific_register`). -/
  | computeIn (r : Reg) (size v : Nat)
  /-- `emit_load_gpr` or `emit_load_float` of a spilled location: a new location with the same value, the old one is freed. -/
  | reload (k : Kind) (id : Nat)
  /-- A location on the stack of the given size and alignment. -/
  | temporary (size align v : Nat)
  /-- An instruction that writes to the register of a location. -/
  | write (id v : Nat)
  | preventSpilling (id : Nat)
  | allowSpilling (id : Nat)
  | preventFreeing (id : Nat)
  | allowFreeing (id : Nat)
  | free (id : Nat)
  /-- Before a jump. -/
  | spillAll
  /-- A call without arguments in registers: everything is spilled, and the called function changes the volatile registers. -/
  | call (after : Reg → Nat)

/-- The location is still usable. -/
def live (s : State) (id : Nat) : Bool :=
  match s.locs id with
  | none => false
  | some l => l.place != .freed

def step (s : State) : Op → Option State
  | .compute k size v => (allocate s k).bind (fun (r, s) => newLoaded s r size v)
  | .computeIn r size v => (allocateSpecific s r).bind (fun s => newLoaded s r size v)
  | .reload k id =>
    match s.locs id with
    | some ⟨.stack offset, size, _, _⟩ =>
      (allocate s k).bind (fun (r, s) =>
        (free s id).bind (fun s => newLoaded s r size (load s.mem offset size)))
    | _ => none
  | .temporary size align v => newStack s size align v
  | .write id v =>
    match s.locs id with
    | some ⟨.loaded r, _, _, _⟩ => some { s with regs := upd s.regs r v }
    | _ => none
  | .preventSpilling id => setLoc s id (fun l => some { l with preventSpilling := l.preventSpilling + 1 })
  | .allowSpilling id => setLoc s id (fun l =>
      if l.preventSpilling = 0 then none else some { l with preventSpilling := l.preventSpilling - 1 })
  | .preventFreeing id => setLoc s id (fun l => some { l with preventFreeing := l.preventFreeing + 1 })
  | .allowFreeing id => setLoc s id (fun l =>
      if l.preventFreeing = 0 then none else some { l with preventFreeing := l.preventFreeing - 1 })
  | .free id => free s id
  | .spillAll => spillAll s
  | .call after => (spillAll s).map (fun s =>
      { s with regs := fun r => if r ∈ volatiles r.kind then after r else s.regs r })

def run (s : State) : List Op → Option State
  | [] => some s
  | op :: ops => (step s op).bind (fun s => run s ops)

/-- The start of a function (`src/emit_x64.c:4713-4730`): no location, nothing is allocated. -/
def start (base : Nat) (regs : Reg → Nat) (mem : Nat → Nat) : State :=
  { map := fun _ => none, rolling := fun _ => 0, locs := fun _ => none, next := 0, base := base, temp := 0, regs := regs, mem := mem }

/-- The value that an instruction reads from a location. -/
def value (s : State) (id : Nat) : Option Nat :=
  match s.locs id with
  | some ⟨.loaded r, size, _, _⟩ => some (s.regs r % 256 ^ size)
  | some ⟨.stack offset, size, _, _⟩ => some (load s.mem offset size)
  | _ => none

end Verif.RegAlloc
