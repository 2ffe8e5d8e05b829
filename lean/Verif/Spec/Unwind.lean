/-!
# Specification: how Windows unwinds a frame

"x64 exception handling" of the documentation of Windows. For each function there is a structure `UNWIND_INFO`; the system uses it, for
exceptions and for debuggers, to find the state of the caller from the state in the function.

The first byte has the version (lower 3 bits) and flags; then there are the size of the prolog, the number of codes, and the frame register
(lower 4 bits) and the scaled offset of it (upper 4 bits). The codes follow, 2 bytes each: the offset of the end of the
instruction in the prolog, the operation (lower 4 bits) and its operand (upper 4 bits). Codes for
instructions that are not executed yet are skipped.
-/
namespace Verif.Spec.Unwind

/-- Registers and memory, in words of 8 bytes; addresses do not wrap around. Register 4 is `rsp`. -/
structure State where
  regs : Nat → Int
  mem : Int → Int

/-- The registers a function has to preserve: rbx, rbp, rsi, rdi and r12 to r15. -/
def nonvolatile : List Nat := [3, 5, 6, 7, 12, 13, 14, 15]

def put (r : Nat) (v : Int) (regs : Nat → Int) : Nat → Int := fun i => if i = r then v else regs i

/-- How many slots of 2 bytes follow a code. -/
def extra (op info : Nat) : Nat :=
  match op, info with
  | 1, 0 => 1
  | 1, _ => 2
  | _, _ => 0

/-- Undoing one instruction of the prolog; `slot` are the bytes after the code. -/
def undo (frame frameOffset op info : Nat) (slot : List Nat) (mem : Int → Int) (regs : Nat → Int) : Option (Nat → Int) :=
  match op, info with
  -- UWOP_PUSH_NONVOL
  | 0, r => some (put 4 (regs 4 + 8) (put r (mem (regs 4)) regs))
  -- UWOP_ALLOC_LARGE
  | 1, 0 => some (put 4 (regs 4 + 8 * (slot.getD 0 0 + 256 * slot.getD 1 0 : Nat)) regs)
  | 1, 1 => some (put 4 (regs 4 + (slot.getD 0 0 + 256 * slot.getD 1 0 + 65536 * slot.getD 2 0 + 16777216 * slot.getD 3 0 : Nat)) regs)
  -- UWOP_ALLOC_SMALL
  | 2, n => some (put 4 (regs 4 + (n * 8 + 8 : Nat)) regs)
  -- UWOP_SET_FPREG
  | 3, _ => some (put 4 (regs frame - 16 * (frameOffset : Int)) regs)
  | _, _ => none

/-- Undoing the codes of instructions that are executed at `offset`; `skip` slots belong to the code before. -/
def codes (frame frameOffset offset : Nat) (mem : Int → Int) : Nat → List Nat → (Nat → Int) → Option (Nat → Int)
  | skip + 1, _ :: _ :: rest, regs => codes frame frameOffset offset mem skip rest regs
  | 0, at_ :: b :: rest, regs =>
    if at_ ≤ offset then
      match undo frame frameOffset (b % 16) (b / 16) rest mem regs with
      | some regs' => codes frame frameOffset offset mem (extra (b % 16) (b / 16)) rest regs'
      | none => none
    else codes frame frameOffset offset mem (extra (b % 16) (b / 16)) rest regs
  | 0, [], regs => some regs
  | _, _, _ => none

/-- The registers of the caller and where it continues, from the state at `offset` in the function. -/
def unwind (info : List Nat) (offset : Nat) (s : State) : Option ((Nat → Int) × Int) :=
  match info with
  | v :: _ :: count :: frame :: rest =>
    if v % 8 = 1 ∧ 2 * count ≤ rest.length then
      match codes (frame % 16) (frame / 16) offset s.mem 0 (rest.take (2 * count)) s.regs with
      | some regs => some (put 4 (regs 4 + 8) regs, s.mem (regs 4))
      | none => none
    else none
  | _ => none

/-- Instructions at the end of a function, as far as they matter here. -/
inductive Instr
  | pop (r : Nat)
  | ret
  /-- `mov rsp, rbp`. -/
  | stack
  /-- Anything else. -/
  | other

/-- The system looks at the code first: pops and a return are the rest of an epilog. -/
def epilogPops : List Instr → Option (List Nat)
  | .ret :: _ => some []
  | .pop r :: rest => (epilogPops rest).map (r :: ·)
  | _ => none

/-- What is left of the epilog is simulated. -/
def simulate (mem : Int → Int) : List Nat → (Nat → Int) → (Nat → Int)
  | [], regs => regs
  | r :: rs, regs => simulate mem rs (put 4 (regs 4 + 8) (put r (mem (regs 4)) regs))

/-- The state of the caller, from the state at `offset` in the function, where the code is `code`. -/
def caller (code : List Instr) (info : List Nat) (offset : Nat) (s : State) : Option ((Nat → Int) × Int) :=
  match epilogPops code with
  | some rs => let regs := simulate s.mem rs s.regs; some (put 4 (regs 4 + 8) regs, s.mem (regs 4))
  | none => unwind info offset s

/-- The caller that called with the state `entry` is found: it continues at the return address, its stack pointer is above it, and it has its
nonvolatile registers. -/
def Finds (entry : State) (result : Option ((Nat → Int) × Int)) : Prop :=
  ∃ regs, result = some (regs, entry.mem (entry.regs 4)) ∧ regs 4 = entry.regs 4 + 8 ∧ ∀ r ∈ nonvolatile, regs r = entry.regs r

/-- The bytes of a frame that the codes describe: pushes and allocations. -/
def codeBytes : Nat → List Nat → Option Nat
  | skip + 1, _ :: _ :: rest => codeBytes skip rest
  | 0, _ :: b :: rest =>
    let n := match b % 16, b / 16 with
      | 0, _ => some 8
      | 1, 0 => some (8 * (rest.getD 0 0 + 256 * rest.getD 1 0))
      | 1, 1 => some (rest.getD 0 0 + 256 * rest.getD 1 0 + 65536 * rest.getD 2 0 + 16777216 * rest.getD 3 0)
      | 2, n => some (n * 8 + 8)
      | 3, _ => some 0
      | _, _ => none
    match n, codeBytes (extra (b % 16) (b / 16)) rest with
    | some n, some m => some (n + m)
    | _, _ => none
  | 0, [] => some 0
  | _, _ => none

/-- The size of the frame, without the return address. -/
def frameBytes : List Nat → Option Nat
  | _ :: _ :: count :: _ :: rest => codeBytes 0 (rest.take (2 * count))
  | _ => none

end Verif.Spec.Unwind
