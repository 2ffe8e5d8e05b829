import Verif.Spec.Unwind

/-!
# Model: prologs and the information for unwinding

The prolog of every function (`emit_code_for_function`, /repo/src/emit_x64.c 4757–4852) and `push_unwind_information_for_function`
(/repo/src/obj_writer.c 893–997), without the table of exception handlers after the codes (Model/Seh.lean).
-/
namespace Verif.Model.Unwind
open Verif.Spec.Unwind

/-- Instructions of a prolog. -/
inductive Ins
  | push (r : Nat)
  /-- `mov rbp, rsp`. -/
  | frame
  /-- An instruction of a filter of an exception handler that changes r12 or r13. -/
  | load (r length : Nat)
  /-- Argument `i` is stored to its slot above the return address. -/
  | store (i length : Nat)
  /-- `sub rsp, n`. -/
  | sub (n : Nat)

/-- The lengths of the instructions. -/
def Ins.length : Ins → Nat
  | .push r => if r < 8 then 1 else 2
  | .frame => 3
  | .load _ n => n
  | .store _ n => n
  | .sub _ => 7

/-- A function: is it a filter of an exception handler, the lengths of the instructions that store its first arguments, and the final
`stack_space_needed` (Model/Frame.lean). -/
structure Function where
  isFilter : Bool
  stores : List Nat
  space : Nat

/-- The instructions that store arguments (/repo/src/emit_x64.c 4789–4846). -/
def storeAll : Nat → List Nat → List Ins
  | _, [] => []
  | i, n :: ns => .store i n :: storeAll (i + 1) ns

/-- The prolog (/repo/src/emit_x64.c 4766–4850); the registers are 5 rbp, 6 rsi, 7 rdi, 12 r12, 13 r13. -/
def prolog (f : Function) : List Ins :=
  (if f.isFilter then [.push 13, .push 12] else []) ++ [.push 7, .push 6, .push 5, .frame] ++
  (if f.isFilter then [.load 13 3, .load 12 3, .load 12 4] else []) ++ storeAll 0 f.stores ++ [.sub f.space]

/-- How far a sequence of instructions reaches. -/
def size (is : List Ins) : Nat := is.foldl (fun n i => n + i.length) 0

/-- `amount_of_saved_registers` (/repo/src/emit_x64.c 4778). -/
def saved (f : Function) : Nat := if f.isFilter then 4 else 2

/-- What the instructions do. `value` stands for what is loaded or stored. -/
def Ins.run (f : Function) (value : Int) : Ins → State → State
  | .push r, s => ⟨put 4 (s.regs 4 - 8) s.regs, fun a => if a = s.regs 4 - 8 then s.regs r else s.mem a⟩
  | .frame, s => ⟨put 5 (s.regs 4) s.regs, s.mem⟩
  | .load r _, s => ⟨put r value s.regs, s.mem⟩
  | .store i _, s => ⟨s.regs, fun a => if a = s.regs 5 + (16 + 8 * (saved f : Int)) + 8 * (i : Int) then value else s.mem a⟩
  | .sub n, s => ⟨put 4 (s.regs 4 - n) s.regs, s.mem⟩

/-- A sequence of instructions, with the values that are loaded or stored. -/
def run (f : Function) : List Ins → (Nat → Int) → State → State
  | [], _, s => s
  | i :: is, v, s => run f is (fun k => v (k + 1)) (i.run f (v 0) s)

/-- `rsp_subtract_offset` (/repo/src/emit_x64.c 4852). -/
def prologSize (f : Function) : Nat := size (prolog f)

/-- `pushed_register_mask` (/repo/src/emit_x64.c 4769, 4776): the registers, in increasing order, as the loop over its bits sees them. -/
def pushed (f : Function) : List Nat := [5, 6, 7] ++ if f.isFilter then [12, 13] else []

/-- The code for the allocation (/repo/src/obj_writer.c 917–947). `push_struct` aligns what it allocates (/repo/src/std.c 751–752, 878–888):
the structure starts at a multiple of four, so that there is a gap of two bytes before the `u32` of a large allocation. -/
def allocCode (f : Function) : List Nat :=
  if 8 ≤ f.space ∧ f.space ≤ 128 then [prologSize f % 256, 2 + 16 * ((f.space - 8) / 8 % 16)]
  else if f.space ≤ 512 * 1024 - 8 then
    [prologSize f % 256, 1, f.space / 8 % 256, f.space / 8 / 256 % 256]
  else [prologSize f % 256, 1 + 16 * 1, 0, 0, f.space % 256, f.space / 256 % 256, f.space / 65536 % 256, f.space / 16777216 % 256]

/-- `push_offset_in_prolog` (/repo/src/obj_writer.c 950–953). -/
def pushOffset (f : Function) : Nat :=
  2 * ((pushed f).filter (8 ≤ ·)).length + ((pushed f).filter (· < 8)).length

/-- The codes for the pushes (/repo/src/obj_writer.c 959–968). -/
def pushCodes : Nat → List Nat → List Nat
  | _, [] => []
  | at_, r :: rs => [at_ % 256, 0 + 16 * r] ++ pushCodes (at_ - (1 + if 8 ≤ r then 1 else 0)) rs

/-- All codes. -/
def allCodes (f : Function) : List Nat :=
  allocCode f ++ [(pushOffset f + 3) % 256, 3] ++ pushCodes (pushOffset f) (pushed f)

/-- `push_unwind_information_for_function` (/repo/src/obj_writer.c 893–975); `handler` says whether there are exception handlers. -/
def unwindInfo (f : Function) (handler : Bool) : List Nat :=
  let cs := allCodes f
  let count := cs.length / 2
  [1 + 8 * (if handler then 1 else 0), prologSize f % 256, count % 256, 5] ++ cs ++ (if count % 2 = 1 then [0, 0] else [])

/-- The epilog (/repo/src/emit_x64.c 4932–4945). -/
def epilog (f : Function) : List Instr :=
  [.stack, .pop 5, .pop 6, .pop 7] ++ (if f.isFilter then [.pop 12, .pop 13] else []) ++ [.ret]

/-- What the instructions of an epilog do, up to the return. -/
def leave : List Instr → State → State
  | .pop r :: is, s => leave is ⟨put 4 (s.regs 4 + 8) (put r (s.mem (s.regs 4)) s.regs), s.mem⟩
  | .stack :: is, s => leave is ⟨put 4 (s.regs 5) s.regs, s.mem⟩
  | _, s => s

end Verif.Model.Unwind
