import Verif.Model.RegAlloc
import Verif.Model.Cond
import Verif.Model.Cast
import Verif.Model.Compound
import Verif.Spec.Flags
import Verif.Spec.ExprCode

/-!
# Model: the code of integer expressions and assignments

From the parsed expression to the machine: which IR is pushed for an expression (`src/parse.c:5763-5935`, 5990-6025, 6034-6551
with the conversions of 291-605, 685-697 and 741-775; assignments 6945-6975 and 9202), and what `emit_code_for_function__internal`
(`src/emit_x64.c:2560-4414`) does for it: the stack of emit locations, `emit_load_gpr` and `emit_load_into_specific_gpr`
(1265-1416), `emit_register_relative__internal` (1156-1233), `emit_binary_op__internal` (1618-1670),
`emit_divide_or_mod_or_multiply__internal` (1678-1804), `emit_compare_to_zero` (2098-2120), `emit_shift_or_rotate__internal`
(2122-2173), `emit_integer_cast` (2524-2541), `emit_store` (1548-1612) and `free_emit_location` (1044-1080), on top of the register
allocator of `Model/RegAlloc.lean`. As there, the model executes an instruction when it is emitted.

Simplifications: the temporaries below `rbp` to which registers are spilled and the memory of the program are separate. Variables are
at a fixed address (locals are `[rbp - offset]`, globals `[rip + x]`; thread locals and `dllimport` are left out). Register-relative
locations have no index and no offset, as member access and subscripts are left out. Addresses are not checked and do not wrap around.
Only operands of 4 and 8 bytes are modelled in arithmetic (the conversions produce no others).
The second operand of arithmetic, if it is an immediate, is modelled for these sizes too (C57 has the others). A failed assertion, an internal
error, writing past `emit_location_stack`, and the exception `#DE` are the outcome `none`.
-/

namespace Verif.ExprCode
open Verif.IntType Verif.Fold Verif.RegAlloc Verif.Spec.X64 Verif.Spec.ExprCode

/-- `struct emit_location` (`src/emit_x64.c:734-766`) as far as it occurs here. `loc` is a location of the register allocator: in a
register or spilled. `mem` is a variable. `deref` is register-relative to a location that is loaded when it is used. `cond` is a condition
that is in the flags. -/
inductive Opnd
  | imm (value size : Nat)
  | mem (address size : Nat)
  | loc (id : Nat)
  | deref (base : Opnd) (size : Nat)
  | cond (c : Cond.Comp) (size : Nat)
deriving DecidableEq, Repr

/-- The allocator with registers and temporaries, the memory of the program, and the flags. -/
structure Machine where
  s : State
  bytes : Nat → Nat
  flags : Spec.Flags.Flags

/-- The start of the code of a function. -/
def boot (base : Nat) (regs : Reg → Nat) (mem bytes : Nat → Nat) (flags : Spec.Flags.Flags) : Machine := ⟨start base regs mem, bytes, flags⟩

/-- `assert(source->size == 1 || ...)`, `src/emit_x64.c:1273`. -/
def okSize (n : Nat) : Bool := n = 1 || n = 2 || n = 4 || n = 8
/-- The sizes of operands after the conversions. -/
def wideSize (n : Nat) : Bool := n = 4 || n = 8

def opSize (m : Machine) : Opnd → Option Nat
  | .imm _ size | .mem _ size | .deref _ size | .cond _ size => some size
  | .loc id => (m.s.locs id).map (·.size)

/-- The register of a loaded location (`loaded_register`; assertion on the state and the kind). -/
def regOf (m : Machine) (id : Nat) : Option Reg :=
  match m.s.locs id with
  | some ⟨.loaded r, _, _, _⟩ => if r.kind = .gpr then some r else none
  | _ => none

/-- An instruction writes to a register. -/
def write (m : Machine) (r : Reg) (v : Nat) : Machine := { m with s := { m.s with regs := upd m.s.regs r v } }

/-- The functions of the register allocator on the machine. -/
def allocateReg (m : Machine) : Option (Reg × Machine) := (allocate m.s .gpr).map (fun x => (x.1, { m with s := x.2 }))
def claim (m : Machine) (r : Reg) : Option Machine := (allocateSpecific m.s r).map (fun s => { m with s := s })
def loaded (m : Machine) (r : Reg) (size v : Nat) : Option (Nat × Machine) :=
  (newLoaded m.s r size v).map (fun s => (m.s.next, { m with s := s }))
def freeLoc (m : Machine) (id : Nat) : Option Machine := (free m.s id).map (fun s => { m with s := s })
def lock (m : Machine) (id : Nat) : Option Machine := (step m.s (.preventSpilling id)).map (fun s => { m with s := s })
def unlock (m : Machine) (id : Nat) : Option Machine := (step m.s (.allowSpilling id)).map (fun s => { m with s := s })

/-- `free_emit_location` (`src/emit_x64.c:1044-1080`). Variables have `rbp` or `rip` as base. -/
def release (m : Machine) : Opnd → Option Machine
  | .imm _ _ | .mem _ _ | .cond _ _ => some m
  | .loc id => freeLoc m id
  | .deref base _ => release m base

/-- The register to load into: the given one, or a new one (`emit_load_gpr`, `src/emit_x64.c:1412`). -/
def pick (m : Machine) : Option Reg → Option (Reg × Machine)
  | none => allocateReg m
  | some r => some (r, m)

/-- The truth value of a condition: the condition code of its `setcc`. -/
def condHolds (m : Machine) (c : Cond.Comp) : Option Bool := (Cond.setOpcode c).map (fun o => Spec.Flags.holds m.flags (o % 16))

/-- `emit_load_gpr` (`dst = none`) and `emit_load_into_specific_gpr` (`src/emit_x64.c:1265-1369, 1409-1416`). Note that the instruction for an
immediate or a value in memory is emitted before the register is claimed. A zero is loaded by a 32-bit `xor` if the size is 1.
For a register-relative location the base is loaded first (1164). -/
def emitLoad : Opnd → Option Reg → Machine → Option (Nat × Machine)
  | .imm v size, dst, m =>
    if okSize size then
      (pick m dst).bind (fun (r, m) =>
        if v = 0 then
          (claim m r).bind (fun m => loaded m r size (writeReg (if size = 1 then 32 else 8 * size) (m.s.regs r) 0))
        else
          let m := write m r (writeReg (if size = 8 then 64 else 32) (m.s.regs r) v)
          (claim m r).bind (fun m => loaded m r size (m.s.regs r)))
    else none
  | .mem a size, dst, m =>
    if okSize size then
      (pick m dst).bind (fun (r, m) =>
        let m := write m r (mov (8 * size) (m.s.regs r) (readBytes m.bytes a size))
        (claim m r).bind (fun m => loaded m r size (m.s.regs r)))
    else none
  | .deref base size, dst, m =>
    if okSize size then
      (pick m dst).bind (fun (r, m) =>
        (emitLoad base none m).bind (fun (b, m) =>
          (regOf m b).bind (fun rb =>
            let m := write m r (mov (8 * size) (m.s.regs r) (readBytes m.bytes (m.s.regs rb % 2 ^ 64) size))
            (freeLoc m b).bind (fun m => (claim m r).bind (fun m => loaded m r size (m.s.regs r))))))
    else none
  | .loc id, dst, m =>
    match m.s.locs id with
    | some ⟨.loaded r', size, _, _⟩ =>
      if r'.kind = .gpr then
        match dst with
        | none => some (id, m)
        | some r =>
          if okSize size then
            if r' = r then some (id, m)
            else (claim m r).bind (fun m =>
              (loaded m r size (mov (8 * size) (m.s.regs r) (m.s.regs r'))).bind (fun (n, m) => (freeLoc m id).map (fun m => (n, m))))
          else none
      else none
    | some ⟨.stack o, size, _, _⟩ =>
      if okSize size then
        (pick m dst).bind (fun (r, m) =>
          let m := write m r (mov (8 * size) (m.s.regs r) (load m.s.mem o size))
          (freeLoc m id).bind (fun m => (claim m r).bind (fun m => loaded m r size (m.s.regs r))))
      else none
    | _ => none
  | .cond c size, dst, m =>
    if size = 4 ∨ size = 1 then
      (pick m dst).bind (fun (r, m) =>
        (condHolds m c).bind (fun b =>
          (claim m r).bind (fun m =>
            let set := writeReg 8 (m.s.regs r) (if b then 1 else 0)
            loaded m r size (if size = 1 then set else movzx 32 8 set set))))
    else none

/-- The memory operand of an instruction, with its base loaded (`src/emit_x64.c:1164-1165`): the number read, and the location whose register is
freed with the operand. `none`: the operand is not in memory. -/
def readOpnd (m : Machine) : Opnd → Option (Nat × Opnd × Machine)
  | .mem a size => some (readBytes m.bytes a size, .mem a size, m)
  | .deref base size => (emitLoad base none m).bind (fun (b, m) =>
      (regOf m b).map (fun rb => (readBytes m.bytes (m.s.regs rb % 2 ^ 64) size, .loc b, m)))
  | .loc id => match m.s.locs id with
    | some ⟨.stack o, size, _, _⟩ => some (load m.s.mem o size, .loc id, m)
    | _ => none
  | _ => none

/-- `state == EMIT_LOCATION_register_relative`. -/
def inMemory (m : Machine) : Opnd → Bool
  | .mem _ _ | .deref _ _ => true
  | .loc id => match m.s.locs id with
    | some ⟨.stack _, _, _, _⟩ => true
    | _ => false
  | _ => false

/-- `state == EMIT_LOCATION_loaded`. -/
def isLoaded (m : Machine) : Opnd → Bool
  | .loc id => (regOf m id).isSome
  | _ => false

/-- `loc->size = size`. -/
def setSize (m : Machine) (o : Opnd) (size : Nat) : Option (Opnd × Machine) :=
  match o with
  | .imm v _ => some (.imm v size, m)
  | .mem a _ => some (.mem a size, m)
  | .deref b _ => some (.deref b size, m)
  | .loc id => (setLoc m.s id (fun l => some { l with size := size })).map (fun s => (.loc id, { m with s := s }))
  | .cond c _ => some (.cond c size, m)

/-- `test r, r` of a loaded location, which is freed (`emit_compare_to_zero`, `src/emit_x64.c:2098-2106`). The flags are those of `cmp r, 0`. -/
def testZero (m : Machine) (id : Nat) : Option Machine :=
  (regOf m id).bind (fun r => (opSize m (.loc id)).bind (fun size =>
    freeLoc { m with flags := Spec.Flags.cmp (8 * size) (m.s.regs r % 2 ^ (8 * size)) 0 false } id))

/-- `movsx` or `movzx` to `dst` bits of a value of `src` bits. `IR_zero_extend_u32_to_u64` is a 32-bit `mov` (2902). -/
def extend (sgn : Bool) (src dst : Nat) (old v : Nat) : Nat :=
  if sgn then movsx dst src old v else if src = 32 then mov 32 old v else movzx dst src old v

/-- `emit_integer_cast`, `src/emit_x64.c:2524-2541`. -/
def integerCast (m : Machine) (sgn : Bool) (src dst : Nat) (o : Opnd) : Option (Opnd × Machine) :=
  match o with
  | .imm v _ => (emitLoad (.imm v (dst / 8)) none m).map (fun (n, m) => (.loc n, m))
  | .cond _ _ => none
  | .mem a _ =>
    (allocateReg m).bind (fun (r, m) =>
      (loaded m r (dst / 8) (extend sgn src dst (m.s.regs r) (readBytes m.bytes a (src / 8)))).map (fun (n, m) => (.loc n, m)))
  | .deref base _ =>
    (allocateReg m).bind (fun (r, m) =>
      (emitLoad base none m).bind (fun (b, m) => (regOf m b).bind (fun rb =>
        let v := extend sgn src dst (m.s.regs r) (readBytes m.bytes (m.s.regs rb % 2 ^ 64) (src / 8))
        (freeLoc (write m r v) b).bind (fun m => (loaded m r (dst / 8) (m.s.regs r)).map (fun (n, m) => (.loc n, m))))))
  | .loc id =>
    match m.s.locs id with
    | some ⟨.loaded r, _, _, _⟩ =>
      if r.kind = .gpr then setSize (write m r (extend sgn src dst (m.s.regs r) (m.s.regs r))) (.loc id) (dst / 8) else none
    | some ⟨.stack o, _, _, _⟩ =>
      (allocateReg m).bind (fun (r, m) =>
        let v := extend sgn src dst (m.s.regs r) (load m.s.mem o (src / 8))
        (freeLoc m id).bind (fun m => (loaded m r (dst / 8) v).map (fun (n, m) => (.loc n, m))))
    | _ => none

/-- The casts, `src/emit_x64.c:2781-2904, 3228-3246`. -/
def castOpnd (m : Machine) (k : Cast.Kind) (o : Opnd) : Option (Opnd × Machine) :=
  match k with
  | .none => none
  | .truncate n => setSize m o (n / 8)
  | .signExtend a b => integerCast m true a b o
  | .zeroExtend a b => integerCast m false a b o
  | .toBool => (emitLoad o none m).bind (fun (n, m) => (testZero m n).bind (fun m =>
      (emitLoad (.cond 2 1) none m).map (fun (n, m) => (.loc n, m))))

/-- The second operand of `emit_binary_op__internal` (`src/emit_x64.c:1626-1663`) for a destination of the given size: its value, and what is freed
after the instruction. An immediate of size 8, or one of size 4 which would be changed by the sign extension of the instruction, is loaded. -/
def binaryOperand (m : Machine) (size : Nat) (rhs : Opnd) : Option (Nat × Opnd × Machine) :=
  match rhs with
  | .imm v sz =>
    if sz = 8 ∨ (sz = 4 ∧ sext 64 v > 2 ^ 31 - 1) then
      (emitLoad (.imm v sz) none m).bind (fun (n, m) =>
        if sz = size then (regOf m n).map (fun r => (m.s.regs r, .loc n, m)) else none)
    else if sz = 4 then some (pattern (8 * size) (sext 32 v), rhs, m)
    else none
  | .loc id =>
    if opSize m rhs = some size then
      match regOf m id with
      | some r => some (m.s.regs r, rhs, m)
      | none => readOpnd m rhs
    else none
  | rhs => if opSize m rhs = some size then readOpnd m rhs else none

/-- The instruction of `emit_binary_op__internal`; `none` is `cmp`, which sets the flags only. -/
def binaryInst (m : Machine) (op : Option Compound.Op) (n : Nat) (r : Reg) (v : Nat) : Option Machine :=
  match op with
  | none => some { m with flags := Spec.Flags.cmp n (m.s.regs r % 2 ^ n) (v % 2 ^ n) false }
  | some op => (binary op n (m.s.regs r) v).map (fun w => write m r (writeReg n (m.s.regs r) w))

/-- `emit_binary_op__internal`, `src/emit_x64.c:1618-1670`, with `is_signed` 0: the destination stays loaded. -/
def binaryOp (m : Machine) (op : Option Compound.Op) (lhs rhs : Opnd) : Option (Nat × Machine) :=
  (emitLoad lhs none m).bind (fun (dest, m) =>
    (opSize m (.loc dest)).bind (fun size =>
      if wideSize size then
        (lock m dest).bind (fun m =>
          (binaryOperand m size rhs).bind (fun (v, source, m) =>
            (regOf m dest).bind (fun r =>
              (binaryInst m op (8 * size) r v).bind (fun m =>
                (unlock m dest).bind (fun m => (release m source).map (fun m => (dest, m)))))))
      else none))

/-- The kinds of `emit_divide_or_mod_or_multiply__internal`. -/
inductive MulKind
  | mul | div | mod
deriving DecidableEq, Repr

def rax : Reg := ⟨.gpr, 0⟩
def rcx : Reg := ⟨.gpr, 1⟩
def rdx : Reg := ⟨.gpr, 2⟩

/-- The instruction (`mul`, `imul`, `div`, `idiv`): the new `rdx` and `rax`. -/
def mulInst (k : MulKind) (sgn : Bool) (n hi lo v : Nat) : Option (Nat × Nat) :=
  match k, sgn with
  | .mul, true => some (imul n lo v)
  | .mul, false => some (mul n lo v)
  | _, true => idiv n hi lo v
  | _, false => div n hi lo v

/-- The second operand of `emit_divide_or_mod_or_multiply__internal` (`src/emit_x64.c:1745-1752`). -/
def mulOperand (m : Machine) (rhs : Opnd) : Option (Nat × Opnd × Machine) :=
  if inMemory m rhs = true ∧ 4 ≤ (opSize m rhs).getD 0 then readOpnd m rhs
  else (emitLoad rhs none m).bind (fun (n, m) => (regOf m n).map (fun r => (m.s.regs r, .loc n, m)))

/-- `cdq`, `cqo` or `xor edx, edx` (`src/emit_x64.c:1719-1735`). -/
def extendA (m : Machine) (sgn : Bool) (n : Nat) : Machine :=
  write m rdx (writeReg n (m.s.regs rdx) (if sgn then signOf n (m.s.regs rax) else 0))

/-- `rdx` and `rax` are allocated for the two parts of the result, and the left operand is loaded into `rax`
(`src/emit_x64.c:1696-1716`): the locations of the upper and the lower part, both locked. -/
def mulBegin (m : Machine) (size : Nat) (lhs : Opnd) : Option (Nat × Nat × Machine) :=
  (claim m rdx).bind (fun m => (loaded m rdx size (m.s.regs rdx)).bind (fun (upper, m) => (lock m upper).bind (fun m =>
    (claim m rax).bind (fun m => (loaded m rax size (m.s.regs rax)).bind (fun (lower, m) =>
      -- `lower_part` is locked and unlocked again
      (lock m lower).bind (fun m => (unlock m lower).bind (fun m =>
        (emitLoad lhs (some rax) m).bind (fun (lower, m) => (lock m lower).map (fun m => (upper, lower, m))))))))))

/-- `emit_divide_or_mod_or_multiply__internal`, `src/emit_x64.c:1678-1804`, without the parts for assignments and for operands of size 1.
`inst` is what the instruction computes: the emitter does not depend on it. -/
def mulDivWith (inst : Nat → Nat → Nat → Nat → Option (Nat × Nat)) (m : Machine) (k : MulKind) (sgn : Bool) (lhs rhs : Opnd) : Option (Nat × Machine) :=
  (opSize m lhs).bind (fun size =>
    if wideSize size then
      (mulBegin m size lhs).bind (fun (upper, lower, m) =>
        (mulOperand (extendA m sgn (8 * size)) rhs).bind (fun (v, source, m) =>
          (inst (8 * size) (m.s.regs rdx) (m.s.regs rax) v).bind (fun (hi, lo) =>
            (release (write (write m rdx (writeReg (8 * size) (m.s.regs rdx) hi)) rax (writeReg (8 * size) (m.s.regs rax) lo)) source).bind (fun m =>
              (unlock m lower).bind (fun m => (unlock m upper).bind (fun m =>
                if k = .mod then (freeLoc m lower).map (fun m => (upper, m))
                else (freeLoc m upper).map (fun m => (lower, m))))))))
    else none)

def mulDiv (m : Machine) (k : MulKind) (sgn : Bool) (lhs rhs : Opnd) : Option (Nat × Machine) := mulDivWith (mulInst k sgn) m k sgn lhs rhs

/-- The shift instructions. -/
def shiftInst (left sgn : Bool) (n a b : Nat) : Nat := if left then shl n a b else if sgn then sar n a b else shr n a b

/-- The count of a shift is loaded into `rcx`, if it is not there already (`src/emit_x64.c:2149-2155`). -/
def shiftRcx (m : Machine) (rhs : Opnd) : Option (Nat × Machine) :=
  match rhs with
  | .loc id => if regOf m id = some rcx then some (id, m) else (claim m rcx).bind (fun m => emitLoad (.loc id) (some rcx) m)
  | rhs => (claim m rcx).bind (fun m => emitLoad rhs (some rcx) m)

/-- `emit_shift_or_rotate__internal`, `src/emit_x64.c:2122-2173`, not compound. -/
def shiftOp (m : Machine) (left sgn : Bool) (lhs rhs : Opnd) : Option (Nat × Machine) :=
  (opSize m lhs).bind (fun size =>
    if wideSize size then
      match rhs with
      | .imm v sz =>
        if sz = 1 then
          (emitLoad lhs none m).bind (fun (d, m) => (regOf m d).map (fun r =>
            (d, write m r (writeReg (8 * size) (m.s.regs r) (shiftInst left sgn (8 * size) (m.s.regs r) v)))))
        else none
      | rhs =>
        (shiftRcx m rhs).bind (fun (c, m) => (lock m c).bind (fun m =>
          (emitLoad lhs none m).bind (fun (d, m) => (regOf m d).bind (fun r =>
            (unlock (write m r (writeReg (8 * size) (m.s.regs r) (shiftInst left sgn (8 * size) (m.s.regs r) (m.s.regs rcx)))) c).bind (fun m =>
              (freeLoc m c).map (fun m => (d, m)))))))
    else none)

/-- `~` and unary `-`, `src/emit_x64.c:4160-4168, 4212-4220`. -/
def unaryOp (m : Machine) (f : Nat → Nat → Nat) (o : Opnd) : Option (Nat × Machine) :=
  (emitLoad o none m).bind (fun (d, m) => (opSize m (.loc d)).bind (fun size => (regOf m d).bind (fun r =>
    if wideSize size then some (d, write m r (writeReg (8 * size) (m.s.regs r) (f (8 * size) (m.s.regs r)))) else none)))

/-- The IR. `lhs` is the variant `_lhs` of a cast, for the second operand from the top. -/
inductive Ir
  | literal (l : Lit)
  | identifier (address size : Nat)
  | pointerLiteralDeref (pointer size : Nat)
  | deref (size : Nat)
  | cast (lhs : Bool) (k : Cast.Kind)
  | bitwiseNot
  | negate
  | logicalNot
  | compare (c : Cond.Ir)
  | mulDiv (k : MulKind) (sgn : Bool)
  | binary (op : Compound.Op)
  | shift (left sgn : Bool)
  | store
  | pop
  | jumpIf (onTrue : Bool) (label : Nat)
  | ret
  | retVoid
  | jump (label : Nat)
  | label (label : Nat)
deriving DecidableEq, Repr

/-- The next IR uses a condition that is in the flags (`src/emit_x64.c:3893, 4199`). -/
def fuses : Option Ir → Bool
  | some .logicalNot | some (.jumpIf _ _) => true
  | _ => false

/-- The machine, the stack of emit locations (top first), and whether the last jump was taken. -/
structure St where
  m : Machine
  stack : List Opnd
  taken : Option Bool := none

/-- `emit_location_stack[emit_location_stack_at++] = loc`; the array has 0x100 entries (`src/emit_x64.c:2565`). -/
def push (st : St) (o : Opnd) : Option St := if st.stack.length < 256 then some { st with stack := o :: st.stack } else none

/-- `integer_literal_as_u64`, `src/parse.c:211-244`, 1542. -/
def litBytes (l : Lit) : Nat := (hostConv 64 false l.get).toNat

/-- A condition is loaded unless the next IR uses the flags (`src/emit_x64.c:3890-3899, 4196-4205`). At the end of the function it is left. -/
def settle (m : Machine) (next : Option Ir) (c : Cond.Comp) : Option (Opnd × Machine) :=
  if next = none ∨ fuses next = true then some (.cond c 4, m)
  else (emitLoad (.cond c 4) none m).map (fun (n, m) => (.loc n, m))

/-- The address of the destination of a store, whose base is loaded, and what is freed with it. -/
def destOf (m : Machine) : Opnd → Option (Nat × Opnd × Machine)
  | .mem a size => some (a, .mem a size, m)
  | .deref base _ => (emitLoad base none m).bind (fun (b, m) => (regOf m b).map (fun rb => (m.s.regs rb % 2 ^ 64, .loc b, m)))
  | _ => none

/-- `IR_store` (`src/emit_x64.c:4388-4414`) with `emit_store` (1548-1612). The register of the right side is remembered (1588) before the base of
the destination is loaded; only freeing it is prevented. -/
def storeOp (m : Machine) (lhs rhs : Opnd) : Option (Opnd × Machine) :=
  (opSize m lhs).bind (fun size =>
    match rhs with
    | .imm v sz =>
      if sz ≤ size then
        if sz = 8 then
          (emitLoad (.imm v sz) none m).bind (fun (n, m) => (regOf m n).bind (fun r => (destOf m lhs).bind (fun (a, b, m) =>
            (freeLoc { m with bytes := writeBytes m.bytes a size (m.s.regs r) } n).bind (fun m =>
              (release m b).map (fun m => (.imm v sz, m))))))
        else (destOf m lhs).bind (fun (a, b, m) =>
          (release { m with bytes := writeBytes m.bytes a size v } b).map (fun m => (.imm v size, m)))
      else none
    | rhs =>
      (emitLoad rhs none m).bind (fun (n, m) => (opSize m (.loc n)).bind (fun sz => (regOf m n).bind (fun r =>
        if sz ≤ size then
          (destOf m lhs).bind (fun (a, b, m) =>
            (release { m with bytes := writeBytes m.bytes a size (m.s.regs r) } b).map (fun m => (.loc n, m)))
        else none))))

/-- The condition of `!` and of a jump (`src/emit_x64.c:3753-3756, 4175-4178`): a value that is not a condition is compared to zero. -/
def condOf (m : Machine) : Opnd → Option (Cond.Comp × Machine)
  | .cond c _ => some (c, m)
  | o => (emitLoad o none m).bind (fun (n, m) => (testZero m n).map (fun m => (2, m)))

/-- One IR node (`src/emit_x64.c:2617-4414`); `next` is the node that follows. -/
def emitWith (inst : MulKind → Bool → Nat → Nat → Nat → Nat → Option (Nat × Nat)) (next : Option Ir) (ir : Ir) (st : St) : Option St :=
  match ir, st.stack with
  | .literal l, _ => push st (.imm (litBytes l) (l.ty.bits / 8))
  | .identifier a size, _ => push st (.mem a size)
  | .pointerLiteralDeref p size, _ => push st (.deref (.imm p 8) size)
  | .deref size, o :: rest => some { st with stack := .deref o size :: rest }
  | .cast false k, o :: rest => (castOpnd st.m k o).map (fun (o, m) => { st with m := m, stack := o :: rest })
  | .cast true k, o :: l :: rest => (castOpnd st.m k l).map (fun (l, m) => { st with m := m, stack := o :: l :: rest })
  | .bitwiseNot, o :: rest => (unaryOp st.m Spec.ExprCode.not o).map (fun (n, m) => { st with m := m, stack := .loc n :: rest })
  | .negate, o :: rest => (unaryOp st.m neg o).map (fun (n, m) => { st with m := m, stack := .loc n :: rest })
  | .logicalNot, o :: rest =>
    (condOf st.m o).bind (fun (c, m) => (Cond.negate c).bind (fun c => (settle m next c).map (fun (o, m) => { st with m := m, stack := o :: rest })))
  | .compare c, r :: l :: rest =>
    (Cond.decodeIr c).bind (fun (_, comp) => (binaryOp st.m none l r).bind (fun (n, m) => (freeLoc m n).bind (fun m =>
      (settle m next comp).map (fun (o, m) => { st with m := m, stack := o :: rest }))))
  | .mulDiv k sgn, r :: l :: rest => (mulDivWith (inst k sgn) st.m k sgn l r).map (fun (n, m) => { st with m := m, stack := .loc n :: rest })
  | .binary op, r :: l :: rest => (binaryOp st.m (some op) l r).map (fun (n, m) => { st with m := m, stack := .loc n :: rest })
  | .shift left sgn, r :: l :: rest => (shiftOp st.m left sgn l r).map (fun (n, m) => { st with m := m, stack := .loc n :: rest })
  | .store, r :: l :: rest => (storeOp st.m l r).map (fun (o, m) => { st with m := m, stack := o :: rest })
  | .pop, o :: rest => (release st.m o).map (fun m => { st with m := m, stack := rest })
  | .jumpIf onTrue _, o :: rest =>
    (condOf st.m o).bind (fun (c, m) => (spillAll m.s).bind (fun s => (Cond.jumpOpcode onTrue c).map (fun o =>
      { m := { m with s := s }, stack := rest, taken := some (Spec.Flags.holds m.flags (o % 16)) })))
  -- `IR_return` of an integer (3684-3687); the epilog leaves `rax` alone
  | .ret, o :: rest =>
    (emitLoad o (some rax) st.m).bind (fun (n, m) => (freeLoc m n).map (fun m => { st with m := m, stack := rest }))
  | .retVoid, _ => some st
  | .jump _, _ => some { st with taken := some true }
  | .label _, _ => some st
  | _, _ => none

def emit (next : Option Ir) (ir : Ir) (st : St) : Option St := emitWith mulInst next ir st

/-- The code of a list of nodes; execution goes on to the next node (jumps only record whether they are taken). -/
def run : List Ir → St → Option St
  | [], st => some st
  | ir :: rest, st => (emit rest.head? ir st).bind (run rest)

/-! ## From expressions to IR (`src/parse.c`) -/

/-- A parsed operand: a literal (which is still changed in place by casts and constant folding), or nodes. -/
inductive Low
  | lit (l : Lit)
  | code (t : Ty) (irs : List Ir)
deriving DecidableEq, Repr

def Low.ty : Low → Ty
  | .lit l => l.ty
  | .code t _ => t

/-- The nodes pushed by `push_cast` (`src/parse.c:298-605`) for an operand that is not a literal. -/
def castIr (lhs : Bool) (s t : Ty) : List Ir := if Cast.kind s t = .none then [] else [.cast lhs (Cast.kind s t)]

/-- A converted operand: its nodes, and the nodes of the cast, which come after the other operand. A literal is changed in place. -/
def convert (lhs : Bool) (t : Ty) : Low → List Ir × List Ir
  | .lit l => ([.literal (castLit t l)], [])
  | .code s c => (c, castIr lhs s t)

/-- `push_cast` as the last thing that is done. -/
def castLow (t : Ty) : Low → Low
  | .lit l => .lit (castLit t l)
  | .code s c => .code t (c ++ castIr false s t)

def ofOut : Out → Option Low
  | .ok l => some (.lit l)
  | _ => none

/-- `enum ir_type` of a common type, `ir_type_from_type`. -/
def irType : Ty → Cond.IrType
  | .s64 => .s64 | .u64 => .u64 | .u32 => .u32 | _ => .s32

def tokOf : Compound.Op → Option Tok
  | .mul => some .times | .div => some .slash | .mod => some .mod | .add => some .plus | .sub => some .minus | _ => none

def bitwiseOf : Compound.Op → Option Bitwise
  | .and => some .and | .or => some .or | .xor => some .xor | _ => none

def compareTok : Cond.Op → Tok
  | .ge => .biggerEquals | .le => .smallerEquals | .gt => .bigger | .lt => .smaller | .eq => .logicalEquals | .ne => .logicalUnequals

/-- Two literals are folded (`src/parse.c:6039, 6090, 6196, 6410, 6459, 6508`). -/
def foldArith (op : Compound.Op) (l r : Lit) : Out :=
  match op with
  | .shl => foldShift .left l r
  | .shr => foldShift .right l r
  | op =>
    match tokOf op, bitwiseOf op with
    | some t, _ => fold t l r
    | _, some b => foldBitwise b l r
    | _, _ => .error

/-- The node of an operator on operands of type `t` (`src/parse.c:6060-6066, 6145-6150, 6238-6241, 6439, 6488, 6537`). -/
def arithIr (op : Compound.Op) (t : Ty) : Ir :=
  match op with
  | .mul => .mulDiv .mul t.isSigned
  | .div => .mulDiv .div t.isSigned
  | .mod => .mulDiv .mod t.isSigned
  | .shl => .shift true t.isSigned
  | .shr => .shift false t.isSigned
  | op => .binary op

/-- Binary operators with the usual arithmetic conversions: both operands, the conversions of the left and of the right one, the operation. -/
def lowerBinary (ir : Ty → Ir) (result : Option Ty) (l r : Low) : Option Low :=
  (usualConversions l.ty r.ty).map (fun c =>
    .code (result.getD c) ((convert true c l).1 ++ (convert false c r).1 ++ (convert true c l).2 ++ (convert false c r).2 ++ [ir c]))

/-- Shifts, `src/parse.c:6166-6248`: both operands are promoted, a literal count is checked, and the count is cast to `u8`. -/
def lowerShift (op : Compound.Op) (l r : Low) : Option Low :=
  let t := promote l.ty
  match castLow (promote r.ty) r with
  | .lit count =>
    if count.ty.isSigned = true ∧ count.get < 0 then none
    else if hostConv 64 false count.get > t.bits then none
    else some (.code t ((convert true t l).1 ++ [.literal (castLit .u8 count)] ++ (convert true t l).2 ++ [arithIr op t]))
  | .code p _ =>
    some (.code t ((convert true t l).1 ++ (convert false p r).1 ++ (convert true t l).2 ++ (convert false p r).2 ++ castIr false p .u8 ++
      [arithIr op t]))

def lowerArith (op : Compound.Op) (l r : Low) : Option Low :=
  match l, r with
  | .lit a, .lit b => ofOut (foldArith op a b)
  | l, r => if op = .shl ∨ op = .shr then lowerShift op l r else lowerBinary (arithIr op) none l r

def lowerCompare (op : Cond.Op) (l r : Low) : Option Low :=
  match l, r with
  | .lit a, .lit b => ofOut (fold (compareTok op) a b)
  | l, r => lowerBinary (fun c => .compare (Cond.select op (irType c))) (some .s32) l r

/-- The unary operators, `src/parse.c:5763-5900`. -/
def lowerUnary (op : Un) : Low → Option Low
  | .lit l => match op with
    | .plus => ofOut (foldPlus l)
    | .minus => ofOut (foldNegate l)
    | .compl => ofOut (foldNot l)
    | .not => ofOut (foldLogicalNot l)
  | .code s c =>
    let t := promote s
    let c := c ++ castIr false s t
    match op with
    | .plus => some (.code t c)
    | .minus => some (.code t (c ++ [.negate]))
    | .compl => some (.code t (c ++ [.bitwiseNot]))
    | .not => some (.code .s32 (c ++ [.logicalNot]))

/-- `*(t *)e`, `src/parse.c:5908-5935`; the cast of a literal to a pointer sign-extends it (387-398). -/
def lowerDeref (t : Ty) : Low → Low
  | .lit l => .code t [.pointerLiteralDeref (hostConv 64 true l.get % 2 ^ 64).toNat (t.bits / 8)]
  | .code s c => .code t (c ++ castIr false s .u64 ++ [.deref (t.bits / 8)])

/-- The IR of an expression. `none`: an error is reported, or the compiler executes undefined behaviour. -/
def lower : Expr → Option Low
  | .lit t v => some (.lit ⟨t, pattern 64 v⟩)
  | .var t a => some (.code t [.identifier a (t.bits / 8)])
  | .deref t e => (lower e).map (lowerDeref t)
  | .cast t e => (lower e).map (castLow t)
  | .un op e => (lower e).bind (lowerUnary op)
  | .bin (.arith op) l r => (lower l).bind (fun l => (lower r).bind (fun r => lowerArith op l r))
  | .bin (.compare op) l r => (lower l).bind (fun l => (lower r).bind (fun r => lowerCompare op l r))

/-- The nodes of a whole operand. -/
def Low.irs : Low → List Ir
  | .lit l => [.literal l]
  | .code _ c => c

/-- The type and the IR of the left side of an assignment. -/
def lowerLValue : LValue → Option (Ty × List Ir)
  | .var t a => some (t, [.identifier a (t.bits / 8)])
  | .deref t e => (lower e).map (fun l => (t, (lowerDeref t l).irs))

/-- `lv = e;` (`src/parse.c:6945-6975, 9202`). -/
def lowerStmt (s : Stmt) : Option (List Ir) :=
  (lowerLValue s.lv).bind (fun (t, c) => (lower s.e).map (fun l => c ++ (castLow t l).irs ++ [.store, .pop]))

/-- `return e;` in a function that returns `t` (`src/parse.c:9532-9543`). -/
def lowerReturn (t : Ty) (e : Expr) : Option (List Ir) := (lower e).map (fun l => (castLow t l).irs ++ [.ret])

def lowerStmts : List Stmt → Option (List Ir)
  | [] => some []
  | s :: ss => (lowerStmt s).bind (fun c => (lowerStmts ss).map (fun cs => c ++ cs))

/-- How many entries of the stack of emit locations the code of an expression needs. -/
def need : Expr → Nat
  | .lit _ _ | .var _ _ => 1
  | .deref _ e | .cast _ e | .un _ e => need e
  | .bin _ l r => max (need l) (need r + 1)

def needLValue : LValue → Nat
  | .var _ _ => 1
  | .deref _ e => need e

def needStmt (s : Stmt) : Nat := max (needLValue s.lv) (need s.e + 1)

end Verif.ExprCode
