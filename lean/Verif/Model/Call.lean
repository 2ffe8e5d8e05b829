import Verif.Model.RegAlloc

/-!
# Model: calls (`src/emit_x64.c:3352-3638`, `4741-4852`)

The case `IR_function_call` of `emit_code_for_function__internal`, with `emit_load_into_specific_gpr` (1265-1369),
`emit_load_float_into_specific_register` (1371-1403), `emit_load_gpr` (1410-1416), `emit_load_address` (1436-1451), `emit_memcpy` (1453-1483),
`emit_store` (1552-1612), on the register allocator of `Verif.Model.RegAlloc`; the part of the prologue of a function that
stores the arguments that came in registers (4741-4852).

Simplifications: `rdi` and `rsi`, which only `emit_memcpy` uses, hold no location. An address is the value of one location (`base`), without
index and offset. A condition in the flags is taken to be loaded before the call. Intrinsics and inline assembler functions are left out.
A failed assertion is the outcome `none`.
-/

namespace Verif.Call

open Verif.RegAlloc

/-- What the instructions read besides registers and temporaries: the frame pointer, the value of the object at an address, and the
bits above the size of an operand that an instruction leaves in a register. -/
structure Env where
  rbp : Nat
  object : Nat → Nat
  high : Nat → Nat

/-- An operand on the `emit_location_stack`: an immediate, a variable at a fixed address (relative to `rbp` or `rip`) with its value, a location
of the register allocator, or the object at the address in such a location (`EMIT_LOCATION_register_relative` with a `base`). -/
inductive Src
  | imm (v : Nat)
  | variable (v : Nat)
  | loc (id : Nat)
  | deref (id : Nat)
deriving DecidableEq, Repr

/-- An argument: where it is, its size, and whether its type is `float` or `double`. -/
structure Arg where
  src : Src
  size : Nat
  float : Bool
deriving DecidableEq, Repr

/-- The register allocator and the bytes above `rsp`, where arguments are passed. -/
structure CallState where
  s : State
  out : Int → Nat

/-- `size_is_big_or_oddly_sized` (`src/parse.c:105-108`). -/
def big (size : Nat) : Bool := size > 8 || size = 3 || size = 5 || size = 6 || size = 7

/-- `argument_registers` (`src/emit_x64.c:3393-3403`, and the same table at 4733-4744). -/
def argReg (k : Kind) (i : Nat) : Reg :=
  match k with
  | .gpr => ⟨.gpr, [1, 2, 8, 9].getD i 0⟩
  | .xmm => ⟨.xmm, i⟩

/-- A store of the low `n` bytes of `v` at `rsp + at_`. -/
def outStore (out : Int → Nat) (at_ : Int) (n v : Nat) : Int → Nat :=
  fun d => if at_ ≤ d ∧ d < at_ + n then v / 256 ^ (d - at_).toNat % 256 else out d

/-- The register of an operand, if it is in one (`EMIT_LOCATION_loaded`). -/
def regOf (s : State) : Src → Option Reg
  | .loc id =>
    match s.locs id with
    | some ⟨.loaded r, _, _, _⟩ => some r
    | _ => none
  | _ => none

/-- The value that an instruction reads from an operand. -/
def content (env : Env) (s : State) : Src → Option Nat
  | .imm v => some v
  | .variable v => some v
  | .loc id => value s id
  | .deref id => (value s id).map env.object

/-- `free_emit_location` (`src/emit_x64.c:1044-1080`) of an operand. -/
def release (s : State) : Src → Option State
  | .loc id => free s id
  | .deref id => free s id
  | _ => some s

/-- The `base` of an operand in memory is loaded (`src/emit_x64.c:1161-1165`). -/
def loadBase (s : State) : Src → Option (Src × State)
  | .deref id =>
    match s.locs id with
    | some ⟨.stack _, _, _, _⟩ => (step s (.reload .gpr id)).map (fun s' => (.deref s.next, s'))
    | _ => some (.deref id, s)
  | src => some (src, s)

/-- The checks at the start of the two functions that load a register: a float that is in a general purpose register is stored to the stack
(`src/emit_x64.c:1385-1388`), an integer is not in a float register (1277), a float is no immediate (1398). -/
def sameKind (s : State) (src : Src) (r : Reg) : Option State :=
  match regOf s src with
  | some r' => if r'.kind = r.kind then some s else if r.kind = .xmm then spill s r' else none
  | none =>
    match src, r.kind with
    | .imm _, .xmm => none
    | _, _ => some s

/-- `emit_load_into_specific_gpr` and `emit_load_float_into_specific_register` (`src/emit_x64.c:1265-1403`), for an operand that is not in
`r`. The result is the number of the new location. -/
def putIn (env : Env) (s : State) (src : Src) (size : Nat) (r : Reg) : Option (Nat × State) :=
  if size = 0 then
    (release s src).bind (fun s => (newLoaded s r 0 (env.high s.next)).map (fun s' => (s.next, s')))
  else
    (sameKind s src r).bind (fun s =>
      (loadBase s src).bind (fun (src, s) =>
        (content env s src).bind (fun v =>
          (release s src).bind (fun s =>
            (step s (.computeIn r size (v % 256 ^ size + 256 ^ size * env.high s.next))).map (fun s' => (s.next, s'))))))

/-- `emit_load_gpr` (`src/emit_x64.c:1410-1416`). -/
def loadGpr (env : Env) (s : State) (src : Src) (size : Nat) : Option (Nat × State) :=
  match src, regOf s src with
  | .loc id, some _ => some (id, s)
  | _, _ => (allocate s .gpr).bind (fun (r, s) => putIn env s src size r)

/-- `emit_store` (`src/emit_x64.c:1552-1612`) at `rsp + at_`. -/
def storeOut (env : Env) (c : CallState) (src : Src) (size : Nat) (at_ : Int) : Option CallState :=
  if size = 0 then (release c.s src).map (fun s => { c with s := s })
  else
    match src, decide (size = 8) with
    | .imm v, false => some { c with out := outStore c.out at_ size v }
    | _, _ =>
      (loadGpr env c.s src size).bind (fun (id, s) =>
        (value s id).bind (fun v => (free s id).map (fun s => { s := s, out := outStore c.out at_ size v })))

/-- A big argument is copied to the stack, and its address is passed (`src/emit_x64.c:3429-3450`). `emit_memcpy` needs `rcx`. -/
def copyBig (env : Env) (s : State) (src : Src) (size : Nat) : Option (Src × State) :=
  (content env s src).bind (fun v =>
    (step s (.temporary size 16 v)).bind (fun s =>
      let address := env.rbp - (s.base + s.temp)
      (match regOf s src with
        | some _ => release s src
        | none => (loadBase s src).bind (fun (src, s) => (allocateSpecific s ⟨.gpr, 1⟩).bind (fun s => release s src))).bind (fun s =>
        (step s (.compute .gpr 8 address)).map (fun s' => (.loc s.next, s')))))

/-- A float that is passed for the `...` is moved to a general purpose register (`src/emit_x64.c:3452-3480`). -/
def moveFloat (s : State) (src : Src) (size adj : Nat) : Option (Src × Nat × State) :=
  match src, regOf s src with
  | .loc id, some ⟨.xmm, n⟩ =>
    if size < 16 then
      (if 4 ≤ adj then step s (.compute .gpr 8 (s.regs ⟨.xmm, n⟩)) else step s (.computeIn (argReg .gpr adj) 8 (s.regs ⟨.xmm, n⟩))).bind (fun s' =>
        (free s' id).map (fun s'' => (.loc s.next, 8, s'')))
    else some (src, size, s)
  | _, _ => some (src, size, s)

/-- The kind of the register for an argument (`src/emit_x64.c:3499-3514`), with `params` parameters before the `...`. -/
def expectedKind (params i : Nat) (a : Arg) : Kind := if i < params && a.float then .xmm else .gpr

/-- The argument is put in its register, and locked there (`src/emit_x64.c:3516-3535`). The comparison at 3518 is between the encodings only. -/
def toRegister (env : Env) (s : State) (src : Src) (size : Nat) (r : Reg) : Option (Nat × State) :=
  let load := (allocateSpecific s r).bind (fun s =>
    (putIn env s src size r).bind (fun (id, s) => (step s (.preventSpilling id)).map (fun s => (id, s))))
  match src, regOf s src with
  | .loc id, some r' => if r'.num = r.num then (step s (.preventSpilling id)).map (fun s => (id, s)) else load
  | _, _ => load

/-- One iteration of the loop (`src/emit_x64.c:3424-3536`): `ret` is 1 if the address of the result is the first argument. The result has the
location of an argument that is passed in a register. -/
def passOne (env : Env) (ret params i : Nat) (a : Arg) (c : CallState) : Option (Option Nat × CallState) :=
  (if big a.size then (copyBig env c.s a.src a.size).map (fun (src, s) => (src, 8, s)) else some (a.src, a.size, c.s)).bind (fun (src, size, s) =>
    (if params ≤ i then moveFloat s src size (ret + i) else some (src, size, s)).bind (fun (src, size, s) =>
      if 4 ≤ ret + i then (storeOut env { c with s := s } src size (8 * (ret + i : Nat))).map (fun c => (none, c))
      else (toRegister env s src size (argReg (expectedKind params i a) (ret + i))).map (fun (id, s) => (some id, { c with s := s }))))

/-- The loop over the arguments, from the last to the first (`src/emit_x64.c:3424`). -/
def passFrom (env : Env) (ret params : Nat) : Nat → List Arg → CallState → Option (List (Option Nat) × CallState)
  | _, [], c => some ([], c)
  | i, a :: as, c =>
    (passFrom env ret params (i + 1) as c).bind (fun (ids, c) =>
      (passOne env ret params i a c).map (fun (id, c) => (id :: ids, c)))

/-- The argument at an index of the volatile registers (`src/emit_x64.c:3550, 3561`). -/
def keepAt (ret : Nat) (ids : List (Option Nat)) (index : Nat) : Option Nat :=
  if index < min 4 (ret + ids.length) && ret ≤ index then (ids[index - ret]?).join else none

/-- Spill a register unless it holds the given argument (`src/emit_x64.c:3547-3555`). -/
def spillUnless (s : State) (r : Reg) (keep : Option Nat) : Option State :=
  match s.map r with
  | none => some s
  | some id => if keep = some id then some s else spill s r

def spillEach (s : State) : List (Reg × Option Nat) → Option State
  | [] => some s
  | (r, keep) :: rest => (spillUnless s r keep).bind (fun s => spillEach s rest)

/-- The volatile registers that hold no argument are spilled (`src/emit_x64.c:3538-3567`). -/
def spillRest (s : State) (ret : Nat) (ids : List (Option Nat)) : Option State :=
  spillEach s (((volatiles .gpr).mapIdx (fun i r => (r, keepAt ret ids i))).drop ret ++
    (volatiles .xmm).mapIdx (fun i r => (r, keepAt ret ids i)))

/-- The type that is returned: nothing, in `rax`, in `rax` and then stored (a small structure), in `xmm0`, or by address (`src/emit_x64.c:3600-3637`). -/
inductive Ret
  | nothing
  | integer (size : Nat)
  | small (size align : Nat)
  | float (size : Nat)
  | byAddress (size align : Nat)
deriving DecidableEq, Repr

/-- `returns_big_struct`. -/
def Ret.hidden : Ret → Nat
  | .byAddress _ _ => 1
  | _ => 0

/-- Room for the result and its address in `rcx` (`src/emit_x64.c:3569-3577`): the locations of the room and of the address. -/
def hiddenArgument (env : Env) (s : State) : Ret → Option (Option (Nat × Nat) × State)
  | .byAddress size align =>
    (step s (.temporary size align 0)).bind (fun s1 =>
      (step s1 (.computeIn ⟨.gpr, 1⟩ 8 (env.rbp - (s1.base + s1.temp)))).bind (fun s2 =>
        (step s2 (.preventSpilling s1.next)).map (fun s3 => (some (s.next, s1.next), s3))))
  | _ => some (none, s)

/-- The state when the call instruction is executed: the locations of the arguments, of the hidden argument, and the address that is called for a
function pointer. -/
structure AtCall where
  ids : List (Option Nat)
  hidden : Option (Nat × Nat)
  c : CallState
  target : Option Nat

/-- Everything up to the call instruction (`src/emit_x64.c:3352-3601`). A function pointer on the stack is read by the call itself, its base is loaded
before. -/
def beforeCall (env : Env) (ret : Ret) (params : Nat) (args : List Arg) (fn : Option Src) (c : CallState) : Option AtCall :=
  (passFrom env ret.hidden params 0 args c).bind (fun (ids, c) =>
    (spillRest c.s ret.hidden ids).bind (fun s =>
      (hiddenArgument env s ret).bind (fun (hidden, s) =>
        match fn with
        | none => some ⟨ids, hidden, { c with s := s }, none⟩
        | some src =>
          (loadBase s src).bind (fun (src, s) =>
            (content env s src).bind (fun v =>
              (release s src).map (fun s => ⟨ids, hidden, { c with s := s }, some v⟩))))))

/-- The locked locations are freed (`src/emit_x64.c:3603-3620`). -/
def unlock (s : State) (id : Nat) : Option State := (step s (.allowSpilling id)).bind (fun s => free s id)

def unlockAll (s : State) : List (Option Nat) → Option State
  | [] => some s
  | none :: rest => unlockAll s rest
  | some id :: rest => (unlock s id).bind (fun s => unlockAll s rest)

/-- What the called function does: it returns `result`, and leaves anything in the volatile registers. -/
structure Callee where
  result : Nat
  after : Reg → Nat

/-- The registers after the call. -/
def clobber (s : State) (f : Callee) (ret : Ret) : State :=
  { s with regs := fun r =>
      match ret, r with
      | .float _, ⟨.xmm, 0⟩ => f.result
      | .integer _, ⟨.gpr, 0⟩ => f.result
      | .small _ _, ⟨.gpr, 0⟩ => f.result
      | _, _ => if r ∈ volatiles r.kind then f.after r else s.regs r }

/-- After the call (`src/emit_x64.c:3603-3637`): the location of the result. The locations of the arguments are freed before the called function overwrites
the registers, as no instruction reads them after the call. A result that is returned by address is stored by the called function to the address that it got in
`rcx`. -/
def afterCall (env : Env) (ret : Ret) (f : Callee) (at_ : AtCall) : Option (Option Nat × State) :=
  let pointer := at_.c.s.regs ⟨.gpr, 1⟩ % 2 ^ 64
  (unlockAll at_.c.s (at_.ids ++ [at_.hidden.map (·.2)])).bind (fun s =>
    let s := clobber s f ret
    match ret, at_.hidden with
    | .nothing, _ => some (none, s)
    | .byAddress size _, some (room, _) =>
      some (some room, { s with mem := store s.mem (env.rbp - pointer) size f.result })
    | .byAddress _ _, none => none
    | .float size, _ => (newLoaded s ⟨.xmm, 0⟩ size (s.regs ⟨.xmm, 0⟩)).map (fun s' => (some s.next, s'))
    | .integer size, _ => (newLoaded s ⟨.gpr, 0⟩ size (s.regs ⟨.gpr, 0⟩)).map (fun s' => (some s.next, s'))
    | .small size align, _ => (newStack s size align (s.regs ⟨.gpr, 0⟩)).map (fun s' => (some s.next, s')))

/-- The whole call. -/
def call (env : Env) (ret : Ret) (params : Nat) (args : List Arg) (fn : Option Src) (f : Callee) (c : CallState) :
    Option (AtCall × Option Nat × State) :=
  (beforeCall env ret params args fn c).bind (fun at_ => (afterCall env ret f at_).map (fun p => (at_, p.1, p.2)))

/-! ## The called function -/

/-- The kinds of the registers that are stored in the prologue (`src/emit_x64.c:4796-4815`): the address of the result, then the parameters
(`true` for `float` and `double`), then for `...` general purpose registers. -/
def homeKinds (hidden : Nat) (params : List Bool) (varargs : Bool) : List Kind :=
  (List.replicate hidden Kind.gpr ++ params.map (fun f => if f = true then Kind.xmm else Kind.gpr) ++
    (if varargs = true then List.replicate 4 Kind.gpr else [])).take 4

/-- `rbp` of the called function relative to `rsp` at the call: the return address, the saved registers and `rbp` are pushed (`src/emit_x64.c:4762-4779`). -/
def calleeRbp (saved : Nat) : Int := -8 - 8 * saved - 8

/-- `offset_on_stack` of the argument with the given index (`src/emit_x64.c:4794, 4841, 4850`), as a distance above `rbp`. -/
def paramOffset (saved i : Nat) : Int := 16 + 8 * saved + 8 * i

/-- The loop of the prologue (`src/emit_x64.c:4797-4852`): each register is stored with 8 bytes. -/
def home (saved : Nat) (regs : Reg → Nat) : Nat → List Kind → (Int → Nat) → (Int → Nat)
  | _, [], out => out
  | i, k :: ks, out => home saved regs (i + 1) ks (outStore out (calleeRbp saved + paramOffset saved i) 8 (regs (argReg k i)))

/-- The stack of the called function after its prologue. -/
def prologue (saved hidden : Nat) (params : List Bool) (varargs : Bool) (at_ : AtCall) : Int → Nat :=
  home saved at_.c.s.regs 0 (homeKinds hidden params varargs) at_.c.out

end Verif.Call
