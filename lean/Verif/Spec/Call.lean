import Verif.Model.Call

/-!
# Spec: calls

What the caller has before a call, and what the called function reads. The convention is that of x64 Windows: the arguments have slots of 8 bytes, which begin at
`rsp` at the call; the first four are in registers, for which the slots are reserved, and the called function may store the registers there; an argument that has not 1, 2, 4 or 8 bytes
is passed by the address of a copy.
-/

namespace Verif.Spec.Call

open Verif.RegAlloc Verif.Call

/-- The number that is stored in `n` bytes at an address. -/
def read (mem : Int → Nat) (at_ : Int) : Nat → Nat
  | 0 => 0
  | n + 1 => mem at_ + 256 * read mem (at_ + 1) n

/-- The location of an operand. -/
def opId : Src → Option Nat
  | .loc id => some id
  | .deref id => some id
  | _ => none

/-- The operands of a call: the arguments and the function pointer. -/
def operands (args : List Arg) (fn : Option Src) : List Src := args.map (·.src) ++ fn.toList

/-- The operands are values that were computed before: their locations are live, not in use by another instruction and not shared, and have the
sizes of the arguments. Structures are not `float` or `double`, and other values that are not floats are not in float registers, unless
they are passed for the `...`. -/
structure Good (s : State) (params : Nat) (args : List Arg) (fn : Option Src) : Prop where
  live : ∀ src ∈ operands args fn, ∀ id, opId src = some id →
    ∃ l, s.locs id = some l ∧ l.place ≠ .freed ∧ l.preventSpilling = 0 ∧ l.preventFreeing = 0
  distinct : ((operands args fn).filterMap opId).Nodup
  size : ∀ a ∈ args, ∀ id l, a.src = .loc id → s.locs id = some l → l.size = a.size
  float : ∀ a ∈ args, a.float = true → a.size = 4 ∨ a.size = 8
  integer : ∀ i a, args[i]? = some a → i < params → a.float = false → a.size = 1 ∨ a.size = 2 ∨ a.size = 4 ∨ a.size = 8 →
    ∀ id l r, a.src = .loc id → s.locs id = some l → l.place = .loaded r → r.kind = .gpr

/-- No `float` or `double` argument is in the general purpose register that has the same encoding as the float register where it is expected:
`rcx` and `xmm1`, `rdx` and `xmm2`, `rax` and `xmm0`. -/
def NoFloatInGpr (s : State) (hidden params : Nat) (args : List Arg) : Prop :=
  ∀ i a id l, args[i]? = some a → i < params → a.float = true → hidden + i < 4 → a.src = .loc id → s.locs id = some l →
    l.place ≠ .loaded ⟨.gpr, hidden + i⟩

/-- The parameters of the called function are those of the call. -/
structure Matches (params : List Bool) (varargs : Bool) (args : List Arg) : Prop where
  count : if varargs = true then params.length ≤ args.length else params.length = args.length
  kinds : ∀ i a, args[i]? = some a → i < params.length → params[i]? = some a.float

/-- The parameter `i` of the called function, `n` bytes of its slot. -/
def parameter (saved : Nat) (ret : Ret) (params : List Bool) (varargs : Bool) (at_ : AtCall) (i n : Nat) : Nat :=
  read (prologue saved ret.hidden params varargs at_) (calleeRbp saved + paramOffset saved (ret.hidden + i)) n

/-- The sizes of arguments that are passed by value; others are passed by address. -/
def ByValue (size : Nat) : Prop := size = 1 ∨ size = 2 ∨ size = 4 ∨ size = 8

/-- The registers of the first four arguments: `rcx`, `rdx`, `r8`, `r9`, and `xmm0` to `xmm3` for floats, with their encodings. -/
def abiRegister (float : Bool) : Nat → Option Reg
  | 0 => some (if float = true then ⟨.xmm, 0⟩ else ⟨.gpr, 1⟩)
  | 1 => some (if float = true then ⟨.xmm, 1⟩ else ⟨.gpr, 2⟩)
  | 2 => some (if float = true then ⟨.xmm, 2⟩ else ⟨.gpr, 8⟩)
  | 3 => some (if float = true then ⟨.xmm, 3⟩ else ⟨.gpr, 9⟩)
  | _ => none

/-- What the convention passes, in `n` bytes, for the argument number `slot` when the call instruction is executed: a register, or the slot on the stack. -/
def passed (at_ : AtCall) (slot : Nat) (float : Bool) (n : Nat) : Nat :=
  match abiRegister float slot with
  | some r => at_.c.s.regs r % 256 ^ n
  | none => read at_.c.out (8 * slot) n

end Verif.Spec.Call
