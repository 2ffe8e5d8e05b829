/-!
# Specification: memory operands of inline assembly

`size ptr gs:[base + scale * index + constant]`: the operand is at the sum of what is written, each part with its sign.
-/
namespace Verif.Spec.AsmAddress

/-- Tokens of an operand. A number is decimal or not. -/
inductive Tok
  | word (s : String)
  | number (decimal : Bool) (n : Nat)
  | plus
  | minus
  | times
  | open_
  | close
  | colon
  | other (n : Nat)
deriving DecidableEq, Repr

/-- The names of the 64-bit registers, in the order in which the processor numbers them. -/
def names8 : List String := ["rax", "rcx", "rdx", "rbx", "rsp", "rbp", "rsi", "rdi", "r8", "r9", "r10", "r11", "r12", "r13", "r14", "r15"]
/-- The names of their low 32 bits. -/
def names4 : List String := ["eax", "ecx", "edx", "ebx", "esp", "ebp", "esi", "edi", "r8d", "r9d", "r10d", "r11d", "r12d", "r13d", "r14d", "r15d"]
/-- The names of their low 16 bits. -/
def names2 : List String := ["ax", "cx", "dx", "bx", "sp", "bp", "si", "di", "r8w", "r9w", "r10w", "r11w", "r12w", "r13w", "r14w", "r15w"]
/-- The names of their low 8 bits. -/
def names1 : List String := ["al", "cl", "dl", "bl", "spl", "bpl", "sil", "dil", "r8b", "r9b", "r10b", "r11b", "r12b", "r13b", "r14b", "r15b"]

/-- `name` is the name of the low `size` bytes of register `r`. -/
def Names (name : String) (r size : Nat) : Prop :=
  (size = 8 ∧ names8[r]? = some name) ∨ (size = 4 ∧ names4[r]? = some name) ∨ (size = 2 ∧ names2[r]? = some name) ∨ (size = 1 ∧ names1[r]? = some name)

/-- The words for sizes. -/
def sizes : List (String × Nat) := [("byte", 1), ("word", 2), ("dword", 4), ("qword", 8), ("xmmword", 16), ("ymmword", 32)]

/-- Numbers that are multiplied. -/
structure Product where
  first : Bool × Nat
  rest : List (Bool × Nat)

def Product.value (p : Product) : Int := p.rest.foldl (fun (v : Int) n => v * (n.2 : Int)) p.first.2
def Product.tokens (p : Product) : List Tok := .number p.first.1 p.first.2 :: p.rest.flatMap fun n => [.times, .number n.1 n.2]

/-- The sum of products; the first component is whether the product is subtracted. -/
def sum : List (Bool × Product) → Int
  | [] => 0
  | (m, p) :: l => (if m then - p.value else p.value) + sum l

def sumTokens : List (Bool × Product) → List Tok
  | [] => []
  | (m, p) :: l => (if m then .minus else .plus) :: (p.tokens ++ sumTokens l)

/-- What is written between the brackets. Registers are their numbers. -/
structure Address where
  base : String × Nat
  index : Option (Nat × String × Nat)
  constant : List (Bool × Product)

def Address.tokens (a : Address) : List Tok :=
  .word a.base.1 :: ((match a.index with | none => [] | some (s, n, _) => [.plus, .number true s, .times, .word n]) ++ sumTokens a.constant)

/-- Where it is; `regs` are the values of the 64-bit registers. -/
def Address.value (a : Address) (regs : Nat → Int) : Int :=
  regs a.base.2 + (match a.index with | none => 0 | some (s, _, r) => (s : Int) * regs r) + sum a.constant

/-- The names are those of 64-bit registers. -/
def Address.Wide (a : Address) : Prop := Names a.base.1 a.base.2 8 ∧ ∀ s n r, a.index = some (s, n, r) → Names n r 8

/-- A memory operand: an optional size, optionally relative to gs, and the address. -/
structure Operand where
  size : Option (String × Nat)
  gs : Bool
  address : Address

def prefixTokens (size : Option (String × Nat)) (gs : Bool) : List Tok :=
  (match size with | none => [] | some (s, _) => [.word s, .word "ptr"]) ++ (if gs then [.word "gs", .colon] else []) ++ [.open_]

def Operand.tokens (o : Operand) : List Tok := prefixTokens o.size o.gs ++ (o.address.tokens ++ [.close])

/-- The size that is written, 0 if there is none. -/
def bytes : Option (String × Nat) → Nat
  | none => 0
  | some (_, n) => n

end Verif.Spec.AsmAddress
