import Verif.Spec.Image

/-!
# Specification: local variables in PDB files

How a debugger finds the local variables of a place in the code. The symbols of a module are records: the size, the kind, the contents. After the record of a function come
those of its variables and blocks, and a record of kind 6 that ends it; blocks are the same, and may be in other blocks. The records of functions and blocks have
the position of the record that ends them, those of blocks also the position of the record of the function or block around them.
-/
namespace Verif.Spec.Scopes
open Verif.Spec.Image (byte number signed)

/-- A variable: its name, the register and the offset that give its address, the number of its type. -/
structure Variable where
  name : List Nat
  register : Nat
  offset : Int
  type : Nat
deriving DecidableEq

/-- What is declared in a block: a variable that is on the stack, so many bytes below the address in the register `rbp`, or something else. -/
inductive Declaration
  | variable (name : List Nat) (below : Int) (type : Nat)
  | other
deriving DecidableEq

/-- The body of a function: something that code is generated for (how long its intermediate representation is, and how many bytes of code there are), and
blocks in braces. -/
inductive Body
  | done
  | code (size bytes : Nat) (rest : Body)
  | block (declarations : List Declaration) (inner rest : Body)

/-- The register `rbp` has the number 334. -/
def variablesOf (ds : List Declaration) : List Variable :=
  ds.filterMap (fun d => match d with | .variable name below type => some ⟨name, 334, -below, type⟩ | .other => none)

/-- For every byte of the code, the variables of the blocks that it is in, from the outermost to the innermost. -/
def variablesAt (outer : List Variable) : Body → List (List Variable)
  | .done => []
  | .code _ bytes rest => List.replicate bytes outer ++ variablesAt outer rest
  | .block ds inner rest => variablesAt (outer ++ variablesOf ds) inner ++ variablesAt outer rest

/-- The same for a function: its own variables are those of the code before and after its body, too. -/
def variablesIn (declarations : List Declaration) (prolog : Nat) (body : Body) (epilog : Nat) : List (List Variable) :=
  List.replicate prolog (variablesOf declarations) ++ variablesAt (variablesOf declarations) body ++ List.replicate epilog (variablesOf declarations)

/-! Reading -/

def next (b : List Nat) (p : Nat) : Nat := p + 2 + number (byte b) 2 p
def kind (b : List Nat) (p : Nat) : Nat := number (byte b) 2 (p + 2)
def parent (b : List Nat) (p : Nat) : Nat := number (byte b) 4 (p + 4)
def ending (b : List Nat) (p : Nat) : Nat := number (byte b) 4 (p + 8)

/-- Is the address in the function with this record? -/
def inFunction (b : List Nat) (section_ address p : Nat) : Prop :=
  number (byte b) 2 (p + 36) = section_ ∧ number (byte b) 4 (p + 32) ≤ address ∧ address < number (byte b) 4 (p + 32) + number (byte b) 4 (p + 16)

/-- Is the address in the block with this record? -/
def inBlock (b : List Nat) (section_ address p : Nat) : Prop :=
  number (byte b) 2 (p + 20) = section_ ∧ number (byte b) 4 (p + 16) ≤ address ∧ address < number (byte b) 4 (p + 16) + number (byte b) 4 (p + 12)

instance (b : List Nat) (s a p : Nat) : Decidable (inFunction b s a p) := by unfold inFunction; infer_instance
instance (b : List Nat) (s a p : Nat) : Decidable (inBlock b s a p) := by unfold inBlock; infer_instance

/-- The record of the function that has an address: kind 0x110f or 0x1110. -/
def functionAt (b : List Nat) (section_ address : Nat) : Nat → Nat → Option Nat
  | 0, _ => none
  | n + 1, p =>
    if b.length ≤ p then none
    else if kind b p = 0x110f ∨ kind b p = 0x1110 then
      if inFunction b section_ address p then some p else functionAt b section_ address n (next b (ending b p))
    else functionAt b section_ address n (next b p)

/-- The variable with this record. -/
def variable_ (b : List Nat) (p : Nat) : Variable :=
  ⟨(b.drop (p + 14)).takeWhile (fun c => decide (c ≠ 0)), number (byte b) 2 (p + 12), signed (number (byte b) 4 (p + 4)), number (byte b) 4 (p + 8)⟩

/-- The variables at an address: those of the function, and those of the blocks that have the address. Blocks have kind 0x1103, variables 0x1111. `around` has the
positions of the records of the blocks around, and of the function. There is no result if the positions in the records of blocks and functions are wrong. -/
def variablesFrom (b : List Nat) (section_ address : Nat) : Nat → Nat → List Nat → Option (List Variable)
  | 0, _, _ => none
  | n + 1, p, around =>
    if kind b p = 0x1103 then
      if around.head? ≠ some (parent b p) then none
      else if inBlock b section_ address p then variablesFrom b section_ address n (next b p) (p :: around)
      else if kind b (ending b p) ≠ 6 then none
      else variablesFrom b section_ address n (next b (ending b p)) around
    else if kind b p = 6 then
      match around with
      | [] => none
      | q :: around =>
        if ending b q ≠ p then none
        else if around = [] then some []
        else variablesFrom b section_ address n (next b p) around
    else if kind b p = 0x1111 then (variablesFrom b section_ address n (next b p) around).map (variable_ b p :: ·)
    else variablesFrom b section_ address n (next b p) around

/-- What a debugger shows. The records start after the number 4. -/
def shown (b : List Nat) (section_ address : Nat) : Option (List Variable) := do
  let p ← functionAt b section_ address b.length 4
  variablesFrom b section_ address b.length (next b p) [p]

end Verif.Spec.Scopes
