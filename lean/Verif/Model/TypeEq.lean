import Verif.Spec.TypeEq

/-!
# Model: comparing types

`types_are_equal` (/repo/src/parse.c 911–1051), with `lookup_unresolved_type` (/repo/src/main.c 1600–1636) and
`maybe_resolve_unresolved_type` (/repo/src/parse.c 894–908).

Simplifications. What the lookup of an unresolved type finds is part of the type here, and pointers are not changed to what was
found; this makes no difference as long as the lookup finds the same. The type that stands for errors is left out, and so are enumerations: the
specifier `enum e` gives `int` (/repo/src/parse.c 8352, 8372). The recursion may be endless, therefore it is limited, and `none` says that the
limit was reached.
-/
namespace Verif.Model.TypeEq
open Verif.Spec.TypeEq

/-- `struct ast_type` and the structures that begin with it (/repo/src/ast.c 583–625, 500–560). -/
inductive Node
  | base (k : Nat)
  | pointer (to : Nat)
  | function (ret : Nat) (params : List Nat) (variadic : Bool)
  /-- `amount_of_elements` is 0, if the size is unknown (/repo/src/parse.c 10210). -/
  | array (unknown : Bool) (amount : Nat) (elem : Nat)
  | compound (union_ : Bool) (tag : Nat) (members : List (Nat × Nat × Nat))
  | bits (index width type : Nat)
  /-- `struct ast_unresolved_type` and what `lookup_unresolved_type` finds for it. -/
  | unresolved (union_ : Bool) (tag : Nat) (found : Option Nat)

/-- All types of a program. -/
abbrev Types := Nat → Node

/-- `lookup_unresolved_type`, if the type is unresolved (/repo/src/parse.c 933–935, 894–908). -/
def resolve (h : Types) (a : Nat) : Option Nat :=
  match h a with
  | .unresolved _ _ found => found
  | _ => some a

/-- The parameters, in order (/repo/src/parse.c 983–994). -/
def params (rec_ : Nat → Nat → Option Bool) : List Nat → List Nat → Option Bool
  | p :: ps, q :: qs =>
    match rec_ p q with
    | some true => params rec_ ps qs
    | r => r
  | _, _ => some true

/-- A parameter: it is looked up first (/repo/src/parse.c 989–992); if nothing is found, it is compared as it is. -/
def param (h : Types) (rec_ : Nat → Nat → Option Bool) (p q : Nat) : Option Bool :=
  rec_ ((resolve h p).getD p) ((resolve h q).getD q)

/-- The members, in order (/repo/src/parse.c 1021–1028). -/
def members (rec_ : Nat → Nat → Option Bool) : List (Nat × Nat × Nat) → List (Nat × Nat × Nat) → Option Bool
  | m :: ms, n :: ns =>
    if m.1 ≠ n.1 then some false
    else match rec_ m.2.2 n.2.2 with
      | some true => if m.2.1 ≠ n.2.1 then some false else members rec_ ms ns
      | r => r
  | _, _ => some true

/-- The comparison of types that are not both pointers (/repo/src/parse.c 969–1051). -/
def rest (h : Types) (rec_ : Nat → Nat → Option Bool) (a b : Nat) : Option Bool :=
  if a = b then some true
  else match h a, h b with
    | .function r ps _, .function s qs _ =>
      if ps.length ≠ qs.length then some false
      else match rec_ r s with
        | some true => params (param h rec_) ps qs
        | r => r
    | .array _ n e, .array _ m f => if n ≠ m then some false else rec_ e f
    | .compound u t ms, .compound v s ns =>
      if u ≠ v then some false
      else if t ≠ s then some false
      else if ms.length ≠ ns.length then some false
      else members rec_ ms ns
    | .bits i w c, .bits j x d => if i ≠ j then some false else if w ≠ x then some false else rec_ c d
    | _, _ => some false

/-- `types_are_equal`. With `pointee`, the two types are what the pointers at the begin of the loop (/repo/src/parse.c 941–946) point to. -/
def equal (h : Types) : Nat → (pointee : Bool) → Nat → Nat → Option Bool
  | 0, _, _, _ => none
  | n + 1, false, a, b =>
    if a = b then some true
    else match h a, h b with
      | .unresolved _ t _, .unresolved _ s _ => some (t == s)
      | _, _ =>
        match resolve h a, resolve h b with
        | some a, some b =>
          if a = b then some true
          else match h a, h b with
            | .pointer p, .pointer q => equal h n true p q
            | _, _ => rest h (equal h n false) a b
        | _, _ => some false
  | n + 1, true, p, q =>
    match h p, h q with
    | .pointer p, .pointer q => equal h n true p q
    | .unresolved _ t _, .unresolved _ s _ => some (t == s)
    | _, _ =>
      match resolve h p, resolve h q with
      | some a, some b => rest h (equal h n false) a b
      | _, _ => some false

/-- What a type is, for the specification. -/
def shape (h : Types) (a : Nat) : Shape :=
  let sh : Node → Option Shape := fun n => match n with
    | .base k => some (.base k)
    | .pointer t => some (.pointer t)
    | .function r ps v => some (.function r ps v)
    | .array u n e => some (.array (if u then none else some n) e)
    | .compound u t ms => some (.tagged u t ms)
    | .bits i w t => some (.bits i w t)
    | .unresolved _ _ _ => none
  match h a with
  | .unresolved u t found =>
    match found.bind (fun c => sh (h c)) with
    | some s => s
    | none => .incomplete u t
  | n => (sh n).getD (.base 0)

end Verif.Model.TypeEq
