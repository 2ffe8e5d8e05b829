import Verif.Model.Chunk

/-!
# Spec: external declarations

The external declarations of a translation unit (C11 6.9), as far as their extent and the names that they declare are
concerned, and how they are written. Only the kinds of tokens are taken from the model.
-/

namespace Verif.Spec.Chunk

open Verif.Chunk (Tok Reg)

/-- A token that is no bracket. -/
def plain (t : Tok) : Prop :=
  t ≠ .openParen ∧ t ≠ .closedParen ∧ t ≠ .openCurly ∧ t ≠ .closedCurly ∧ t ≠ .openIndex ∧ t ≠ .closedIndex

/-- Every bracket is closed by one of its kind. -/
inductive Balanced : List Tok → Prop
  | nil : Balanced []
  | tok {t ts} : plain t → Balanced ts → Balanced (t :: ts)
  | parens {w ts} : Balanced w → Balanced ts → Balanced (.openParen :: w ++ .closedParen :: ts)
  | curlies {w ts} : Balanced w → Balanced ts → Balanced (.openCurly :: w ++ .closedCurly :: ts)
  | indices {w ts} : Balanced w → Balanced ts → Balanced (.openIndex :: w ++ .closedIndex :: ts)

/-- An initializer: balanced, and commas and semicolons are in brackets only. -/
inductive Init : List Tok → Prop
  | nil : Init []
  | tok {t ts} : plain t → t ≠ .comma → t ≠ .semicolon → Init ts → Init (t :: ts)
  | parens {w ts} : Balanced w → Init ts → Init (.openParen :: w ++ .closedParen :: ts)
  | curlies {w ts} : Balanced w → Init ts → Init (.openCurly :: w ++ .closedCurly :: ts)
  | indices {w ts} : Balanced w → Init ts → Init (.openIndex :: w ++ .closedIndex :: ts)

def parens (w : List Tok) : List Tok := .openParen :: w ++ [.closedParen]

/-- `__declspec(…)` -/
def declspec (w : List Tok) : List Tok := .declspec :: parens w

/-- A declaration specifier (C11 6.7). -/
inductive Specifier
  /-- `int`, `unsigned`, … -/
  | basic
  | typedefName (n : Nat)
  /-- `struct`, `union` or `enum` with an optional name and optional members. -/
  | tag (attributes : List (List Tok)) (name : Option Nat) (members : Option (List Tok))
  | static
  | extern
  | inline
  | declspec (w : List Tok)
  /-- `const`, `typedef`, `_Noreturn`, … -/
  | keyword (kind : Nat)

def Specifier.isType : Specifier → Bool
  | .basic => true
  | .typedefName _ => true
  | .tag _ _ _ => true
  | _ => false

def Specifier.isStatic : Specifier → Bool
  | .static => true
  | _ => false

def Specifier.isExtern : Specifier → Bool
  | .extern => true
  | _ => false

def Specifier.isInline : Specifier → Bool
  | .inline => true
  | _ => false

def Specifier.tokens : Specifier → List Tok
  | .basic => [.basic]
  | .typedefName n => [.ident n]
  | .tag as n ms => .tag :: as.flatMap Chunk.declspec ++ (n.elim [] fun n => [.ident n]) ++ (ms.elim [] fun w => .openCurly :: w ++ [.closedCurly])
  | .static => [.static]
  | .extern => [.extern]
  | .inline => [.inline]
  | .declspec w => Chunk.declspec w
  | .keyword k => [.other k]

def Specifier.Wf : Specifier → Prop
  | .tag as n ms => (∀ w ∈ as, Balanced w) ∧ (n.isSome ∨ ms.isSome) ∧ ∀ w, ms = some w → Balanced w
  | .declspec w => Balanced w
  | _ => True

/-- C11 6.7.2: one or more of the basic types, or one name of a type, or one structure, union or enumeration. -/
def Types (specs : List Specifier) : Prop :=
  let types := specs.filter Specifier.isType
  (types ≠ [] ∧ ∀ s ∈ types, s = .basic) ∨ ∃ s, types = [s]

/-- A declarator (C11 6.7.6). The lists of kinds are `*`, qualifiers and calling conventions. -/
inductive Declarator
  | name (pre : List Nat) (n : Nat)
  | group (pre : List Nat) (d : Declarator)
  | call (d : Declarator) (parameters : List Tok)
  | index (d : Declarator) (size : List Tok)

def Declarator.tokens : Declarator → List Tok
  | .name pre n => pre.map Tok.other ++ [.ident n]
  | .group pre d => pre.map Tok.other ++ .openParen :: d.tokens ++ [.closedParen]
  | .call d w => d.tokens ++ .openParen :: w ++ [.closedParen]
  | .index d w => d.tokens ++ .openIndex :: w ++ [.closedIndex]

def Declarator.Wf : Declarator → Prop
  | .name _ _ => True
  | .group _ d => d.Wf
  | .call d w => d.Wf ∧ Balanced w
  | .index d w => d.Wf ∧ Balanced w

/-- The name that is declared. -/
def Declarator.ident : Declarator → Nat
  | .name _ n => n
  | .group _ d => d.ident
  | .call d _ => d.ident
  | .index d _ => d.ident

/-- A declarator with an optional initializer. -/
structure InitDeclarator where
  declarator : Declarator
  initializer : Option (List Tok)

def InitDeclarator.tokens (d : InitDeclarator) : List Tok :=
  d.declarator.tokens ++ d.initializer.elim [] fun w => .equals :: w

def InitDeclarator.Wf (d : InitDeclarator) : Prop := d.declarator.Wf ∧ ∀ w, d.initializer = some w → Init w

/-- The declarators of a declaration, separated by commas. -/
def commaSeparated : List InitDeclarator → List Tok
  | [] => []
  | [d] => d.tokens
  | d :: ds => d.tokens ++ .comma :: commaSeparated ds

/-- An external declaration (C11 6.9). -/
inductive External
  | empty
  | staticAssert (w : List Tok)
  | declaration (specs : List Specifier) (declarators : List InitDeclarator)
  | function (specs : List Specifier) (d : Declarator) (body : List Tok)

def External.tokens : External → List Tok
  | .empty => [.semicolon]
  | .staticAssert w => .staticAssert :: parens w ++ [.semicolon]
  | .declaration specs ds => specs.flatMap Specifier.tokens ++ commaSeparated ds ++ [.semicolon]
  | .function specs d body => specs.flatMap Specifier.tokens ++ d.tokens ++ .openCurly :: body ++ [.closedCurly]

def External.Wf : External → Prop
  | .empty => True
  | .staticAssert w => Balanced w
  | .declaration specs ds => (∀ s ∈ specs, s.Wf) ∧ Types specs ∧ ∀ d ∈ ds, d.Wf
  | .function specs d body => (∀ s ∈ specs, s.Wf) ∧ Types specs ∧ d.Wf ∧ Balanced body

/-- The tokens as they are parsed: in a function `__func__` is its name (C11 6.4.2.2). -/
def External.parsed : External → List Tok
  | .function specs d body =>
    specs.flatMap Specifier.tokens ++ d.tokens ++
      .openCurly :: body.map (fun t => if t = .func then .nameLiteral d.ident else t) ++ [.closedCurly]
  | e => e.tokens

/-- The declared names with their storage class and function specifiers. -/
def External.declared (e : External) : List Reg :=
  let entry (specs : List Specifier) (n : Nat) : Reg :=
    ⟨n, specs.any Specifier.isStatic, specs.any Specifier.isExtern, specs.any Specifier.isInline⟩
  match e with
  | .declaration specs ds => ds.map fun d => entry specs d.declarator.ident
  | .function specs d _ => [entry specs d.ident]
  | _ => []

end Verif.Spec.Chunk
