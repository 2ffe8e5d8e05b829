/-!
# Specification: conditional inclusion (C11 6.10, 6.10.1)

`S` is what directives such as `#define` change, `T` are the text lines, `C` the conditions.
-/
namespace Verif.Spec.CondIncl

/-- The lines of a file. `cond none` is a conditional directive that lacks its argument. -/
inductive Line (S T C : Type)
  | text (t : T)
  /-- `#` alone -/
  | null
  /-- any other directive; `none` if it is in error -/
  | dir (f : S → Option S)
  /-- `#if`, `#ifdef`, `#ifndef` -/
  | cond (c : Option C)
  | elif (c : Option C)
  | els
  | endif

/-! A *group* is what the grammar calls so: text lines, directives and sections that begin with `#if` and
end with `#endif`. The sequel of an `#if` group is a `Tail`. -/
mutual
inductive Group (S T C : Type)
  | nil
  | text (t : T) (rest : Group S T C)
  | null (rest : Group S T C)
  | dir (f : S → Option S) (rest : Group S T C)
  | sect (c : C) (g : Group S T C) (tail : Tail S T C) (rest : Group S T C)
inductive Tail (S T C : Type)
  | endif
  | els (g : Group S T C)
  | elif (c : C) (g : Group S T C) (tail : Tail S T C)
end

variable {S T C : Type}

/-! The lines of a group. -/
mutual
def Group.lines : Group S T C → List (Line S T C)
  | .nil => []
  | .text t rest => .text t :: rest.lines
  | .null rest => .null :: rest.lines
  | .dir f rest => .dir f :: rest.lines
  | .sect c g tail rest => .cond (some c) :: (g.lines ++ (tail.lines ++ rest.lines))
def Tail.lines : Tail S T C → List (Line S T C)
  | .endif => [.endif]
  | .els g => .els :: (g.lines ++ [.endif])
  | .elif c g tail => .elif (some c) :: (g.lines ++ tail.lines)
end

/-! The text lines that are processed, each with the definitions in force, and the definitions afterwards;
`none` if there is an error. `ev` evaluates a condition. Of a section the first group whose condition is
true is processed; if there is none, the one after `#else`. Conditions after that group are not evaluated,
and nothing in the other groups has any effect. -/
mutual
def Group.run (ev : C → S → Option Bool) : Group S T C → S → Option (S × List (S × T))
  | .nil, s => some (s, [])
  | .text t rest, s => do
    let (s', out) ← rest.run ev s
    return (s', (s, t) :: out)
  | .null rest, s => rest.run ev s
  | .dir f rest, s => do
    let s' ← f s
    rest.run ev s'
  | .sect c g tail rest, s => do
    let b ← ev c s
    let (s1, out1) ← if b then g.run ev s else tail.run ev s
    let (s2, out2) ← rest.run ev s1
    return (s2, out1 ++ out2)
def Tail.run (ev : C → S → Option Bool) : Tail S T C → S → Option (S × List (S × T))
  | .endif, s => some (s, [])
  | .els g, s => g.run ev s
  | .elif c g tail, s => do
    let b ← ev c s
    if b then g.run ev s else tail.run ev s
end

/-! No `#` alone on a line. -/
mutual
def Group.noNull : Group S T C → Prop
  | .nil => True
  | .text _ rest => rest.noNull
  | .null _ => False
  | .dir _ rest => rest.noNull
  | .sect _ g tail rest => g.noNull ∧ tail.noNull ∧ rest.noNull
def Tail.noNull : Tail S T C → Prop
  | .endif => True
  | .els g => g.noNull
  | .elif _ g tail => g.noNull ∧ tail.noNull
end

end Verif.Spec.CondIncl
