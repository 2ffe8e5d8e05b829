/-!
# Specification: what a list of nodes contains

Nodes are addresses, 0 is the null pointer.
-/
namespace Verif.Spec.IntrusiveList

/-- `for(node = p; node != q; node = node->next)` visits exactly `xs`, in this order, and no null pointer. -/
def Visits (next : Nat → Nat) : Nat → List Nat → Nat → Prop
  | p, [], q => p = q
  | p, x :: xs, q => p = x ∧ x ≠ 0 ∧ Visits next (next x) xs q

/-- Operations on singly linked lists; lists have numbers. A list that is appended or prepended to another is empty
afterwards. -/
inductive Op
  | pushBack (i n : Nat)
  | pushFront (i n : Nat)
  | popFront (i : Nat)
  | pushBackList (i j : Nat)
  | pushFrontList (i j : Nat)
  | remove (i n prev : Nat)

/-- Operations on doubly linked lists. -/
inductive DOp
  | pushBack (i n : Nat)
  | pushFront (i n : Nat)
  | pushBackList (i j : Nat)
  | remove (i n : Nat)

/-- The contents of all lists. -/
abbrev Contents := Nat → List Nat

def Contents.set (c : Contents) (i : Nat) (xs : List Nat) : Contents := fun k => if k = i then xs else c k

/-- A node that is in no list. -/
def Fresh (c : Contents) (n : Nat) : Prop := n ≠ 0 ∧ ∀ i, n ∉ c i

/-- What the caller must ensure. `prev` is the node before `n`, or null if `n` is the first node. -/
def Op.ok (c : Contents) : Op → Prop
  | .pushBack _ n | .pushFront _ n => Fresh c n
  | .popFront _ => True
  | .pushBackList i j | .pushFrontList i j => i ≠ j
  | .remove i n prev => (prev = 0 ∧ ∃ ys, c i = n :: ys) ∨ ∃ xs ys, c i = xs ++ prev :: n :: ys

def DOp.ok (c : Contents) : DOp → Prop
  | .pushBack _ n | .pushFront _ n => Fresh c n
  | .pushBackList i j => i ≠ j
  | .remove i n => n ∈ c i

/-- What an operation does to the contents. -/
def Op.apply (c : Contents) : Op → Contents
  | .pushBack i n => c.set i (c i ++ [n])
  | .pushFront i n => c.set i (n :: c i)
  | .popFront i => c.set i (c i).tail
  | .pushBackList i j => (c.set i (c i ++ c j)).set j []
  | .pushFrontList i j => (c.set i (c j ++ c i)).set j []
  | .remove i n _ => c.set i ((c i).erase n)

def DOp.apply (c : Contents) : DOp → Contents
  | .pushBack i n => c.set i (c i ++ [n])
  | .pushFront i n => c.set i (n :: c i)
  | .pushBackList i j => (c.set i (c i ++ c j)).set j []
  | .remove i n => c.set i ((c i).erase n)

/-- A history in which every caller does what it must. -/
def Valid (c : Contents) : List Op → Prop
  | [] => True
  | o :: os => o.ok c ∧ Valid (o.apply c) os

def DValid (c : Contents) : List DOp → Prop
  | [] => True
  | o :: os => o.ok c ∧ DValid (o.apply c) os

end Verif.Spec.IntrusiveList
