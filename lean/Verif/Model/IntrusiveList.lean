import Verif.Spec.IntrusiveList

/-!
# Model: the list macros (`src/std.c:254-325` and 471-523)

Addresses are numbers, null is 0. Dereferencing null gives `none`. Several lists share the heap.
-/
namespace Verif.IntrusiveList
open Verif.Spec.IntrusiveList

/-- `first` and `last` of a list (for example `struct define_list`, `src/preprocess.c:54-57`). -/
structure Lst where
  first : Nat
  last : Nat
  deriving DecidableEq, Repr

/-- The links of all nodes (for example `src/preprocess.c:96-98`), and all lists. -/
structure State where
  next : Nat → Nat
  prev : Nat → Nat
  lists : Nat → Lst

/-- All lists empty (`zero_struct`), the links of the nodes are arbitrary. -/
def State.init (next prev : Nat → Nat) : State := ⟨next, prev, fun _ => ⟨0, 0⟩⟩

/-- Assignment to a variable or a field. -/
def upd {α : Type} (f : Nat → α) (p : Nat) (v : α) : Nat → α := fun q => if q = p then v else f q

/-- `p->next = v`, used in all the macros (`src/std.c:258-523`). -/
def State.setNext (s : State) (p v : Nat) : Option State := if p = 0 then none else some { s with next := upd s.next p v }

/-- `p->prev = v` (`src/std.c:475-523`). -/
def State.setPrev (s : State) (p v : Nat) : Option State := if p = 0 then none else some { s with prev := upd s.prev p v }

/-- `p->next` (`src/std.c:309-523`). -/
def State.getNext (s : State) (p : Nat) : Option Nat := if p = 0 then none else some (s.next p)

/-- `p->prev` (`src/std.c:504-523`). -/
def State.getPrev (s : State) (p : Nat) : Option Nat := if p = 0 then none else some (s.prev p)

/-- `(list).first = v` (`src/std.c:255-523`). -/
def State.setFirst (s : State) (i v : Nat) : State := { s with lists := upd s.lists i { s.lists i with first := v } }

/-- `(list).last = v` (`src/std.c:255-523`). -/
def State.setLast (s : State) (i v : Nat) : State := { s with lists := upd s.lists i { s.lists i with last := v } }

/-- `sll_clear`, `dll_clear`, `src/std.c:255`, 472. -/
def clear (s : State) (i : Nat) : State := (s.setFirst i 0).setLast i 0

/-- `sll_push_back`, `src/std.c:258-269`. -/
def sllPushBack (s : State) (i n : Nat) : Option State :=
  if (s.lists i).first ≠ 0 then do
    let s ← s.setNext (s.lists i).last n
    let s := s.setLast i n
    s.setNext n 0
  else
    ((s.setFirst i n).setLast i n).setNext n 0

/-- `sll_push_front`, `src/std.c:272-282`. -/
def sllPushFront (s : State) (i n : Nat) : Option State :=
  if (s.lists i).first ≠ 0 then do
    let s ← s.setNext n (s.lists i).first
    some (s.setFirst i n)
  else
    ((s.setFirst i n).setLast i n).setNext n 0

/-- `sll_push_front_list`, `src/std.c:285-292`, and `sll_clear(to_prepend)`. -/
def sllPushFrontList (s : State) (i j : Nat) : Option State :=
  if (s.lists j).first ≠ 0 then do
    let s ← s.setNext (s.lists j).last (s.lists i).first
    let s := s.setFirst i (s.lists j).first
    let s := if (s.lists i).last = 0 then s.setLast i (s.lists j).last else s
    some (clear s j)
  else some (clear s j)

/-- `sll_push_back_list`, `src/std.c:296-306`, and `sll_clear(to_append)`. -/
def sllPushBackList (s : State) (i j : Nat) : Option State :=
  if (s.lists j).first ≠ 0 then
    if (s.lists i).first ≠ 0 then do
      let s ← s.setNext (s.lists i).last (s.lists j).first
      some (clear (s.setLast i (s.lists j).last) j)
    else some (clear ((s.setFirst i (s.lists j).first).setLast i (s.lists j).last) j)
  else some (clear s j)

/-- `sll_pop_front`, `src/std.c:309-314`. -/
def sllPopFront (s : State) (i : Nat) : Option State :=
  if (s.lists i).first ≠ 0 then do
    let n ← s.getNext (s.lists i).first
    let s := s.setFirst i n
    some (if (s.lists i).first = 0 then s.setLast i 0 else s)
  else some s

/-- `sll_remove`, `src/std.c:316-325`; a failing assertion is `none`. -/
def sllRemove (s : State) (i n prev : Nat) : Option State := do
  let s ← (if prev ≠ 0 then do
      let a ← s.getNext prev
      if a ≠ n then none
      else
        let b ← s.getNext n
        s.setNext prev b
    else do
      let b ← s.getNext n
      some (s.setFirst i b))
  let b ← s.getNext n
  some (if b = 0 then s.setLast i prev else s)

/-- `dll_push_back`, `src/std.c:475-487`. -/
def dllPushBack (s : State) (i n : Nat) : Option State :=
  if (s.lists i).first ≠ 0 then do
    let s ← s.setPrev n (s.lists i).last
    let s ← s.setNext (s.lists i).last n
    let s := s.setLast i n
    s.setNext n 0
  else do
    let s := (s.setFirst i n).setLast i n
    let s ← s.setPrev n 0
    s.setNext n 0

/-- `dll_push_back_list`, `src/std.c:489-499`, and `dll_clear(list2)`. -/
def dllPushBackList (s : State) (i j : Nat) : Option State :=
  if (s.lists j).first ≠ 0 then
    if (s.lists i).first ≠ 0 then do
      let s ← s.setPrev (s.lists j).first (s.lists i).last
      let s ← s.setNext (s.lists i).last (s.lists j).first
      some (clear (s.setLast i (s.lists j).last) j)
    else some (clear { s with lists := upd s.lists i (s.lists j) } j)
  else some (clear s j)

/-- `dll_push_front`, `src/std.c:502`. -/
def dllPushFront (s : State) (i n : Nat) : Option State :=
  if (s.lists i).first ≠ 0 then do
    let s ← s.setNext n (s.lists i).first
    let s ← s.setPrev (s.lists i).first n
    let s := s.setFirst i n
    s.setPrev n 0
  else do
    let s := (s.setFirst i n).setLast i n
    let s ← s.setNext n 0
    s.setPrev n 0

/-- `dll_remove`, `src/std.c:504-523`. -/
def dllRemove (s : State) (i n : Nat) : Option State :=
  if (s.lists i).first = n then do
    let a ← s.getNext n
    let s := s.setFirst i a
    if (s.lists i).first ≠ 0 then s.setPrev (s.lists i).first 0 else some (s.setLast i 0)
  else if (s.lists i).last = n then do
    let a ← s.getPrev n
    let s := s.setLast i a
    if (s.lists i).last ≠ 0 then s.setNext (s.lists i).last 0 else some (s.setFirst i 0)
  else do
    let p ← s.getPrev n
    let a ← s.getNext n
    let s ← s.setNext p a
    let a ← s.getNext n
    let p ← s.getPrev n
    s.setPrev a p

/-- An operation on singly linked lists, `src/std.c:258-325`. -/
def apply (s : State) : Op → Option State
  | .pushBack i n => sllPushBack s i n
  | .pushFront i n => sllPushFront s i n
  | .popFront i => sllPopFront s i
  | .pushBackList i j => sllPushBackList s i j
  | .pushFrontList i j => sllPushFrontList s i j
  | .remove i n prev => sllRemove s i n prev

/-- An operation on doubly linked lists, `src/std.c:475-523`. -/
def dapply (s : State) : DOp → Option State
  | .pushBack i n => dllPushBack s i n
  | .pushFront i n => dllPushFront s i n
  | .pushBackList i j => dllPushBackList s i j
  | .remove i n => dllRemove s i n

/-- A history of uses of these macros anywhere in the program. -/
def run (s : State) : List Op → Option State
  | [] => some s
  | o :: os => (apply s o).bind (run · os)

/-- A history of uses of the macros for doubly linked lists. -/
def drun (s : State) : List DOp → Option State
  | [] => some s
  | o :: os => (dapply s o).bind (drun · os)

end Verif.IntrusiveList
