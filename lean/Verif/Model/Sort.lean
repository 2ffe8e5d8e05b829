/-!
# Model: `sll_sort`

Models the macro `sll_sort` of `src/std.c:336-467`, an in-place quicksort of a singly linked list
with an explicit stack of lists. Linked lists are Lean lists; relinking a node is moving its
element. Elements pushed with "next = smaller.first" go to the front, so the partitions are in
reverse order. `smaller` is the macro argument.
-/
namespace Verif.Sort

variable {α : Type}

/-- The loop over the nodes after the pivot, `src/std.c:395-421`: (smaller, bigger). -/
def partition (smaller : α → α → Bool) (pivot : α) : List α → List α → List α → List α × List α
  | [], s, b => (s, b)
  | it :: rest, s, b => if smaller it pivot then partition smaller pivot rest (it :: s) b else partition smaller pivot rest s (it :: b)

/-- `out` and `stack` after one iteration of `while(!sll_is_empty(stack))` that popped `current`,
`src/std.c:360-462`. The list `current` is never empty. -/
def iterate (smaller : α → α → Bool) (out : List α) (current : List α) (stack : List (List α)) : List α × List (List α) :=
  match current with
  | [] => (out, stack)
  | [node] => (out ++ [node], stack)
  | pivot :: rest =>
    let p := partition smaller pivot rest [] []
    let stack := if p.2.length = 0 then stack else p.2 :: stack
    match p.1 with
    | [] => (out ++ [pivot], stack)
    | [node] => (out ++ [node, pivot], stack)
    | s => (out, (s ++ [pivot]) :: stack)

/-- The loop; `none` is running out of fuel. -/
def loop (smaller : α → α → Bool) : Nat → List α → List (List α) → Option (List α)
  | 0, _, _ => none
  | _ + 1, out, [] => some out
  | fuel + 1, out, current :: stack =>
    let r := iterate smaller out current stack
    loop smaller fuel r.1 r.2

/-- The macro: lists with at most one node are left alone (`first == last`). -/
def sllSort (smaller : α → α → Bool) (fuel : Nat) (xs : List α) : Option (List α) :=
  match xs with
  | [] => some []
  | [x] => some [x]
  | xs => loop smaller fuel [] [xs]

end Verif.Sort
