/-!
# Specification: the meaning of paths

Paths are lists of bytes with `/` (47) between components; empty components mean nothing.
-/
namespace Verif.Spec.Path

theorem dropWhile_length (p : Nat → Bool) (s : List Nat) : (s.dropWhile p).length ≤ s.length :=
  (List.dropWhile_sublist p).length_le

/-- The non-empty components of a path. -/
def components : List Nat → List (List Nat)
  | [] => []
  | c :: s => if c = 47 then components s else (c :: s.takeWhile (· ≠ 47)) :: components (s.dropWhile (· ≠ 47))
termination_by s => s.length
decreasing_by
  all_goals simp_wf
  all_goals (have := dropWhile_length (· ≠ 47) s; simp only [ne_eq, decide_not] at this; omega)

def dot : List Nat := [46]
def dotdot : List Nat := [46, 46]

/-- Following one component from a directory: `.` stays, `..` goes up unless at the root (the first component). -/
def follow (dir : List (List Nat)) (c : List Nat) : List (List Nat) :=
  if c = dot then dir
  else if c = dotdot then (if dir.length ≤ 1 then dir else dir.dropLast)
  else dir ++ [c]

/-- The file a sequence of components leads to. -/
def resolve (cs : List (List Nat)) : List (List Nat) := cs.foldl follow []

/-- `.` or `..` -/
def isDots (c : List Nat) : Bool := c == dot || c == dotdot

end Verif.Spec.Path
