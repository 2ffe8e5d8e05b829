/-!
# Specification: which allocations are live

Independent of the allocator: the bookkeeping a user of the arenas does in their head. An allocation is live until its
arena is reset or the innermost temporary scope that was open when it was made is closed.
-/
namespace Verif.Spec.Arena

/-- What a user sees. -/
inductive Event where
  | nothing
  /-- arena, address, size, alignment asked for -/
  | allocated (i address size alignment : Nat)
  | opened (i : Nat)
  | closed (i : Nat)
  /-- the scope ends, its allocations stay -/
  | kept (i : Nat)
  | reset (i : Nat)
deriving DecidableEq, Repr

structure Alloc where
  address : Nat
  size : Nat
  alignment : Nat
deriving DecidableEq, Repr

/-- The live allocations of one arena, and those that were live when each open scope was opened, innermost first. -/
structure Live where
  now : List Alloc := []
  atOpen : List (List Alloc) := []

/-- What an event does to arena `i`. -/
def Live.see (i : Nat) (l : Live) : Event → Live
  | .nothing => l
  | .allocated j a s k => if j = i then { l with now := ⟨a, s, k⟩ :: l.now } else l
  | .opened j => if j = i then { l with atOpen := l.now :: l.atOpen } else l
  | .closed j => if j = i then
      match l.atOpen with
      | [] => l
      | x :: xs => ⟨x, xs⟩
    else l
  | .kept j => if j = i then { l with atOpen := l.atOpen.tail } else l
  | .reset j => if j = i then { l with now := [] } else l

/-- The live allocations of arena `i` after a history. -/
def live (i : Nat) (es : List Event) : List Alloc := (es.foldl (Live.see i) {}).now

/-- The bytes of an allocation. -/
def Alloc.Has (x : Alloc) (b : Nat) : Prop := x.address ≤ b ∧ b < x.address + x.size

/-- No byte belongs to both. -/
def Apart (x y : Alloc) : Prop := ∀ b, ¬ (x.Has b ∧ y.Has b)

end Verif.Spec.Arena
