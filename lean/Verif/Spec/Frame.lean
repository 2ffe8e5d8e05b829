/-!
# Specification: regions of memory

Independent of the compiler: a region is its lowest address and its size in bytes.
-/
namespace Verif.Spec.Frame

structure Region where
  low : Int
  size : Nat
deriving Repr, DecidableEq

/-- The byte addresses of a region. -/
def Region.Has (r : Region) (a : Int) : Prop := r.low ≤ a ∧ a < r.low + r.size

/-- No address is in both. -/
def Apart (r s : Region) : Prop := ∀ a, ¬ (r.Has a ∧ s.Has a)

/-- All addresses of `r` are in `[low, high)`. -/
def Within (low high : Int) (r : Region) : Prop := low ≤ r.low ∧ r.low + r.size ≤ high

end Verif.Spec.Frame
