import Verif.Model.IntrusiveList

/-!
# Model: the order of declarations under `-seed`, `src/main.c:3179-3201`

The lists are those of `Verif.IntrusiveList`: list 16 is `work_queue_entries`, lists 0 to 15 are `stacks`. Its field
`amount` is not written by this code.
-/
namespace Verif.Shuffle
open Verif.IntrusiveList

/-- `xor_shift64`, `src/std.c:1792-1797`. -/
def xorShift64 (x : BitVec 64) : BitVec 64 :=
  let x := x ^^^ (x <<< 13)
  let x := x ^^^ (x >>> 7)
  x ^^^ (x <<< 17)

/-- `random_u32(&series) & 15`, `src/std.c:1809-1813` and `src/main.c:3191`: the index and the next state. -/
def randomIndex (series : BitVec 64) : Nat × BitVec 64 :=
  let v := xorShift64 series
  ((v.setWidth 32 &&& 15).toNat, v)

/-- The loop over the entries, `src/main.c:3188-3195`; `none` for a null dereference or when `fuel` iterations are not
enough. -/
def deal : Nat → State → BitVec 64 → Nat → Option State
  | 0, s, _, it => if it = 0 then some s else none
  | fuel + 1, s, series, it =>
    if it = 0 then some s
    else do
      let next ← s.getNext it
      let r := randomIndex series
      let s ← sllPushFront s r.1 it
      deal fuel s r.2 next

/-- The loop over the stacks, `src/main.c:3198-3200`. -/
def collect : List Nat → State → Option State
  | [], s => some s
  | i :: is, s => do
    let s ← sllPushBackList s 16 i
    collect is s

/-- `src/main.c:3179-3201`. -/
def shuffle (fuel : Nat) (seed : BitVec 64) (s : State) : Option State :=
  if seed ≠ 0 then do
    let s ← deal fuel s seed (s.lists 16).first
    collect (List.range 16) (clear s 16)
  else some s

end Verif.Shuffle
