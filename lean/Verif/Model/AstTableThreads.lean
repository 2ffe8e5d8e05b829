import Verif.Model.AstTable
import Verif.Spec.FirstWins

/-!
# Model: threads using the table of global declarations (`src/main.c:93-247`)

Threads interleave at the granularity of single accesses to shared memory, with these
simplifications: the reads of `amount_of_nodes` and `capacity` in one condition are one step, the
writes of `capacity`, `nodes` and `mask` when the table grows are one step, and moving one node to the
new array is one step. Memory is sequentially consistent. The bound on the number of iterations of
the probe loops is not modelled. Arrays of nodes are numbered; a freed array keeps its contents.
-/
namespace Verif.AstTable.Threads
open Verif.AstTable
open Verif.Spec.FirstWins (Call)

/-- The key of a call. -/
def key : Call → Nat
  | .add k _ => k
  | .get k => k

/-- The points at which a thread can be preempted. -/
inductive PC
  | idle
  /-- before the load of `is_locked_for_growing`, `src/main.c:160`, `src/main.c:222` -/
  | start (c : Call)
  /-- before the condition at `src/main.c:163` -/
  | check (k v : Nat)
  /-- before the compare-and-swap at `src/main.c:168` -/
  | lock (k v : Nat)
  /-- before the condition at `src/main.c:123` -/
  | recheck (k v : Nat)
  /-- in the loop at `src/main.c:126` -/
  | wait (k v : Nat)
  /-- before `src/main.c:128-137` -/
  | swap (k v : Nat)
  /-- in the loop at `src/main.c:139-150`, about to move node `i` of the array `old` -/
  | move (k v old oldCap i : Nat)
  /-- before `is_locked_for_growing = false`, `src/main.c:177` -/
  | unlock (k v : Nat)
  /-- before `threads_in_flight` is incremented, `src/main.c:183`, `src/main.c:224` -/
  | enter (c : Call)
  /-- before the index is computed, `src/main.c:188`, `src/main.c:226` -/
  | index (c : Call)
  /-- before the node is read, `src/main.c:197`, `src/main.c:231` -/
  | probe (c : Call) (i : Nat)
  /-- before the compare-and-swap of node `i` of array `a`, `src/main.c:207` -/
  | claim (k v a i : Nat)
  /-- before `amount_of_nodes` is incremented, `src/main.c:209` -/
  | count (k v : Nat)
  /-- before `threads_in_flight` is decremented and the function returns `r` -/
  | leave (c : Call) (r : Option Nat)
deriving DecidableEq

/-- `struct ast_table` and the threads. -/
structure State where
  arrays : Nat → Nodes
  current : Nat
  cap : Nat
  amount : Nat
  locked : Bool
  inFlight : Nat
  pc : Nat → PC

/-- What a step did. -/
inductive Event
  /-- a thread calls the function -/
  | call (t : Nat) (c : Call)
  /-- the read or compare-and-swap that determines the result -/
  | effect (t : Nat) (c : Call) (r : Option Nat)
  /-- the function returns -/
  | ret (t : Nat) (c : Call) (r : Option Nat)
  /-- a thread gets the lock for growing the table -/
  | grow (t : Nat)
  | internal (t : Nat)
deriving DecidableEq

/-- Moves thread `t` to `p`. -/
def State.goto (s : State) (t : Nat) (p : PC) : State := { s with pc := fun u => if u = t then p else s.pc u }

/-- A write to a node of an array. -/
def State.setNode (s : State) (a i : Nat) (n : Node) : State := { s with arrays := fun b => if b = a then AstTable.setNode (s.arrays b) i n else s.arrays b }

/-- The condition at `src/main.c:123` and `src/main.c:163`. -/
def State.full (s : State) : Prop := s.amount + 1 > s.cap / 2

instance (s : State) : Decidable s.full := inferInstanceAs (Decidable (_ > _))

/-- The atomic steps of `ast_table_add_or_return_previous_entry`, `maybe_grow_ast_table__internal` and
`ast_table_get`. -/
inductive Step (hash : Nat → Nat) : State → Event → State → Prop
  | call (s : State) (t : Nat) (c : Call) : s.pc t = .idle → Step hash s (.call t c) (s.goto t (.start c))
  | locked (s : State) (t : Nat) (c : Call) : s.pc t = .start c → s.locked = true → Step hash s (.internal t) s
  | startAdd (s : State) (t k v : Nat) : s.pc t = .start (.add k v) → s.locked = false → Step hash s (.internal t) (s.goto t (.check k v))
  | startGet (s : State) (t k : Nat) : s.pc t = .start (.get k) → s.locked = false → Step hash s (.internal t) (s.goto t (.enter (.get k)))
  | checkFull (s : State) (t k v : Nat) : s.pc t = .check k v → s.full → Step hash s (.internal t) (s.goto t (.lock k v))
  | checkOk (s : State) (t k v : Nat) : s.pc t = .check k v → ¬ s.full → Step hash s (.internal t) (s.goto t (.enter (.add k v)))
  | lockOk (s : State) (t k v : Nat) : s.pc t = .lock k v → s.locked = false → Step hash s (.grow t) { s.goto t (.recheck k v) with locked := true }
  | lockFail (s : State) (t k v : Nat) : s.pc t = .lock k v → s.locked = true → Step hash s (.internal t) (s.goto t (.start (.add k v)))
  | recheckFull (s : State) (t k v : Nat) : s.pc t = .recheck k v → s.full → Step hash s (.internal t) (s.goto t (.wait k v))
  | recheckOk (s : State) (t k v : Nat) : s.pc t = .recheck k v → ¬ s.full → Step hash s (.internal t) (s.goto t (.unlock k v))
  | waitMore (s : State) (t k v : Nat) : s.pc t = .wait k v → s.inFlight ≠ 0 → Step hash s (.internal t) s
  | waitDone (s : State) (t k v : Nat) : s.pc t = .wait k v → s.inFlight = 0 → Step hash s (.internal t) (s.goto t (.swap k v))
  | swap (s : State) (t k v : Nat) : s.pc t = .swap k v →
      Step hash s (.internal t) { s.goto t (.move k v s.current s.cap 0) with
        cap := s.cap * 2, current := s.current + 1, arrays := fun a => if a = s.current + 1 then fun _ => none else s.arrays a }
  | move (s : State) (t k v old oldCap i : Nat) : s.pc t = .move k v old oldCap i → i < oldCap →
      Step hash s (.internal t) { s.goto t (.move k v old oldCap (i + 1)) with
        arrays := fun a => if a = s.current then
          (match s.arrays old i with
            | none => s.arrays a
            | some kv => place (s.arrays a) s.cap (some kv) (hash kv.1 % s.cap) s.cap) else s.arrays a }
  | moveDone (s : State) (t k v old oldCap i : Nat) : s.pc t = .move k v old oldCap i → ¬ i < oldCap → Step hash s (.internal t) (s.goto t (.unlock k v))
  | unlock (s : State) (t k v : Nat) : s.pc t = .unlock k v → Step hash s (.internal t) { s.goto t (.enter (.add k v)) with locked := false }
  | enter (s : State) (t : Nat) (c : Call) : s.pc t = .enter c → Step hash s (.internal t) { s.goto t (.index c) with inFlight := s.inFlight + 1 }
  | index (s : State) (t : Nat) (c : Call) : s.pc t = .index c → Step hash s (.internal t) (s.goto t (.probe c (hash (key c) % s.cap)))
  | probeSame (s : State) (t : Nat) (c : Call) (i v' : Nat) : s.pc t = .probe c i → s.arrays s.current i = some (key c, v') →
      Step hash s (.effect t c (some v')) (s.goto t (.leave c (some v')))
  | probeOther (s : State) (t : Nat) (c : Call) (i : Nat) (kv : Nat × Nat) : s.pc t = .probe c i → s.arrays s.current i = some kv → kv.1 ≠ key c →
      Step hash s (.internal t) (s.goto t (.probe c ((i + 1) % s.cap)))
  | probeFreeAdd (s : State) (t k v i : Nat) : s.pc t = .probe (.add k v) i → s.arrays s.current i = none → Step hash s (.internal t) (s.goto t (.claim k v s.current i))
  | probeFreeGet (s : State) (t k i : Nat) : s.pc t = .probe (.get k) i → s.arrays s.current i = none →
      Step hash s (.effect t (.get k) none) (s.goto t (.leave (.get k) none))
  | claimOk (s : State) (t k v a i : Nat) : s.pc t = .claim k v a i → s.arrays a i = none →
      Step hash s (.effect t (.add k v) none) ((s.setNode a i (some (k, v))).goto t (.count k v))
  | claimFail (s : State) (t k v a i : Nat) (kv : Nat × Nat) : s.pc t = .claim k v a i → s.arrays a i = some kv → Step hash s (.internal t) (s.goto t (.probe (.add k v) i))
  | count (s : State) (t k v : Nat) : s.pc t = .count k v → Step hash s (.internal t) { s.goto t (.leave (.add k v) none) with amount := s.amount + 1 }
  | leave (s : State) (t : Nat) (c : Call) (r : Option Nat) : s.pc t = .leave c r → Step hash s (.ret t c r) { s.goto t .idle with inFlight := s.inFlight - 1 }

/-- A new table. -/
def initial (cap : Nat) : State :=
  { arrays := fun _ _ => none, current := 0, cap := cap, amount := 0, locked := false, inFlight := 0, pc := fun _ => .idle }

/-- Executions: the events so far, oldest first. -/
inductive Exec (hash : Nat → Nat) (cap : Nat) : List Event → State → Prop
  | nil : Exec hash cap [] (initial cap)
  | snoc (evs : List Event) (s : State) (e : Event) (s' : State) : Exec hash cap evs s → Step hash s e s' → Exec hash cap (evs ++ [e]) s'

end Verif.AstTable.Threads
