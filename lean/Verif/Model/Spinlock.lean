/-!
# Model: the ticket lock (`src/std.c:1753-1775`)

The two counters are 64-bit words that wrap around (the increments are `lock xadd`, see
`src/windows.c`). Threads interleave at the granularity of the atomic operations, and memory is
sequentially consistent.
-/
namespace Verif.Spinlock

/-- Where a thread is: outside, in the loop at `src/std.c:1768` with its `my_ticket`, or between
`ticket_spinlock_lock` and `ticket_spinlock_unlock`. -/
inductive PC
  | idle
  | spinning (myTicket : Nat)
  | critical
deriving DecidableEq

/-- `struct ticket_spinlock`, `src/std.c:1753-1756`, and the threads. -/
structure State (n : Nat) where
  ticketsGivenOut : Nat
  ticketInWork : Nat
  pc : Fin n → PC

/-- What a step did, for stating properties of executions. -/
inductive Event (n : Nat)
  | take (t : Fin n)
  | spin (t : Fin n)
  | enter (t : Fin n)
  | leave (t : Fin n)

/-- Moves thread `t` to `p`. -/
def State.goto {n : Nat} (s : State n) (t : Fin n) (p : PC) : State n :=
  { s with pc := fun u => if u = t then p else s.pc u }

/-- The atomic steps. -/
inductive Step {n : Nat} : State n → Event n → State n → Prop
  /-- `my_ticket = atomic_postincrement(&mutex->tickets_given_out)`, `src/std.c:1767`. -/
  | take (s : State n) (t : Fin n) : s.pc t = .idle →
      Step s (.take t) { s.goto t (.spinning s.ticketsGivenOut) with ticketsGivenOut := (s.ticketsGivenOut + 1) % 2 ^ 64 }
  /-- The load in the loop condition sees another ticket, `src/std.c:1768`. -/
  | spin (s : State n) (t : Fin n) (k : Nat) : s.pc t = .spinning k → s.ticketInWork ≠ k → Step s (.spin t) s
  /-- The load in the loop condition sees our ticket, `src/std.c:1768`. -/
  | enter (s : State n) (t : Fin n) (k : Nat) : s.pc t = .spinning k → s.ticketInWork = k → Step s (.enter t) (s.goto t .critical)
  /-- `atomic_preincrement(&mutex->ticket_in_work)`, `src/std.c:1774`. -/
  | leave (s : State n) (t : Fin n) : s.pc t = .critical →
      Step s (.leave t) { s.goto t .idle with ticketInWork := (s.ticketInWork + 1) % 2 ^ 64 }

/-- Executions: the events so far, oldest first. -/
inductive Exec {n : Nat} (s₀ : State n) : List (Event n) → State n → Prop
  | nil : Exec s₀ [] s₀
  | snoc (evs : List (Event n)) (s : State n) (e : Event n) (s' : State n) : Exec s₀ evs s → Step s e s' → Exec s₀ (evs ++ [e]) s'

/-- A lock nobody holds; `static struct ticket_spinlock x = {0}` is one with both counters 0. -/
def free (n k : Nat) : State n := { ticketsGivenOut := k, ticketInWork := k, pc := fun _ => .idle }

end Verif.Spinlock
