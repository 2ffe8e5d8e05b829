/-!
# Model: the work queue (`src/main.c:1202-1275`)

A queue is a singly linked list of entries with a pointer to its first and last entry. Entries are
numbers (addresses), `none` is the null pointer. Threads interleave at the granularity of the
atomic operations and of the single reads and writes of `next`; memory is sequentially consistent.
`read.begin->next` is read twice in a row
(`src/main.c:1262-1263`); the model reads it once. The wake event and the counter
`work_entries_in_flight` are not modelled.
-/
namespace Verif.WorkQueue

/-- The points at which a thread can be preempted. The list given to `work_queue_append_list` is
`xs`: `list_begin` is its head, `list_end` its last element. -/
inductive PC
  | idle
  /-- before the load of `queue->end`, `src/main.c:1211` -/
  | appLoad (xs : List Nat)
  /-- before the 128-bit compare-and-swap, `src/main.c:1216` -/
  | appEmpty (xs : List Nat)
  /-- before the compare-and-swap of `queue->end`, `src/main.c:1223`, having read `e` -/
  | appEnd (xs : List Nat) (e : Nat)
  /-- before `end->next = list_begin`, `src/main.c:1227` -/
  | appLink (xs : List Nat) (e : Nat)
  /-- before the 128-bit compare-and-swap with zero, `src/main.c:1249` -/
  | getRead
  /-- `read.begin == read.end`, before the compare-and-swap at `src/main.c:1257` -/
  | getSingle (b : Nat)
  /-- before reading `read.begin->next`, `src/main.c:1262` -/
  | getNext (b : Nat)
  /-- before the compare-and-swap of `queue->begin`, `src/main.c:1263` -/
  | getBegin (b n : Nat)
deriving DecidableEq

/-- `struct work_queue`, the `next` fields of all entries, and the threads. -/
structure State where
  first : Option Nat
  last : Option Nat
  next : Nat → Option Nat
  pc : Nat → PC

/-- What a step did, for stating properties of executions. -/
inductive Event
  /-- a call of `work_queue_append_list` (or `work_queue_add`) -/
  | request (t : Nat) (xs : List Nat)
  /-- the compare-and-swap that makes the list part of the queue -/
  | publish (t : Nat) (xs : List Nat)
  /-- `work_queue_get_work` returns the entry -/
  | got (t : Nat) (x : Nat)
  /-- `work_queue_get_work` returns null -/
  | empty (t : Nat)
  | internal (t : Nat)
deriving DecidableEq

/-- Moves thread `t` to `p`. -/
def State.goto (s : State) (t : Nat) (p : PC) : State := { s with pc := fun u => if u = t then p else s.pc u }

/-- A write to a `next` field. -/
def setNext (next : Nat → Option Nat) (x : Nat) (v : Option Nat) : Nat → Option Nat := fun y => if y = x then v else next y

/-- The links inside a list that is about to be appended: `work_queue_add` (`src/main.c:1241`) and the
callers of `work_queue_append_list`. The list is private to the caller, so this is one step. -/
def linkAll (next : Nat → Option Nat) : List Nat → (Nat → Option Nat)
  | [] => next
  | x :: xs => setNext (linkAll next xs) x xs.head?

/-- The atomic steps of `work_queue_append_list` (`src/main.c:1202-1235`) and `work_queue_get_work`
(`src/main.c:1245-1267`). -/
inductive Step : State → Event → State → Prop
  | request (s : State) (t : Nat) (xs : List Nat) : s.pc t = .idle → xs ≠ [] →
      Step s (.request t xs) { s.goto t (.appLoad xs) with next := linkAll s.next xs }
  | loadNull (s : State) (t : Nat) (xs : List Nat) : s.pc t = .appLoad xs → s.last = none → Step s (.internal t) (s.goto t (.appEmpty xs))
  | loadEnd (s : State) (t : Nat) (xs : List Nat) (e : Nat) : s.pc t = .appLoad xs → s.last = some e → Step s (.internal t) (s.goto t (.appEnd xs e))
  | emptyOk (s : State) (t : Nat) (xs : List Nat) : s.pc t = .appEmpty xs → s.first = none → s.last = none →
      Step s (.publish t xs) { s.goto t .idle with first := xs.head?, last := xs.getLast? }
  | emptyFail (s : State) (t : Nat) (xs : List Nat) : s.pc t = .appEmpty xs → ¬ (s.first = none ∧ s.last = none) → Step s (.internal t) (s.goto t (.appLoad xs))
  | endOk (s : State) (t : Nat) (xs : List Nat) (e : Nat) : s.pc t = .appEnd xs e → s.last = some e →
      Step s (.publish t xs) { s.goto t (.appLink xs e) with last := xs.getLast? }
  | endFail (s : State) (t : Nat) (xs : List Nat) (e : Nat) : s.pc t = .appEnd xs e → s.last ≠ some e → Step s (.internal t) (s.goto t (.appLoad xs))
  | link (s : State) (t : Nat) (xs : List Nat) (e : Nat) : s.pc t = .appLink xs e →
      Step s (.internal t) { s.goto t .idle with next := setNext s.next e xs.head? }
  | get (s : State) (t : Nat) : s.pc t = .idle → Step s (.internal t) (s.goto t .getRead)
  | readEmpty (s : State) (t : Nat) : s.pc t = .getRead → s.first = none → s.last = none → Step s (.empty t) (s.goto t .idle)
  | readSingle (s : State) (t b : Nat) : s.pc t = .getRead → s.first = some b → s.last = some b → Step s (.internal t) (s.goto t (.getSingle b))
  | readMore (s : State) (t b e : Nat) : s.pc t = .getRead → s.first = some b → s.last = some e → b ≠ e → Step s (.internal t) (s.goto t (.getNext b))
  | singleOk (s : State) (t b : Nat) : s.pc t = .getSingle b → s.first = some b → s.last = some b →
      Step s (.got t b) { s.goto t .idle with first := none, last := none }
  | singleFail (s : State) (t b : Nat) : s.pc t = .getSingle b → ¬ (s.first = some b ∧ s.last = some b) → Step s (.internal t) (s.goto t .getRead)
  | nextNull (s : State) (t b : Nat) : s.pc t = .getNext b → s.next b = none → Step s (.internal t) (s.goto t .getRead)
  | nextSome (s : State) (t b n : Nat) : s.pc t = .getNext b → s.next b = some n → Step s (.internal t) (s.goto t (.getBegin b n))
  | beginOk (s : State) (t b n : Nat) : s.pc t = .getBegin b n → s.first = some b → Step s (.got t b) { s.goto t .idle with first := some n }
  | beginFail (s : State) (t b n : Nat) : s.pc t = .getBegin b n → s.first ≠ some b → Step s (.internal t) (s.goto t .getRead)

/-- Executions from an empty queue: the events so far, oldest first. -/
inductive Exec : List Event → State → Prop
  | nil : Exec [] { first := none, last := none, next := fun _ => none, pc := fun _ => .idle }
  | snoc (evs : List Event) (s : State) (e : Event) (s' : State) : Exec evs s → Step s e s' → Exec (evs ++ [e]) s'

end Verif.WorkQueue
