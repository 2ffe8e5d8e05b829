import Verif.Spec.Resolve

/-!
# Model: parsing global declarations in any order

`worker_parse_global_scope_entry` (`src/main.c:3208-3293`), `parser_sleep` (`src/parse.c:35-45`),
`register_declaration` (`src/main.c:1805-2024`), `register_compound_type` (`src/main.c:2060-2168`),
`parser_register_definition` (`src/main.c:2026-2059`) and `wake_up_sleepers` (`src/main.c:1505-1518`).

A declaration is the list of the names it looks up, declares and defines, in the order in which the
parser reaches them; what is in the declaration besides that is left out. A name is an identifier in one
compilation unit together with the purpose of sleeping (`SLEEP_on_decl`, `SLEEP_on_struct`,
`SLEEP_on_array_size`). Any number of threads parse at the same time; each lookup and each registration is
one step. The work queue and the sleeper table are taken to work (C29, C30): adding to the sleeper table,
deleting from it and appending a list to the queue are one step each, and any entry of the queue may be
taken next. The initializer lists of arrays of unknown size, which wake up before the size is set, are not
modelled.
-/
namespace Verif.ParseOrder
open Verif.Spec.Resolve

/-- Where an entry is. -/
inductive Place
  | absent
  | queue
  | held (t : Nat)
  /-- in the sleeper table -/
  | asleep (k : Nat)
  /-- in the list that thread `t` got from `sleeper_table_delete` for the name `k` -/
  | handed (t k : Nat)
  | done
  /-- a static assertion that was not checked -/
  | dropped
  /-- an error was reported -/
  | failed
deriving DecidableEq, Repr

/-- Where a thread is. -/
inductive PC
  | idle
  /-- parses the entry `e`, with `rest` still to do -/
  | parse (e : Nat) (rest : List Action)
  /-- `parser_sleep` was called for `k`; next is `sleeper_table_add` -/
  | sleep (e k : Nat)
  /-- `k` is registered; next is `sleeper_table_delete` -/
  | wake (e k : Nat) (rest : List Action)
  /-- next is `work_queue_append_list` -/
  | append (e k : Nat) (rest : List Action)
deriving DecidableEq, Repr

/-- The state of the compiler. -/
structure State where
  /-- the names in the tables of declarations and compound types -/
  registered : Nat → Bool
  /-- the names that are marked as deleted in the sleeper table -/
  woken : Nat → Bool
  /-- the declarations with `assign_expr` set -/
  defined : Nat → Bool
  place : Nat → Place
  pc : Nat → PC

/-- Changes one value of a function. -/
def set {α : Type} (f : Nat → α) (i : Nat) (v : α) : Nat → α := fun x => if x = i then v else f x

/-- Before the first declaration is parsed. -/
def start (n : Nat) : State :=
  { registered := fun _ => false, woken := fun _ => false, defined := fun _ => false, place := fun e => if e < n then .queue else .absent, pc := fun _ => .idle }

/-- `sleeper_table_delete`: everything that sleeps on `k` is handed to `t`, `src/main.c:1454-1503`. -/
def hand (place : Nat → Place) (t k : Nat) : Nat → Place := fun x => if place x = .asleep k then .handed t k else place x

/-- `work_queue_append_list`, `src/main.c:1516`. -/
def requeue (place : Nat → Place) (t k : Nat) : Nat → Place := fun x => if place x = .handed t k then .queue else place x

/-- One step of the thread `t`. -/
inductive Step (prog : Nat → Entry) (s : State) (t : Nat) : State → Prop
  /-- takes an entry from the queue, `src/main.c:3208-3214` -/
  | take (e : Nat) : s.pc t = .idle → s.place e = .queue → Step prog s t { s with place := set s.place e (.held t), pc := set s.pc t (.parse e (prog e).acts) }
  /-- the lookup finds the name, e.g. `src/parse.c:4846` -/
  | found (e k : Nat) (rest : List Action) : s.pc t = .parse e (.need k :: rest) → s.registered k = true → Step prog s t { s with pc := set s.pc t (.parse e rest) }
  /-- the lookup does not find the name, e.g. `src/parse.c:4848-4851` -/
  | missing (e k : Nat) (rest : List Action) : s.pc t = .parse e (.need k :: rest) → s.registered k = false → (prog e).assertion = false →
      Step prog s t { s with pc := set s.pc t (.sleep e k) }
  /-- the same in a static assertion: `should_sleep` suppresses all errors, and nothing looks at it, `src/main.c:3223-3228` -/
  | drop (e k : Nat) (rest : List Action) : s.pc t = .parse e (.need k :: rest) → s.registered k = false → (prog e).assertion = true →
      Step prog s t { s with place := set s.place e .dropped, pc := set s.pc t .idle }
  /-- `sleeper_table_add`, `src/main.c:3247` and `1410-1450` -/
  | sleep (e k : Nat) : s.pc t = .sleep e k → s.woken k = false → Step prog s t { s with place := set s.place e (.asleep k), pc := set s.pc t .idle }
  /-- `sleeper_table_add` finds the mark and queues the entry again, `src/main.c:1423-1430` -/
  | again (e k : Nat) : s.pc t = .sleep e k → s.woken k = true → Step prog s t { s with place := set s.place e .queue, pc := set s.pc t .idle }
  /-- a name is registered for the first time, `src/main.c:1835` and `2106` -/
  | declare (e k : Nat) (rest : List Action) : s.pc t = .parse e (.declare k :: rest) → s.registered k = false →
      Step prog s t { s with registered := set s.registered k true, pc := set s.pc t (.wake e k rest) }
  /-- a redeclaration: returns without waking anybody, `src/main.c:1840-2014` and `2108-2164` -/
  | redeclare (e k : Nat) (rest : List Action) : s.pc t = .parse e (.declare k :: rest) → s.registered k = true → Step prog s t { s with pc := set s.pc t (.parse e rest) }
  /-- `sleeper_table_delete`, `src/main.c:1509` -/
  | delete (e k : Nat) (rest : List Action) : s.pc t = .wake e k rest →
      Step prog s t { s with woken := set s.woken k true, place := hand s.place t k, pc := set s.pc t (.append e k rest) }
  /-- `work_queue_append_list`, `src/main.c:1510-1517` -/
  | append (e k : Nat) (rest : List Action) : s.pc t = .append e k rest → Step prog s t { s with place := requeue s.place t k, pc := set s.pc t (.parse e rest) }
  /-- `parser_register_definition` sets `assign_expr`, `src/main.c:2040-2058` -/
  | define (e d : Nat) (rest : List Action) : s.pc t = .parse e (.define d :: rest) → s.defined d = false →
      Step prog s t { s with defined := set s.defined d true, pc := set s.pc t (.parse e rest) }
  /-- `assign_expr` is already set: "Redefinition of", `src/main.c:2040-2050` -/
  | redefine (e d : Nat) (rest : List Action) : s.pc t = .parse e (.define d :: rest) → s.defined d = true →
      Step prog s t { s with place := set s.place e .failed, pc := set s.pc t .idle }
  /-- the type of an array gets the size of a string, and nobody is woken up, `src/parse.c:2809-2813` -/
  | silent (e k : Nat) (rest : List Action) : s.pc t = .parse e (.silent k :: rest) → Step prog s t { s with registered := set s.registered k true, pc := set s.pc t (.parse e rest) }
  /-- the end of the declaration, `src/main.c:3252-3292` -/
  | finish (e : Nat) : s.pc t = .parse e [] → Step prog s t { s with place := set s.place e .done, pc := set s.pc t .idle }

/-- The executions of `m` steps with `threads` threads and the entries `0 … n - 1`. -/
inductive Exec (prog : Nat → Entry) (n threads : Nat) : Nat → State → Prop
  | nil : Exec prog n threads 0 (start n)
  | step {m : Nat} {s s' : State} {t : Nat} : Exec prog n threads m s → t < threads → Step prog s t s' → Exec prog n threads (m + 1) s'

/-- Nothing is left to do: all threads are idle and the queue is empty. `src/main.c` then reports every
entry that sleeps. -/
def Quiet (s : State) : Prop := (∀ t, s.pc t = .idle) ∧ ∀ e, s.place e ≠ .queue

end Verif.ParseOrder
