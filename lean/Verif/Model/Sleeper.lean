import Verif.Spec.Sleep

/-!
# Model: the table of sleeping declarations (`src/main.c:1325-1518`)

Workers (`worker_parse_global_scope_entry`, `src/main.c:3208-3293`) take declarations from the work
queue. While a worker has one it may declare any number of names (`wake_up_sleepers`), and at the end
it is done or puts the declaration to sleep (`sleeper_table_add`).

Threads interleave at the granularity of single accesses to shared memory, with these
simplifications. Memory is sequentially consistent. The token of a node and its purpose are read in
one step. The reads of `amount_of_nodes` and `capacity` in one condition are one step, the writes of
`capacity`, `nodes` and `mask` when the table grows are one step, and moving one node is one step. The
bound on the number of iterations of the probe loops is not modelled. The work queue itself is atomic
here (its own model is `Verif.WorkQueue`), but while a declaration is in it, its `next` field may take
any value at any time. Arrays of nodes are numbered; a freed array keeps its contents.

A name is a token together with the purpose (declaration, array size, structure); `key` is what
`atoms_match` and the comparison of purposes compare, and `hash` of it is `string_hash + 0x1337 * purpose`.
-/
namespace Verif.Sleeper
open Verif.Spec.Sleep (Event)

/-- `struct sleeper_node`: the token with the purpose and the first sleeper; no sleeper is a deleted
node. -/
abbrev Node := Option (Nat × Option Nat)

/-- The two operations. -/
inductive Op
  /-- `sleeper_table_add` -/
  | add
  /-- `sleeper_table_delete`, called by `wake_up_sleepers` -/
  | del
deriving DecidableEq

/-- The points at which a worker can be preempted. `e` is the declaration it has taken, `n` the name. -/
inductive PC
  | idle
  /-- in `worker_parse_global_scope_entry` -/
  | work (e : Nat)
  /-- before the load of `is_locked_for_growing`, `src/main.c:1337` -/
  | start (o : Op) (e n : Nat)
  /-- before the condition at `src/main.c:1339` -/
  | check (o : Op) (e n : Nat)
  /-- before the compare-and-swap at `src/main.c:1343` -/
  | lock (o : Op) (e n : Nat)
  /-- before the condition at `src/main.c:1350` -/
  | recheck (o : Op) (e n : Nat)
  /-- in the loop at `src/main.c:1353` -/
  | wait (o : Op) (e n : Nat)
  /-- before `src/main.c:1355-1364` -/
  | swap (o : Op) (e n : Nat)
  /-- in the loop at `src/main.c:1366-1381` -/
  | move (o : Op) (e n old oldCap i : Nat)
  /-- before `is_locked_for_growing = false`, `src/main.c:1387` -/
  | unlock (o : Op) (e n : Nat)
  /-- before `threads_in_flight` is incremented, `src/main.c:1396`, `src/main.c:1456` -/
  | enter (o : Op) (e n : Nat)
  /-- before the index is computed, `src/main.c:1401`, `src/main.c:1460` -/
  | index (o : Op) (e n : Nat)
  /-- before the node is read, `src/main.c:1411-1415`, `src/main.c:1469-1481` -/
  | probe (o : Op) (e n i : Nat)
  /-- the node was free: before the compare-and-swap at `src/main.c:1442`, `src/main.c:1470` -/
  | claim (o : Op) (e n a i : Nat)
  /-- before `amount_of_nodes` is incremented, `src/main.c:1444`, `src/main.c:1472` -/
  | count (o : Op) (e n : Nat)
  /-- before the load of the first sleeper, `src/main.c:1421` -/
  | load (e n a i : Nat)
  /-- before the compare-and-swap at `src/main.c:1433`, having read `h` -/
  | push (e n a i h : Nat)
  /-- before `work_queue_add`, `src/main.c:1426` -/
  | requeue (e n : Nat)
  /-- before the first compare-and-swap of a deletion, `src/main.c:1484` -/
  | cas1 (e n a i : Nat)
  /-- before the second one, `src/main.c:1491`, having read `c` -/
  | cas2 (e n a i : Nat) (c : Node)
  /-- before `threads_in_flight` is decremented and the function returns the sleepers `r` -/
  | leave (o : Op) (e n : Nat) (r : Option Nat)
  /-- in the loop at `src/main.c:1514`, which has seen `seen` and is at `last` -/
  | walk (e n last : Nat) (seen : List Nat)
  /-- before `work_queue_append_list`, `src/main.c:1516` -/
  | append (e n : Nat) (es : List Nat)
  /-- before `wake_up_sleepers` returns -/
  | done (e n : Nat)
deriving DecidableEq

/-- `struct sleeper_table`, the work queue, the `next` fields of its entries, and the threads. -/
structure State where
  arrays : Nat → Nat → Node
  current : Nat
  cap : Nat
  amount : Nat
  locked : Bool
  inFlight : Nat
  queue : List Nat
  next : Nat → Option Nat
  pc : Nat → PC

/-- Moves thread `t` to `p`. -/
def State.goto (s : State) (t : Nat) (p : PC) : State := { s with pc := fun u => if u = t then p else s.pc u }

/-- A write to a node. -/
def State.setNode (s : State) (a i : Nat) (n : Node) : State :=
  { s with arrays := fun b => if b = a then (fun j => if j = i then n else s.arrays b j) else s.arrays b }

/-- A write to the `next` field of an entry. -/
def State.setNext (s : State) (e : Nat) (v : Option Nat) : State := { s with next := fun x => if x = e then v else s.next x }

/-- The condition at `src/main.c:1339` and `src/main.c:1350`. -/
def State.full (s : State) : Prop := s.amount + 1 > s.cap / 2

instance (s : State) : Decidable s.full := inferInstanceAs (Decidable (_ > _))

/-- Looks for a free node of the new array, `src/main.c:1375-1380`. -/
def place (nodes : Nat → Node) (cap : Nat) (n : Node) (slot : Nat) : Nat → Nat → Node
  | 0 => nodes
  | fuel + 1 => match nodes (slot % cap) with
    | none => fun j => if j = slot % cap then n else nodes j
    | some _ => place nodes cap n (slot + 1) fuel

/-- The atomic steps. -/
inductive Step (key hash : Nat → Nat) (s : State) : Event → State → Prop
  /-- `work_queue_get_work` -/
  | take (t e : Nat) (rest : List Nat) : s.pc t = .idle → s.queue = e :: rest → Step key hash s (.take t e) { s.goto t (.work e) with queue := rest }
  /-- the queue uses the `next` fields of its entries -/
  | link (t e : Nat) (v : Option Nat) : e ∈ s.queue → Step key hash s (.internal t) (s.setNext e v)
  | finish (t e : Nat) : s.pc t = .work e → Step key hash s (.finish t e) (s.goto t .idle)
  /-- `src/main.c:3247` -/
  | goSleep (t e n : Nat) : s.pc t = .work e → Step key hash s (.internal t) (s.goto t (.start .add e n))
  /-- `src/main.c:2021`, `src/main.c:2167`, `src/parse.c:2751` -/
  | goWake (t e n : Nat) : s.pc t = .work e → Step key hash s (.internal t) (s.goto t (.start .del e n))
  | locked (t : Nat) (o : Op) (e n : Nat) : s.pc t = .start o e n → s.locked = true → Step key hash s (.internal t) s
  | start (t : Nat) (o : Op) (e n : Nat) : s.pc t = .start o e n → s.locked = false → Step key hash s (.internal t) (s.goto t (.check o e n))
  | checkFull (t : Nat) (o : Op) (e n : Nat) : s.pc t = .check o e n → s.full → Step key hash s (.internal t) (s.goto t (.lock o e n))
  | checkOk (t : Nat) (o : Op) (e n : Nat) : s.pc t = .check o e n → ¬ s.full → Step key hash s (.internal t) (s.goto t (.enter o e n))
  | lockOk (t : Nat) (o : Op) (e n : Nat) : s.pc t = .lock o e n → s.locked = false → Step key hash s (.grow t) { s.goto t (.recheck o e n) with locked := true }
  | lockFail (t : Nat) (o : Op) (e n : Nat) : s.pc t = .lock o e n → s.locked = true → Step key hash s (.internal t) (s.goto t (.start o e n))
  | recheckFull (t : Nat) (o : Op) (e n : Nat) : s.pc t = .recheck o e n → s.full → Step key hash s (.internal t) (s.goto t (.wait o e n))
  | recheckOk (t : Nat) (o : Op) (e n : Nat) : s.pc t = .recheck o e n → ¬ s.full → Step key hash s (.internal t) (s.goto t (.unlock o e n))
  | waitMore (t : Nat) (o : Op) (e n : Nat) : s.pc t = .wait o e n → s.inFlight ≠ 0 → Step key hash s (.internal t) s
  | waitDone (t : Nat) (o : Op) (e n : Nat) : s.pc t = .wait o e n → s.inFlight = 0 → Step key hash s (.internal t) (s.goto t (.swap o e n))
  | swap (t : Nat) (o : Op) (e n : Nat) : s.pc t = .swap o e n →
      Step key hash s (.internal t) { s.goto t (.move o e n s.current s.cap 0) with
        cap := s.cap * 2, current := s.current + 1, arrays := fun a => if a = s.current + 1 then fun _ => none else s.arrays a }
  | move (t : Nat) (o : Op) (e n old oldCap i : Nat) : s.pc t = .move o e n old oldCap i → i < oldCap →
      Step key hash s (.internal t) { s.goto t (.move o e n old oldCap (i + 1)) with
        arrays := fun a => if a = s.current then
          (match s.arrays old i with
            | none => s.arrays a
            | some x => place (s.arrays a) s.cap (some x) (hash (key x.1)) s.cap) else s.arrays a }
  | moveDone (t : Nat) (o : Op) (e n old oldCap i : Nat) : s.pc t = .move o e n old oldCap i → ¬ i < oldCap → Step key hash s (.internal t) (s.goto t (.unlock o e n))
  | unlock (t : Nat) (o : Op) (e n : Nat) : s.pc t = .unlock o e n → Step key hash s (.internal t) { s.goto t (.enter o e n) with locked := false }
  | enter (t : Nat) (o : Op) (e n : Nat) : s.pc t = .enter o e n → Step key hash s (.internal t) { s.goto t (.index o e n) with inFlight := s.inFlight + 1 }
  /-- with `entry->next = null`, `src/main.c:1407` -/
  | indexAdd (t e n : Nat) : s.pc t = .index .add e n → Step key hash s (.internal t) ((s.setNext e none).goto t (.probe .add e n (hash (key n) % s.cap)))
  | indexDel (t e n : Nat) : s.pc t = .index .del e n → Step key hash s (.internal t) (s.goto t (.probe .del e n (hash (key n) % s.cap)))
  | probeFree (t : Nat) (o : Op) (e n i : Nat) : s.pc t = .probe o e n i → s.arrays s.current i = none →
      Step key hash s (.internal t) (s.goto t (.claim o e n s.current i))
  | probeOther (t : Nat) (o : Op) (e n i : Nat) (x : Nat × Option Nat) : s.pc t = .probe o e n i → s.arrays s.current i = some x → key x.1 ≠ key n →
      Step key hash s (.internal t) (s.goto t (.probe o e n ((i + 1) % s.cap)))
  | probeAdd (t e n i : Nat) (x : Nat × Option Nat) : s.pc t = .probe .add e n i → s.arrays s.current i = some x → key x.1 = key n →
      Step key hash s (.internal t) (s.goto t (.load e n s.current i))
  | probeDel (t e n i : Nat) (x : Nat × Option Nat) : s.pc t = .probe .del e n i → s.arrays s.current i = some x → key x.1 = key n →
      Step key hash s (.internal t) (s.goto t (.cas1 e n s.current i))
  | claimAdd (t e n a i : Nat) : s.pc t = .claim .add e n a i → s.arrays a i = none →
      Step key hash s (.sleep t e (key n)) ((s.setNode a i (some (n, some e))).goto t (.count .add e n))
  | claimDel (t e n a i : Nat) : s.pc t = .claim .del e n a i → s.arrays a i = none →
      Step key hash s (.woke t (key n)) ((s.setNode a i (some (n, none))).goto t (.count .del e n))
  | claimFail (t : Nat) (o : Op) (e n a i : Nat) (x : Nat × Option Nat) : s.pc t = .claim o e n a i → s.arrays a i = some x →
      Step key hash s (.internal t) (s.goto t (.probe o e n i))
  | count (t : Nat) (o : Op) (e n : Nat) : s.pc t = .count o e n → Step key hash s (.internal t) { s.goto t (.leave o e n none) with amount := s.amount + 1 }
  | loadDeleted (t e n a i m : Nat) : s.pc t = .load e n a i → s.arrays a i = some (m, none) → Step key hash s (.internal t) (s.goto t (.requeue e n))
  /-- with `entry->next = list`, `src/main.c:1432` -/
  | loadSleeper (t e n a i m h : Nat) : s.pc t = .load e n a i → s.arrays a i = some (m, some h) →
      Step key hash s (.internal t) ((s.setNext e (some h)).goto t (.push e n a i h))
  | pushOk (t e n a i m h : Nat) : s.pc t = .push e n a i h → s.arrays a i = some (m, some h) →
      Step key hash s (.sleep t e (key n)) ((s.setNode a i (some (m, some e))).goto t (.leave .add e n none))
  | pushFail (t e n a i h m : Nat) (h' : Option Nat) : s.pc t = .push e n a i h → s.arrays a i = some (m, h') → h' ≠ some h →
      Step key hash s (.internal t) (s.goto t (.load e n a i))
  | requeue (t e n : Nat) : s.pc t = .requeue e n → Step key hash s (.requeue t e (key n)) { s.goto t (.leave .add e n none) with queue := s.queue ++ [e] }
  | cas1Done (t e n a i : Nat) : s.pc t = .cas1 e n a i → s.arrays a i = some (n, none) → Step key hash s (.internal t) (s.goto t (.leave .del e n none))
  | cas1Read (t e n a i : Nat) : s.pc t = .cas1 e n a i → s.arrays a i ≠ some (n, none) → Step key hash s (.internal t) (s.goto t (.cas2 e n a i (s.arrays a i)))
  | cas2Ok (t e n a i m : Nat) (h : Option Nat) : s.pc t = .cas2 e n a i (some (m, h)) → s.arrays a i = some (m, h) →
      Step key hash s (.woke t (key n)) ((s.setNode a i (some (n, none))).goto t (.leave .del e n h))
  | cas2Fail (t e n a i : Nat) (c : Node) : s.pc t = .cas2 e n a i c → s.arrays a i ≠ c → Step key hash s (.internal t) (s.goto t (.probe .del e n i))
  | leaveAdd (t e n : Nat) (r : Option Nat) : s.pc t = .leave .add e n r → Step key hash s (.internal t) { s.goto t .idle with inFlight := s.inFlight - 1 }
  | leaveNone (t e n : Nat) : s.pc t = .leave .del e n none → Step key hash s (.internal t) { s.goto t (.done e n) with inFlight := s.inFlight - 1 }
  | leaveSome (t e n h : Nat) : s.pc t = .leave .del e n (some h) → Step key hash s (.internal t) { s.goto t (.walk e n h [h]) with inFlight := s.inFlight - 1 }
  | walk (t e n l x : Nat) (seen : List Nat) : s.pc t = .walk e n l seen → s.next l = some x → Step key hash s (.internal t) (s.goto t (.walk e n x (seen ++ [x])))
  | walkEnd (t e n l : Nat) (seen : List Nat) : s.pc t = .walk e n l seen → s.next l = none → Step key hash s (.internal t) (s.goto t (.append e n seen))
  | append (t e n : Nat) (es : List Nat) : s.pc t = .append e n es → Step key hash s (.queued t es) { s.goto t (.done e n) with queue := s.queue ++ es }
  | done (t e n : Nat) : s.pc t = .done e n → Step key hash s (.awake t (key n)) (s.goto t (.work e))

/-- A new table; the declarations `es` are in the queue. -/
def initial (cap : Nat) (es : List Nat) : State :=
  { arrays := fun _ _ => none, current := 0, cap := cap, amount := 0, locked := false, inFlight := 0, queue := es, next := fun _ => none, pc := fun _ => .idle }

/-- Executions: the events so far, oldest first. -/
inductive Exec (key hash : Nat → Nat) (cap : Nat) (es : List Nat) : List Event → State → Prop
  | nil : Exec key hash cap es [] (initial cap es)
  | snoc (evs : List Event) (s : State) (e : Event) (s' : State) : Exec key hash cap es evs s → Step key hash s e s' → Exec key hash cap es (evs ++ [e]) s'

end Verif.Sleeper
