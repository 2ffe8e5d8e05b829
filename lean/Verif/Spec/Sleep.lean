/-!
# Specification: sleeping on undeclared names

Declarations wait in a queue. A worker takes one and either finishes it, or finds that it needs a name
nobody has declared yet and puts it to sleep on that name. When a name is declared everything that
sleeps on it goes back into the queue; after that nothing sleeps on that name again.
-/
namespace Verif.Spec.Sleep

/-- Where a declaration is. -/
inductive Place
  /-- not part of the program, or finished -/
  | gone
  | queue
  /-- a worker has it -/
  | held (t : Nat)
  /-- it sleeps on a name -/
  | asleep (k : Nat)
  /-- a worker has declared the name and is about to put the declaration into the queue -/
  | handed (t : Nat)
deriving DecidableEq, Repr

/-- What can happen. -/
inductive Event
  /-- worker `t` takes `e` from the queue -/
  | take (t e : Nat)
  /-- worker `t` is done with `e` -/
  | finish (t e : Nat)
  /-- worker `t` puts `e` to sleep on the name `k` -/
  | sleep (t e k : Nat)
  /-- worker `t` wanted to put `e` to sleep on `k`, but `k` is declared by now -/
  | requeue (t e k : Nat)
  /-- worker `t` takes all that sleeps on `k` -/
  | woke (t k : Nat)
  /-- worker `t` puts `es` into the queue -/
  | queued (t : Nat) (es : List Nat)
  /-- the call that wakes up everything that sleeps on `k` returns -/
  | awake (t k : Nat)
  /-- a thread gets the lock for growing the table -/
  | grow (t : Nat)
  | internal (t : Nat)
deriving DecidableEq, Repr

/-- Where all declarations are, and the names that have been declared. -/
structure Abs where
  place : Nat → Place
  declared : Nat → Bool

/-- Moves a declaration. -/
def Abs.put (a : Abs) (e : Nat) (p : Place) : Abs := { a with place := fun x => if x = e then p else a.place x }

/-- What has to hold when something happens, and what it does. -/
inductive Step (a : Abs) : Event → Abs → Prop
  | take (t e : Nat) : a.place e = .queue → Step a (.take t e) (a.put e (.held t))
  | finish (t e : Nat) : a.place e = .held t → Step a (.finish t e) (a.put e .gone)
  /-- nothing is put to sleep on a declared name -/
  | sleep (t e k : Nat) : a.place e = .held t → a.declared k = false → Step a (.sleep t e k) (a.put e (.asleep k))
  | requeue (t e k : Nat) : a.place e = .held t → a.declared k = true → Step a (.requeue t e k) (a.put e .queue)
  /-- everything that sleeps on the name is taken -/
  | woke (t k : Nat) : Step a (.woke t k)
      { place := fun x => if a.place x = .asleep k then .handed t else a.place x, declared := fun x => if x = k then true else a.declared x }
  /-- everything that was taken is put into the queue, once -/
  | queued (t : Nat) (es : List Nat) : es.Nodup → (∀ x, x ∈ es ↔ a.place x = .handed t) →
      Step a (.queued t es) { a with place := fun x => if a.place x = .handed t then .queue else a.place x }
  /-- the call returns: the name is declared, and the caller has put all it took into the queue -/
  | awake (t k : Nat) : a.declared k = true → (∀ x, a.place x ≠ .handed t) → Step a (.awake t k) a
  | grow (t : Nat) : Step a (.grow t) a
  | internal (t : Nat) : Step a (.internal t) a

/-- Everything that can happen, oldest first, when the declarations `es` are in the queue at the start. -/
inductive Exec (es : List Nat) : List Event → Abs → Prop
  | nil : Exec es [] { place := fun x => if x ∈ es then .queue else .gone, declared := fun _ => false }
  | snoc (evs : List Event) (a : Abs) (e : Event) (a' : Abs) : Exec es evs a → Step a e a' → Exec es (evs ++ [e]) a'

end Verif.Spec.Sleep
