import Verif.Model.Sleeper
import Verif.Lemmas.Probe

/-!
# C29: no lost wake-ups
-/
namespace Verif.Props.Sleeper
open Verif.Sleeper Verif.Probe
open Verif.Spec.Sleep (Event Abs Place)

/-! ## Proofs -/

/-- The list that starts with `h`. -/
def Linked (next : Nat → Option Nat) : Option Nat → List Nat → Prop
  | none, L => L = []
  | some x, L => ∃ T, L = x :: T ∧ Linked' next x T
where
  /-- The entries after `x`. -/
  Linked' (next : Nat → Option Nat) : Nat → List Nat → Prop
  | x, [] => next x = none
  | x, y :: T => next x = some y ∧ Linked' next y T

theorem linked'_congr {next next' : Nat → Option Nat} {T : List Nat} : ∀ {x : Nat}, (∀ y, y = x ∨ y ∈ T → next' y = next y) → Linked.Linked' next x T → Linked.Linked' next' x T := by
  induction T with
  | nil => intro x hn h; show next' x = none; rw [hn x (Or.inl rfl)]; exact h
  | cons y T ih =>
    intro x hn h
    refine ⟨by rw [hn x (Or.inl rfl)]; exact h.1, ih (fun z hz => hn z (Or.inr ?_)) h.2⟩
    rcases hz with rfl | hz
    · exact List.mem_cons_self
    · exact List.mem_cons_of_mem _ hz

theorem linked_congr {next next' : Nat → Option Nat} {h : Option Nat} {L : List Nat} (hn : ∀ x ∈ L, next' x = next x) (hl : Linked next h L) : Linked next' h L := by
  cases h with
  | none => exact hl
  | some x =>
    obtain ⟨T, rfl, hT⟩ := hl
    refine ⟨T, rfl, linked'_congr (fun y hy => hn y ?_) hT⟩
    rcases hy with rfl | hy
    · exact List.mem_cons_self
    · exact List.mem_cons_of_mem _ hy

theorem linked_push {next : Nat → Option Nat} {h : Option Nat} {L : List Nat} {e : Nat} (he : next e = h) (hl : Linked next h L) : Linked next (some e) (e :: L) := by
  refine ⟨L, rfl, ?_⟩
  cases h with
  | none => cases hl; exact he
  | some x =>
    obtain ⟨T, rfl, hT⟩ := hl
    exact ⟨he, hT⟩

/-- The declaration a worker has. -/
def holds : PC → Option Nat
  | .idle => none
  | .work e => some e
  | .start _ e _ => some e
  | .check _ e _ => some e
  | .lock _ e _ => some e
  | .recheck _ e _ => some e
  | .wait _ e _ => some e
  | .swap _ e _ => some e
  | .move _ e _ _ _ _ => some e
  | .unlock _ e _ => some e
  | .enter _ e _ => some e
  | .index _ e _ => some e
  | .probe _ e _ _ => some e
  | .claim _ e _ _ _ => some e
  | .count .add _ _ => none
  | .count .del e _ => some e
  | .load e _ _ _ => some e
  | .push e _ _ _ _ => some e
  | .requeue e _ => some e
  | .cas1 e _ _ _ => some e
  | .cas2 e _ _ _ _ => some e
  | .leave .add _ _ _ => none
  | .leave .del e _ _ => some e
  | .walk e _ _ _ => some e
  | .append e _ _ => some e
  | .done e _ => some e

/-- Points of the program only a growing thread gets to. -/
def growing : PC → Bool
  | .recheck _ _ _ | .wait _ _ _ | .swap _ _ _ | .move _ _ _ _ _ _ | .unlock _ _ _ => true
  | _ => false

/-- The declarations `P` are those a worker at this point has to put into the queue. -/
def Hand (next : Nat → Option Nat) (P : Nat → Prop) : PC → Prop
  | .leave .del _ _ (some h) => ∃ L, Linked next (some h) L ∧ L.Nodup ∧ ∀ x, x ∈ L ↔ P x
  | .walk _ _ l seen => ∃ rest, Linked next (some l) (l :: rest) ∧ (seen ++ rest).Nodup ∧ l ∈ seen ∧ ∀ x, x ∈ seen ++ rest ↔ P x
  | .append _ _ es => es.Nodup ∧ ∀ x, x ∈ es ↔ P x
  | _ => ∀ x, ¬ P x

theorem hand_congr {next next' : Nat → Option Nat} {P P' : Nat → Prop} {p : PC} (hP : ∀ x, P' x ↔ P x) (hn : ∀ x, P x → next' x = next x) (h : Hand next P p) : Hand next' P' p := by
  have none_ : (∀ x, ¬ P x) → ∀ x, ¬ P' x := fun h x hx => h x ((hP x).mp hx)
  cases p with
  | leave o e n r =>
    cases o with
    | add => exact none_ h
    | del =>
      cases r with
      | none => exact none_ h
      | some r =>
        obtain ⟨L, h1, h2, h3⟩ := h
        exact ⟨L, linked_congr (fun x hx => hn x ((h3 x).mp hx)) h1, h2, fun x => (h3 x).trans (hP x).symm⟩
  | walk e n l seen =>
    obtain ⟨rest, h1, h2, h3, h4⟩ := h
    refine ⟨rest, linked_congr (fun x hx => hn x ((h4 x).mp ?_)) h1, h2, h3, fun x => (h4 x).trans (hP x).symm⟩
    rw [List.mem_append]
    rcases List.mem_cons.mp hx with rfl | hx
    · exact Or.inl h3
    · exact Or.inr hx
  | append e n es => exact ⟨h.1, fun x => (h.2 x).trans (hP x).symm⟩
  | _ => exact none_ h

/-- The keys in the table. -/
def view (key : Nat → Nat) (nodes : Nat → Node) : Nat → Option (Nat × Nat) := fun p => (nodes p).map fun x => (key x.1, 0)

/-- Node `i` is for the name `n`. -/
def IsNode (key : Nat → Nat) (cap : Nat) (nodes : Nat → Node) (n i : Nat) : Prop := i < cap ∧ ∃ m h, nodes i = some (m, h) ∧ key m = key n

/-- What a worker knows. -/
def Knows (key hash : Nat → Nat) (cap : Nat) (nodes : Nat → Node) (next : Nat → Option Nat) (declared : Nat → Bool) : PC → Prop
  | .probe o e n i => (o = .add → next e = none) ∧ ∃ off, i = (hash (key n) + off) % cap ∧ Searched hash cap (view key nodes) (key n) off
  | .claim o e n a i => (o = .add → next e = none) ∧ a = 0 ∧ ∃ off, i = (hash (key n) + off) % cap ∧ Searched hash cap (view key nodes) (key n) off
  | .load _ n a i => a = 0 ∧ IsNode key cap nodes n i
  | .cas1 _ n a i => a = 0 ∧ IsNode key cap nodes n i ∧ ∃ off, i = (hash (key n) + off) % cap ∧ Searched hash cap (view key nodes) (key n) off
  | .cas2 _ n a i c => a = 0 ∧ IsNode key cap nodes n i ∧ c ≠ none ∧ ∃ off, i = (hash (key n) + off) % cap ∧ Searched hash cap (view key nodes) (key n) off
  | .push e n a i h => a = 0 ∧ IsNode key cap nodes n i ∧ next e = some h
  | .requeue _ n => declared (key n) = true
  | .count .del _ n => declared (key n) = true
  | .leave .del _ n _ => declared (key n) = true
  | .walk _ n _ _ => declared (key n) = true
  | .append _ n _ => declared (key n) = true
  | .done _ n => declared (key n) = true
  | _ => True

theorem searched_mono {key hash : Nat → Nat} {cap : Nat} {nodes nodes' : Nat → Node} (hcap : 0 < cap)
    (hm : ∀ p, p < cap → ∀ m h, nodes p = some (m, h) → ∃ m' h', nodes' p = some (m', h') ∧ key m' = key m) {k off : Nat}
    (hs : Searched hash cap (view key nodes) k off) : Searched hash cap (view key nodes') k off := by
  intro o ho
  obtain ⟨kv, h1, h2⟩ := hs o ho
  refine ⟨kv, ?_, h2⟩
  cases hn : nodes ((hash k + o) % cap) with
  | none => simp [view, hn] at h1
  | some x =>
    obtain ⟨m', h', e1, e2⟩ := hm _ (Nat.mod_lt _ hcap) x.1 x.2 hn
    simp only [view, hn, Option.map_some] at h1
    simp only [view, e1, Option.map_some, e2]
    exact h1

theorem knows_mono {key hash : Nat → Nat} {cap : Nat} {nodes nodes' : Nat → Node} {next next' : Nat → Option Nat} {d d' : Nat → Bool} (hcap : 0 < cap)
    (hm : ∀ p, p < cap → ∀ m h, nodes p = some (m, h) → ∃ m' h', nodes' p = some (m', h') ∧ key m' = key m)
    (hd : ∀ k, d k = true → d' k = true) {p : PC} (hn : ∀ e, holds p = some e → next' e = next e) (h : Knows key hash cap nodes next d p) :
    Knows key hash cap nodes' next' d' p := by
  have node : ∀ n i, IsNode key cap nodes n i → IsNode key cap nodes' n i := fun n i hi => by
    obtain ⟨m, h, e1, e2⟩ := hi.2
    obtain ⟨m', h', e3, e4⟩ := hm i hi.1 m h e1
    exact ⟨hi.1, m', h', e3, e4.trans e2⟩
  have se : ∀ n i, (∃ off, i = (hash (key n) + off) % cap ∧ Searched hash cap (view key nodes) (key n) off) →
      ∃ off, i = (hash (key n) + off) % cap ∧ Searched hash cap (view key nodes') (key n) off :=
    fun n i hs => hs.imp fun off h => ⟨h.1, searched_mono hcap hm h.2⟩
  cases p with
  | probe o e n i => exact ⟨fun ho => by rw [hn e rfl]; exact h.1 ho, se n i h.2⟩
  | claim o e n a i => exact ⟨fun ho => by rw [hn e rfl]; exact h.1 ho, h.2.1, se n i h.2.2⟩
  | load e n a i => exact ⟨h.1, node n i h.2⟩
  | cas1 e n a i => exact ⟨h.1, node n i h.2.1, se n i h.2.2⟩
  | cas2 e n a i c => exact ⟨h.1, node n i h.2.1, h.2.2.1, se n i h.2.2.2⟩
  | push e n a i x => exact ⟨h.1, node n i h.2.1, by rw [hn e rfl]; exact h.2.2⟩
  | requeue e n => exact hd _ h
  | count o e n =>
    cases o with
    | add => trivial
    | del => exact hd _ h
  | leave o e n r =>
    cases o with
    | add => trivial
    | del => exact hd _ h
  | walk e n l seen => exact hd _ h
  | append e n es => exact hd _ h
  | done e n => exact hd _ h
  | _ => trivial

/-- A node of the table has the declarations that sleep on its name. -/
def NodeOk (key : Nat → Nat) (next : Nat → Option Nat) (a : Abs) (n : Nat) (h : Option Nat) : Prop :=
  (∃ L, Linked next h L ∧ L.Nodup ∧ ∀ e, e ∈ L ↔ a.place e = .asleep (key n)) ∧ (a.declared (key n) = true ↔ h = none)

/-- The invariant, while the table has not grown. -/
structure Inv (key hash : Nat → Nat) (cap : Nat) (s : State) (a : Abs) : Prop where
  cur : s.current = 0
  capEq : s.cap = cap
  unlocked : s.locked = false
  quiet : ∀ t, growing (s.pc t) = false
  chain : Chain hash cap (view key (s.arrays 0))
  queueNodup : s.queue.Nodup
  queue : ∀ e, e ∈ s.queue ↔ a.place e = .queue
  held : ∀ e t, a.place e = .held t ↔ holds (s.pc t) = some e
  node : ∀ p, p < cap → ∀ n h, s.arrays 0 p = some (n, h) → NodeOk key s.next a n h
  absent : ∀ k, (∀ p, p < cap → ∀ n h, s.arrays 0 p = some (n, h) → key n ≠ k) → a.declared k = false ∧ ∀ e, a.place e ≠ .asleep k
  hand : ∀ t, Hand s.next (fun x => a.place x = .handed t) (s.pc t)
  knows : ∀ t, Knows key hash cap (s.arrays 0) s.next a.declared (s.pc t)

theorem goto_pc (s : State) (t u : Nat) (p : PC) : (s.goto t p).pc u = if u = t then p else s.pc u := rfl

/-- One thread moves; what the others know stays true. -/
theorem inv_update {key hash : Nat → Nat} {cap : Nat} (hcap : 0 < cap) {s s' : State} {a a' : Abs} (h : Inv key hash cap s a) (t : Nat) (p : PC)
    (hpc : s'.pc = (s.goto t p).pc) (hg : growing p = false) (hcur : s'.current = s.current) (hcapE : s'.cap = s.cap) (hl : s'.locked = s.locked)
    (hchain : Chain hash cap (view key (s'.arrays 0))) (hqn : s'.queue.Nodup) (hq : ∀ e, e ∈ s'.queue ↔ a'.place e = .queue)
    (hheld : ∀ e u, a'.place e = .held u ↔ holds (s'.pc u) = some e)
    (hnode : ∀ p, p < cap → ∀ n h, s'.arrays 0 p = some (n, h) → NodeOk key s'.next a' n h)
    (habsent : ∀ k, (∀ p, p < cap → ∀ n h, s'.arrays 0 p = some (n, h) → key n ≠ k) → a'.declared k = false ∧ ∀ e, a'.place e ≠ .asleep k)
    (hnext : ∀ x, a.place x ≠ .queue ∧ a.place x ≠ .held t → s'.next x = s.next x)
    (hhand : ∀ u, u ≠ t → ∀ x, a'.place x = .handed u ↔ a.place x = .handed u)
    (hm : ∀ p, p < cap → ∀ m h, s.arrays 0 p = some (m, h) → ∃ m' h', s'.arrays 0 p = some (m', h') ∧ key m' = key m)
    (hd : ∀ k, a.declared k = true → a'.declared k = true)
    (hth : Hand s'.next (fun x => a'.place x = .handed t) p) (htk : Knows key hash cap (s'.arrays 0) s'.next a'.declared p) : Inv key hash cap s' a' := by
  refine ⟨by rw [hcur]; exact h.cur, by rw [hcapE]; exact h.capEq, by rw [hl]; exact h.unlocked, ?_, hchain, hqn, hq, hheld, hnode, habsent, ?_, ?_⟩
  · intro u; rw [hpc, goto_pc]; split
    · exact hg
    · exact h.quiet u
  · intro u
    rw [hpc, goto_pc]
    by_cases e : u = t
    · rw [if_pos e, e]; exact hth
    · rw [if_neg e]
      exact hand_congr (hhand u e) (fun x hx => hnext x ⟨by rw [hx]; exact fun e => (by cases e), by rw [hx]; exact fun e => (by cases e)⟩) (h.hand u)
  · intro u
    rw [hpc, goto_pc]
    by_cases e : u = t
    · rw [if_pos e]; exact htk
    · rw [if_neg e]
      refine knows_mono hcap hm hd (fun x hx => hnext x ?_) (h.knows u)
      have := (h.held x u).mpr hx
      rw [this]
      exact ⟨fun e => (by cases e), fun e' => by cases e'; exact e rfl⟩

/-- The nodes are not touched and nobody goes to sleep or is woken up. -/
theorem inv_frame {key hash : Nat → Nat} {cap : Nat} (hcap : 0 < cap) {s s' : State} {a a' : Abs} (h : Inv key hash cap s a) (t : Nat) (p : PC)
    (hpc : s'.pc = (s.goto t p).pc) (hg : growing p = false) (hcur : s'.current = s.current) (hcapE : s'.cap = s.cap) (hl : s'.locked = s.locked)
    (harr : s'.arrays = s.arrays) (hqn : s'.queue.Nodup) (hq : ∀ e, e ∈ s'.queue ↔ a'.place e = .queue)
    (hheld : ∀ e u, a'.place e = .held u ↔ holds (s'.pc u) = some e)
    (hnext : ∀ x, a.place x ≠ .queue ∧ a.place x ≠ .held t → s'.next x = s.next x)
    (hsl : ∀ k x, a'.place x = .asleep k ↔ a.place x = .asleep k)
    (hhand : ∀ u, u ≠ t → ∀ x, a'.place x = .handed u ↔ a.place x = .handed u)
    (hd : a'.declared = a.declared)
    (hth : Hand s'.next (fun x => a'.place x = .handed t) p) (htk : Knows key hash cap (s.arrays 0) s'.next a.declared p) : Inv key hash cap s' a' := by
  refine inv_update hcap h t p hpc hg hcur hcapE hl (by rw [harr]; exact h.chain) hqn hq hheld ?_ ?_ hnext hhand ?_ (fun k hk => by rw [hd]; exact hk) hth (by rw [harr, hd]; exact htk)
  · intro i hi n x hx
    rw [harr] at hx
    obtain ⟨⟨L, h1, h2, h3⟩, h4⟩ := h.node i hi n x hx
    refine ⟨⟨L, linked_congr (fun y hy => hnext y ?_) h1, h2, fun e => (h3 e).trans (hsl _ e).symm⟩, by rw [hd]; exact h4⟩
    rw [(h3 y).mp hy]
    exact ⟨fun e => (by cases e), fun e => (by cases e)⟩
  · intro k hk
    rw [harr] at hk
    obtain ⟨h1, h2⟩ := h.absent k hk
    exact ⟨by rw [hd]; exact h1, fun e he => h2 e ((hsl k e).mp he)⟩
  · intro i hi m x hx
    exact ⟨m, x, by rw [harr]; exact hx, rfl⟩

theorem held_same {key hash : Nat → Nat} {cap : Nat} {s : State} {a : Abs} (h : Inv key hash cap s a) (t : Nat) (p : PC) (hp : holds p = holds (s.pc t)) :
    ∀ e u, a.place e = .held u ↔ holds ((s.goto t p).pc u) = some e := by
  intro e u
  rw [h.held, goto_pc]
  by_cases hu : u = t
  · rw [if_pos hu, hp, hu]
  · rw [if_neg hu]

/-- A worker gives away what it has. -/
theorem held_put {key hash : Nat → Nat} {cap : Nat} {s : State} {a : Abs} (h : Inv key hash cap s a) (t e : Nat) (p : PC) (q : Place) (he : holds (s.pc t) = some e) (hp : holds p = none)
    (hq : ∀ u, q ≠ .held u) : ∀ x u, (a.put e q).place x = .held u ↔ holds ((s.goto t p).pc u) = some x := by
  intro x u
  rw [goto_pc]
  show (if x = e then q else a.place x) = _ ↔ _
  by_cases hu : u = t
  · rw [if_pos hu, hp]
    refine ⟨fun hx => ?_, fun hx => by cases hx⟩
    split at hx
    · exact absurd hx (hq u)
    · rename_i hne
      have := (h.held x u).mp hx
      rw [hu, he] at this
      cases this
      exact absurd rfl hne
  · rw [if_neg hu]
    split
    · rename_i hx
      refine ⟨fun e' => absurd e' (hq u), fun e' => ?_⟩
      have h1 := (h.held e t).mpr he
      rw [hx] at e'
      have h2 := (h.held e u).mpr e'
      rw [h1] at h2
      cases h2
      exact absurd rfl hu
    · exact h.held x u

/-- A step that changes nothing but where the thread is. -/
theorem inv_move {key hash : Nat → Nat} {cap : Nat} (hcap : 0 < cap) {s s' : State} {a : Abs} (h : Inv key hash cap s a) (t : Nat) (p : PC)
    (hpc : s'.pc = (s.goto t p).pc) (hg : growing p = false) (hcur : s'.current = s.current) (hcapE : s'.cap = s.cap) (hl : s'.locked = s.locked)
    (harr : s'.arrays = s.arrays) (hq : s'.queue = s.queue) (hn : s'.next = s.next) (hp : holds p = holds (s.pc t))
    (hth : Hand s.next (fun x => a.place x = .handed t) p) (htk : Knows key hash cap (s.arrays 0) s.next a.declared p) : Inv key hash cap s' a := by
  refine inv_frame hcap h t p hpc hg hcur hcapE hl harr (by rw [hq]; exact h.queueNodup) (by rw [hq]; exact h.queue) ?_ (fun x _ => by rw [hn])
    (fun _ _ => Iff.rfl) (fun _ _ _ => Iff.rfl) rfl (by rw [hn]; exact hth) (by rw [hn]; exact htk)
  rw [hpc]
  exact held_same h t p hp

theorem not_handed {key hash : Nat → Nat} {cap : Nat} {s : State} {a : Abs} (h : Inv key hash cap s a) {t : Nat} {p : PC} (hp : s.pc t = p)
    (hn : Hand s.next (fun x => a.place x = .handed t) p = ∀ x, ¬ a.place x = .handed t) : ∀ x, ¬ a.place x = .handed t := by
  have := h.hand t
  rw [hp, hn] at this
  exact this

theorem put_iff {a : Abs} {e t x : Nat} {q r : Place} (he : a.place e = .held t) (h1 : r ≠ .held t) (h2 : r ≠ q) : (a.put e q).place x = r ↔ a.place x = r := by
  show (if x = e then q else a.place x) = r ↔ _
  split
  · rename_i hx; rw [hx, he]; exact ⟨fun e => absurd e.symm h2, fun e => absurd e.symm h1⟩
  · exact Iff.rfl

theorem woke_iff {a : Abs} {k t x : Nat} {r : Place} (h1 : r ≠ .asleep k) (h2 : r ≠ .handed t) : (if a.place x = .asleep k then Place.handed t else a.place x) = r ↔ a.place x = r := by
  split
  · rename_i hx; rw [hx]; exact ⟨fun e => absurd e.symm h2, fun e => absurd e.symm h1⟩
  · exact Iff.rfl

theorem view_set (key : Nat → Nat) (nodes : Nat → Node) (i n : Nat) (h : Option Nat) :
    view key (fun j => if j = i then some (n, h) else nodes j) = fun j => if j = i then some (key n, 0) else view key nodes j := by
  funext j
  simp only [view]
  split <;> rfl

theorem view_same {key : Nat → Nat} {nodes : Nat → Node} {i m n : Nat} {x h : Option Nat} (hi : nodes i = some (m, x)) (hk : key m = key n) :
    view key (fun j => if j = i then some (n, h) else nodes j) = view key nodes := by
  rw [view_set]
  funext j
  split
  · rename_i hj; rw [hj, view, hi, ← hk]; rfl
  · rfl

theorem view_some {key : Nat → Nat} {nodes : Nat → Node} {p n : Nat} {h : Option Nat} (hp : nodes p = some (n, h)) : view key nodes p = some (key n, 0) := by
  rw [view, hp]; rfl

theorem offset_lt {hash : Nat → Nat} {cap : Nat} (hcap : 0 < cap) {nodes : Nat → Option (Nat × Nat)} {k o : Nat}
    (hs : Searched hash cap nodes k o) (hn : nodes ((hash k + o) % cap) = none) : o < cap := by
  apply Classical.byContradiction
  intro hge
  obtain ⟨kv, h1, _⟩ := hs (o % cap) (Nat.lt_of_lt_of_le (Nat.mod_lt _ hcap) (by omega))
  rw [Nat.add_mod_mod, hn] at h1
  cases h1

/-- Node `i` is the only one for its name, and is changed or made. -/
theorem inv_node {key hash : Nat → Nat} {cap : Nat} (hcap : 0 < cap) {s : State} {a a' : Abs} (h : Inv key hash cap s a) (t : Nat) (p : PC) (n i : Nat) (x : Option Nat)
    (hi : i < cap) (hg : growing p = false)
    (hold : (∃ m y, s.arrays 0 i = some (m, y) ∧ key m = key n) ∨ (s.arrays 0 i = none ∧ ∃ off, i = (hash (key n) + off) % cap ∧ Searched hash cap (view key (s.arrays 0)) (key n) off))
    (hq : ∀ e, a'.place e = .queue ↔ a.place e = .queue) (hheld : ∀ e u, a'.place e = .held u ↔ holds ((s.goto t p).pc u) = some e)
    (hnode : NodeOk key s.next a' n x) (hsl : ∀ k e, k ≠ key n → (a'.place e = .asleep k ↔ a.place e = .asleep k)) (hdec : ∀ k, k ≠ key n → a'.declared k = a.declared k)
    (hhand : ∀ u, u ≠ t → ∀ e, a'.place e = .handed u ↔ a.place e = .handed u) (hd : a.declared (key n) = true → a'.declared (key n) = true)
    (hth : Hand s.next (fun e => a'.place e = .handed t) p)
    (htk : ∀ nodes, Knows key hash cap nodes s.next a'.declared p) : Inv key hash cap ((s.setNode 0 i (some (n, x))).goto t p) a' := by
  have harr : ((s.setNode 0 i (some (n, x))).goto t p).arrays 0 = fun j => if j = i then some (n, x) else s.arrays 0 j := rfl
  have hchain : Chain hash cap (view key (fun j => if j = i then some (n, x) else s.arrays 0 j)) := by
    rcases hold with ⟨m, y, e1, e2⟩ | ⟨hn, off, hio, hsr⟩
    · rw [view_same e1 e2]; exact h.chain
    · rw [view_set, hio]
      have hv : view key (s.arrays 0) ((hash (key n) + off) % cap) = none := by rw [← hio, view, hn]; rfl
      exact h.chain.insert 0 (offset_lt hcap hsr hv) hsr hv
  have other : ∀ q, q < cap → q ≠ i → ∀ m y, s.arrays 0 q = some (m, y) → key m ≠ key n := by
    intro q hq hne m y hm e
    have h1 : view key (fun j => if j = i then some (n, x) else s.arrays 0 j) q = some (key m, 0) := view_some (by rw [if_neg hne]; exact hm)
    have h2 : view key (fun j => if j = i then some (n, x) else s.arrays 0 j) i = some (key n, 0) := view_some (by rw [if_pos rfl])
    rw [e] at h1
    exact hne (hchain.inj hq hi h1 h2)
  have hm : ∀ p, p < cap → ∀ m y, s.arrays 0 p = some (m, y) → ∃ m' y', (if p = i then some (n, x) else s.arrays 0 p) = some (m', y') ∧ key m' = key m := by
    intro q hq m y hm
    by_cases e : q = i
    · rw [if_pos e]
      rcases hold with ⟨m2, y2, e1, e2⟩ | ⟨hn, _⟩
      · rw [e, e1] at hm; cases hm; exact ⟨n, x, rfl, e2.symm⟩
      · rw [e, hn] at hm; cases hm
    · rw [if_neg e]; exact ⟨m, y, hm, rfl⟩
  refine inv_update hcap h t p rfl hg rfl rfl rfl hchain h.queueNodup (fun e => (h.queue e).trans (hq e).symm) hheld ?_ ?_ (fun _ _ => rfl) hhand hm ?_ hth (htk _)
  · intro q hq m y hm
    rw [harr] at hm
    simp only at hm
    by_cases e : q = i
    · rw [if_pos e] at hm; cases hm; exact hnode
    · rw [if_neg e] at hm
      obtain ⟨⟨L, h1, h2, h3⟩, h4⟩ := h.node q hq m y hm
      have hne := other q hq e m y hm
      exact ⟨⟨L, h1, h2, fun z => (h3 z).trans (hsl _ z hne).symm⟩, by rw [hdec _ hne]; exact h4⟩
  · intro k hk
    have hkn : k ≠ key n := fun e => hk i hi n x (by rw [harr]; simp) e.symm
    have := h.absent k (fun q hq m y hqm e => by
      obtain ⟨m', y', e1, e2⟩ := hm q hq m y hqm
      exact hk q hq m' y' e1 (e2.trans e))
    exact ⟨by rw [hdec k hkn]; exact this.1, fun e he => this.2 e ((hsl k e hkn).mp he)⟩
  · intro k hk
    by_cases e : k = key n
    · rw [e] at hk ⊢; exact hd hk
    · rw [hdec k e]; exact hk

theorem inv_step {key hash : Nat → Nat} {cap : Nat} (hcap : 0 < cap) {s s' : State} {a : Abs} {e : Event} (h : Inv key hash cap s a) (hs : Step key hash s e s')
    (hng : ∀ t, e ≠ .grow t) : ∃ a', Spec.Sleep.Step a e a' ∧ Inv key hash cap s' a' := by
  have notg : ∀ t p, s.pc t = p → growing p = true → False := fun t p hp hg => by
    have := h.quiet t; rw [hp, hg] at this; cases this
  have hk := h.knows
  have hh := h.hand
  -- changing a node for the name `n` in place
  cases hs with
  | take t e rest hu hq =>
    have hnd := h.queueNodup
    rw [hq] at hnd
    obtain ⟨hnot, hrest⟩ := List.nodup_cons.mp hnd
    have hpe : a.place e = .queue := (h.queue e).mp (by rw [hq]; exact List.mem_cons_self)
    have hthis := not_handed h hu rfl
    refine ⟨_, .take t e hpe, inv_frame hcap h t (.work e) rfl rfl rfl rfl rfl rfl hrest ?_ ?_ (fun _ _ => rfl) ?_ ?_ rfl ?_ trivial⟩
    · intro x
      show x ∈ rest ↔ (if x = e then _ else a.place x) = _
      by_cases hx : x = e
      · subst hx; rw [if_pos rfl]; exact ⟨fun hm => absurd hm hnot, fun e => by cases e⟩
      · rw [if_neg hx, ← h.queue, hq, List.mem_cons]; exact ⟨Or.inr, fun e => e.resolve_left hx⟩
    · intro x u
      show (if x = e then _ else a.place x) = _ ↔ holds ((s.goto t (.work e)).pc u) = _
      rw [goto_pc]
      by_cases hx : x = e
      · subst hx
        rw [if_pos rfl]
        by_cases hut : u = t
        · subst hut; rw [if_pos rfl]; exact ⟨fun _ => rfl, fun _ => rfl⟩
        · rw [if_neg hut, ← h.held, hpe]; exact ⟨fun e => absurd (by cases e; rfl) hut, fun e => by cases e⟩
      · rw [if_neg hx]
        by_cases hut : u = t
        · subst hut; rw [if_pos rfl, h.held, hu]; exact ⟨fun e => (by cases e), fun e => absurd (by cases e; rfl) hx⟩
        · rw [if_neg hut]; exact h.held x u
    · intro k x
      show (if x = e then _ else a.place x) = _ ↔ _
      by_cases hx : x = e
      · subst hx; rw [if_pos rfl, hpe]; exact ⟨fun e => (by cases e), fun e => by cases e⟩
      · rw [if_neg hx]
    · intro u hut x
      show (if x = e then _ else a.place x) = _ ↔ _
      by_cases hx : x = e
      · subst hx; rw [if_pos rfl, hpe]; exact ⟨fun e => (by cases e), fun e => by cases e⟩
      · rw [if_neg hx]
    · intro x
      show ¬ (if x = e then _ else a.place x) = _
      split
      · exact fun e => by cases e
      · exact hthis x
  | link t e v he =>
    have hpe := (h.queue e).mp he
    refine ⟨a, .internal t, inv_frame hcap h t (s.pc t) ?_ (h.quiet t) rfl rfl rfl rfl h.queueNodup h.queue h.held ?_ (fun _ _ => Iff.rfl) (fun _ _ _ => Iff.rfl) rfl ?_ ?_⟩
    · funext u; rw [goto_pc]; split
      · rename_i hu; rw [hu]; rfl
      · rfl
    · intro x hx
      show (if x = e then v else s.next x) = _
      rw [if_neg (show x ≠ e from fun e' => hx.1 (by rw [e']; exact hpe))]
    · refine hand_congr (fun _ => Iff.rfl) (fun x hx => ?_) (hh t)
      show (if x = e then v else s.next x) = _
      rw [if_neg (show x ≠ e from fun e' => by rw [e', hpe] at hx; cases hx)]
    · refine knows_mono hcap (fun p _ m x hx => ⟨m, x, hx, rfl⟩) (fun _ hk => hk) (fun x hx => ?_) (hk t)
      show (if x = e then v else s.next x) = _
      rw [if_neg (show x ≠ e from fun e' => by have := (h.held x t).mpr hx; rw [e', hpe] at this; cases this)]
  | finish t e hu =>
    have hpe : a.place e = .held t := (h.held e t).mpr (by rw [hu]; rfl)
    have hthis := not_handed h hu rfl
    refine ⟨_, .finish t e hpe, inv_frame hcap h t .idle rfl rfl rfl rfl rfl rfl h.queueNodup ?_ (held_put h t e _ _ (by rw [hu]; rfl) rfl (fun _ e => (by cases e))) (fun _ _ => rfl) ?_ ?_ rfl ?_ trivial⟩
    · intro x
      rw [show (s.goto t .idle).queue = s.queue from rfl, h.queue]
      show _ ↔ (if x = e then _ else a.place x) = _
      by_cases hx : x = e
      · subst hx; rw [if_pos rfl, hpe]; exact ⟨fun e => (by cases e), fun e => by cases e⟩
      · rw [if_neg hx]
    · intro k x
      show (if x = e then _ else a.place x) = _ ↔ _
      by_cases hx : x = e
      · subst hx; rw [if_pos rfl, hpe]; exact ⟨fun e => (by cases e), fun e => by cases e⟩
      · rw [if_neg hx]
    · intro u hut x
      show (if x = e then _ else a.place x) = _ ↔ _
      by_cases hx : x = e
      · subst hx; rw [if_pos rfl, hpe]; exact ⟨fun e => (by cases e), fun e => by cases e⟩
      · rw [if_neg hx]
    · intro x
      show ¬ (if x = e then _ else a.place x) = _
      split
      · exact fun e => by cases e
      · exact hthis x
  | goSleep t e n hu => exact ⟨a, .internal t, inv_move hcap h t _ rfl rfl rfl rfl rfl rfl rfl rfl (by rw [hu]; rfl) (not_handed h hu rfl) trivial⟩
  | goWake t e n hu => exact ⟨a, .internal t, inv_move hcap h t _ rfl rfl rfl rfl rfl rfl rfl rfl (by rw [hu]; rfl) (not_handed h hu rfl) trivial⟩
  | locked t o e n hu hl => rw [h.unlocked] at hl; cases hl
  | start t o e n hu hl => exact ⟨a, .internal t, inv_move hcap h t _ rfl rfl rfl rfl rfl rfl rfl rfl (by rw [hu]; rfl) (not_handed h hu rfl) trivial⟩
  | checkFull t o e n hu hl => exact ⟨a, .internal t, inv_move hcap h t _ rfl rfl rfl rfl rfl rfl rfl rfl (by rw [hu]; rfl) (not_handed h hu rfl) trivial⟩
  | checkOk t o e n hu hl => exact ⟨a, .internal t, inv_move hcap h t _ rfl rfl rfl rfl rfl rfl rfl rfl (by rw [hu]; rfl) (not_handed h hu rfl) trivial⟩
  | lockOk t o e n hu hl => exact absurd rfl (hng t)
  | lockFail t o e n hu hl => rw [h.unlocked] at hl; cases hl
  | recheckFull t o e n hu hl => exact absurd (notg t _ hu rfl) id
  | recheckOk t o e n hu hl => exact absurd (notg t _ hu rfl) id
  | waitMore t o e n hu hl => exact absurd (notg t _ hu rfl) id
  | waitDone t o e n hu hl => exact absurd (notg t _ hu rfl) id
  | swap t o e n hu => exact absurd (notg t _ hu rfl) id
  | move t o e n old oc i hu hl => exact absurd (notg t _ hu rfl) id
  | moveDone t o e n old oc i hu hl => exact absurd (notg t _ hu rfl) id
  | unlock t o e n hu => exact absurd (notg t _ hu rfl) id
  | enter t o e n hu => exact ⟨a, .internal t, inv_move hcap h t (.index o e n) rfl rfl rfl rfl rfl rfl rfl rfl (by rw [hu]; rfl) (not_handed h hu rfl) trivial⟩
  | indexAdd t e n hu =>
    have hpe : a.place e = .held t := (h.held e t).mpr (by rw [hu]; rfl)
    refine ⟨a, .internal t, inv_frame hcap h t (.probe .add e n (hash (key n) % s.cap)) rfl rfl rfl rfl rfl rfl h.queueNodup h.queue ?_ ?_ (fun _ _ => Iff.rfl) (fun _ _ _ => Iff.rfl) rfl (not_handed h hu rfl) ?_⟩
    · exact held_same h t (.probe .add e n (hash (key n) % s.cap)) (by rw [hu]; rfl)
    · intro x hx
      show (if x = e then none else s.next x) = _
      rw [if_neg (show x ≠ e from fun e' => hx.2 (by rw [e']; exact hpe))]
    · exact ⟨fun _ => if_pos rfl, 0, by rw [h.capEq, Nat.add_zero], fun o' ho' => absurd ho' (Nat.not_lt_zero _)⟩
  | indexDel t e n hu =>
    exact ⟨a, .internal t, inv_move hcap h t _ rfl rfl rfl rfl rfl rfl rfl rfl (by rw [hu]; rfl) (not_handed h hu rfl)
      ⟨fun e => (by cases e), 0, by rw [h.capEq, Nat.add_zero], fun o' ho' => absurd ho' (Nat.not_lt_zero _)⟩⟩
  | probeFree t o e n i hu hn =>
    have := hk t; rw [hu] at this
    exact ⟨a, .internal t, inv_move hcap h t _ rfl rfl rfl rfl rfl rfl rfl rfl (by rw [hu]; rfl) (not_handed h hu rfl) ⟨this.1, h.cur, this.2⟩⟩
  | probeOther t o e n i x hu hn hne =>
    have := hk t; rw [hu] at this
    obtain ⟨h1, off, hi, hsr⟩ := this
    refine ⟨a, .internal t, inv_move hcap h t _ rfl rfl rfl rfl rfl rfl rfl rfl (by rw [hu]; rfl) (not_handed h hu rfl) ⟨h1, off + 1, ?_, ?_⟩⟩
    · rw [h.capEq, hi, Nat.mod_add_mod]; rfl
    · intro o' ho'
      rcases Nat.lt_succ_iff_lt_or_eq.mp ho' with h' | h'
      · exact hsr o' h'
      · subst h'
        rw [h.cur] at hn
        exact ⟨(key x.1, 0), by rw [← hi, view, hn]; rfl, hne⟩
  | probeAdd t e n i x hu hn he =>
    have := hk t; rw [hu] at this
    obtain ⟨h1, off, hi, hsr⟩ := this
    refine ⟨a, .internal t, inv_move hcap h t _ rfl rfl rfl rfl rfl rfl rfl rfl (by rw [hu]; rfl) (not_handed h hu rfl) ⟨h.cur, ?_, x.1, x.2, ?_, he⟩⟩
    · rw [hi]; exact Nat.mod_lt _ hcap
    · rw [h.cur] at hn; exact hn
  | probeDel t e n i x hu hn he =>
    have := hk t; rw [hu] at this
    obtain ⟨h1, off, hi, hsr⟩ := this
    refine ⟨a, .internal t, inv_move hcap h t _ rfl rfl rfl rfl rfl rfl rfl rfl (by rw [hu]; rfl) (not_handed h hu rfl) ⟨h.cur, ⟨?_, x.1, x.2, ?_, he⟩, off, hi, hsr⟩⟩
    · rw [hi]; exact Nat.mod_lt _ hcap
    · rw [h.cur] at hn; exact hn
  | claimAdd t e n a' i hu hn =>
    have := hk t; rw [hu] at this
    obtain ⟨hnx, rfl, off, hi, hsr⟩ := this
    have hnx := hnx rfl
    have hv : view key (s.arrays 0) ((hash (key n) + off) % cap) = none := by rw [← hi, view, hn]; rfl
    have hab := h.absent (key n) (fun p hp m y hm e => hsr.unique h.chain hv p 0 hp (by rw [view_some hm, e]))
    have hpe : a.place e = .held t := (h.held e t).mpr (by rw [hu]; rfl)
    refine ⟨_, .sleep t e (key n) hpe hab.1, inv_node hcap h t (.count .add e n) n i (some e) (by rw [hi]; exact Nat.mod_lt _ hcap) rfl (Or.inr ⟨hn, off, hi, hsr⟩)
      (fun x => put_iff hpe (fun e => (by cases e)) (fun e => (by cases e))) (held_put h t e _ _ (by rw [hu]; rfl) rfl (fun _ e => (by cases e))) ?_
      (fun k x hne => put_iff hpe (fun e => (by cases e)) (fun e => (by cases e; exact hne rfl))) (fun _ _ => rfl) (fun u _ x => put_iff hpe (fun e => (by cases e)) (fun e => (by cases e))) (fun h => h)
      (fun x hx => not_handed h hu rfl x ((put_iff hpe (fun e => (by cases e)) (fun e => (by cases e))).mp hx)) (fun _ => trivial)⟩
    refine ⟨⟨[e], ⟨[], rfl, hnx⟩, by simp, fun x => ?_⟩, ⟨fun h' => (by rw [show (a.put e (.asleep (key n))).declared = a.declared from rfl, hab.1] at h'; cases h'), fun h' => (by cases h')⟩⟩
    show x ∈ [e] ↔ (if x = e then _ else a.place x) = _
    rw [List.mem_singleton]
    split
    · rename_i hx; exact ⟨fun _ => rfl, fun _ => hx⟩
    · rename_i hx; exact ⟨fun e => absurd e hx, fun e => absurd e (hab.2 x)⟩
  | claimDel t e n a' i hu hn =>
    have := hk t; rw [hu] at this
    obtain ⟨_, rfl, off, hi, hsr⟩ := this
    have hv : view key (s.arrays 0) ((hash (key n) + off) % cap) = none := by rw [← hi, view, hn]; rfl
    have hab := h.absent (key n) (fun p hp m y hm e => hsr.unique h.chain hv p 0 hp (by rw [view_some hm, e]))
    have hth := not_handed h hu rfl
    refine ⟨_, .woke t (key n), inv_node hcap h t (.count .del e n) n i none (by rw [hi]; exact Nat.mod_lt _ hcap) rfl (Or.inr ⟨hn, off, hi, hsr⟩)
      (fun x => woke_iff (fun e => (by cases e)) (fun e => (by cases e)))
      (fun x u => (woke_iff (fun e => (by cases e)) (fun e => (by cases e))).trans (held_same h t (.count .del e n) (by rw [hu]; rfl) x u)) ?_
      (fun k x hne => woke_iff (fun e => (by cases e; exact hne rfl)) (fun e => (by cases e))) (fun k hne => if_neg hne)
      (fun u hut x => woke_iff (fun e => (by cases e)) (fun e => (by cases e; exact hut rfl))) (fun _ => if_pos rfl) ?_ (fun _ => if_pos rfl)⟩
    · refine ⟨⟨[], rfl, List.nodup_nil, fun x => ?_⟩, ⟨fun _ => rfl, fun _ => if_pos rfl⟩⟩
      show x ∈ [] ↔ (if a.place x = _ then _ else a.place x) = _
      rw [if_neg (hab.2 x)]
      exact ⟨fun e => (by cases e), fun e => absurd e (hab.2 x)⟩
    · intro x
      show ¬ (if a.place x = _ then _ else a.place x) = _
      rw [if_neg (hab.2 x)]
      exact hth x
  | claimFail t o e n a' i x hu hn =>
    have := hk t; rw [hu] at this
    exact ⟨a, .internal t, inv_move hcap h t _ rfl rfl rfl rfl rfl rfl rfl rfl (by rw [hu]; rfl) (not_handed h hu rfl) ⟨this.1, this.2.2⟩⟩
  | count t o e n hu =>
    have := hk t; rw [hu] at this
    refine ⟨a, .internal t, inv_move hcap h t (.leave o e n none) rfl rfl rfl rfl rfl rfl rfl rfl (by rw [hu]; cases o <;> rfl) ?_ ?_⟩
    · cases o <;> exact not_handed h hu rfl
    · cases o with
      | add => trivial
      | del => exact this
  | loadDeleted t e n a' i m hu hn =>
    have := hk t; rw [hu] at this
    obtain ⟨rfl, hi, m', h', e1, e2⟩ := this
    rw [hn] at e1
    cases e1
    have hd : a.declared (key n) = true := by rw [← e2]; exact (h.node i hi m none hn).2.mpr rfl
    exact ⟨a, .internal t, inv_move hcap h t _ rfl rfl rfl rfl rfl rfl rfl rfl (by rw [hu]; rfl) (not_handed h hu rfl) hd⟩
  | loadSleeper t e n a' i m x hu hn =>
    have := hk t; rw [hu] at this
    have hpe : a.place e = .held t := (h.held e t).mpr (by rw [hu]; rfl)
    refine ⟨a, .internal t, inv_frame hcap h t (.push e n a' i x) rfl rfl rfl rfl rfl rfl h.queueNodup h.queue ?_ ?_ (fun _ _ => Iff.rfl) (fun _ _ _ => Iff.rfl) rfl (not_handed h hu rfl) ?_⟩
    · exact held_same h t (.push e n a' i x) (by rw [hu]; rfl)
    · intro y hy
      show (if y = e then some x else s.next y) = _
      rw [if_neg (show y ≠ e from fun e' => hy.2 (by rw [e']; exact hpe))]
    · exact ⟨this.1, this.2, if_pos rfl⟩
  | pushOk t e n a' i m x hu hn =>
    have := hk t; rw [hu] at this
    obtain ⟨rfl, ⟨hi, m', x', e1, e2⟩, hnx⟩ := this
    rw [hn] at e1
    cases e1
    have hpe : a.place e = .held t := (h.held e t).mpr (by rw [hu]; rfl)
    obtain ⟨⟨L, h1, h2, h3⟩, h4⟩ := h.node i hi m (some x) hn
    have hnd : a.declared (key n) = false := by
      cases hd : a.declared (key n) with
      | false => rfl
      | true => rw [← e2] at hd; cases h4.mp hd
    have heL : e ∉ L := fun hm => by have := (h3 e).mp hm; rw [hpe] at this; cases this
    refine ⟨_, .sleep t e (key n) hpe hnd, inv_node hcap h t (.leave .add e n none) m i (some e) hi rfl (Or.inl ⟨m, _, hn, rfl⟩)
      (fun x => put_iff hpe (fun e => (by cases e)) (fun e => (by cases e))) (held_put h t e _ _ (by rw [hu]; rfl) rfl (fun _ e => (by cases e))) ?_
      (fun k x hne => put_iff hpe (fun e => (by cases e)) (fun e' => (by cases e'; exact hne e2.symm))) (fun _ _ => rfl) (fun u _ x => put_iff hpe (fun e => (by cases e)) (fun e => (by cases e))) (fun h => h)
      (fun x hx => not_handed h hu rfl x ((put_iff hpe (fun e => (by cases e)) (fun e => (by cases e))).mp hx)) (fun _ => trivial)⟩
    refine ⟨⟨e :: L, linked_push hnx h1, List.nodup_cons.mpr ⟨heL, h2⟩, fun y => ?_⟩, ⟨fun h' => (by rw [show (a.put e (.asleep (key n))).declared = a.declared from rfl, e2, hnd] at h'; cases h'), fun h' => (by cases h')⟩⟩
    show y ∈ e :: L ↔ (if y = e then _ else a.place y) = _
    rw [List.mem_cons]
    split
    · rename_i hy; exact ⟨fun _ => by rw [e2], fun _ => Or.inl hy⟩
    · rename_i hy; rw [← h3]; exact ⟨fun e => e.resolve_left hy, Or.inr⟩
  | pushFail t e n a' i x m x' hu hn hne =>
    have := hk t; rw [hu] at this
    exact ⟨a, .internal t, inv_move hcap h t _ rfl rfl rfl rfl rfl rfl rfl rfl (by rw [hu]; rfl) (not_handed h hu rfl) ⟨this.1, this.2.1⟩⟩
  | requeue t e n hu =>
    have hkn := hk t; rw [hu] at hkn
    have hpe : a.place e = .held t := (h.held e t).mpr (by rw [hu]; rfl)
    have hthis := not_handed h hu rfl
    have hnq : e ∉ s.queue := fun hm => by rw [h.queue, hpe] at hm; cases hm
    refine ⟨_, .requeue t e _ hpe hkn, inv_frame hcap h t (.leave .add e n none) rfl rfl rfl rfl rfl rfl ?_ ?_ (held_put h t e _ _ (by rw [hu]; rfl) rfl (fun _ e => (by cases e))) (fun _ _ => rfl) ?_ ?_ rfl ?_ trivial⟩
    · exact List.nodup_append.mpr ⟨h.queueNodup, by simp, fun x hx y hy e' => by
        rw [List.mem_singleton] at hy; subst hy; subst e'; exact hnq hx⟩
    · intro x
      show x ∈ s.queue ++ [e] ↔ (if x = e then _ else a.place x) = _
      rw [List.mem_append, List.mem_singleton, h.queue]
      by_cases hx : x = e
      · subst hx; rw [if_pos rfl]; simp
      · rw [if_neg hx]; simp [hx]
    · intro k x
      show (if x = e then _ else a.place x) = _ ↔ _
      by_cases hx : x = e
      · subst hx; rw [if_pos rfl, hpe]; exact ⟨fun e => (by cases e), fun e => by cases e⟩
      · rw [if_neg hx]
    · intro u hut x
      show (if x = e then _ else a.place x) = _ ↔ _
      by_cases hx : x = e
      · subst hx; rw [if_pos rfl, hpe]; exact ⟨fun e => (by cases e), fun e => by cases e⟩
      · rw [if_neg hx]
    · intro x
      show ¬ (if x = e then _ else a.place x) = _
      split
      · exact fun e => by cases e
      · exact hthis x
  | cas1Done t e n a' i hu hn =>
    have := hk t; rw [hu] at this
    obtain ⟨rfl, hi, _⟩ := this
    exact ⟨a, .internal t, inv_move hcap h t _ rfl rfl rfl rfl rfl rfl rfl rfl (by rw [hu]; rfl) (not_handed h hu rfl) ((h.node i hi.1 n none hn).2.mpr rfl)⟩
  | cas1Read t e n a' i hu hn =>
    have := hk t; rw [hu] at this
    obtain ⟨rfl, hi, hsr⟩ := this
    refine ⟨a, .internal t, inv_move hcap h t _ rfl rfl rfl rfl rfl rfl rfl rfl (by rw [hu]; rfl) (not_handed h hu rfl) ⟨rfl, hi, ?_, hsr⟩⟩
    obtain ⟨_, m, x, e1, _⟩ := hi
    rw [e1]; exact fun e => by cases e
  | cas2Ok t e n a' i m x hu hn =>
    have := hk t; rw [hu] at this
    obtain ⟨rfl, ⟨hi, m', x', e1, e2⟩, _⟩ := this
    rw [hn] at e1
    cases e1
    obtain ⟨⟨L, h1, h2, h3⟩, h4⟩ := h.node i hi m x hn
    have hth := not_handed h hu rfl
    have hnew : ∀ y, (if a.place y = .asleep (key n) then Place.handed t else a.place y) = .handed t ↔ a.place y = .asleep (key n) := fun y => by
      split
      · rename_i hy; exact ⟨fun _ => hy, fun _ => rfl⟩
      · rename_i hy; exact ⟨fun e => absurd e (hth y), fun e => absurd e hy⟩
    refine ⟨_, .woke t (key n), inv_node hcap h t (.leave .del e n x) n i none hi rfl (Or.inl ⟨m, _, hn, e2⟩)
      (fun x => woke_iff (fun e => (by cases e)) (fun e => (by cases e)))
      (fun y u => (woke_iff (fun e => (by cases e)) (fun e => (by cases e))).trans (held_same h t (.leave .del e n x) (by rw [hu]; rfl) y u)) ?_
      (fun k x hne => woke_iff (fun e => (by cases e; exact hne rfl)) (fun e => (by cases e))) (fun k hne => if_neg hne)
      (fun u hut x => woke_iff (fun e => (by cases e)) (fun e => (by cases e; exact hut rfl))) (fun _ => if_pos rfl) ?_ (fun _ => if_pos rfl)⟩
    · refine ⟨⟨[], rfl, List.nodup_nil, fun y => ?_⟩, ⟨fun _ => rfl, fun _ => if_pos rfl⟩⟩
      show y ∈ [] ↔ (if a.place y = _ then _ else a.place y) = _
      split
      · exact ⟨fun e => (by cases e), fun e => (by cases e)⟩
      · rename_i hy; exact ⟨fun e => (by cases e), fun e => absurd e hy⟩
    · cases x with
      | none =>
        intro y hy
        have h5 := (h3 y).mpr (by rw [e2]; exact (hnew y).mp hy)
        cases h1
        cases h5
      | some z => exact ⟨L, h1, h2, fun y => (h3 y).trans (by rw [e2]; exact (hnew y).symm)⟩
  | cas2Fail t e n a' i c hu hn =>
    have := hk t; rw [hu] at this
    exact ⟨a, .internal t, inv_move hcap h t _ rfl rfl rfl rfl rfl rfl rfl rfl (by rw [hu]; rfl) (not_handed h hu rfl) ⟨fun e => (by cases e), this.2.2.2⟩⟩
  | leaveAdd t e n r hu => exact ⟨a, .internal t, inv_move hcap h t .idle rfl rfl rfl rfl rfl rfl rfl rfl (by rw [hu]; rfl) (not_handed h hu rfl) trivial⟩
  | leaveNone t e n hu =>
    have := hk t; rw [hu] at this
    exact ⟨a, .internal t, inv_move hcap h t (.done e n) rfl rfl rfl rfl rfl rfl rfl rfl (by rw [hu]; rfl) (not_handed h hu rfl) this⟩
  | leaveSome t e n x hu =>
    have := hk t; rw [hu] at this
    have h2 := hh t; rw [hu] at h2
    obtain ⟨L, h3, h4, h5⟩ := h2
    refine ⟨a, .internal t, inv_move hcap h t (.walk e n x [x]) rfl rfl rfl rfl rfl rfl rfl rfl (by rw [hu]; rfl) ?_ this⟩
    obtain ⟨T, rfl, hT⟩ := h3
    exact ⟨T, ⟨T, rfl, hT⟩, h4, by simp, h5⟩
  | walk t e n l x seen hu hn =>
    have := hk t; rw [hu] at this
    have h2 := hh t; rw [hu] at h2
    obtain ⟨rest, ⟨T, hT, hl⟩, h4, h5, h6⟩ := h2
    cases hT
    refine ⟨a, .internal t, inv_move hcap h t (.walk e n x (seen ++ [x])) rfl rfl rfl rfl rfl rfl rfl rfl (by rw [hu]; rfl) ?_ this⟩
    cases rest with
    | nil => have h7 : s.next l = none := hl; rw [hn] at h7; cases h7
    | cons y rest =>
      obtain ⟨h7, h8⟩ := hl
      rw [hn] at h7
      cases h7
      exact ⟨rest, ⟨rest, rfl, h8⟩, by simpa using h4, by simp, by simpa using h6⟩
  | walkEnd t e n l seen hu hn =>
    have := hk t; rw [hu] at this
    have h2 := hh t; rw [hu] at h2
    obtain ⟨rest, ⟨T, hT, hl⟩, h4, h5, h6⟩ := h2
    cases hT
    refine ⟨a, .internal t, inv_move hcap h t (.append e n seen) rfl rfl rfl rfl rfl rfl rfl rfl (by rw [hu]; rfl) ?_ this⟩
    cases rest with
    | nil => exact ⟨by simpa using h4, by simpa using h6⟩
    | cons y rest => have h7 := hl.1; rw [hn] at h7; cases h7
  | append t e n es hu =>
    have hkn := hk t; rw [hu] at hkn
    have h2 := hh t; rw [hu] at h2
    obtain ⟨hnd, hmem⟩ := h2
    replace hmem : ∀ x, x ∈ es ↔ a.place x = .handed t := hmem
    have pl : ∀ (x : Nat) (q : Place), q ≠ .queue → q ≠ .handed t → ((if a.place x = .handed t then Place.queue else a.place x) = q ↔ a.place x = q) := by
      intro x q h1 h2
      split
      · rename_i h3; rw [h3]; exact ⟨fun e => absurd e.symm h1, fun e => absurd e.symm h2⟩
      · exact Iff.rfl
    refine ⟨_, .queued t es hnd hmem, inv_frame hcap h t (.done e n) rfl rfl rfl rfl rfl rfl ?_ ?_ ?_ (fun _ _ => rfl) ?_ ?_ rfl ?_ hkn⟩
    · exact List.nodup_append.mpr ⟨h.queueNodup, hnd, fun x hx y hy e' => by
        subst e'; rw [h.queue] at hx; have hy := (hmem x).mp hy; rw [hx] at hy; cases hy⟩
    · intro x
      show x ∈ s.queue ++ es ↔ (if a.place x = .handed t then Place.queue else a.place x) = _
      rw [List.mem_append, h.queue, hmem]
      split
      · rename_i hx; exact ⟨fun _ => rfl, fun _ => Or.inr hx⟩
      · rename_i hx; exact ⟨fun e => e.resolve_right hx, Or.inl⟩
    · intro x u
      exact (pl x (.held u) (fun e => by cases e) (fun e => by cases e)).trans (held_same h t (.done e n) (by rw [hu]; rfl) x u)
    · intro k x; exact pl x _ (fun e => by cases e) (fun e => by cases e)
    · intro u hut x; exact pl x _ (fun e => by cases e) (fun e' => by cases e'; exact hut rfl)
    · intro x
      show ¬ (if a.place x = .handed t then Place.queue else a.place x) = _
      split
      · exact fun e => by cases e
      · assumption
  | done t e n hu =>
    have := hk t; rw [hu] at this
    exact ⟨a, .awake t _ this (not_handed h hu rfl), inv_move hcap h t (.work e) rfl rfl rfl rfl rfl rfl rfl rfl (by rw [hu]; rfl) (not_handed h hu rfl) trivial⟩

theorem initial_inv (key hash : Nat → Nat) (cap : Nat) {es : List Nat} (hes : es.Nodup) :
    Inv key hash cap (initial cap es) { place := fun x => if x ∈ es then .queue else .gone, declared := fun _ => false } := by
  have pl : ∀ (x : Nat) (q : Place), q ≠ .queue → q ≠ .gone → (if x ∈ es then Place.queue else .gone) ≠ q := by
    intro x q h1 h2; split
    · exact Ne.symm h1
    · exact Ne.symm h2
  refine ⟨rfl, rfl, rfl, fun _ => rfl, fun p k v _ h => (by cases h), hes, fun e => ?_, fun e t => ?_, fun p _ n h e => (by cases e), fun k _ => ⟨rfl, fun e => pl e _ (fun h => by cases h) (fun h => by cases h)⟩, fun t x => pl x _ (fun h => by cases h) (fun h => by cases h), fun t => trivial⟩
  · show e ∈ es ↔ (if e ∈ es then Place.queue else .gone) = _
    split
    · rename_i h; exact ⟨fun _ => rfl, fun _ => h⟩
    · rename_i h; exact ⟨fun e => absurd e h, fun e => by cases e⟩
  · exact ⟨fun h => absurd h (pl e _ (fun h => by cases h) (fun h => by cases h)), fun h => by cases h⟩

theorem exec_inv {key hash : Nat → Nat} {cap : Nat} (hcap : 0 < cap) {es : List Nat} (hes : es.Nodup) {evs : List Event} {s : State} (h : Exec key hash cap es evs s)
    (hng : ∀ t, Event.grow t ∉ evs) : ∃ a, Spec.Sleep.Exec es evs a ∧ Inv key hash cap s a := by
  induction h with
  | nil => exact ⟨_, .nil, initial_inv key hash cap hes⟩
  | snoc evs s e s' _ hs ih =>
    obtain ⟨a, h1, h2⟩ := ih (fun t ht => hng t (List.mem_append_left _ ht))
    obtain ⟨a', h3, h4⟩ := inv_step hcap h2 hs (fun t e' => hng t (by rw [e']; simp))
    exact ⟨a', .snoc _ _ _ _ h1 h3, h4⟩

/-- C29: whatever the threads do, it is something the specification allows: nothing is put to sleep on
a declared name, whoever declares a name takes everything that sleeps on it, and puts each of these
into the queue once before the call returns. -/
theorem C29_refines_partial {key hash : Nat → Nat} {cap : Nat} (hcap : 0 < cap) {es : List Nat} (hes : es.Nodup) {evs : List Event} {s : State}
    (h : Exec key hash cap es evs s) (hng : ∀ t, Event.grow t ∉ evs) : ∃ a, Spec.Sleep.Exec es evs a :=
  (exec_inv hcap hes h hng).imp fun _ h => h.1

/-- What holds in the specification. -/
structure SpecInv (es : List Nat) (evs : List Event) (a : Abs) : Prop where
  gone : ∀ e ∈ es, a.place e = .gone → ∃ t, Event.finish t e ∈ evs
  asleep : ∀ e k, a.place e = .asleep k → a.declared k = false ∧ ∃ t, Event.sleep t e k ∈ evs
  awake : ∀ t k, Event.awake t k ∈ evs → a.declared k = true

theorem specInv {es : List Nat} {evs : List Event} {a : Abs} (h : Spec.Sleep.Exec es evs a) : SpecInv es evs a := by
  induction h with
  | nil =>
    refine ⟨fun e he hg => ?_, fun e k hk => ?_, fun t k hm => (by cases hm)⟩
    · simp only [if_pos he] at hg; cases hg
    · simp only at hk; split at hk <;> cases hk
  | snoc evs a ev a' _ hs ih =>
    have aw : (∀ k, a.declared k = true → a'.declared k = true) → (∀ t k, ev = .awake t k → a'.declared k = true) → ∀ t k, Event.awake t k ∈ evs ++ [ev] → a'.declared k = true := by
      intro h1 h2 t k hm
      rw [List.mem_append, List.mem_singleton] at hm
      rcases hm with hm | hm
      · exact h1 k (ih.awake t k hm)
      · exact h2 t k hm.symm
    have old : ∀ {x}, x ∈ evs → x ∈ evs ++ [ev] := fun h => List.mem_append_left _ h
    have new : ev ∈ evs ++ [ev] := by simp
    have put : ∀ (e : Nat) (q : Place), a' = a.put e q → (q = .gone → ∃ t, Event.finish t e ∈ evs ++ [ev]) → (∀ k, q = .asleep k → a.declared k = false ∧ ∃ t, Event.sleep t e k ∈ evs ++ [ev]) →
        (∀ t k, ev ≠ .awake t k) → SpecInv es (evs ++ [ev]) a' := by
      intro e q ha hgone hasl hne
      subst ha
      refine ⟨fun x hx hg => ?_, fun x k hk => ?_, aw (fun _ h => h) (fun t k e => absurd e (hne t k))⟩
      · simp only [Abs.put] at hg
        split at hg
        · rename_i hxe; subst hxe; exact hgone hg
        · exact (ih.gone x hx hg).imp fun _ => old
      · simp only [Abs.put] at hk
        split at hk
        · rename_i hxe; subst hxe; exact hasl k hk
        · exact ⟨(ih.asleep x k hk).1, (ih.asleep x k hk).2.imp fun _ => old⟩
    cases hs with
    | take t e hp => exact put e _ rfl (fun e => by cases e) (fun k e => by cases e) (fun t k e => by cases e)
    | finish t e hp => exact put e _ rfl (fun _ => ⟨t, new⟩) (fun k e => by cases e) (fun t k e => by cases e)
    | sleep t e k hp hd => exact put e _ rfl (fun e => by cases e) (fun k e => by cases e; exact ⟨hd, t, new⟩) (fun t k e => by cases e)
    | requeue t e k hp hd => exact put e _ rfl (fun e => by cases e) (fun k e => by cases e) (fun t k e => by cases e)
    | woke t k =>
      refine ⟨fun x hx hg => ?_, fun x k' hk => ?_, aw (fun k' h => ?_) (fun t k e => by cases e)⟩
      · simp only at hg
        split at hg
        · cases hg
        · exact (ih.gone x hx hg).imp fun _ => old
      · simp only at hk
        split at hk
        · cases hk
        · rename_i hne
          refine ⟨?_, (ih.asleep x k' hk).2.imp fun _ => old⟩
          show (if k' = k then true else a.declared k') = false
          rw [if_neg (show k' ≠ k from fun e => hne (by rw [hk, e]))]
          exact (ih.asleep x k' hk).1
      · show (if k' = k then true else a.declared k') = true
        split
        · rfl
        · exact h
    | queued t L hnd hm =>
      refine ⟨fun x hx hg => ?_, fun x k' hk => ?_, aw (fun k' h => h) (fun t k e => by cases e)⟩
      · simp only at hg
        split at hg
        · cases hg
        · exact (ih.gone x hx hg).imp fun _ => old
      · simp only at hk
        split at hk
        · cases hk
        · exact ⟨(ih.asleep x k' hk).1, (ih.asleep x k' hk).2.imp fun _ => old⟩
    | awake t k hd hn =>
      exact ⟨fun x hx hg => (ih.gone x hx hg).imp fun _ => old, fun x k hk => ⟨(ih.asleep x k hk).1, (ih.asleep x k hk).2.imp fun _ => old⟩,
        aw (fun _ h => h) (fun t' k' e => by cases e; exact hd)⟩
    | grow t =>
      exact ⟨fun x hx hg => (ih.gone x hx hg).imp fun _ => old, fun x k hk => ⟨(ih.asleep x k hk).1, (ih.asleep x k hk).2.imp fun _ => old⟩,
        aw (fun _ h => h) (fun t' k' e => by cases e)⟩
    | internal t =>
      exact ⟨fun x hx hg => (ih.gone x hx hg).imp fun _ => old, fun x k hk => ⟨(ih.asleep x k hk).1, (ih.asleep x k hk).2.imp fun _ => old⟩,
        aw (fun _ h => h) (fun t' k' e => by cases e)⟩

/-- C29, no lost wake-ups: whenever all workers have stopped, every declaration is in the queue, or
finished, or it sleeps on a name that no completed call has declared. -/
theorem C29_no_lost_wakeup_partial {key hash : Nat → Nat} {cap : Nat} (hcap : 0 < cap) {es : List Nat} (hes : es.Nodup) {evs : List Event} {s : State}
    (h : Exec key hash cap es evs s) (hng : ∀ t, Event.grow t ∉ evs) (hidle : ∀ t, s.pc t = .idle) :
    ∀ e ∈ es, e ∈ s.queue ∨ (∃ t, Event.finish t e ∈ evs) ∨ ∃ t k, Event.sleep t e k ∈ evs ∧ ∀ u, Event.awake u k ∉ evs := by
  obtain ⟨a, h1, h2⟩ := exec_inv hcap hes h hng
  have si := specInv h1
  intro e he
  cases hp : a.place e with
  | gone => exact Or.inr (Or.inl (si.gone e he hp))
  | queue => exact Or.inl ((h2.queue e).mpr hp)
  | held t => have := (h2.held e t).mp hp; rw [hidle] at this; cases this
  | handed t => have := h2.hand t; rw [hidle] at this; exact absurd hp (this e)
  | asleep k =>
    obtain ⟨h3, t, h4⟩ := si.asleep e k hp
    refine Or.inr (Or.inr ⟨t, k, h4, fun u hu => ?_⟩)
    rw [si.awake u k hu] at h3
    cases h3

/-- The number of times `e` was put to sleep. -/
def sleeps (evs : List Event) (e : Nat) : Nat := evs.countP fun | .sleep _ x _ => x = e | _ => false

/-- The number of times `e` was put into the queue after having slept. -/
def wakes (evs : List Event) (e : Nat) : Nat := (evs.map fun | .queued _ xs => xs.count e | _ => 0).sum

theorem counts {es : List Nat} {evs : List Event} {a : Abs} (h : Spec.Sleep.Exec es evs a) (e : Nat) :
    sleeps evs e = wakes evs e + (match a.place e with | .asleep _ | .handed _ => 1 | _ => 0) := by
  induction h with
  | nil => by_cases h : e ∈ es <;> simp [sleeps, wakes, h]
  | snoc evs a ev a' _ hs ih =>
    have e1 : sleeps (evs ++ [ev]) e = sleeps evs e + sleeps [ev] e := by simp [sleeps, List.countP_append]
    have e2 : wakes (evs ++ [ev]) e = wakes evs e + wakes [ev] e := by simp [wakes]
    rw [e1, e2, ih]
    cases hs with
    | take t x hp =>
      simp only [sleeps, wakes, Abs.put]
      by_cases hx : e = x
      · subst hx; simp [hp]
      · simp [hx]
    | finish t x hp =>
      simp only [sleeps, wakes, Abs.put]
      by_cases hx : e = x
      · subst hx; simp [hp]
      · simp [hx]
    | sleep t x k hp hd =>
      simp only [sleeps, wakes, Abs.put]
      by_cases hx : e = x
      · subst hx; simp [hp]
      · simp [hx, Ne.symm hx]
    | requeue t x k hp hd =>
      simp only [sleeps, wakes, Abs.put]
      by_cases hx : e = x
      · subst hx; simp [hp]
      · simp [hx]
    | woke t k =>
      simp only [sleeps, wakes]
      by_cases hx : a.place e = .asleep k
      · simp [hx]
      · simp [hx]
    | queued t L hnd hm =>
      simp only [sleeps, wakes]
      by_cases hx : a.place e = .handed t
      · have : L.count e = 1 := List.count_eq_one_of_mem hnd ((hm e).mpr hx)
        simp [hx, this]
      · have : L.count e = 0 := List.count_eq_zero_of_not_mem (fun h => hx ((hm e).mp h))
        simp [hx, this]
    | awake t k hd hn => simp [sleeps, wakes]
    | grow t => simp [sleeps, wakes]
    | internal t => simp [sleeps, wakes]

/-- C29, woken once: a declaration comes out of its sleep once for every time it was put to sleep,
except for the last time if it still sleeps. -/
theorem C29_woken_once_partial {key hash : Nat → Nat} {cap : Nat} (hcap : 0 < cap) {es : List Nat} (hes : es.Nodup) {evs : List Event} {s : State}
    (h : Exec key hash cap es evs s) (hng : ∀ t, Event.grow t ∉ evs) (e : Nat) : wakes evs e ≤ sleeps evs e ∧ sleeps evs e ≤ wakes evs e + 1 := by
  obtain ⟨a, h1, _⟩ := exec_inv hcap hes h hng
  have := counts h1 e
  split at this <;> omega

/-- C29: once the call that declares a name has returned, nothing ever sleeps on that name. -/
theorem C29_nothing_sleeps_on_declared_partial {key hash : Nat → Nat} {cap : Nat} (hcap : 0 < cap) {es : List Nat} (hes : es.Nodup) {evs : List Event} {s : State}
    (h : Exec key hash cap es evs s) (hng : ∀ t, Event.grow t ∉ evs) {u k : Nat} (hk : Event.awake u k ∈ evs) {p n : Nat} {x : Option Nat} (hp : p < cap)
    (hn : s.arrays 0 p = some (n, x)) (hkey : key n = k) : x = none := by
  obtain ⟨a, h1, h2⟩ := exec_inv hcap hes h hng
  exact (h2.node p hp n x hn).2.mp (by rw [hkey]; exact (specInv h1).awake u k hk)

/-! ### The table does not grow while there are few names -/

/-- The worker has made a node and not counted it. -/
def counting : PC → Bool
  | .count _ _ _ => true
  | _ => false

/-- Points that are only reached when the table is full. -/
def tooFull : PC → Bool
  | .lock _ _ _ => true
  | p => growing p

/-- `out` are the threads that have made a node and not counted it. -/
structure CInv (key : Nat → Nat) (cap : Nat) (s : State) (out : List Nat) : Prop where
  nodup : out.Nodup
  mem : ∀ t, t ∈ out ↔ counting (s.pc t) = true
  count : s.amount + out.length = (occupied cap (view key (s.arrays 0))).card
  calm : ∀ t, tooFull (s.pc t) = false

theorem cinv_move {key : Nat → Nat} {cap : Nat} {s s' : State} {out : List Nat} (h : CInv key cap s out) (t : Nat) (p : PC) (hpc : s'.pc = (s.goto t p).pc)
    (ham : s'.amount = s.amount) (harr : view key (s'.arrays 0) = view key (s.arrays 0)) (hold : counting (s.pc t) = false) (hp : counting p = false) (hf : tooFull p = false) : CInv key cap s' out := by
  refine ⟨h.nodup, fun u => ?_, by rw [ham, harr]; exact h.count, fun u => ?_⟩
  · rw [h.mem, hpc, goto_pc]
    by_cases e : u = t
    · rw [if_pos e, hp, e, hold]
    · rw [if_neg e]
  · rw [hpc, goto_pc]; split
    · exact hf
    · exact h.calm u

theorem cinv_claim {key : Nat → Nat} {cap : Nat} {s : State} {out : List Nat} (h : CInv key cap s out) (t : Nat) (o : Op) (e n i : Nat) (x : Option Nat) (hi : i < cap)
    (hn : s.arrays 0 i = none) (hold : counting (s.pc t) = false) : CInv key cap ((s.setNode 0 i (some (n, x))).goto t (.count o e n)) (t :: out) := by
  have hnot : t ∉ out := fun hm => by have := (h.mem t).mp hm; rw [hold] at this; cases this
  refine ⟨List.nodup_cons.mpr ⟨hnot, h.nodup⟩, fun u => ?_, ?_, fun u => ?_⟩
  · rw [List.mem_cons, h.mem, goto_pc]
    by_cases e : u = t
    · subst e; simp [counting]
    · simp [e]; rfl
  · have harr : ((s.setNode 0 i (some (n, x))).goto t (.count o e n)).arrays 0 = fun j => if j = i then some (n, x) else s.arrays 0 j := rfl
    rw [harr, view_set, occupied_insert hi (by rw [view, hn]; rfl), ← h.count, List.length_cons]
    show s.amount + _ = _
    omega
  · rw [goto_pc]; split
    · rfl
    · exact h.calm u

theorem occupied_le {hash : Nat → Nat} {cap m : Nat} {nodes : Nat → Option (Nat × Nat)} (hc : Chain hash cap nodes) (hm : ∀ p k v, nodes p = some (k, v) → k < m) : (occupied cap nodes).card ≤ m := by
  have : (occupied cap nodes).card ≤ (Finset.range m).card := by
    apply Finset.card_le_card_of_injOn (fun p => ((nodes p).getD (0, 0)).1)
    · intro p hp
      simp only [occupied, Finset.coe_filter, Set.mem_ofPred_eq] at hp
      obtain ⟨kv, hkv⟩ := Option.isSome_iff_exists.mp hp.2
      simp only [hkv, Option.getD_some, Finset.coe_range, Set.mem_Iio]
      exact hm p kv.1 kv.2 hkv
    · intro p hp q hq he
      simp only [occupied, Finset.coe_filter, Set.mem_ofPred_eq, Finset.mem_range] at hp hq
      obtain ⟨kv, hkv⟩ := Option.isSome_iff_exists.mp hp.2
      obtain ⟨kw, hkw⟩ := Option.isSome_iff_exists.mp hq.2
      simp only [hkv, hkw, Option.getD_some] at he
      exact hc.inj hp.1 hq.1 (show nodes p = some (kv.1, kv.2) from hkv) (show nodes q = some (kv.1, kw.2) by rw [he]; exact hkw)
  rwa [Finset.card_range] at this

theorem cinv_exec {key hash : Nat → Nat} {cap : Nat} (hcap : 0 < cap) {es : List Nat} (hes : es.Nodup) {evs : List Event} {s : State} (h : Exec key hash cap es evs s)
    {m : Nat} (hkey : ∀ n, key n < m) (hm : m < cap / 2) : (∃ out, CInv key cap s out) ∧ ∀ t, Event.grow t ∉ evs := by
  induction h with
  | nil =>
    refine ⟨⟨[], by simp, fun t => by simp [initial, counting], ?_, fun t => rfl⟩, by simp⟩
    simp [initial, occupied, view]
  | snoc evs s ev s' hex hs ih =>
    obtain ⟨⟨out, h⟩, hng⟩ := ih
    obtain ⟨a, _, hinv⟩ := exec_inv hcap hes hex hng
    have bad : ∀ t p, s.pc t = p → tooFull p = true → False := fun t p hp hg => by
      have := h.calm t; rw [hp, hg] at this; cases this
    have nogrow : ∀ t, ev ≠ .grow t := fun t ht => by
      subst ht
      cases hs with
      | lockOk t o e n hu hl => exact bad _ _ hu rfl
    refine ⟨?_, fun t ht => by
      rw [List.mem_append, List.mem_singleton] at ht
      rcases ht with ht | ht
      · exact hng t ht
      · exact nogrow t ht.symm⟩
    have same : ∀ t, s.pc = (s.goto t (s.pc t)).pc := fun t => by
      funext u; rw [goto_pc]; split
      · rename_i e; rw [e]
      · rfl
    have hk := hinv.knows
    cases hs with
    | take t e rest hu hq => exact ⟨out, cinv_move h t (.work e) rfl rfl rfl (by rw [hu]; rfl) rfl rfl⟩
    | link t e v he => exact ⟨out, h.nodup, h.mem, h.count, h.calm⟩
    | finish t e hu => exact ⟨out, cinv_move h t .idle rfl rfl rfl (by rw [hu]; rfl) rfl rfl⟩
    | goSleep t e n hu => exact ⟨out, cinv_move h t (.start .add e n) rfl rfl rfl (by rw [hu]; rfl) rfl rfl⟩
    | goWake t e n hu => exact ⟨out, cinv_move h t (.start .del e n) rfl rfl rfl (by rw [hu]; rfl) rfl rfl⟩
    | locked t o e n hu hl => exact ⟨out, h⟩
    | start t o e n hu hl => exact ⟨out, cinv_move h t (.check o e n) rfl rfl rfl (by rw [hu]; rfl) rfl rfl⟩
    | checkFull t o e n hu hl =>
      have h1 := h.count
      have h2 := occupied_le (m := m) hinv.chain (fun p k v hp => by
        simp only [view, Option.map_eq_some_iff] at hp
        obtain ⟨x, _, hx⟩ := hp
        cases hx
        exact hkey _)
      simp only [State.full] at hl
      rw [hinv.capEq] at hl
      omega
    | checkOk t o e n hu hl => exact ⟨out, cinv_move h t (.enter o e n) rfl rfl rfl (by rw [hu]; rfl) rfl rfl⟩
    | lockOk t o e n hu hl => exact absurd (bad _ _ hu rfl) id
    | lockFail t o e n hu hl => exact absurd (bad _ _ hu rfl) id
    | recheckFull t o e n hu hl => exact absurd (bad _ _ hu rfl) id
    | recheckOk t o e n hu hl => exact absurd (bad _ _ hu rfl) id
    | waitMore t o e n hu hl => exact absurd (bad _ _ hu rfl) id
    | waitDone t o e n hu hl => exact absurd (bad _ _ hu rfl) id
    | swap t o e n hu => exact absurd (bad _ _ hu rfl) id
    | move t o e n old oc i hu hl => exact absurd (bad _ _ hu rfl) id
    | moveDone t o e n old oc i hu hl => exact absurd (bad _ _ hu rfl) id
    | unlock t o e n hu => exact absurd (bad _ _ hu rfl) id
    | enter t o e n hu => exact ⟨out, cinv_move h t (.index o e n) rfl rfl rfl (by rw [hu]; rfl) rfl rfl⟩
    | indexAdd t e n hu => exact ⟨out, cinv_move h t (.probe .add e n (hash (key n) % s.cap)) rfl rfl rfl (by rw [hu]; rfl) rfl rfl⟩
    | indexDel t e n hu => exact ⟨out, cinv_move h t (.probe .del e n (hash (key n) % s.cap)) rfl rfl rfl (by rw [hu]; rfl) rfl rfl⟩
    | probeFree t o e n i hu hn => exact ⟨out, cinv_move h t (.claim o e n s.current i) rfl rfl rfl (by rw [hu]; rfl) rfl rfl⟩
    | probeOther t o e n i x hu hn hne => exact ⟨out, cinv_move h t (.probe o e n ((i + 1) % s.cap)) rfl rfl rfl (by rw [hu]; rfl) rfl rfl⟩
    | probeAdd t e n i x hu hn he => exact ⟨out, cinv_move h t (.load e n s.current i) rfl rfl rfl (by rw [hu]; rfl) rfl rfl⟩
    | probeDel t e n i x hu hn he => exact ⟨out, cinv_move h t (.cas1 e n s.current i) rfl rfl rfl (by rw [hu]; rfl) rfl rfl⟩
    | claimAdd t e n a' i hu hn =>
      have := hk t; rw [hu] at this
      obtain ⟨_, rfl, off, hi, _⟩ := this
      exact ⟨_, cinv_claim h t .add e n i (some e) (by rw [hi]; exact Nat.mod_lt _ hcap) hn (by rw [hu]; rfl)⟩
    | claimDel t e n a' i hu hn =>
      have := hk t; rw [hu] at this
      obtain ⟨_, rfl, off, hi, _⟩ := this
      exact ⟨_, cinv_claim h t .del e n i none (by rw [hi]; exact Nat.mod_lt _ hcap) hn (by rw [hu]; rfl)⟩
    | claimFail t o e n a' i x hu hn => exact ⟨out, cinv_move h t (.probe o e n i) rfl rfl rfl (by rw [hu]; rfl) rfl rfl⟩
    | count t o e n hu =>
      have hmem := (h.mem t).mpr (by rw [hu]; rfl)
      have hlen := List.length_erase_of_mem hmem
      have hpos := List.length_pos_of_mem hmem
      have hc := h.count
      refine ⟨out.erase t, h.nodup.erase t, fun u => ?_, ?_, fun u => ?_⟩
      · rw [h.nodup.mem_erase_iff, h.mem]
        show _ ↔ counting ((s.goto t (.leave o e n none)).pc u) = true
        rw [goto_pc]
        by_cases e : u = t
        · subst e; simp [counting]
        · simp [e]
      · show s.amount + 1 + _ = (occupied cap (view key (s.arrays 0))).card
        omega
      · show tooFull ((s.goto t (.leave o e n none)).pc u) = false
        rw [goto_pc]; split
        · rfl
        · exact h.calm u
    | loadDeleted t e n a' i m hu hn => exact ⟨out, cinv_move h t (.requeue e n) rfl rfl rfl (by rw [hu]; rfl) rfl rfl⟩
    | loadSleeper t e n a' i m x hu hn => exact ⟨out, cinv_move h t (.push e n a' i x) rfl rfl rfl (by rw [hu]; rfl) rfl rfl⟩
    | pushOk t e n a' i m x hu hn =>
      have := hk t; rw [hu] at this
      obtain ⟨rfl, _⟩ := this
      exact ⟨out, cinv_move h t (.leave .add e n none) rfl rfl (view_same hn rfl) (by rw [hu]; rfl) rfl rfl⟩
    | pushFail t e n a' i x m x' hu hn hne => exact ⟨out, cinv_move h t (.load e n a' i) rfl rfl rfl (by rw [hu]; rfl) rfl rfl⟩
    | requeue t e n hu => exact ⟨out, cinv_move h t (.leave .add e n none) rfl rfl rfl (by rw [hu]; rfl) rfl rfl⟩
    | cas1Done t e n a' i hu hn => exact ⟨out, cinv_move h t (.leave .del e n none) rfl rfl rfl (by rw [hu]; rfl) rfl rfl⟩
    | cas1Read t e n a' i hu hn => exact ⟨out, cinv_move h t (.cas2 e n a' i (s.arrays a' i)) rfl rfl rfl (by rw [hu]; rfl) rfl rfl⟩
    | cas2Ok t e n a' i m x hu hn =>
      have := hk t; rw [hu] at this
      obtain ⟨rfl, ⟨_, m', x', e1, e2⟩, _⟩ := this
      rw [hn] at e1
      cases e1
      exact ⟨out, cinv_move h t (.leave .del e n x) rfl rfl (view_same hn e2) (by rw [hu]; rfl) rfl rfl⟩
    | cas2Fail t e n a' i c hu hn => exact ⟨out, cinv_move h t (.probe .del e n i) rfl rfl rfl (by rw [hu]; rfl) rfl rfl⟩
    | leaveAdd t e n r hu => exact ⟨out, cinv_move h t .idle rfl rfl rfl (by rw [hu]; rfl) rfl rfl⟩
    | leaveNone t e n hu => exact ⟨out, cinv_move h t (.done e n) rfl rfl rfl (by rw [hu]; rfl) rfl rfl⟩
    | leaveSome t e n x hu => exact ⟨out, cinv_move h t (.walk e n x [x]) rfl rfl rfl (by rw [hu]; rfl) rfl rfl⟩
    | walk t e n l x seen hu hn => exact ⟨out, cinv_move h t (.walk e n x (seen ++ [x])) rfl rfl rfl (by rw [hu]; rfl) rfl rfl⟩
    | walkEnd t e n l seen hu hn => exact ⟨out, cinv_move h t (.append e n seen) rfl rfl rfl (by rw [hu]; rfl) rfl rfl⟩
    | append t e n xs hu => exact ⟨out, cinv_move h t (.done e n) rfl rfl rfl (by rw [hu]; rfl) rfl rfl⟩
    | done t e n hu => exact ⟨out, cinv_move h t (.work e) rfl rfl rfl (by rw [hu]; rfl) rfl rfl⟩

/-- C29 for programs with few names: if there are fewer names than half the nodes of the table, it
never grows, so no wake-up is lost. -/
theorem C29_no_lost_wakeup_few_names {key hash : Nat → Nat} {cap : Nat} (hcap : 0 < cap) {es : List Nat} (hes : es.Nodup) {evs : List Event} {s : State}
    (h : Exec key hash cap es evs s) {m : Nat} (hkey : ∀ n, key n < m) (hm : m < cap / 2) (hidle : ∀ t, s.pc t = .idle) :
    ∀ e ∈ es, e ∈ s.queue ∨ (∃ t, Event.finish t e ∈ evs) ∨ ∃ t k, Event.sleep t e k ∈ evs ∧ ∀ u, Event.awake u k ∉ evs :=
  C29_no_lost_wakeup_partial hcap hes h (cinv_exec hcap hes h hkey hm).2 hidle

/-! ### What goes wrong when the table grows -/

/-- What a worker that has a declaration does next. -/
inductive Choice
  | finish
  | sleep (n : Nat)
  | wake (n : Nat)
deriving DecidableEq

/-- The step thread `t` takes. -/
def next (key hash : Nat → Nat) (s : State) (t : Nat) (c : Choice) : Option (Event × State) :=
  match s.pc t with
  | .idle => match s.queue with
    | [] => none
    | e :: rest => some (.take t e, { s.goto t (.work e) with queue := rest })
  | .work e => match c with
    | .finish => some (.finish t e, s.goto t .idle)
    | .sleep n => some (.internal t, s.goto t (.start .add e n))
    | .wake n => some (.internal t, s.goto t (.start .del e n))
  | .start o e n => if s.locked then some (.internal t, s) else some (.internal t, s.goto t (.check o e n))
  | .check o e n => if s.full then some (.internal t, s.goto t (.lock o e n)) else some (.internal t, s.goto t (.enter o e n))
  | .lock o e n => if s.locked then some (.internal t, s.goto t (.start o e n)) else some (.grow t, { s.goto t (.recheck o e n) with locked := true })
  | .recheck o e n => if s.full then some (.internal t, s.goto t (.wait o e n)) else some (.internal t, s.goto t (.unlock o e n))
  | .wait o e n => if s.inFlight = 0 then some (.internal t, s.goto t (.swap o e n)) else some (.internal t, s)
  | .swap o e n => some (.internal t, { s.goto t (.move o e n s.current s.cap 0) with
      cap := s.cap * 2, current := s.current + 1, arrays := fun a => if a = s.current + 1 then fun _ => none else s.arrays a })
  | .move o e n old oldCap i => if i < oldCap then
      some (.internal t, { s.goto t (.move o e n old oldCap (i + 1)) with
        arrays := fun a => if a = s.current then
          (match s.arrays old i with
            | none => s.arrays a
            | some x => place (s.arrays a) s.cap (some x) (hash (key x.1)) s.cap) else s.arrays a })
      else some (.internal t, s.goto t (.unlock o e n))
  | .unlock o e n => some (.internal t, { s.goto t (.enter o e n) with locked := false })
  | .enter o e n => some (.internal t, { s.goto t (.index o e n) with inFlight := s.inFlight + 1 })
  | .index .add e n => some (.internal t, (s.setNext e none).goto t (.probe .add e n (hash (key n) % s.cap)))
  | .index .del e n => some (.internal t, s.goto t (.probe .del e n (hash (key n) % s.cap)))
  | .probe o e n i => match s.arrays s.current i with
    | none => some (.internal t, s.goto t (.claim o e n s.current i))
    | some x => if key x.1 = key n then
        (match o with
          | .add => some (.internal t, s.goto t (.load e n s.current i))
          | .del => some (.internal t, s.goto t (.cas1 e n s.current i)))
      else some (.internal t, s.goto t (.probe o e n ((i + 1) % s.cap)))
  | .claim o e n a i => match s.arrays a i with
    | none => match o with
      | .add => some (.sleep t e (key n), (s.setNode a i (some (n, some e))).goto t (.count .add e n))
      | .del => some (.woke t (key n), (s.setNode a i (some (n, none))).goto t (.count .del e n))
    | some _ => some (.internal t, s.goto t (.probe o e n i))
  | .count o e n => some (.internal t, { s.goto t (.leave o e n none) with amount := s.amount + 1 })
  | .load e n a i => match s.arrays a i with
    | none => none
    | some (_, none) => some (.internal t, s.goto t (.requeue e n))
    | some (_, some h) => some (.internal t, (s.setNext e (some h)).goto t (.push e n a i h))
  | .push e n a i h => match s.arrays a i with
    | none => none
    | some (m, h') => if h' = some h then some (.sleep t e (key n), (s.setNode a i (some (m, some e))).goto t (.leave .add e n none))
      else some (.internal t, s.goto t (.load e n a i))
  | .requeue e n => some (.requeue t e (key n), { s.goto t (.leave .add e n none) with queue := s.queue ++ [e] })
  | .cas1 e n a i => if s.arrays a i = some (n, none) then some (.internal t, s.goto t (.leave .del e n none)) else some (.internal t, s.goto t (.cas2 e n a i (s.arrays a i)))
  | .cas2 e n a i c => if s.arrays a i = c then
      (match c with
        | none => none
        | some (_, h) => some (.woke t (key n), (s.setNode a i (some (n, none))).goto t (.leave .del e n h)))
      else some (.internal t, s.goto t (.probe .del e n i))
  | .leave .add _ _ _ => some (.internal t, { s.goto t .idle with inFlight := s.inFlight - 1 })
  | .leave .del e n none => some (.internal t, { s.goto t (.done e n) with inFlight := s.inFlight - 1 })
  | .leave .del e n (some h) => some (.internal t, { s.goto t (.walk e n h [h]) with inFlight := s.inFlight - 1 })
  | .walk e n l seen => match s.next l with
    | some x => some (.internal t, s.goto t (.walk e n x (seen ++ [x])))
    | none => some (.internal t, s.goto t (.append e n seen))
  | .append e n es => some (.queued t es, { s.goto t (.done e n) with queue := s.queue ++ es })
  | .done e n => some (.awake t (key n), s.goto t (.work e))


theorem next_step {key hash : Nat → Nat} {s : State} {t : Nat} {c : Choice} {r : Event × State} (h : next key hash s t c = some r) : Step key hash s r.1 r.2 := by
  unfold next at h
  cases hp : s.pc t with
  | idle =>
    simp only [hp] at h
    cases hq : s.queue with
    | nil => simp [hq] at h
    | cons e rest => simp only [hq] at h; cases h; exact .take t e rest hp hq
  | work e =>
    simp only [hp] at h
    cases c with
    | finish => cases h; exact .finish t e hp
    | sleep n => cases h; exact .goSleep t e n hp
    | wake n => cases h; exact .goWake t e n hp
  | start o e n =>
    simp only [hp] at h
    split at h <;> cases h
    · rename_i hl; exact .locked t o e n hp hl
    · rename_i hl; exact .start t o e n hp (by simpa using hl)
  | check o e n =>
    simp only [hp] at h
    split at h <;> cases h
    · rename_i hl; exact .checkFull t o e n hp hl
    · rename_i hl; exact .checkOk t o e n hp hl
  | lock o e n =>
    simp only [hp] at h
    split at h <;> cases h
    · rename_i hl; exact .lockFail t o e n hp hl
    · rename_i hl; exact .lockOk t o e n hp (by simpa using hl)
  | recheck o e n =>
    simp only [hp] at h
    split at h <;> cases h
    · rename_i hl; exact .recheckFull t o e n hp hl
    · rename_i hl; exact .recheckOk t o e n hp hl
  | wait o e n =>
    simp only [hp] at h
    split at h <;> cases h
    · rename_i hl; exact .waitDone t o e n hp hl
    · rename_i hl; exact .waitMore t o e n hp hl
  | swap o e n => simp only [hp] at h; cases h; exact .swap t o e n hp
  | move o e n old oc i =>
    simp only [hp] at h
    split at h <;> cases h
    · rename_i hl; exact .move t o e n old oc i hp hl
    · rename_i hl; exact .moveDone t o e n old oc i hp hl
  | unlock o e n => simp only [hp] at h; cases h; exact .unlock t o e n hp
  | enter o e n => simp only [hp] at h; cases h; exact .enter t o e n hp
  | index o e n =>
    simp only [hp] at h
    cases o with
    | add => cases h; exact .indexAdd t e n hp
    | del => cases h; exact .indexDel t e n hp
  | probe o e n i =>
    simp only [hp] at h
    cases hn : s.arrays s.current i with
    | none => simp only [hn] at h; cases h; exact .probeFree t o e n i hp hn
    | some x =>
      simp only [hn] at h
      split at h
      · rename_i hk
        cases o with
        | add => cases h; exact .probeAdd t e n i x hp hn hk
        | del => cases h; exact .probeDel t e n i x hp hn hk
      · rename_i hk; cases h; exact .probeOther t o e n i x hp hn hk
  | claim o e n a i =>
    simp only [hp] at h
    cases hn : s.arrays a i with
    | none =>
      simp only [hn] at h
      cases o with
      | add => cases h; exact .claimAdd t e n a i hp hn
      | del => cases h; exact .claimDel t e n a i hp hn
    | some x => simp only [hn] at h; cases h; exact .claimFail t o e n a i x hp hn
  | count o e n => simp only [hp] at h; cases h; exact .count t o e n hp
  | load e n a i =>
    simp only [hp] at h
    cases hn : s.arrays a i with
    | none => simp [hn] at h
    | some x =>
      obtain ⟨m, x⟩ := x
      cases x with
      | none => simp only [hn] at h; cases h; exact .loadDeleted t e n a i m hp hn
      | some x => simp only [hn] at h; cases h; exact .loadSleeper t e n a i m x hp hn
  | push e n a i x =>
    simp only [hp] at h
    cases hn : s.arrays a i with
    | none => simp [hn] at h
    | some y =>
      obtain ⟨m, y⟩ := y
      simp only [hn] at h
      split at h <;> cases h
      · rename_i hy; exact .pushOk t e n a i m x hp (by rw [hn, hy])
      · rename_i hy; exact .pushFail t e n a i x m y hp hn hy
  | requeue e n => simp only [hp] at h; cases h; exact .requeue t e n hp
  | cas1 e n a i =>
    simp only [hp] at h
    split at h <;> cases h
    · rename_i hl; exact .cas1Done t e n a i hp hl
    · rename_i hl; exact .cas1Read t e n a i hp hl
  | cas2 e n a i c =>
    simp only [hp] at h
    split at h
    · rename_i hl
      cases c with
      | none => cases h
      | some x => obtain ⟨m, x⟩ := x; cases h; exact .cas2Ok t e n a i m x hp hl
    · rename_i hl; cases h; exact .cas2Fail t e n a i c hp hl
  | leave o e n r =>
    simp only [hp] at h
    cases o with
    | add => cases h; exact .leaveAdd t e n r hp
    | del =>
      cases r with
      | none => cases h; exact .leaveNone t e n hp
      | some r => cases h; exact .leaveSome t e n r hp
  | walk e n l seen =>
    simp only [hp] at h
    cases hn : s.next l with
    | none => simp only [hn] at h; cases h; exact .walkEnd t e n l seen hp hn
    | some x => simp only [hn] at h; cases h; exact .walk t e n l x seen hp hn
  | append e n es => simp only [hp] at h; cases h; exact .append t e n es hp
  | done e n => simp only [hp] at h; cases h; exact .done t e n hp

/-- Runs a schedule; a thread that cannot move does nothing. -/
def play (key hash : Nat → Nat) : List Event → State → List (Nat × Choice) → List Event × State
  | evs, s, [] => (evs, s)
  | evs, s, (t, c) :: rest => match next key hash s t c with
    | none => play key hash evs s rest
    | some r => play key hash (evs ++ [r.1]) r.2 rest

theorem play_exec {key hash : Nat → Nat} {cap : Nat} {es : List Nat} (sched : List (Nat × Choice)) :
    ∀ evs s, Exec key hash cap es evs s → Exec key hash cap es (play key hash evs s sched).1 (play key hash evs s sched).2 := by
  induction sched with
  | nil => intro evs s h; exact h
  | cons c sched ih =>
    intro evs s h
    simp only [play]
    cases hn : next key hash s c.1 c.2 with
    | none => exact ih _ _ h
    | some r => exact ih _ _ (.snoc _ _ _ _ h (next_step hn))

/-- Worker 1 is about to put declaration 1 to sleep on name 5, and has seen that the table is neither
locked nor full. Worker 2 puts declaration 2 to sleep on name 5. Worker 3 is to declare name 5, finds the table full
and makes a new array. Worker 1 goes on in the new array. Worker 3 moves the old node, for which there already
is one, and wakes up declaration 1 only. -/
def schedule : List (Nat × Choice) :=
  List.replicate 4 (1, .sleep 5) ++ List.replicate 10 (2, .sleep 5) ++ List.replicate 8 (3, .wake 5) ++ List.replicate 6 (1, .sleep 5) ++ List.replicate 13 (3, .wake 5)
    ++ [(3, .finish), (1, .finish), (1, .finish)]

/-- C29 is false when the table grows: name 5 has been declared, nobody does anything, the queue is
empty, and declaration 2 still sleeps. -/
theorem C29_growth_loses_wakeup : ∃ evs s, Exec (fun n => n) (fun k => k) 2 [1, 2, 3] evs s ∧ (∀ t ∈ [1, 2, 3], s.pc t = .idle) ∧ s.queue = [] ∧ Event.awake 3 5 ∈ evs ∧
    Event.sleep 2 2 5 ∈ evs ∧ ∀ t ∈ [1, 2, 3], Event.finish t 2 ∉ evs :=
  ⟨_, _, play_exec schedule [] (initial 2 [1, 2, 3]) .nil, by decide +kernel⟩

-- two declarations go to sleep on name 5 at the same time; the first is delayed and finds that the
-- second was quicker. Then name 5 is declared.
example : ∃ evs s, Exec (fun n => n) (fun k => k) 16 [1, 2, 3] evs s ∧ Event.sleep 1 1 5 ∈ evs ∧ Event.sleep 2 2 5 ∈ evs ∧ Event.queued 3 [1, 2] ∈ evs ∧
    Event.awake 3 5 ∈ evs ∧ Event.grow 1 ∉ evs ∧ Event.grow 2 ∉ evs ∧ Event.grow 3 ∉ evs :=
  ⟨_, _, play_exec (List.replicate 7 (1, .sleep 5) ++ List.replicate 10 (2, .sleep 5) ++ List.replicate 5 (1, .sleep 5) ++ List.replicate 20 (3, .wake 5)) [] (initial 16 [1, 2, 3]) .nil,
    by decide +kernel⟩

end Verif.Props.Sleeper
