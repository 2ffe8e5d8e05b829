import Verif.Model.AstTableThreads
import Verif.Lemmas.Probe

/-!
# C28: concurrent insertions into the table of global declarations
-/
namespace Verif.Props.AstTableThreads
open Verif.AstTable Verif.AstTable.Threads Verif.Probe
open Verif.Spec.FirstWins (Call Map results after)

/-! ## What is to be shown -/

/-- The calls in the order in which they took effect, with their results. -/
def effects (evs : List Event) : List (Call × Option Nat) := evs.filterMap fun | .effect _ c r => some (c, r) | _ => none

/-- Where a thread is, as far as its caller can see. -/
inductive Phase
  | outside
  /-- the call has not taken effect -/
  | called (c : Call)
  /-- the call has taken effect and will return `r` -/
  | done (c : Call) (r : Option Nat)
deriving DecidableEq

/-- A call is made from outside, takes effect once, and then returns with the result it had when it took effect. -/
def advance (t : Nat) : Option Phase → Event → Option Phase
  | some .outside, .call u c => if u = t then some (.called c) else some .outside
  | some (.called c), .effect u c' r => if u = t then (if c' = c then some (.done c r) else none) else some (.called c)
  | some (.done c r), .ret u c' r' => if u = t then (if c' = c ∧ r' = r then some .outside else none) else some (.done c r)
  | some p, .call u _ => if u = t then none else some p
  | some p, .effect u _ _ => if u = t then none else some p
  | some p, .ret u _ _ => if u = t then none else some p
  | some p, _ => some p
  | none, _ => none

/-- The phase of thread `t` after the events, `none` if the thread broke the protocol. -/
def phase (t : Nat) (evs : List Event) : Option Phase := evs.foldl (advance t) (some .outside)

/-- The events are those of an atomic map in which the first insertion wins: every call takes effect
at one instant between its start and its end, and the results are those of the map. -/
def Linearizable (evs : List Event) : Prop :=
  (∀ t, phase t evs ≠ none) ∧ results Spec.FirstWins.none ((effects evs).map Prod.fst) = (effects evs).map Prod.snd

/-! ## Proofs -/

/-- The phase a point of the program belongs to. -/
def phaseOf : PC → Phase
  | .idle => .outside
  | .start c => .called c
  | .check k v => .called (.add k v)
  | .lock k v => .called (.add k v)
  | .recheck k v => .called (.add k v)
  | .wait k v => .called (.add k v)
  | .swap k v => .called (.add k v)
  | .move k v _ _ _ => .called (.add k v)
  | .unlock k v => .called (.add k v)
  | .enter c => .called c
  | .index c => .called c
  | .probe c _ => .called c
  | .claim k v _ _ => .called (.add k v)
  | .count k v => .done (.add k v) none
  | .leave c r => .done c r

theorem advance_other {t u : Nat} (h : u ≠ t) (p : Phase) :
    (∀ c, advance t (some p) (.call u c) = some p) ∧ (∀ c r, advance t (some p) (.effect u c r) = some p) ∧ (∀ c r, advance t (some p) (.ret u c r) = some p) := by
  cases p <;> simp [advance, h]

theorem goto_pc (s : State) (t u : Nat) (p : PC) : (s.goto t p).pc u = if u = t then p else s.pc u := rfl

theorem phase_exec {hash : Nat → Nat} {cap : Nat} {evs : List Event} {s : State} (h : Exec hash cap evs s) : ∀ t, phase t evs = some (phaseOf (s.pc t)) := by
  induction h with
  | nil => intro t; rfl
  | snoc evs s e s' _ hs ih =>
    intro t
    have ih := ih t
    rw [phase, List.foldl_append, List.foldl_cons, List.foldl_nil]
    rw [phase] at ih
    rw [ih]
    -- for every step: the moving thread changes its phase as the event says
    have silent : ∀ (u : Nat) (p : PC) (pc' : Nat → PC), pc' = (s.goto u p).pc → phaseOf p = phaseOf (s.pc u) → some (phaseOf (s.pc t)) = some (phaseOf (pc' t)) := by
      intro u p pc' hpc hp
      rw [hpc, goto_pc]
      by_cases e : t = u
      · subst e; rw [if_pos rfl, hp]
      · rw [if_neg e]
    cases hs with
    | call u c hu =>
      simp only [goto_pc]
      by_cases e : t = u
      · subst e; rw [if_pos rfl, hu]; simp [phaseOf, advance]
      · rw [if_neg e]; exact (advance_other (Ne.symm e) _).1 c
    | locked u c hu hl => cases phaseOf (s.pc t) <;> rfl
    | startAdd u k v hu hl => refine Eq.trans ?_ (silent u _ _ rfl (by rw [hu]; rfl)); cases phaseOf (s.pc t) <;> rfl
    | startGet u k hu hl => refine Eq.trans ?_ (silent u _ _ rfl (by rw [hu]; rfl)); cases phaseOf (s.pc t) <;> rfl
    | checkFull u k v hu hl => refine Eq.trans ?_ (silent u _ _ rfl (by rw [hu]; rfl)); cases phaseOf (s.pc t) <;> rfl
    | checkOk u k v hu hl => refine Eq.trans ?_ (silent u _ _ rfl (by rw [hu]; rfl)); cases phaseOf (s.pc t) <;> rfl
    | lockOk u k v hu hl => refine Eq.trans ?_ (silent u (.recheck k v) _ rfl (by rw [hu]; rfl)); cases phaseOf (s.pc t) <;> rfl
    | lockFail u k v hu hl => refine Eq.trans ?_ (silent u _ _ rfl (by rw [hu]; rfl)); cases phaseOf (s.pc t) <;> rfl
    | recheckFull u k v hu hl => refine Eq.trans ?_ (silent u _ _ rfl (by rw [hu]; rfl)); cases phaseOf (s.pc t) <;> rfl
    | recheckOk u k v hu hl => refine Eq.trans ?_ (silent u _ _ rfl (by rw [hu]; rfl)); cases phaseOf (s.pc t) <;> rfl
    | waitMore u k v hu hl => cases phaseOf (s.pc t) <;> rfl
    | waitDone u k v hu hl => refine Eq.trans ?_ (silent u _ _ rfl (by rw [hu]; rfl)); cases phaseOf (s.pc t) <;> rfl
    | swap u k v hu => refine Eq.trans ?_ (silent u (.move k v s.current s.cap 0) _ rfl (by rw [hu]; rfl)); cases phaseOf (s.pc t) <;> rfl
    | move u k v o oc i hu hl => refine Eq.trans ?_ (silent u (.move k v o oc (i + 1)) _ rfl (by rw [hu]; rfl)); cases phaseOf (s.pc t) <;> rfl
    | moveDone u k v o oc i hu hl => refine Eq.trans ?_ (silent u _ _ rfl (by rw [hu]; rfl)); cases phaseOf (s.pc t) <;> rfl
    | unlock u k v hu => refine Eq.trans ?_ (silent u (.enter (.add k v)) _ rfl (by rw [hu]; rfl)); cases phaseOf (s.pc t) <;> rfl
    | enter u c hu => refine Eq.trans ?_ (silent u (.index c) _ rfl (by rw [hu]; rfl)); cases phaseOf (s.pc t) <;> rfl
    | index u c hu => refine Eq.trans ?_ (silent u _ _ rfl (by rw [hu]; rfl)); cases phaseOf (s.pc t) <;> rfl
    | probeSame u c i v' hu hn =>
      simp only [goto_pc]
      by_cases e : t = u
      · subst e; rw [if_pos rfl, hu]; simp [phaseOf, advance]
      · rw [if_neg e]; exact (advance_other (Ne.symm e) _).2.1 c _
    | probeOther u c i kv hu hn hk => refine Eq.trans ?_ (silent u _ _ rfl (by rw [hu]; rfl)); cases phaseOf (s.pc t) <;> rfl
    | probeFreeAdd u k v i hu hn => refine Eq.trans ?_ (silent u _ _ rfl (by rw [hu]; rfl)); cases phaseOf (s.pc t) <;> rfl
    | probeFreeGet u k i hu hn =>
      simp only [goto_pc]
      by_cases e : t = u
      · subst e; rw [if_pos rfl, hu]; simp [phaseOf, advance]
      · rw [if_neg e]; exact (advance_other (Ne.symm e) _).2.1 _ _
    | claimOk u k v a i hu hn =>
      simp only [goto_pc]
      by_cases e : t = u
      · subst e; rw [if_pos rfl, hu]; simp [phaseOf, advance]
      · rw [if_neg e]; exact (advance_other (Ne.symm e) _).2.1 _ _
    | claimFail u k v a i kv hu hn => refine Eq.trans ?_ (silent u _ _ rfl (by rw [hu]; rfl)); cases phaseOf (s.pc t) <;> rfl
    | count u k v hu => refine Eq.trans ?_ (silent u (.leave (.add k v) none) _ rfl (by rw [hu]; rfl)); cases phaseOf (s.pc t) <;> rfl
    | leave u c r hu =>
      simp only [goto_pc]
      by_cases e : t = u
      · subst e; rw [if_pos rfl, hu]; simp [phaseOf, advance]
      · rw [if_neg e]; exact (advance_other (Ne.symm e) _).2.2 c r

theorem results_append (cs : List Call) : ∀ (m : Map) (c : Call), results m (cs ++ [c]) = results m cs ++ [c.result (after m cs)] := by
  induction cs with
  | nil => intro m c; rfl
  | cons d cs ih => intro m c; simp only [List.cons_append, results, ih, after, List.foldl_cons]

theorem after_append (cs : List Call) (m : Map) (c : Call) : after m (cs ++ [c]) = c.effect (after m cs) := by
  simp [after, List.foldl_append]

/-- Points of the program only a growing thread gets to. -/
def growing : PC → Bool
  | .recheck _ _ | .wait _ _ | .swap _ _ | .move _ _ _ _ _ | .unlock _ _ => true
  | _ => false

/-- The abstract map. -/
def mapOf (evs : List Event) : Map := after Spec.FirstWins.none ((effects evs).map Prod.fst)

/-- The invariant while the table has not grown. -/
structure Inv (hash : Nat → Nat) (cap : Nat) (evs : List Event) (s : State) : Prop where
  cur : s.current = 0
  capEq : s.cap = cap
  unlocked : s.locked = false
  quiet : ∀ t, growing (s.pc t) = false
  chain : Chain hash cap (s.arrays 0)
  map : ∀ k v, mapOf evs k = some v ↔ ∃ p, p < cap ∧ s.arrays 0 p = some (k, v)
  res : results Spec.FirstWins.none ((effects evs).map Prod.fst) = (effects evs).map Prod.snd
  probe : ∀ t c i, s.pc t = .probe c i → ∃ o, i = (hash (key c) + o) % cap ∧ Searched hash cap (s.arrays 0) (key c) o
  claim : ∀ t k v a i, s.pc t = .claim k v a i → a = 0 ∧ ∃ o, i = (hash k + o) % cap ∧ Searched hash cap (s.arrays 0) k o

theorem effects_silent (evs : List Event) (e : Event) (h : effects [e] = []) : effects (evs ++ [e]) = effects evs := by
  rw [effects, List.filterMap_append]
  rw [effects] at h
  rw [h, List.append_nil]; rfl

/-- Steps that take no effect and do not touch the nodes. -/
theorem inv_silent {hash : Nat → Nat} {cap : Nat} {evs : List Event} {s s' : State} {e : Event} (h : Inv hash cap evs s) (he : effects [e] = [])
    (ha : s'.arrays = s.arrays) (hc : s'.current = s.current) (hcap : s'.cap = s.cap) (hl : s'.locked = s.locked) (t : Nat) (p : PC)
    (hpc : s'.pc = (s.goto t p).pc) (hg : growing p = false)
    (hprobe : ∀ c i, p = .probe c i → ∃ o, i = (hash (key c) + o) % cap ∧ Searched hash cap (s.arrays 0) (key c) o)
    (hclaim : ∀ k v a i, p = .claim k v a i → a = 0 ∧ ∃ o, i = (hash k + o) % cap ∧ Searched hash cap (s.arrays 0) k o) :
    Inv hash cap (evs ++ [e]) s' := by
  have ee := effects_silent evs e he
  refine ⟨by rw [hc]; exact h.cur, by rw [hcap]; exact h.capEq, by rw [hl]; exact h.unlocked, ?_, by rw [ha]; exact h.chain, ?_, by rw [ee]; exact h.res, ?_, ?_⟩
  · intro u; rw [hpc, goto_pc]; split
    · exact hg
    · exact h.quiet u
  · rw [mapOf, ee, ha]; exact h.map
  · intro u c i hu; rw [hpc, goto_pc] at hu; rw [ha]; split at hu
    · exact hprobe c i hu
    · exact h.probe u c i hu
  · intro u k v a i hu; rw [hpc, goto_pc] at hu; rw [ha]; split at hu
    · exact hclaim k v a i hu
    · exact h.claim u k v a i hu

/-- Steps at which a call takes effect without changing the map. -/
theorem inv_read {hash : Nat → Nat} {cap : Nat} {evs : List Event} {s : State} {t : Nat} {c : Call} {r : Option Nat} (h : Inv hash cap evs s)
    (hr : c.result (mapOf evs) = r) (hm : c.effect (mapOf evs) = mapOf evs) : Inv hash cap (evs ++ [.effect t c r]) (s.goto t (.leave c r)) := by
  have ee : effects (evs ++ [.effect t c r]) = effects evs ++ [(c, r)] := by simp [effects, List.filterMap_append]
  refine ⟨h.cur, h.capEq, h.unlocked, ?_, h.chain, ?_, ?_, ?_, ?_⟩
  · intro u; rw [goto_pc]; split
    · rfl
    · exact h.quiet u
  · have : mapOf (evs ++ [.effect t c r]) = mapOf evs := by
      rw [mapOf, ee, List.map_append, List.map_singleton, after_append]
      exact hm
    rw [this]; exact h.map
  · rw [ee, List.map_append, List.map_append, List.map_singleton, List.map_singleton, results_append, h.res]
    have : c.result (after Spec.FirstWins.none ((effects evs).map Prod.fst)) = r := hr
    rw [this]
  · intro u c' i hu; rw [goto_pc] at hu; split at hu
    · cases hu
    · exact h.probe u c' i hu
  · intro u k v a i hu; rw [goto_pc] at hu; split at hu
    · cases hu
    · exact h.claim u k v a i hu

theorem offset_lt {hash : Nat → Nat} {cap : Nat} (hcap : 0 < cap) {nodes : Nat → Option (Nat × Nat)} {k o : Nat}
    (hs : Searched hash cap nodes k o) (hn : nodes ((hash k + o) % cap) = none) : o < cap := by
  apply Classical.byContradiction
  intro hge
  obtain ⟨kv, h1, _⟩ := hs (o % cap) (Nat.lt_of_lt_of_le (Nat.mod_lt _ hcap) (by omega))
  rw [Nat.add_mod_mod, hn] at h1
  cases h1

theorem inv_step {hash : Nat → Nat} {cap : Nat} (hcap : 0 < cap) {evs : List Event} {s s' : State} {e : Event} (h : Inv hash cap evs s) (hs : Step hash s e s')
    (hng : ∀ t, e ≠ .grow t) : Inv hash cap (evs ++ [e]) s' := by
  have notg : ∀ t p, s.pc t = p → growing p = true → False := fun t p hp hg => by
    have := h.quiet t; rw [hp, hg] at this; cases this
  have same : ∀ t : Nat, s.pc = (s.goto t (s.pc t)).pc := fun t => by
    funext u; rw [goto_pc]; split
    · rename_i e; rw [e]
    · rfl
  cases hs with
  | call u c hu => exact inv_silent h rfl rfl rfl rfl rfl u _ rfl rfl (by simp) (by simp)
  | locked u c hu hl => rw [h.unlocked] at hl; cases hl
  | startAdd u k v hu hl => exact inv_silent h rfl rfl rfl rfl rfl u _ rfl rfl (by simp) (by simp)
  | startGet u k hu hl => exact inv_silent h rfl rfl rfl rfl rfl u _ rfl rfl (by simp) (by simp)
  | checkFull u k v hu hl => exact inv_silent h rfl rfl rfl rfl rfl u _ rfl rfl (by simp) (by simp)
  | checkOk u k v hu hl => exact inv_silent h rfl rfl rfl rfl rfl u _ rfl rfl (by simp) (by simp)
  | lockOk u k v hu hl => exact absurd rfl (hng u)
  | lockFail u k v hu hl => rw [h.unlocked] at hl; cases hl
  | recheckFull u k v hu hl => exact absurd (notg u _ hu rfl) id
  | recheckOk u k v hu hl => exact absurd (notg u _ hu rfl) id
  | waitMore u k v hu hl => exact absurd (notg u _ hu rfl) id
  | waitDone u k v hu hl => exact absurd (notg u _ hu rfl) id
  | swap u k v hu => exact absurd (notg u _ hu rfl) id
  | move u k v o oc i hu hl => exact absurd (notg u _ hu rfl) id
  | moveDone u k v o oc i hu hl => exact absurd (notg u _ hu rfl) id
  | unlock u k v hu => exact absurd (notg u _ hu rfl) id
  | enter u c hu => exact inv_silent h rfl rfl rfl rfl rfl u (.index c) rfl rfl (by simp) (by simp)
  | index u c hu =>
    refine inv_silent h rfl rfl rfl rfl rfl u _ rfl rfl ?_ (by simp)
    intro c' i e
    cases e
    exact ⟨0, by rw [h.capEq, Nat.add_zero], fun o' ho' => absurd ho' (Nat.not_lt_zero _)⟩
  | probeSame u c i v' hu hn =>
    obtain ⟨o, hi, hsr⟩ := h.probe u c i hu
    rw [h.cur] at hn
    have hm : mapOf evs (key c) = some v' := (h.map _ _).mpr ⟨i, by rw [hi]; exact Nat.mod_lt _ hcap, hn⟩
    refine inv_read h ?_ ?_
    · cases c <;> exact hm
    · cases c with
      | add k v =>
        funext x
        simp only [Call.effect]
        simp only [key] at hm
        rw [if_neg (fun e => by rw [hm] at e; cases e.2)]
      | get k => rfl
  | probeOther u c i kv hu hn hk =>
    obtain ⟨o, hi, hsr⟩ := h.probe u c i hu
    rw [h.cur] at hn
    refine inv_silent h rfl rfl rfl rfl rfl u _ rfl rfl ?_ (by simp)
    intro c' j e
    cases e
    refine ⟨o + 1, ?_, fun o' ho' => ?_⟩
    · rw [h.capEq, hi, Nat.mod_add_mod]; rfl
    · rcases Nat.lt_succ_iff_lt_or_eq.mp ho' with h' | h'
      · exact hsr o' h'
      · subst h'; exact ⟨kv, by rw [← hi]; exact hn, hk⟩
  | probeFreeAdd u k v i hu hn =>
    obtain ⟨o, hi, hsr⟩ := h.probe u _ i hu
    refine inv_silent h rfl rfl rfl rfl rfl u _ rfl rfl (by simp) ?_
    intro k' v' a j e
    cases e
    exact ⟨h.cur, o, hi, hsr⟩
  | probeFreeGet u k i hu hn =>
    obtain ⟨o, hi, hsr⟩ := h.probe u _ i hu
    rw [h.cur, hi] at hn
    refine inv_read h ?_ rfl
    show mapOf evs k = none
    cases hm : mapOf evs k with
    | none => rfl
    | some w =>
      obtain ⟨p, hp, he⟩ := (h.map k w).mp hm
      exact absurd he (hsr.unique h.chain hn p w hp)
  | claimOk u k v a i hu hn =>
    obtain ⟨ha, o, hi, hsr⟩ := h.claim u k v a i hu
    subst ha
    subst hi
    have hnot := hsr.unique h.chain hn
    have ho := offset_lt hcap hsr hn
    have ee : effects (evs ++ [.effect u (.add k v) none]) = effects evs ++ [(.add k v, none)] := by simp [effects, List.filterMap_append]
    have hm : mapOf evs k = none := by
      cases hm : mapOf evs k with
      | none => rfl
      | some w =>
        obtain ⟨p, hp, he⟩ := (h.map k w).mp hm
        exact absurd he (hnot p w hp)
    have harr : ((s.setNode 0 ((hash k + o) % cap) (some (k, v))).goto u (.count k v)).arrays 0 = fun j => if j = (hash k + o) % cap then some (k, v) else s.arrays 0 j := rfl
    have keep : ∀ q kv, s.arrays 0 q = some kv → (if q = (hash k + o) % cap then some (k, v) else s.arrays 0 q) = some kv := fun q kv hq => by
      rw [if_neg (show q ≠ _ from fun e => by rw [e, hn] at hq; cases hq)]; exact hq
    have skeep : ∀ k' o', Searched hash cap (s.arrays 0) k' o' → Searched hash cap (fun j => if j = (hash k + o) % cap then some (k, v) else s.arrays 0 j) k' o' :=
      fun k' o' hs' o'' ho'' => (hs' o'' ho'').imp fun kv hkv => ⟨keep _ _ hkv.1, hkv.2⟩
    refine ⟨h.cur, h.capEq, h.unlocked, ?_, ?_, ?_, ?_, ?_, ?_⟩
    · intro w; rw [goto_pc]; split
      · rfl
      · exact h.quiet w
    · rw [harr]; exact h.chain.insert v ho hsr hn
    · intro k' v'
      rw [harr, mapOf, ee, List.map_append, List.map_singleton, after_append]
      show (Call.add k v).effect (mapOf evs) k' = some v' ↔ _
      simp only [Call.effect]
      by_cases hk : k' = k
      · subst hk
        rw [if_pos ⟨rfl, hm⟩]
        constructor
        · intro e
          cases e
          exact ⟨(hash k' + o) % cap, Nat.mod_lt _ hcap, by rw [if_pos rfl]⟩
        · rintro ⟨p, hp, he⟩
          split at he
          · cases he; rfl
          · exact absurd he (hnot p v' hp)
      · rw [if_neg (fun e => hk e.1), h.map]
        constructor
        · rintro ⟨p, hp, he⟩; exact ⟨p, hp, keep _ _ he⟩
        · rintro ⟨p, hp, he⟩
          split at he
          · cases he; exact absurd rfl hk
          · exact ⟨p, hp, he⟩
    · rw [ee, List.map_append, List.map_append, List.map_singleton, List.map_singleton, results_append, h.res]
      have : (Call.add k v).result (after Spec.FirstWins.none ((effects evs).map Prod.fst)) = none := hm
      rw [this]
    · intro w c i hw; rw [harr]; rw [goto_pc] at hw; split at hw
      · cases hw
      · obtain ⟨o', h1, h2⟩ := h.probe w c i hw
        exact ⟨o', h1, skeep _ _ h2⟩
    · intro w k' v' a i hw; rw [harr]; rw [goto_pc] at hw; split at hw
      · cases hw
      · obtain ⟨h0, o', h1, h2⟩ := h.claim w k' v' a i hw
        exact ⟨h0, o', h1, skeep _ _ h2⟩
  | claimFail u k v a i kv hu hn =>
    obtain ⟨ha, o, hi, hsr⟩ := h.claim u k v a i hu
    refine inv_silent h rfl rfl rfl rfl rfl u _ rfl rfl ?_ (by simp)
    intro c' j e
    cases e
    exact ⟨o, hi, hsr⟩
  | count u k v hu => exact inv_silent h rfl rfl rfl rfl rfl u (.leave (.add k v) none) rfl rfl (by simp) (by simp)
  | leave u c r hu => exact inv_silent h rfl rfl rfl rfl rfl u .idle rfl rfl (by simp) (by simp)

theorem exec_inv {hash : Nat → Nat} {cap : Nat} (hcap : 0 < cap) {evs : List Event} {s : State} (h : Exec hash cap evs s) (hng : ∀ t, Event.grow t ∉ evs) : Inv hash cap evs s := by
  induction h with
  | nil => exact ⟨rfl, rfl, rfl, fun _ => rfl, fun p k v _ he => by simp [initial] at he, fun k v => by simp [mapOf, effects, after, Spec.FirstWins.none, initial], rfl,
      fun t c i hp => by simp [initial] at hp, fun t k v a i hp => by simp [initial] at hp⟩
  | snoc evs s e s' _ hs ih =>
    refine inv_step hcap (ih fun t ht => hng t (by simp [ht])) hs (fun t he => hng t (by simp [he]))

/-- C28: as long as the table does not grow, any interleaving of any number of insertions and lookups
behaves like an atomic map in which the first insertion wins. What is missing is the growth, see
`C28_growth_admits_two_winners`. -/
theorem C28_linearizable_partial {hash : Nat → Nat} {cap : Nat} (hcap : 0 < cap) {evs : List Event} {s : State} (h : Exec hash cap evs s) (hng : ∀ t, Event.grow t ∉ evs) :
    Linearizable evs :=
  ⟨fun t => by rw [phase_exec h t]; simp, (exec_inv hcap h hng).res⟩

theorem result_after {m : Map} {k v : Nat} (h : m k = some v) (cs : List Call) : after m cs k = some v := by
  induction cs generalizing m with
  | nil => exact h
  | cons c cs ih =>
    simp only [after, List.foldl_cons]
    apply ih
    cases c with
    | get j => exact h
    | add j w =>
      simp only [Call.effect]
      by_cases hj : k = j
      · subst hj; rw [if_neg (fun e => by rw [h] at e; cases e.2)]; exact h
      · rw [if_neg (fun e => hj e.1)]; exact h

theorem result_at (cs : List Call) : ∀ (m : Map) (i : Nat) (c : Call), cs[i]? = some c → (results m cs)[i]? = some (c.result (after m (cs.take i))) := by
  induction cs with
  | nil => intro m i c h; simp at h
  | cons d cs ih =>
    intro m i c h
    cases i with
    | zero => simp at h; subst h; simp [results, after]
    | succ i =>
      simp only [List.getElem?_cons_succ] at h
      simp only [results, List.getElem?_cons_succ, List.take_succ_cons, after, List.foldl_cons]
      exact ih _ i c h

/-- C28: of all insertions of a name, the first to take effect is told that the name was new and all
others are given its declaration, so every name has one entry and one winner. -/
theorem C28_one_winner_partial {hash : Nat → Nat} {cap : Nat} (hcap : 0 < cap) {evs : List Event} {s : State} (h : Exec hash cap evs s) (hng : ∀ t, Event.grow t ∉ evs)
    {i j k v w : Nat} {r r' : Option Nat} (hij : i < j) (hi : (effects evs)[i]? = some (.add k v, r)) (hj : (effects evs)[j]? = some (.add k w, r')) :
    r' = some (r.getD v) := by
  have hres := (exec_inv hcap h hng).res
  have at' : ∀ (i : Nat) (c : Call) (r : Option Nat), (effects evs)[i]? = some (c, r) →
      r = c.result (after Spec.FirstWins.none (((effects evs).map Prod.fst).take i)) := by
    intro i c r he
    have h1 := result_at ((effects evs).map Prod.fst) Spec.FirstWins.none i c (by rw [List.getElem?_map, he]; rfl)
    rw [hres, List.getElem?_map, he] at h1
    simpa using h1
  have ri := at' i _ _ hi
  have rj := at' j _ _ hj
  simp only [Call.result] at ri rj
  have hsplit : ((effects evs).map Prod.fst).take j = ((effects evs).map Prod.fst).take i ++ (Call.add k v :: (((effects evs).map Prod.fst).take j).drop (i + 1)) := by
    have hlt : i < (((effects evs).map Prod.fst).take j).length := by
      have := (List.getElem?_eq_some_iff.mp hj).1
      simp; omega
    have hget : (((effects evs).map Prod.fst).take j)[i] = Call.add k v := by
      have : (((effects evs).map Prod.fst).take j)[i]? = some (Call.add k v) := by
        rw [List.getElem?_take_of_lt hij, List.getElem?_map, hi]; rfl
      rw [List.getElem?_eq_getElem hlt] at this
      exact Option.some.inj this
    conv => lhs; rw [← List.take_append_drop i (((effects evs).map Prod.fst).take j)]
    rw [List.drop_eq_getElem_cons hlt, hget, List.take_take, Nat.min_eq_left (by omega)]
  rw [rj, hsplit]
  have e : after Spec.FirstWins.none (((effects evs).map Prod.fst).take i ++ (Call.add k v :: (((effects evs).map Prod.fst).take j).drop (i + 1)))
      = after ((Call.add k v).effect (after Spec.FirstWins.none (((effects evs).map Prod.fst).take i))) ((((effects evs).map Prod.fst).take j).drop (i + 1)) := by
    simp [after, List.foldl_append]
  rw [e]
  apply result_after
  simp only [Call.effect]
  cases hr : after Spec.FirstWins.none (((effects evs).map Prod.fst).take i) k with
  | none => rw [if_pos ⟨trivial, rfl⟩, ri, hr]; rfl
  | some x => rw [if_neg (fun e => by cases e.2), ri, hr]; rfl

/-! ### The table does not grow while there are few insertions -/

/-- The thread has called `add` and not counted its node yet. -/
def adding : PC → Bool
  | .start (.add _ _) | .check _ _ | .enter (.add _ _) | .index (.add _ _) | .probe (.add _ _) _ | .claim _ _ _ _ | .count _ _ => true
  | _ => false

/-- Points that are only reached when the table is full. -/
def tooFull : PC → Bool
  | .lock _ _ => true
  | p => growing p

/-- The number of insertions started. -/
def insertions (evs : List Event) : Nat := evs.countP fun | .call _ (.add _ _) => true | _ => false

/-- `out` are the threads in an insertion. -/
structure CInv (cap : Nat) (evs : List Event) (s : State) (out : List Nat) : Prop where
  capEq : s.cap = cap
  nodup : out.Nodup
  mem : ∀ t, t ∈ out ↔ adding (s.pc t) = true
  count : s.amount + out.length ≤ insertions evs
  calm : ∀ t, tooFull (s.pc t) = false

theorem cinv_move {cap : Nat} {evs : List Event} {s s' : State} {e : Event} {out : List Nat} (h : CInv cap evs s out) (he : insertions [e] = 0) (t : Nat) (p : PC)
    (hpc : s'.pc = (s.goto t p).pc) (hcap : s'.cap = s.cap) (ham : s'.amount = s.amount) (hp : adding p = adding (s.pc t)) (hf : tooFull p = false) :
    CInv cap (evs ++ [e]) s' out := by
  have hi : insertions (evs ++ [e]) = insertions evs := by
    rw [insertions, List.countP_append]; rw [insertions] at he; rw [he]; rfl
  refine ⟨by rw [hcap]; exact h.capEq, h.nodup, fun u => ?_, by rw [ham, hi]; exact h.count, fun u => ?_⟩
  · rw [h.mem, hpc, goto_pc]
    by_cases e : u = t
    · subst e; rw [if_pos rfl, hp]
    · rw [if_neg e]
  · rw [hpc, goto_pc]; split
    · exact hf
    · exact h.calm u

theorem cinv_done {cap : Nat} {evs : List Event} {s s' : State} {e : Event} {out : List Nat} (h : CInv cap evs s out) (he : insertions [e] = 0) (t : Nat) (p : PC)
    (hpc : s'.pc = (s.goto t p).pc) (hcap : s'.cap = s.cap) (ham : s'.amount ≤ s.amount + 1) (hold : adding (s.pc t) = true) (hp : adding p = false) (hf : tooFull p = false) :
    CInv cap (evs ++ [e]) s' (out.erase t) := by
  have hi : insertions (evs ++ [e]) = insertions evs := by
    rw [insertions, List.countP_append]; rw [insertions] at he; rw [he]; rfl
  have hmem := (h.mem t).mpr hold
  have hlen := List.length_erase_of_mem hmem
  have hpos := List.length_pos_of_mem hmem
  have hc := h.count
  refine ⟨by rw [hcap]; exact h.capEq, h.nodup.erase t, fun u => ?_, by rw [hi]; omega, fun u => ?_⟩
  · rw [h.nodup.mem_erase_iff, h.mem, hpc, goto_pc]
    by_cases e : u = t
    · subst e; simp [hp]
    · simp [e]
  · rw [hpc, goto_pc]; split
    · exact hf
    · exact h.calm u

theorem cinv_exec {hash : Nat → Nat} {cap : Nat} {evs : List Event} {s : State} (h : Exec hash cap evs s) (hfew : insertions evs ≤ cap / 2) :
    (∃ out, CInv cap evs s out) ∧ ∀ t, Event.grow t ∉ evs := by
  induction h with
  | nil => exact ⟨⟨[], rfl, by simp, fun t => by simp [initial, adding], by simp [initial], fun t => rfl⟩, by simp⟩
  | snoc evs s e s' _ hs ih =>
    have hi : insertions (evs ++ [e]) = insertions evs + insertions [e] := by simp [insertions, List.countP_append]
    obtain ⟨⟨out, h⟩, hng⟩ := ih (by omega)
    have bad : ∀ t p, s.pc t = p → tooFull p = true → False := fun t p hp hg => by
      have := h.calm t; rw [hp, hg] at this; cases this
    have nogrow : ∀ t, e ≠ .grow t := fun t ht => by
      subst ht
      cases hs with
      | lockOk u k v hu hl => exact bad _ _ hu rfl
    refine ⟨?_, fun t ht => by
      rw [List.mem_append, List.mem_singleton] at ht
      rcases ht with ht | ht
      · exact hng t ht
      · exact nogrow t ht.symm⟩
    cases hs with
    | call u c hu =>
      cases c with
      | get k => exact ⟨out, cinv_move h rfl u _ rfl rfl rfl (by rw [hu]; rfl) rfl⟩
      | add k v =>
        have hnot : u ∉ out := fun hm => by have := (h.mem u).mp hm; rw [hu] at this; cases this
        have hone : insertions [Event.call u (.add k v)] = 1 := rfl
        have hc := h.count
        refine ⟨u :: out, h.capEq, List.nodup_cons.mpr ⟨hnot, h.nodup⟩, fun w => ?_, ?_, fun w => ?_⟩
        · rw [List.mem_cons, h.mem, goto_pc]
          by_cases e : w = u
          · subst e; simp [adding]
          · simp [e]
        · rw [hi, hone, List.length_cons]
          show s.amount + _ ≤ _
          omega
        · rw [goto_pc]; split
          · rfl
          · exact h.calm w
    | locked u c hu hl => exact ⟨out, cinv_move h rfl u (s.pc u) (by funext w; rw [goto_pc]; split <;> simp_all) rfl rfl rfl (h.calm u)⟩
    | startAdd u k v hu hl => exact ⟨out, cinv_move h rfl u _ rfl rfl rfl (by rw [hu]; rfl) rfl⟩
    | startGet u k hu hl => exact ⟨out, cinv_move h rfl u _ rfl rfl rfl (by rw [hu]; rfl) rfl⟩
    | checkFull u k v hu hl =>
      have hm := (h.mem u).mpr (by rw [hu]; rfl)
      have := List.length_pos_of_mem hm
      have hc := h.count
      have hcap := h.capEq
      have e0 : insertions [Event.internal u] = 0 := rfl
      simp only [State.full] at hl
      rw [hcap] at hl
      omega
    | checkOk u k v hu hl => exact ⟨out, cinv_move h rfl u _ rfl rfl rfl (by rw [hu]; rfl) rfl⟩
    | lockOk u k v hu hl => exact absurd (bad _ _ hu rfl) id
    | lockFail u k v hu hl => exact absurd (bad _ _ hu rfl) id
    | recheckFull u k v hu hl => exact absurd (bad _ _ hu rfl) id
    | recheckOk u k v hu hl => exact absurd (bad _ _ hu rfl) id
    | waitMore u k v hu hl => exact absurd (bad _ _ hu rfl) id
    | waitDone u k v hu hl => exact absurd (bad _ _ hu rfl) id
    | swap u k v hu => exact absurd (bad _ _ hu rfl) id
    | move u k v o oc i hu hl => exact absurd (bad _ _ hu rfl) id
    | moveDone u k v o oc i hu hl => exact absurd (bad _ _ hu rfl) id
    | unlock u k v hu => exact absurd (bad _ _ hu rfl) id
    | enter u c hu => exact ⟨out, cinv_move h rfl u (.index c) rfl rfl rfl (by rw [hu]; cases c <;> rfl) rfl⟩
    | index u c hu => exact ⟨out, cinv_move h rfl u _ rfl rfl rfl (by rw [hu]; cases c <;> rfl) rfl⟩
    | probeSame u c i v' hu hn =>
      cases c with
      | get k => exact ⟨out, cinv_move h rfl u _ rfl rfl rfl (by rw [hu]; rfl) rfl⟩
      | add k v => exact ⟨_, cinv_done h rfl u _ rfl rfl (by show s.amount ≤ _; omega) (by rw [hu]; rfl) rfl rfl⟩
    | probeOther u c i kv hu hn hk => exact ⟨out, cinv_move h rfl u _ rfl rfl rfl (by rw [hu]; cases c <;> rfl) rfl⟩
    | probeFreeAdd u k v i hu hn => exact ⟨out, cinv_move h rfl u _ rfl rfl rfl (by rw [hu]; rfl) rfl⟩
    | probeFreeGet u k i hu hn => exact ⟨out, cinv_move h rfl u _ rfl rfl rfl (by rw [hu]; rfl) rfl⟩
    | claimOk u k v a i hu hn => exact ⟨out, cinv_move h rfl u (.count k v) rfl rfl rfl (by rw [hu]; rfl) rfl⟩
    | claimFail u k v a i kv hu hn => exact ⟨out, cinv_move h rfl u _ rfl rfl rfl (by rw [hu]; rfl) rfl⟩
    | count u k v hu => exact ⟨_, cinv_done h rfl u (.leave (.add k v) none) rfl rfl (Nat.le_refl _) (by rw [hu]; rfl) rfl rfl⟩
    | leave u c r hu => exact ⟨out, cinv_move h rfl u .idle rfl rfl rfl (by rw [hu]; rfl) rfl⟩

/-- C28: with at most half as many insertions as the table has nodes it never grows, so all its
executions are those of an atomic map. -/
theorem C28_linearizable_below_capacity {hash : Nat → Nat} {cap : Nat} (hcap : 0 < cap) {evs : List Event} {s : State} (h : Exec hash cap evs s)
    (hfew : insertions evs ≤ cap / 2) : Linearizable evs :=
  C28_linearizable_partial hcap h (cinv_exec h hfew).2

/-! ### What goes wrong when the table grows -/

/-- The step thread `t` takes; an idle thread makes the call `c`. -/
def next (hash : Nat → Nat) (s : State) (t : Nat) (c : Call) : Event × State :=
  match s.pc t with
  | .idle => (.call t c, s.goto t (.start c))
  | .start (.add k v) => if s.locked then (.internal t, s) else (.internal t, s.goto t (.check k v))
  | .start (.get k) => if s.locked then (.internal t, s) else (.internal t, s.goto t (.enter (.get k)))
  | .check k v => if s.full then (.internal t, s.goto t (.lock k v)) else (.internal t, s.goto t (.enter (.add k v)))
  | .lock k v => if s.locked then (.internal t, s.goto t (.start (.add k v))) else (.grow t, { s.goto t (.recheck k v) with locked := true })
  | .recheck k v => if s.full then (.internal t, s.goto t (.wait k v)) else (.internal t, s.goto t (.unlock k v))
  | .wait k v => if s.inFlight = 0 then (.internal t, s.goto t (.swap k v)) else (.internal t, s)
  | .swap k v => (.internal t, { s.goto t (.move k v s.current s.cap 0) with
      cap := s.cap * 2, current := s.current + 1, arrays := fun a => if a = s.current + 1 then fun _ => none else s.arrays a })
  | .move k v old oldCap i => if i < oldCap then
      (.internal t, { s.goto t (.move k v old oldCap (i + 1)) with
        arrays := fun a => if a = s.current then
          (match s.arrays old i with
            | none => s.arrays a
            | some kv => place (s.arrays a) s.cap (some kv) (hash kv.1 % s.cap) s.cap) else s.arrays a })
      else (.internal t, s.goto t (.unlock k v))
  | .unlock k v => (.internal t, { s.goto t (.enter (.add k v)) with locked := false })
  | .enter c => (.internal t, { s.goto t (.index c) with inFlight := s.inFlight + 1 })
  | .index c => (.internal t, s.goto t (.probe c (hash (key c) % s.cap)))
  | .probe c i => match s.arrays s.current i with
    | some kv => if kv.1 = key c then (.effect t c (some kv.2), s.goto t (.leave c (some kv.2))) else (.internal t, s.goto t (.probe c ((i + 1) % s.cap)))
    | none => match c with
      | .add k v => (.internal t, s.goto t (.claim k v s.current i))
      | .get k => (.effect t (.get k) none, s.goto t (.leave (.get k) none))
  | .claim k v a i => match s.arrays a i with
    | none => (.effect t (.add k v) none, (s.setNode a i (some (k, v))).goto t (.count k v))
    | some _ => (.internal t, s.goto t (.probe (.add k v) i))
  | .count k v => (.internal t, { s.goto t (.leave (.add k v) none) with amount := s.amount + 1 })
  | .leave c r => (.ret t c r, { s.goto t .idle with inFlight := s.inFlight - 1 })

theorem next_step (hash : Nat → Nat) (s : State) (t : Nat) (c : Call) : Step hash s (next hash s t c).1 (next hash s t c).2 := by
  unfold next
  cases hp : s.pc t with
  | idle => exact .call s t c hp
  | start c' =>
    cases c' with
    | add k v => simp only; split
                 · rename_i hl; exact .locked s t _ hp hl
                 · rename_i hl; exact .startAdd s t k v hp (by simpa using hl)
    | get k => simp only; split
               · rename_i hl; exact .locked s t _ hp hl
               · rename_i hl; exact .startGet s t k hp (by simpa using hl)
  | check k v =>
    simp only; split
    · rename_i hl; exact .checkFull s t k v hp hl
    · rename_i hl; exact .checkOk s t k v hp hl
  | lock k v =>
    simp only; split
    · rename_i hl; exact .lockFail s t k v hp hl
    · rename_i hl; exact .lockOk s t k v hp (by simpa using hl)
  | recheck k v =>
    simp only; split
    · rename_i hl; exact .recheckFull s t k v hp hl
    · rename_i hl; exact .recheckOk s t k v hp hl
  | wait k v =>
    simp only; split
    · rename_i hl; exact .waitDone s t k v hp hl
    · rename_i hl; exact .waitMore s t k v hp hl
  | swap k v => exact .swap s t k v hp
  | move k v o oc i =>
    simp only; split
    · rename_i hl; exact .move s t k v o oc i hp hl
    · rename_i hl; exact .moveDone s t k v o oc i hp hl
  | unlock k v => exact .unlock s t k v hp
  | enter c' => exact .enter s t c' hp
  | index c' => exact .index s t c' hp
  | probe c' i =>
    simp only
    cases hn : s.arrays s.current i with
    | some kv =>
      simp only
      split
      · rename_i he; exact .probeSame s t c' i kv.2 hp (by rw [hn, ← he])
      · rename_i he; exact .probeOther s t c' i kv hp hn he
    | none =>
      cases c' with
      | add k v => exact .probeFreeAdd s t k v i hp hn
      | get k => exact .probeFreeGet s t k i hp hn
  | claim k v a i =>
    simp only
    cases hn : s.arrays a i with
    | none => exact .claimOk s t k v a i hp hn
    | some kv => exact .claimFail s t k v a i kv hp hn
  | count k v => exact .count s t k v hp
  | leave c' r => exact .leave s t c' r hp

/-- Runs a schedule. -/
def play (hash : Nat → Nat) : List Event → State → List (Nat × Call) → List Event × State
  | evs, s, [] => (evs, s)
  | evs, s, (t, c) :: rest => play hash (evs ++ [(next hash s t c).1]) (next hash s t c).2 rest

theorem play_exec {hash : Nat → Nat} {cap : Nat} (sched : List (Nat × Call)) : ∀ evs s, Exec hash cap evs s → Exec hash cap (play hash evs s sched).1 (play hash evs s sched).2 := by
  induction sched with
  | nil => intro evs s h; exact h
  | cons c sched ih => intro evs s h; exact ih _ _ (.snoc _ _ _ _ h (next_step hash s c.1 c.2))

/-- Thread 1 is about to insert name 5 and has seen that the table is not locked and not full. Thread
2 inserts name 5. Thread 3 inserts name 6, finds the table full, and has made the new array but not
moved the nodes. Thread 1 goes on in the new array. Then thread 3 moves the nodes. -/
def schedule : List (Nat × Call) :=
  List.replicate 3 (1, .add 5 51) ++ List.replicate 9 (2, .add 5 52) ++ List.replicate 7 (3, .add 6 63) ++ List.replicate 6 (1, .add 5 51) ++ List.replicate 4 (3, .add 6 63)

/-- C28 is false when the table grows: two threads that insert the same name are both told that it
was new, and the table has two entries for it. -/
theorem C28_growth_admits_two_winners : ∃ evs s, Exec (fun k => k) 2 evs s ∧ Event.ret 1 (.add 5 51) none ∈ evs ∧ Event.ret 2 (.add 5 52) none ∈ evs ∧
    s.arrays s.current 1 = some (5, 51) ∧ s.arrays s.current 2 = some (5, 52) ∧ ¬ Linearizable evs :=
  ⟨_, _, play_exec schedule [] (initial 2) .nil, by decide, by decide, by decide, by decide, fun h => absurd h.2 (by decide)⟩

-- two threads insert the same name at the same time: one wins, both have read the node as free
example : ∃ evs s, Exec (fun k => k) 16 evs s ∧ (∀ t, Event.grow t ∉ evs) ∧ effects evs = [(.add 5 52, none), (.add 5 51, some 52)] :=
  ⟨_, _, play_exec (List.replicate 6 (1, .add 5 51) ++ List.replicate 9 (2, .add 5 52) ++ List.replicate 4 (1, .add 5 51)) [] (initial 16) .nil,
    fun t ht => by revert ht; simp [play, next, initial, State.goto, State.setNode, State.full, key, Verif.AstTable.setNode], by decide⟩

end Verif.Props.AstTableThreads
