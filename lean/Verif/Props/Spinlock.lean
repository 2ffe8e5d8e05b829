import Verif.Model.Spinlock
import Mathlib.Data.Fintype.Card
import Mathlib.Data.Fintype.Basic

/-!
# C31: the ticket lock
-/
namespace Verif.Props.Spinlock
open Verif.Spinlock

/-- The threads that took a ticket, in order. -/
def taken {n : Nat} (evs : List (Event n)) : List (Fin n) := evs.filterMap fun | .take t => some t | _ => none

/-- The threads that entered the critical section, in order. -/
def entered {n : Nat} (evs : List (Event n)) : List (Fin n) := evs.filterMap fun | .enter t => some t | _ => none

/-- The threads that left the critical section, in order. -/
def left {n : Nat} (evs : List (Event n)) : List (Fin n) := evs.filterMap fun | .leave t => some t | _ => none

/-- The invariant: `q` are the threads holding tickets, in order. -/
structure Inv {n : Nat} (evs : List (Event n)) (s : State n) (q : List (Fin n)) : Prop where
  nodup : q.Nodup
  wlt : s.ticketInWork < 2 ^ 64
  given : s.ticketsGivenOut = (s.ticketInWork + q.length) % 2 ^ 64
  mem : ∀ t, t ∈ q ↔ s.pc t ≠ .idle
  ticket : ∀ i (h : i < q.length) k, s.pc q[i] = .spinning k → k = (s.ticketInWork + i) % 2 ^ 64
  crit : ∀ i (h : i < q.length), s.pc q[i] = .critical → i = 0
  take : taken evs = left evs ++ q
  enter : entered evs = left evs ++ (q.take 1).filter fun t => s.pc t = .critical

theorem q_length {n : Nat} {q : List (Fin n)} (h : q.Nodup) : q.length ≤ n := by
  have := h.length_le_card
  rwa [Fintype.card_fin] at this

theorem inv_step {n : Nat} (hn : n < 2 ^ 64) {evs : List (Event n)} {s s' : State n} {e : Event n} {q : List (Fin n)} (h : Inv evs s q) (hs : Step s e s') :
    ∃ q', Inv (evs ++ [e]) s' q' := by
  cases hs with
  | take t ht =>
    have hnm : t ∉ q := fun hm => (h.mem t).mp hm ht
    have hpc : ∀ u ∈ q, (s.goto t (.spinning s.ticketsGivenOut)).pc u = s.pc u := fun u hu => by
      simp only [State.goto]; rw [if_neg (show u ≠ t from fun e => hnm (e ▸ hu))]
    refine ⟨q ++ [t], ?_, h.wlt, ?_, ?_, ?_, ?_, ?_, ?_⟩
    · rw [List.nodup_append]
      refine ⟨h.nodup, by simp, ?_⟩
      intro a ha b hb e
      simp only [List.mem_singleton] at hb
      exact hnm (hb ▸ e ▸ ha)
    · simp only [State.goto, h.given, List.length_append, List.length_singleton]
      omega
    · intro u
      simp only [State.goto, List.mem_append, List.mem_singleton, h.mem]
      by_cases hu : u = t
      · simp [hu]
      · simp [hu]
    · intro i hi k hk
      by_cases hlt : i < q.length
      · rw [List.getElem_append_left hlt] at hk
        dsimp only at hk
        rw [hpc _ (List.getElem_mem _)] at hk
        exact h.ticket i hlt k hk
      · simp only [List.length_append, List.length_singleton] at hi
        have hi' : i = q.length := by omega
        subst hi'
        rw [List.getElem_append_right (Nat.le_refl _)] at hk
        simp only [State.goto, Nat.sub_self, List.getElem_singleton, if_true, PC.spinning.injEq] at hk
        rw [← hk]; exact h.given
    · intro i hi hk
      by_cases hlt : i < q.length
      · rw [List.getElem_append_left hlt] at hk
        dsimp only at hk
        rw [hpc _ (List.getElem_mem _)] at hk
        exact h.crit i hlt hk
      · simp only [List.length_append, List.length_singleton] at hi
        have hi' : i = q.length := by omega
        subst hi'
        rw [List.getElem_append_right (Nat.le_refl _)] at hk
        simp [State.goto] at hk
    · have := h.take
      simp only [taken, left] at this ⊢
      simp [List.filterMap_append, this]
    · have he := h.enter
      simp only [entered, left] at he ⊢
      simp only [List.filterMap_append, he, List.filterMap_cons, List.filterMap_nil, List.append_nil]
      congr 1
      cases q with
      | nil => simp [State.goto]
      | cons a q =>
        have := hpc a (by simp)
        simp only [List.cons_append, List.take_succ_cons, List.take_zero, List.filter_cons, List.filter_nil, this]
  | spin t k ht hne =>
    refine ⟨q, h.nodup, h.wlt, h.given, h.mem, h.ticket, h.crit, ?_, ?_⟩
    · have := h.take
      simp only [taken, left] at this ⊢
      simp [List.filterMap_append, this]
    · have := h.enter
      simp only [entered, left] at this ⊢
      simp [List.filterMap_append, this]
  | enter t k ht hk =>
    have hm : t ∈ q := (h.mem t).mpr (by rw [ht]; simp)
    obtain ⟨i, hi, hqi⟩ := List.getElem_of_mem hm
    have hl := q_length h.nodup
    have hw := h.wlt
    have hi0 : i = 0 := by
      have := h.ticket i hi k (by rw [hqi]; exact ht)
      omega
    subst hi0
    have hpc : ∀ u, u ≠ t → (s.goto t .critical).pc u = s.pc u := fun u hu => by
      simp only [State.goto]; rw [if_neg hu]
    have hself : (s.goto t .critical).pc t = .critical := by simp [State.goto]
    have hother : ∀ i (h' : i < q.length), i ≠ 0 → q[i] ≠ t := fun i h' hne e => hne (by
      have := (List.Nodup.getElem_inj_iff h.nodup).mp (e.trans hqi.symm)
      exact this)
    refine ⟨q, h.nodup, h.wlt, h.given, ?_, ?_, ?_, ?_, ?_⟩
    · intro u
      by_cases hu : u = t
      · subst hu; rw [hself]; simp [hm]
      · rw [hpc u hu, h.mem]
    · intro i hi' k' hk'
      by_cases hi0 : i = 0
      · subst hi0; rw [hqi, hself] at hk'; cases hk'
      · rw [hpc _ (hother i hi' hi0)] at hk'
        exact h.ticket i hi' k' hk'
    · intro i hi' hk'
      apply Classical.byContradiction
      intro hi0
      rw [hpc _ (hother i hi' hi0)] at hk'
      exact hi0 (h.crit i hi' hk')
    · have := h.take
      simp only [taken, left] at this ⊢
      simp [List.filterMap_append, this]
    · have he := h.enter
      cases q with
      | nil => simp at hm
      | cons a q =>
        simp only [List.getElem_cons_zero] at hqi
        subst hqi
        simp only [entered, left] at he ⊢
        simp only [List.filterMap_append, he, List.filterMap_cons, List.filterMap_nil, List.append_nil,
          List.take_succ_cons, List.take_zero, List.filter_cons, List.filter_nil, hself, ht]
        simp
  | leave t ht =>
    have hm : t ∈ q := (h.mem t).mpr (by rw [ht]; simp)
    obtain ⟨i, hi, hqi⟩ := List.getElem_of_mem hm
    have hi0 := h.crit i hi (by rw [hqi]; exact ht)
    subst hi0
    have hw := h.wlt
    cases q with
    | nil => simp at hm
    | cons a q =>
      simp only [List.getElem_cons_zero] at hqi
      subst hqi
      have hnd := List.nodup_cons.mp h.nodup
      have hpc : ∀ u, u ≠ a → (s.goto a .idle).pc u = s.pc u := fun u hu => by
        simp only [State.goto]; rw [if_neg hu]
      have hself : (s.goto a .idle).pc a = .idle := by simp [State.goto]
      have hne : ∀ u ∈ q, u ≠ a := fun u hu e => hnd.1 (e ▸ hu)
      refine ⟨q, hnd.2, Nat.mod_lt _ (by decide), ?_, ?_, ?_, ?_, ?_, ?_⟩
      · show s.ticketsGivenOut = _
        rw [h.given, List.length_cons]
        simp only
        omega
      · intro u
        show u ∈ q ↔ (s.goto a .idle).pc u ≠ .idle
        by_cases hu : u = a
        · subst hu; rw [hself]; simp [hnd.1]
        · rw [hpc u hu, ← h.mem]; simp [hu]
      · intro i hi' k hk
        change (s.goto a .idle).pc q[i] = .spinning k at hk
        rw [hpc _ (hne _ (List.getElem_mem _))] at hk
        have := h.ticket (i + 1) (by simp; omega) k (by simpa using hk)
        rw [this]
        show _ = ((s.ticketInWork + 1) % 2 ^ 64 + i) % 2 ^ 64
        omega
      · intro i hi' hk
        change (s.goto a .idle).pc q[i] = .critical at hk
        rw [hpc _ (hne _ (List.getElem_mem _))] at hk
        have := h.crit (i + 1) (by simp; omega) (by simpa using hk)
        omega
      · have := h.take
        simp only [taken, left] at this ⊢
        simp [List.filterMap_append, this]
      · have he := h.enter
        simp only [entered, left] at he ⊢
        simp only [List.filterMap_append, he, List.filterMap_cons, List.filterMap_nil, List.append_nil,
          List.take_succ_cons, List.take_zero, List.filter_cons, List.filter_nil, ht]
        simp only [List.append_assoc]
        congr 1
        have : ((q.take 1).filter fun t => (s.goto a .idle).pc t = .critical) = [] := by
          rw [List.filter_eq_nil_iff]
          intro u hu
          have hu' := List.mem_of_mem_take hu
          simp only [decide_eq_true_eq]
          rw [hpc u (hne u hu')]
          intro hc
          obtain ⟨j, hj, hqj⟩ := List.getElem_of_mem hu'
          have := h.crit (j + 1) (by simp; omega) (by simpa [hqj] using hc)
          omega
        show _ = [a] ++ (q.take 1).filter fun t => (s.goto a .idle).pc t = .critical
        rw [this]
        simp

theorem exec_inv {n k : Nat} (hn : n < 2 ^ 64) (hk : k < 2 ^ 64) {evs : List (Event n)} {s : State n} (h : Exec (free n k) evs s) : ∃ q, Inv evs s q := by
  induction h with
  | nil => exact ⟨[], by simp, hk, by simp [free]; omega, by simp [free], by simp, by simp, rfl, rfl⟩
  | snoc evs s e s' _ hs ih =>
    obtain ⟨q, hq⟩ := ih
    exact inv_step hn hq hs

/-- C31: at most one thread is in the critical section, in every execution with any number of
threads below `2 ^ 64` and any number of acquisitions, also when the counters wrap around. -/
theorem C31_mutual_exclusion {n k : Nat} (hn : n < 2 ^ 64) (hk : k < 2 ^ 64) {evs : List (Event n)} {s : State n} (h : Exec (free n k) evs s)
    {t u : Fin n} (ht : s.pc t = .critical) (hu : s.pc u = .critical) : t = u := by
  obtain ⟨q, hq⟩ := exec_inv hn hk h
  obtain ⟨i, hi, rfl⟩ := List.getElem_of_mem ((hq.mem t).mpr (by rw [ht]; simp))
  obtain ⟨j, hj, rfl⟩ := List.getElem_of_mem ((hq.mem u).mpr (by rw [hu]; simp))
  have hi0 := hq.crit i hi ht
  have hj0 := hq.crit j hj hu
  subst hi0; subst hj0; rfl

/-- C31: threads enter in the order in which they took tickets. -/
theorem C31_fifo {n k : Nat} (hn : n < 2 ^ 64) (hk : k < 2 ^ 64) {evs : List (Event n)} {s : State n} (h : Exec (free n k) evs s) :
    entered evs <+: taken evs := by
  obtain ⟨q, hq⟩ := exec_inv hn hk h
  rw [hq.enter, hq.take]
  refine (List.prefix_append_right_inj _).mpr ?_
  cases q with
  | nil => simp
  | cons a q =>
    simp only [List.take_succ_cons, List.take_zero, List.filter_cons, List.filter_nil]
    split
    · simp
    · exact List.nil_prefix

/-- C31: the lock is never stuck: while a thread spins, a thread is in the critical section or one of
the spinning threads can enter. -/
theorem C31_progress {n k : Nat} (hn : n < 2 ^ 64) (hk : k < 2 ^ 64) {evs : List (Event n)} {s : State n} (h : Exec (free n k) evs s)
    {t : Fin n} {my : Nat} (ht : s.pc t = .spinning my) :
    ∃ u, s.pc u = .critical ∨ ∃ s', Step s (.enter u) s' := by
  obtain ⟨q, hq⟩ := exec_inv hn hk h
  have hm := (hq.mem t).mpr (by rw [ht]; simp)
  have hpos : 0 < q.length := List.length_pos_of_mem hm
  refine ⟨q[0], ?_⟩
  have hw := hq.wlt
  cases hp : s.pc q[0] with
  | idle => exact absurd hp ((hq.mem _).mp (List.getElem_mem _))
  | critical => exact Or.inl rfl
  | spinning j =>
    have := hq.ticket 0 hpos j hp
    exact Or.inr ⟨_, .enter s _ j hp (by omega)⟩

-- two threads: the second takes its ticket while the first is inside, and enters after it left
example : ∃ s, Exec (free 2 (2 ^ 64 - 1)) [.take 1, .enter 1, .take 0, .spin 0, .leave 1, .enter 0] s ∧ s.pc 0 = .critical ∧ s.pc 1 = .idle := by
  refine ⟨_, .snoc _ _ _ _ (.snoc _ _ _ _ (.snoc _ _ _ _ (.snoc _ _ _ _ (.snoc _ _ _ _ (.snoc _ _ _ _ .nil
    (.take _ 1 rfl)) (.enter _ 1 (2 ^ 64 - 1) rfl rfl)) (.take _ 0 rfl)) (.spin _ 0 0 rfl (by decide))) (.leave _ 1 rfl)) (.enter _ 0 0 rfl rfl), rfl, rfl⟩

end Verif.Props.Spinlock
