import Verif.Model.Reach
import Verif.Spec.Reach

/-!
# C32: exactly the reachable functions are emitted, once each
-/

namespace Verif.Props.Reach

open Verif.Reach Verif.Spec

/-! ## Effects of a visit -/

theorem visitRoot_marked (d r s) : (visitRoot d r s).marked = r :: s.marked := rfl
theorem visitRoot_stack (d r s) : (visitRoot d r s).stack = s.stack := rfl
theorem visitRoot_roots (d r s) : (visitRoot d r s).roots = s.roots := rfl

theorem visit_marked (obj d r s) : (visit obj d r s).marked = r :: s.marked := by
  unfold visit; dsimp only; repeat' split
  all_goals rfl
theorem visit_stack (obj d r s) : (visit obj d r s).stack = s.stack := by
  unfold visit; dsimp only; repeat' split
  all_goals rfl
theorem visit_roots (obj d r s) : (visit obj d r s).roots = s.roots := by
  unfold visit; dsimp only; repeat' split
  all_goals rfl

theorem push_marked (l s) : (push l s).marked = s.marked := by unfold push; split <;> rfl
theorem push_roots (l s) : (push l s).roots = s.roots := by unfold push; split <;> rfl
theorem push_queue (l s) : (push l s).queue = s.queue := by unfold push; split <;> rfl
theorem push_inits (l s) : (push l s).inits = s.inits := by unfold push; split <;> rfl
theorem push_lookups (l s) : (push l s).lookups = s.lookups := by unfold push; split <;> rfl
theorem push_errors (l s) : (push l s).errors = s.errors := by unfold push; split <;> rfl

/-- Everything waiting on the stack. -/
def Waits (s : State) (e : Nat) : Prop := ∃ f ∈ s.stack, e ∈ f

theorem push_waits (l s e) : Waits (push l s) e ↔ e ∈ l ∨ Waits s e := by
  unfold push Waits
  cases l with
  | nil => simp
  | cons a l => simp

/-! ## What the functions that are queued have in common -/

/-- A function with code of its own: it is defined, and neither an intrinsic nor
expanded in place (`__declspec(inline_asm)`). -/
def HasCode (d : Decl) : Prop :=
  d.isFunction = true ∧ d.defined = true ∧ d.intrinsic = false ∧ d.inlineAsm = false

/-- A variable with an initializer. -/
def HasInitializer (d : Decl) : Prop := d.isFunction = false ∧ d.defined = true

/-- Something that has to come from a library: an undefined function, or a variable that is only declared
`extern` or `dllimport`. -/
def Imported (d : Decl) : Prop :=
  d.defined = false ∧
    ((d.isFunction = true ∧ d.intrinsic = false ∧ d.dllexport = false) ∨
      (d.isFunction = false ∧ d.external = true))

/-- `out` of a visit: exactly the visited `r` is added, if `p`. -/
def Adds (p : Prop) (r : Nat) (old new : List Nat) : Prop :=
  (p ∧ new = old ++ [r]) ∨ (¬p ∧ new = old)

theorem visit_queue (obj d r s) : Adds (HasCode d) r s.queue (visit obj d r s).queue := by
  unfold visit Adds HasCode; dsimp only; repeat' split
  all_goals simp_all

theorem visit_inits (obj d r s) : Adds (HasInitializer d) r s.inits (visit obj d r s).inits := by
  unfold visit Adds HasInitializer; dsimp only; repeat' split
  all_goals simp_all

theorem visit_lookups (d r s) : Adds (Imported d) r s.lookups (visit false d r s).lookups := by
  unfold visit Adds Imported; dsimp only; repeat' split
  all_goals simp_all

theorem visitRoot_queue (d r s) (h : d.isFunction = true → d.defined = true → d.intrinsic = false ∧ d.inlineAsm = false) :
    Adds (HasCode d) r s.queue (visitRoot d r s).queue := by
  unfold visitRoot Adds HasCode; dsimp only; repeat' split
  all_goals simp_all

theorem visitRoot_inits (d r s) : Adds (HasInitializer d) r s.inits (visitRoot d r s).inits := by
  unfold visitRoot Adds HasInitializer; dsimp only; repeat' split
  all_goals simp_all

/-! ## The invariant -/

/-- An output list that has exactly the marked declarations with property `p`, each once. -/
def Collects (p : Nat → Prop) (marked out : List Nat) : Prop :=
  out.Nodup ∧ ∀ d, d ∈ out ↔ d ∈ marked ∧ p d

theorem Collects.adds {p : Nat → Prop} {marked old new : List Nat} {r : Nat}
    (h : Collects p marked old) (hr : r ∉ marked) (ha : Adds (p r) r old new) :
    Collects p (r :: marked) new := by
  have hro : r ∉ old := fun hm => hr ((h.2 r).1 hm).1
  rcases ha with ⟨hp, rfl⟩ | ⟨hp, rfl⟩
  · refine ⟨?_, fun d => ?_⟩
    · rw [List.nodup_append]
      refine ⟨h.1, by simp, ?_⟩
      intro a ha b hb
      simp at hb
      subst hb
      intro he
      subst he
      exact hro ha
    · rw [List.mem_append, h.2 d]
      simp only [List.mem_cons, List.not_mem_nil, or_false]
      constructor
      · rintro (⟨h1, h2⟩ | rfl)
        · exact ⟨.inr h1, h2⟩
        · exact ⟨.inl rfl, hp⟩
      · rintro ⟨rfl | h1, h2⟩
        · exact .inr rfl
        · exact .inl ⟨h1, h2⟩
  · refine ⟨h.1, fun d => ?_⟩
    rw [h.2 d, List.mem_cons]
    constructor
    · rintro ⟨h1, h2⟩; exact ⟨.inr h1, h2⟩
    · rintro ⟨rfl | h1, h2⟩
      · exact absurd h2 hp
      · exact ⟨h1, h2⟩

structure Inv (g : Nat → Decl) (roots : List Nat) (s : State) : Prop where
  marked : ∀ d ∈ s.marked, Reachable (fun d => (g d).refs) roots d
  waits : ∀ e, Waits s e → Reachable (fun d => (g d).refs) roots e
  rest : ∀ r ∈ s.roots, r ∈ roots
  seen : ∀ r ∈ roots, r ∈ s.marked ∨ r ∈ s.roots
  closed : ∀ d ∈ s.marked, ∀ e ∈ (g d).refs, e ∈ s.marked ∨ Waits s e
  queue : Collects (fun d => HasCode (g d)) s.marked s.queue
  inits : Collects (fun d => HasInitializer (g d)) s.marked s.inits

/-- The roots that are defined functions have code of their own. -/
def GoodRoots (g : Nat → Decl) (roots : List Nat) : Prop :=
  ∀ r ∈ roots, (g r).isFunction = true → (g r).defined = true →
    (g r).intrinsic = false ∧ (g r).inlineAsm = false

theorem inv_start (g roots) : Inv g roots (start roots) where
  marked := by intro d hd; simp [start] at hd
  waits := by rintro e ⟨f, hf, _⟩; simp [start] at hf
  rest := fun r hr => hr
  seen := fun r hr => .inr hr
  closed := by intro d hd; simp [start] at hd
  queue := ⟨by simp [start], by simp [start]⟩
  inits := ⟨by simp [start], by simp [start]⟩

theorem inv_step {obj g roots s s'} (hg : GoodRoots g roots) (h : Inv g roots s)
    (hs : step obj g s = some s') : Inv g roots s' := by
  unfold step at hs
  split at hs
  · rename_i hst
    split at hs
    · cases hs
    · rename_i r rs hrs
      have hr : r ∈ roots := h.rest r (by rw [hrs]; simp)
      have hrest : ∀ q ∈ rs, q ∈ roots := fun q hq => h.rest q (by rw [hrs]; simp [hq])
      have hnw : ∀ e, ¬ Waits s e := by
        rintro e ⟨f, hf, _⟩; rw [hst] at hf; cases hf
      dsimp only at hs
      split at hs
      · rename_i hm
        cases hs
        refine ⟨h.marked, h.waits, hrest, ?_, h.closed, h.queue, h.inits⟩
        intro q hq
        rcases h.seen q hq with h1 | h1
        · exact .inl h1
        · rw [hrs] at h1
          rcases List.mem_cons.1 h1 with rfl | h1
          · exact .inl hm
          · exact .inr h1
      · rename_i hm
        cases hs
        refine ⟨?_, ?_, ?_, ?_, ?_, ?_, ?_⟩
        · intro d hd
          rw [push_marked, visitRoot_marked] at hd
          rcases List.mem_cons.1 hd with rfl | hd
          · exact .root hr
          · exact h.marked d hd
        · intro e he
          rw [push_waits] at he
          rcases he with he | ⟨f, hf, hef⟩
          · exact .ref (.root hr) he
          · exact absurd ⟨f, hf, hef⟩ (hnw e)
        · intro q hq
          rw [push_roots, visitRoot_roots] at hq
          exact hrest q hq
        · intro q hq
          rw [push_marked, push_roots, visitRoot_marked, visitRoot_roots]
          rcases h.seen q hq with h1 | h1
          · exact .inl (List.mem_cons.2 (.inr h1))
          · rw [hrs] at h1
            rcases List.mem_cons.1 h1 with rfl | h1
            · exact .inl (List.mem_cons.2 (.inl rfl))
            · exact .inr h1
        · intro d hd e he
          rw [push_marked, visitRoot_marked] at hd ⊢
          rw [push_waits]
          rcases List.mem_cons.1 hd with rfl | hd
          · exact .inr (.inl he)
          · rcases h.closed d hd e he with h1 | h1
            · exact .inl (List.mem_cons.2 (.inr h1))
            · exact absurd h1 (hnw e)
        · rw [push_marked, push_queue, visitRoot_marked]
          exact h.queue.adds hm (visitRoot_queue _ _ _ (hg r hr))
        · rw [push_marked, push_inits, visitRoot_marked]
          exact h.inits.adds hm (visitRoot_inits _ _ _)
  · rename_i st hst
    cases hs
    have hw : ∀ e, Waits s e ↔ Waits { s with stack := st } e := by
      intro e; unfold Waits; rw [hst]; simp
    refine ⟨h.marked, fun e he => h.waits e ((hw e).2 he), h.rest, h.seen, ?_, h.queue, h.inits⟩
    intro d hd e he
    rcases h.closed d hd e he with h1 | h1
    · exact .inl h1
    · exact .inr ((hw e).1 h1)
  · rename_i d rest st hst
    have hw : ∀ e, Waits s e ↔ e = d ∨ Waits { s with stack := rest :: st } e := by
      intro e; unfold Waits; rw [hst]; simp [or_assoc]
    have hd : Reachable (fun d => (g d).refs) roots d := h.waits d ((hw d).2 (.inl rfl))
    dsimp only at hs
    split at hs
    · rename_i hm
      cases hs
      refine ⟨h.marked, fun e he => h.waits e ((hw e).2 (.inr he)), h.rest, h.seen, ?_, h.queue, h.inits⟩
      intro c hc e he
      rcases h.closed c hc e he with h1 | h1
      · exact .inl h1
      · rcases (hw e).1 h1 with rfl | h1
        · exact .inl hm
        · exact .inr h1
    · rename_i hm
      cases hs
      have hw' : ∀ e, Waits (visit obj (g d) d { s with stack := rest :: st }) e ↔
          Waits { s with stack := rest :: st } e := by
        intro e; unfold Waits; rw [visit_stack]
      refine ⟨?_, ?_, ?_, ?_, ?_, ?_, ?_⟩
      · intro c hc
        rw [push_marked, visit_marked] at hc
        rcases List.mem_cons.1 hc with rfl | hc
        · exact hd
        · exact h.marked c hc
      · intro e he
        rw [push_waits, hw'] at he
        rcases he with he | he
        · exact .ref hd he
        · exact h.waits e ((hw e).2 (.inr he))
      · intro q hq
        rw [push_roots, visit_roots] at hq
        exact h.rest q hq
      · intro q hq
        rw [push_marked, push_roots, visit_marked, visit_roots]
        rcases h.seen q hq with h1 | h1
        · exact .inl (List.mem_cons.2 (.inr h1))
        · exact .inr h1
      · intro c hc e he
        rw [push_marked, visit_marked] at hc ⊢
        rw [push_waits, hw']
        rcases List.mem_cons.1 hc with rfl | hc
        · exact .inr (.inl he)
        · rcases h.closed c hc e he with h1 | h1
          · exact .inl (List.mem_cons.2 (.inr h1))
          · rcases (hw e).1 h1 with rfl | h1
            · exact .inl (List.mem_cons.2 (.inl rfl))
            · exact .inr (.inr h1)
      · rw [push_marked, push_queue, visit_marked]
        exact h.queue.adds hm (visit_queue _ _ _ _)
      · rw [push_marked, push_inits, visit_marked]
        exact h.inits.adds hm (visit_inits _ _ _ _)

theorem inv_run {obj g roots} (hg : GoodRoots g roots) : ∀ n s, Inv g roots s → Inv g roots (run obj g n s) := by
  intro n
  induction n with
  | zero => intro s h; exact h
  | succ n ih =>
    intro s h
    unfold run
    split
    · exact h
    · rename_i s' hs
      exact ih s' (inv_step hg h hs)

/-- When the search is done, the marked declarations are the reachable ones. -/
theorem done_marked {obj g roots s} (h : Inv g roots s) (hs : step obj g s = none) (d : Nat) :
    d ∈ s.marked ↔ Reachable (fun d => (g d).refs) roots d := by
  have hst : s.stack = [] ∧ s.roots = [] := by
    unfold step at hs
    split at hs
    · rename_i h1
      split at hs
      · rename_i h2; exact ⟨h1, h2⟩
      · dsimp only at hs; split at hs <;> cases hs
    · cases hs
    · dsimp only at hs; split at hs <;> cases hs
  refine ⟨h.marked d, fun hd => ?_⟩
  induction hd with
  | root hr =>
    rcases h.seen _ hr with h1 | h1
    · exact h1
    · rw [hst.2] at h1; cases h1
  | ref _ he ih =>
    rcases h.closed _ ih _ he with h1 | ⟨f, hf, _⟩
    · exact h1
    · rw [hst.1] at hf; cases hf

/-! ## Termination -/

/-- The work left for declarations that have not been met. -/
def weight (g : Nat → Decl) (marked : List Nat) : List Nat → Nat
  | [] => 0
  | d :: ds => (if d ∈ marked then 0 else (g d).refs.length + 2) + weight g marked ds

theorem weight_le (g : Nat → Decl) (marked : List Nat) (r : Nat) (all : List Nat) :
    weight g (r :: marked) all ≤ weight g marked all := by
  induction all with
  | nil => exact Nat.le_refl _
  | cons d ds ih =>
    unfold weight
    by_cases h1 : d ∈ marked
    · rw [if_pos h1, if_pos (List.mem_cons.2 (.inr h1))]; omega
    · rw [if_neg h1]; split <;> omega

theorem weight_mark (g : Nat → Decl) (marked : List Nat) (r : Nat) (hr : r ∉ marked) (all : List Nat)
    (ha : r ∈ all) : weight g (r :: marked) all + (g r).refs.length + 2 ≤ weight g marked all := by
  induction all with
  | nil => cases ha
  | cons d ds ih =>
    unfold weight
    by_cases hd : d = r
    · subst hd
      have := weight_le g marked d ds
      rw [if_pos (List.mem_cons.2 (.inl rfl)), if_neg hr]; omega
    · have := ih (by rcases List.mem_cons.1 ha with h | h; exact absurd h.symm hd; exact h)
      by_cases h1 : d ∈ marked
      · rw [if_pos h1, if_pos (List.mem_cons.2 (.inr h1))]; omega
      · rw [if_neg h1, if_neg (by rw [List.mem_cons]; rintro (h | h); exact hd h; exact h1 h)]; omega

def depth : List (List Nat) → Nat
  | [] => 0
  | f :: fs => f.length + 1 + depth fs

def left (g : Nat → Decl) (all : List Nat) (s : State) : Nat :=
  weight g s.marked all + depth s.stack + s.roots.length

theorem depth_push (l s) : depth (push l s).stack ≤ depth s.stack + l.length + 1 := by
  unfold push
  split
  · omega
  · simp [depth]; omega

/-- `all` has the roots and is closed under references. -/
def Closed (g : Nat → Decl) (roots all : List Nat) : Prop :=
  (∀ r ∈ roots, r ∈ all) ∧ ∀ d ∈ all, ∀ e ∈ (g d).refs, e ∈ all

theorem Closed.reachable {g roots all} (h : Closed g roots all) {d} (hd : Reachable (fun d => (g d).refs) roots d) :
    d ∈ all := by
  induction hd with
  | root hr => exact h.1 _ hr
  | ref _ he ih => exact h.2 _ ih _ he

theorem left_step {obj g roots all s s'} (hc : Closed g roots all) (h : Inv g roots s)
    (hs : step obj g s = some s') : left g all s' < left g all s := by
  unfold step at hs
  split at hs
  · rename_i hst
    split at hs
    · cases hs
    · rename_i r rs hrs
      have hr : r ∈ roots := h.rest r (by rw [hrs]; simp)
      dsimp only at hs
      split at hs
      · cases hs
        unfold left; rw [hrs]; simp
      · rename_i hm
        cases hs
        have h1 := weight_mark g s.marked r hm all (hc.1 r hr)
        have h2 := depth_push (g r).refs (visitRoot (g r) r { s with roots := rs })
        rw [visitRoot_stack] at h2
        unfold left
        rw [push_marked, push_roots, visitRoot_marked, visitRoot_roots, hrs]
        simp only [List.length_cons] at *
        omega
  · rename_i st hst
    cases hs
    unfold left; rw [hst]; simp [depth]
  · rename_i d rest st hst
    have hd : d ∈ all := hc.reachable (h.waits d ⟨d :: rest, by rw [hst]; simp, by simp⟩)
    dsimp only at hs
    split at hs
    · cases hs
      unfold left; rw [hst]; simp [depth]
    · rename_i hm
      cases hs
      have h1 := weight_mark g s.marked d hm all hd
      have h2 := depth_push (g d).refs (visit obj (g d) d { s with stack := rest :: st })
      rw [visit_stack] at h2
      unfold left
      rw [push_marked, push_roots, visit_marked, visit_roots, hst]
      simp only [depth, List.length_cons] at *
      omega

theorem terminates {obj g roots all} (hg : GoodRoots g roots) (hc : Closed g roots all) :
    ∀ k s, left g all s ≤ k → Inv g roots s → ∃ n, step obj g (run obj g n s) = none := by
  intro k
  induction k with
  | zero =>
    intro s hk h
    refine ⟨0, ?_⟩
    cases hs : step obj g s with
    | none => exact hs
    | some s' => have := left_step hc h hs; omega
  | succ k ih =>
    intro s hk h
    cases hs : step obj g s with
    | none => exact ⟨0, hs⟩
    | some s' =>
      have := left_step hc h hs
      obtain ⟨n, hn⟩ := ih s' (by omega) (inv_step hg h hs)
      refine ⟨n + 1, ?_⟩
      unfold run
      rw [hs]
      exact hn

/-! ## C32 -/

/-- **C32** (partial: see `Verif.Props.Roots` for where the roots come from). The search ends for every finite graph of
references `g` — `all` is a list of all declarations — whatever its cycles. Then exactly the functions with code of their own
that are reachable from the roots are in the queue, each once, and exactly the reachable variables with an initializer
have been evaluated, each once. Missing: roots that are `__declspec(inline_asm)`
(`C32_exported_inline_asm_wrong`). -/
theorem C32_exactly_once_partial (obj : Bool) (g : Nat → Decl) (roots all : List Nat)
    (hall : (∀ r ∈ roots, r ∈ all) ∧ ∀ d ∈ all, ∀ e ∈ (g d).refs, e ∈ all)
    (hroots : ∀ r ∈ roots, (g r).isFunction = true → (g r).defined = true →
      (g r).intrinsic = false ∧ (g r).inlineAsm = false) :
    ∃ n, let s := run obj g n (start roots)
      step obj g s = none ∧
      s.queue.Nodup ∧
      (∀ d, d ∈ s.queue ↔ Reachable (fun d => (g d).refs) roots d ∧
        (g d).isFunction = true ∧ (g d).defined = true ∧ (g d).intrinsic = false ∧ (g d).inlineAsm = false) ∧
      s.inits.Nodup ∧
      (∀ d, d ∈ s.inits ↔ Reachable (fun d => (g d).refs) roots d ∧
        (g d).isFunction = false ∧ (g d).defined = true) := by
  obtain ⟨n, hn⟩ := terminates (obj := obj) hroots hall _ (start roots) (Nat.le_refl _) (inv_start g roots)
  have hi := inv_run (obj := obj) hroots n _ (inv_start g roots)
  refine ⟨n, hn, hi.queue.1, fun d => ?_, hi.inits.1, fun d => ?_⟩
  · rw [hi.queue.2 d, done_marked hi hn d]; rfl
  · rw [hi.inits.2 d, done_marked hi hn d]; rfl

/-! ## Lookups in libraries -/

structure LookInv (g : Nat → Decl) (roots : List Nat) (s : State) : Prop where
  nodup : s.lookups.Nodup
  iff : ∀ d, d ∉ roots → (d ∈ s.lookups ↔ d ∈ s.marked ∧ Imported (g d))
  marked : ∀ d ∈ s.lookups, d ∈ s.marked ∧ Imported (g d)

theorem look_step {g roots s s'} (h : LookInv g roots s) (hi : Inv g roots s)
    (hs : step false g s = some s') : LookInv g roots s' := by
  unfold step at hs
  split at hs
  · split at hs
    · cases hs
    · rename_i r rs hrs
      have hr : r ∈ roots := hi.rest r (by rw [hrs]; simp)
      dsimp only at hs
      split at hs
      · cases hs; exact ⟨h.nodup, h.iff, h.marked⟩
      · cases hs
        refine ⟨?_, ?_, ?_⟩
        · rw [push_lookups]; exact h.nodup
        · intro d hd
          rw [push_lookups, push_marked, visitRoot_marked, List.mem_cons]
          have hne : d ≠ r := fun he => hd (he ▸ hr)
          simp only [hne, false_or]
          exact h.iff d hd
        · intro d hd
          rw [push_lookups] at hd
          rw [push_marked, visitRoot_marked]
          exact ⟨List.mem_cons.2 (.inr (h.marked d hd).1), (h.marked d hd).2⟩
  · cases hs; exact ⟨h.nodup, h.iff, h.marked⟩
  · rename_i d rest st hst
    dsimp only at hs
    split at hs
    · cases hs; exact ⟨h.nodup, h.iff, h.marked⟩
    · rename_i hm
      cases hs
      have ha := visit_lookups (g d) d { s with stack := rest :: st }
      have hdl : d ∉ s.lookups := fun hx => hm (h.marked d hx).1
      rcases ha with ⟨hp, ha⟩ | ⟨hp, ha⟩
      · refine ⟨?_, ?_, ?_⟩
        · rw [push_lookups, ha, List.nodup_append]
          refine ⟨h.nodup, by simp, ?_⟩
          intro a ha' b hb
          simp at hb
          subst hb
          intro he
          subst he
          exact hdl ha'
        · intro c hc
          rw [push_lookups, push_marked, visit_marked, ha, List.mem_append, h.iff c hc]
          simp only [List.mem_cons, List.not_mem_nil, or_false]
          constructor
          · rintro (⟨h1, h2⟩ | rfl)
            · exact ⟨.inr h1, h2⟩
            · exact ⟨.inl rfl, hp⟩
          · rintro ⟨rfl | h1, h2⟩
            · exact .inr rfl
            · exact .inl ⟨h1, h2⟩
        · intro c hc
          rw [push_lookups, ha, List.mem_append] at hc
          rw [push_marked, visit_marked]
          rcases hc with hc | hc
          · exact ⟨List.mem_cons.2 (.inr (h.marked c hc).1), (h.marked c hc).2⟩
          · simp only [List.mem_singleton] at hc
            subst hc
            exact ⟨List.mem_cons.2 (.inl rfl), hp⟩
      · refine ⟨?_, ?_, ?_⟩
        · rw [push_lookups, ha]; exact h.nodup
        · intro c hc
          rw [push_lookups, push_marked, visit_marked, ha, List.mem_cons]
          rw [show ({ s with stack := rest :: st } : State).lookups = s.lookups from rfl, h.iff c hc]
          constructor
          · rintro ⟨h1, h2⟩; exact ⟨.inr h1, h2⟩
          · rintro ⟨rfl | h1, h2⟩
            · exact absurd h2 hp
            · exact ⟨h1, h2⟩
        · intro c hc
          rw [push_lookups, ha] at hc
          rw [push_marked, visit_marked]
          exact ⟨List.mem_cons.2 (.inr (h.marked c hc).1), (h.marked c hc).2⟩

theorem look_run {g roots} (hg : GoodRoots g roots) : ∀ n s, Inv g roots s → LookInv g roots s →
    LookInv g roots (run false g n s) := by
  intro n
  induction n with
  | zero => intro s _ h; exact h
  | succ n ih =>
    intro s hi h
    unfold run
    split
    · exact h
    · rename_i s' hs
      exact ih s' (inv_step hg hi hs) (look_step h hi hs)

/-- **C32**, imports: for an executable, what is looked up in the import libraries are exactly the
reachable declarations without a definition — functions that are not exported and not intrinsic, and
`extern` or `dllimport` variables — each once, as far as they are not roots themselves. -/
theorem C32_imports (g : Nat → Decl) (roots all : List Nat)
    (hall : (∀ r ∈ roots, r ∈ all) ∧ ∀ d ∈ all, ∀ e ∈ (g d).refs, e ∈ all)
    (hroots : ∀ r ∈ roots, (g r).isFunction = true → (g r).defined = true →
      (g r).intrinsic = false ∧ (g r).inlineAsm = false) :
    ∃ n, let s := run false g n (start roots)
      step false g s = none ∧
      s.lookups.Nodup ∧
      (∀ d, d ∉ roots → (d ∈ s.lookups ↔ Reachable (fun d => (g d).refs) roots d ∧
        (g d).defined = false ∧
          (((g d).isFunction = true ∧ (g d).intrinsic = false ∧ (g d).dllexport = false) ∨
            ((g d).isFunction = false ∧ (g d).external = true)))) := by
  obtain ⟨n, hn⟩ := terminates (obj := false) hroots hall _ (start roots) (Nat.le_refl _) (inv_start g roots)
  have hi := inv_run (obj := false) hroots n _ (inv_start g roots)
  have hl := look_run hroots n _ (inv_start g roots)
    ⟨by simp [start], by simp [start], by simp [start]⟩
  refine ⟨n, hn, hl.nodup, fun d hd => ?_⟩
  rw [hl.iff d hd, done_marked hi hn d]
  rfl

/-! ## A concrete case -/

/-- 0 = main calls 1 and uses the variable 4; 1 and 2 call each other; 3 calls 1 but is dead; 4 refers to the undefined
function 5. -/
def exampleGraph : Nat → Decl
  | 0 => { isFunction := true, defined := true, refs := [1, 4, 1] }
  | 1 => { isFunction := true, defined := true, refs := [2] }
  | 2 => { isFunction := true, defined := true, refs := [1, 2] }
  | 3 => { isFunction := true, defined := true, refs := [1] }
  | 4 => { isFunction := false, defined := true, refs := [5] }
  | _ => { isFunction := true, defined := false }

example : (∀ r ∈ [0, 1], r ∈ [0, 1, 2, 3, 4, 5]) ∧
    ∀ d ∈ [0, 1, 2, 3, 4, 5], ∀ e ∈ (exampleGraph d).refs, e ∈ [0, 1, 2, 3, 4, 5] := by decide
example : ∀ r ∈ [0, 1], (exampleGraph r).isFunction = true → (exampleGraph r).defined = true →
    (exampleGraph r).intrinsic = false ∧ (exampleGraph r).inlineAsm = false := by decide
example : (run false exampleGraph 100 (start [0, 1])).queue = [0, 1, 2] := by decide
example : (run false exampleGraph 100 (start [0, 1])).inits = [4] := by decide
example : (run false exampleGraph 100 (start [0, 1])).lookups = [5] := by decide

end Verif.Props.Reach
