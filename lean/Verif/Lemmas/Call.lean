import Verif.Model.Call
import Verif.Props.RegAlloc

/-!
# Lemmas: calls

What the steps of a call leave alone.
-/

namespace Verif.Lemmas.Call

open Verif.RegAlloc Verif.Call Verif.Props.RegAlloc
open Verif.Spec.RegAlloc (Values create)

/-- A location stays where it is, or goes from a register to the stack. -/
def Moved (p q : Place) : Prop := q = p ∨ ∃ r o, p = .loaded r ∧ q = .stack o

theorem Moved.trans {p q r} (h : Moved p q) (h' : Moved q r) : Moved p r := by
  rcases h with rfl | ⟨a, o, rfl, rfl⟩
  · exact h'
  · rcases h' with rfl | ⟨b, o', hb, rfl⟩
    · exact .inr ⟨a, o, rfl, rfl⟩
    · cases hb

theorem Moved.live {p q} (h : Moved p q) (hp : p ≠ .freed) : q ≠ .freed := by
  rcases h with rfl | ⟨_, _, rfl, rfl⟩
  · exact hp
  · intro h; cases h

theorem Moved.stack {o q} (h : Moved (.stack o) q) : q = .stack o := by
  rcases h with rfl | ⟨_, _, h, _⟩
  · rfl
  · cases h

/-- Values have the size of their locations. -/
def Small (A : Values) : Prop := ∀ id, A.value id < 256 ^ A.size id

theorem Small.create {A : Values} (h : Small A) (size v : Nat) : Small (create A size v) := by
  intro id
  by_cases hid : id = A.count
  · subst hid
    show upd _ _ _ _ < 256 ^ upd _ _ _ _
    rw [upd_same, upd_same]
    exact Nat.mod_lt _ (Nat.pow_pos (by decide))
  · show upd _ _ _ _ < 256 ^ upd _ _ _ _
    rw [upd_other _ _ hid, upd_other _ _ hid]
    exact h id

/-- Between two states, with the values of their locations: only the locations in `F` were freed or changed their locks. -/
structure Ext (F : Nat → Prop) (s : State) (A : Values) (s' : State) (A' : Values) : Prop where
  inv : Inv s' A'
  count : A.count ≤ A'.count
  same : ∀ id, id < A.count → A'.size id = A.size id ∧ A'.value id = A.value id
  locked : ∀ id l, s.locs id = some l → l.preventSpilling ≠ 0 → ¬ F id → s'.locs id = some l
  alive : ∀ id l, s.locs id = some l → l.place ≠ .freed → ¬ F id → ∃ p, s'.locs id = some { l with place := p } ∧ Moved l.place p
  gone : ∀ id l, s.locs id = some l → l.place = .freed → s'.locs id = some l
  small : Small A → Small A'

theorem lt_count {s A} (h : Inv s A) {id l} (hl : s.locs id = some l) : id < A.count := by
  rw [← h.count]
  exact Nat.lt_of_not_le (fun hc => by rw [h.fresh id hc] at hl; cases hl)

theorem Ext.refl {F s A} (h : Inv s A) : Ext F s A s A :=
  ⟨h, Nat.le_refl _, fun _ _ => ⟨rfl, rfl⟩, fun _ _ hl _ _ => hl, fun _ l hl _ _ => ⟨l.place, hl, .inl rfl⟩, fun _ _ hl _ => hl, id⟩

theorem Ext.trans {F G s A s1 A1 s2 A2} (h0 : Inv s A) (h1 : Ext F s A s1 A1) (h2 : Ext G s1 A1 s2 A2)
    (hG : ∀ id, id < A.count → G id → F id) : Ext F s A s2 A2 := by
  refine ⟨h2.inv, Nat.le_trans h1.count h2.count, ?_, ?_, ?_, ?_, fun h => h2.small (h1.small h)⟩
  · intro id hid
    obtain ⟨a, b⟩ := h1.same id hid
    obtain ⟨c, d⟩ := h2.same id (Nat.lt_of_lt_of_le hid h1.count)
    exact ⟨c.trans a, d.trans b⟩
  · intro id l hl hp hF
    have := lt_count h0 hl
    exact h2.locked id l (h1.locked id l hl hp hF) hp (fun hg => hF (hG id this hg))
  · intro id l hl hp hF
    have := lt_count h0 hl
    obtain ⟨p, h3, h4⟩ := h1.alive id l hl hp hF
    obtain ⟨q, h5, h6⟩ := h2.alive id _ h3 (h4.live hp) (fun hg => hF (hG id this hg))
    exact ⟨q, h5, h4.trans h6⟩
  · intro id l hl hp
    exact h2.gone id l (h1.gone id l hl hp) hp

theorem Ext.weaken {F G s A s1 A1} (h0 : Inv s A) (h1 : Ext G s A s1 A1) (hG : ∀ id, id < A.count → G id → F id) : Ext F s A s1 A1 :=
  Ext.trans h0 (Ext.refl h0) h1 hG

/-- Nothing is freed. -/
def Nothing : Nat → Prop := fun _ => False

theorem spill_ext {s s' : State} {A r} (h : Inv s A) (hs : spill s r = some s') : Ext Nothing s A s' A := by
  obtain ⟨_, _, _, _, _, id, l, o, h1, h2, h3, h4, h5⟩ := spill_frame hs
  obtain ⟨l0, h6, h7⟩ := h.mapped r id h1
  rw [h2] at h6; cases h6
  refine ⟨spill_inv h hs, Nat.le_refl _, fun _ _ => ⟨rfl, rfl⟩, ?_, ?_, ?_, fun h => h⟩
  · intro j lj hj hp _
    have : j ≠ id := by rintro rfl; rw [h2] at hj; cases hj; exact hp h3
    rw [h5 j this]; exact hj
  · intro j lj hj _ _
    by_cases hji : j = id
    · subst hji
      rw [h2] at hj; cases hj
      refine ⟨.stack o, ?_, .inr ⟨r, o, h7, rfl⟩⟩
      rw [h4, ← h3]
    · exact ⟨lj.place, by rw [h5 j hji]; exact hj, .inl rfl⟩
  · intro j lj hj hp
    have : j ≠ id := by rintro rfl; rw [h2] at hj; cases hj; rw [h7] at hp; cases hp
    rw [h5 j this]; exact hj

theorem allocateSpecific_ext {s s' : State} {A r} (h : Inv s A) (hs : allocateSpecific s r = some s') : Ext Nothing s A s' A := by
  unfold allocateSpecific at hs
  split at hs
  · exact spill_ext h hs
  · cases hs; exact Ext.refl h

theorem allocate_ext {s s' : State} {A k r} (h : Inv s A) (hs : allocate s k = some (r, s')) : Ext Nothing s A s' A := by
  obtain ⟨_, f, hf | hf⟩ := allocate_frame hs
  · rw [hf.2]
    exact ⟨roll_inv h _, Nat.le_refl _, fun _ _ => ⟨rfl, rfl⟩, fun _ _ hl _ _ => hl, fun _ l hl _ _ => ⟨l.place, hl, .inl rfl⟩, fun _ _ hl _ => hl, id⟩
  · have := spill_ext (roll_inv h f) hf
    exact ⟨this.inv, this.count, this.same, this.locked, this.alive, this.gone, id⟩

theorem create_same {A : Values} {size v id} (hid : id < A.count) :
    (create A size v).size id = A.size id ∧ (create A size v).value id = A.value id := by
  have : id ≠ A.count := by omega
  exact ⟨upd_other _ _ this, upd_other _ _ this⟩

/-- A state that has one more location. -/
theorem new_ext {s s' : State} {A size v l} (h : Inv s A) (hi : Inv s' (create A size v)) (hl : s'.locs = upd s.locs s.next (some l)) :
    Ext Nothing s A s' (create A size v) := by
  have hne : ∀ id l, s.locs id = some l → id ≠ s.next := by
    intro id l hl; have := lt_count h hl; rw [h.count]; omega
  have old : ∀ id l, s.locs id = some l → s'.locs id = some l := by
    intro id l hl'; rw [hl, upd_other _ _ (hne id l hl')]; exact hl'
  exact ⟨hi, Nat.le_succ _, fun id hid => create_same hid, fun id l hl' _ _ => old id l hl', fun id l hl' _ _ => ⟨l.place, old id l hl', .inl rfl⟩,
    fun id l hl' _ => old id l hl', fun h => h.create _ _⟩

theorem newLoaded_locs {s s' : State} {r size v} (hs : newLoaded s r size v = some s') :
    s'.locs = upd s.locs s.next (some ⟨.loaded r, size, 0, 0⟩) ∧ s'.next = s.next + 1 := by
  unfold newLoaded at hs
  split at hs
  · cases hs; exact ⟨rfl, rfl⟩
  · cases hs

theorem newLoaded_ext {s s' : State} {A r size v} (h : Inv s A) (hs : newLoaded s r size v = some s') :
    Ext Nothing s A s' (create A size v) := new_ext h (newLoaded_inv h hs) (newLoaded_locs hs).1

theorem newStack_locs {s s' : State} {size align v} (hs : newStack s size align v = some s') :
    s'.locs = upd s.locs s.next (some ⟨.stack (s'.base + s'.temp), size, 0, 0⟩) ∧ s'.next = s.next + 1 := by
  unfold newStack at hs
  split at hs
  · cases hs; exact ⟨rfl, rfl⟩
  · cases hs

theorem newStack_ext {s s' : State} {A size align v} (h : Inv s A) (hs : newStack s size align v = some s') :
    Ext Nothing s A s' (create A size v) := new_ext h (newStack_inv h hs) (newStack_locs hs).1

theorem free_locs {s s' : State} {id} (hs : free s id = some s') : ∃ l, s.locs id = some l ∧ l.place ≠ .freed ∧
    (s' = s ∧ (l.preventFreeing ≠ 0 ∨ l.preventSpilling ≠ 0) ∨
      s'.locs = upd s.locs id (some { l with place := .freed }) ∧ l.preventFreeing = 0 ∧ l.preventSpilling = 0) := by
  unfold free at hs
  split at hs
  · cases hs
  · rename_i l hl
    split at hs
    · cases hs
    · rename_i r hp
      refine ⟨l, hl, by simp [hp], ?_⟩
      split at hs
      · rename_i hc
        cases hs; exact .inl ⟨rfl, hc⟩
      · rename_i hc
        cases hs; exact .inr ⟨rfl, by omega, by omega⟩
    · rename_i o hp
      refine ⟨l, hl, by simp [hp], ?_⟩
      split at hs
      · rename_i hc
        cases hs; exact .inl ⟨rfl, hc⟩
      · rename_i hc
        cases hs; exact .inr ⟨rfl, by omega, by omega⟩

theorem free_ext {s s' : State} {A id} (h : Inv s A) (hs : free s id = some s') : Ext (· = id) s A s' A := by
  have hi := free_inv h hs
  obtain ⟨l, hl, hlive, hc | hc⟩ := free_locs hs
  · rw [hc.1]; exact Ext.refl h
  · refine ⟨hi, Nat.le_refl _, fun _ _ => ⟨rfl, rfl⟩, ?_, ?_, ?_, fun h => h⟩
    · intro j lj hj _ hF
      rw [hc.1, upd_other _ _ hF]; exact hj
    · intro j lj hj _ hF
      exact ⟨lj.place, by rw [hc.1, upd_other _ _ hF]; exact hj, .inl rfl⟩
    · intro j lj hj hp
      have : j ≠ id := by rintro rfl; rw [hl] at hj; cases hj; exact hlive hp
      rw [hc.1, upd_other _ _ this]; exact hj

theorem lock_locs {s s' : State} {id} (hs : step s (.preventSpilling id) = some s') :
    ∃ l, s.locs id = some l ∧ s' = { s with locs := upd s.locs id (some { l with preventSpilling := l.preventSpilling + 1 }) } := by
  obtain ⟨l, hl, h2⟩ := Option.bind_eq_some_iff.1 hs
  obtain ⟨l', h3, h4⟩ := Option.map_eq_some_iff.1 h2
  cases h3
  exact ⟨l, hl, h4.symm⟩

theorem set_ext {s : State} {A id l l'} (h : Inv s A) (hl : s.locs id = some l) (hlive : l.place ≠ .freed) (hp : l'.place = l.place) (hsz : l'.size = l.size) :
    Ext (· = id) s A { s with locs := upd s.locs id (some l') } A := by
  refine ⟨setLoc_inv h hl hp hsz, Nat.le_refl _, fun _ _ => ⟨rfl, rfl⟩, ?_, ?_, ?_, fun h => h⟩
  · intro j lj hj _ hF
    show upd s.locs id _ j = _
    rw [upd_other _ _ hF]; exact hj
  · intro j lj hj _ hF
    exact ⟨lj.place, by show upd s.locs id _ j = _; rw [upd_other _ _ hF]; exact hj, .inl rfl⟩
  · intro j lj hj hp'
    have : j ≠ id := by rintro rfl; rw [hl] at hj; cases hj; exact hlive hp'
    show upd s.locs id _ j = _
    rw [upd_other _ _ this]; exact hj

theorem value_eq {s A id l} (h : Inv s A) (hl : s.locs id = some l) (hp : l.place ≠ .freed) : value s id = some (A.value id) := by
  unfold value
  obtain ⟨place, size, ps, pf⟩ := l
  rw [hl]
  cases place with
  | loaded r => exact congrArg some (h.loaded id _ r hl rfl).2
  | stack o => exact congrArg some (h.slot id _ o hl rfl).2.2.2
  | freed => exact absurd rfl hp

theorem value_some {s id v} (h : value s id = some v) : ∃ l, s.locs id = some l ∧ l.place ≠ .freed := by
  unfold value at h
  split at h
  · rename_i hl; exact ⟨_, hl, by intro hc; cases hc⟩
  · rename_i hl; exact ⟨_, hl, by intro hc; cases hc⟩
  · cases h

/-- Loading a spilled location again. -/
theorem reload_ext {s s' : State} {A k id} (h : Inv s A) (hs : step s (.reload k id) = some s') :
    ∃ r size, Ext (· = id) s A s' (create A (A.size id) (A.value id)) ∧ s'.next = s.next + 1 ∧ r.kind = k ∧
      s'.locs s.next = some ⟨.loaded r, size, 0, 0⟩ := by
  have hi := step_inv h _ hs
  unfold step at hs
  dsimp only at hs
  split at hs
  · rename_i o size ps pf hl
    obtain ⟨⟨r, s1⟩, h1, h2⟩ := Option.bind_eq_some_iff.1 hs
    obtain ⟨s2, h3, h4⟩ := Option.bind_eq_some_iff.1 h2
    have e1 := allocate_ext h h1
    have e2 := free_ext e1.inv h3
    have e3 := newLoaded_ext e2.inv h4
    obtain ⟨n1, n2⟩ := newLoaded_locs h4
    have hn : s2.next = s.next := by rw [e2.inv.count, h.count]
    have e := Ext.trans h (Ext.trans h (Ext.weaken h e1 (F := (· = id)) (fun _ _ hf => hf.elim)) e2 (fun _ _ hf => hf)) e3 (fun _ _ hf => hf.elim)
    refine ⟨r, size, ⟨hi, e.count, fun j hj => create_same hj, e.locked, e.alive, e.gone, fun h => h.create _ _⟩, by rw [n2, hn], ?_, ?_⟩
    · have := (allocate_frame h1).1
      rw [mem_order] at this
      revert this
      cases k <;> simp only [volatiles, List.mem_cons, List.not_mem_nil, or_false] <;> rintro (rfl | rfl | rfl | rfl | rfl | h) <;>
        first | rfl | (subst h; rfl) | (rcases h with rfl | rfl <;> rfl)
    · rw [n1, hn, upd_same]
  · cases hs

/-! ## Operands -/

/-- The location of an operand. -/
def srcIds : Src → Nat → Prop
  | .loc id, j => j = id
  | .deref id, j => j = id
  | _, _ => False

/-- The location of an operand is live and not locked. -/
def Ready (s : State) (src : Src) : Prop :=
  ∀ id, srcIds src id → ∃ l, s.locs id = some l ∧ l.place ≠ .freed ∧ l.preventSpilling = 0 ∧ l.preventFreeing = 0

/-- The value of an operand. -/
def cont (env : Env) (A : Values) : Src → Nat
  | .imm v => v
  | .variable v => v
  | .loc id => A.value id
  | .deref id => env.object (A.value id)

theorem content_eq {env s A src} (h : Inv s A) (hr : Ready s src) : content env s src = some (cont env A src) := by
  cases src with
  | imm v => rfl
  | «variable» v => rfl
  | loc id =>
    obtain ⟨l, hl, hp, _⟩ := hr id rfl
    exact value_eq h hl hp
  | deref id =>
    obtain ⟨l, hl, hp, _⟩ := hr id rfl
    show (value s id).map _ = _
    rw [value_eq h hl hp]; rfl

theorem Ready.lt {s A src id} (h : Inv s A) (hr : Ready s src) (hid : srcIds src id) : id < A.count := by
  obtain ⟨l, hl, _⟩ := hr id hid
  exact lt_count h hl

theorem Ready.ext {F s A s' A' src} (e : Ext F s A s' A') (hr : Ready s src) (hF : ∀ id, srcIds src id → ¬ F id) : Ready s' src := by
  intro id hid
  obtain ⟨l, hl, hp, h1, h2⟩ := hr id hid
  obtain ⟨p, h3, h4⟩ := e.alive id l hl hp (hF id hid)
  exact ⟨_, h3, h4.live hp, h1, h2⟩

theorem cont_ext {F s A s' A' src env} (h : Inv s A) (e : Ext F s A s' A') (hr : Ready s src) : cont env A' src = cont env A src := by
  cases src with
  | imm v => rfl
  | «variable» v => rfl
  | loc id => exact (e.same id (hr.lt h rfl)).2
  | deref id => exact congrArg env.object (e.same id (hr.lt h rfl)).2

theorem release_ext {s s' : State} {A src} (h : Inv s A) (hs : release s src = some s') : Ext (srcIds src) s A s' A := by
  cases src with
  | imm v => cases hs; exact Ext.refl h
  | «variable» v => cases hs; exact Ext.refl h
  | loc id => exact free_ext h hs
  | deref id => exact free_ext h hs

theorem sameKind_ext {s s' : State} {A src r} (h : Inv s A) (hs : sameKind s src r = some s') : Ext Nothing s A s' A := by
  unfold sameKind at hs
  split at hs
  · split at hs
    · cases hs; exact Ext.refl h
    · split at hs
      · exact spill_ext h hs
      · cases hs
  · split at hs
    · cases hs
    · cases hs; exact Ext.refl h

/-- An operand with a location has become another one with the same value. -/
structure Became (env : Env) (s : State) (A : Values) (src : Src) (s' : State) (A' : Values) (src' : Src) : Prop where
  ext : Ext (srcIds src) s A s' A'
  ready : Ready s' src'
  same : cont env A' src' = cont env A src
  ids : ∀ id, id < A.count → srcIds src' id → srcIds src id

theorem loadBase_spec {env s A src src' s'} (h : Inv s A) (hsm : Small A) (hr : Ready s src) (hs : loadBase s src = some (src', s')) :
    ∃ A', Became env s A src s' A' src' := by
  unfold loadBase at hs
  split at hs
  · rename_i id
    split at hs
    · obtain ⟨s1, h1, h2⟩ := Option.map_eq_some_iff.1 hs
      cases h2
      obtain ⟨r, size, e, hn, _, hl⟩ := reload_ext h h1
      refine ⟨_, ⟨e, ?_, ?_, ?_⟩⟩
      · intro j hj
        cases hj
        exact ⟨_, hl, (by intro hc; cases hc), rfl, rfl⟩
      · show env.object (upd _ _ _ _) = _
        rw [h.count, upd_same, Nat.mod_eq_of_lt (hsm id)]; rfl
      · intro j hj hid
        cases hid
        rw [h.count] at hj
        exact absurd hj (Nat.lt_irrefl _)
    · cases hs
      exact ⟨A, Ext.refl h, hr, rfl, fun _ _ hid => hid⟩
  · cases hs
    exact ⟨A, Ext.refl h, hr, rfl, fun _ _ hid => hid⟩

theorem mod_add_mul_mod (v n x : Nat) : (v % n + n * x) % n = v % n := by
  rw [Nat.add_mul_mod_self_left, Nat.mod_mod]

theorem create_new (A : Values) (size v : Nat) : (create A size v).size A.count = size ∧ (create A size v).value A.count = v % 256 ^ size :=
  ⟨upd_same _ _ _, upd_same _ _ _⟩

theorem computeIn_ext {s s' : State} {A r size v} (h : Inv s A) (hs : step s (.computeIn r size v) = some s') :
    Ext Nothing s A s' (create A size v) ∧ s'.next = s.next + 1 ∧ s'.locs s.next = some ⟨.loaded r, size, 0, 0⟩ := by
  obtain ⟨s1, h1, h2⟩ := Option.bind_eq_some_iff.1 hs
  have e1 := allocateSpecific_ext h h1
  have hn : s1.next = s.next := by rw [e1.inv.count, h.count]
  obtain ⟨n1, n2⟩ := newLoaded_locs h2
  exact ⟨Ext.trans h e1 (newLoaded_ext e1.inv h2) (fun _ _ hf => hf), by rw [n2, hn], by rw [n1, hn, upd_same]⟩

theorem kind_of_mem {k : Kind} {r : Reg} (h : r ∈ volatiles k) : r.kind = k := by
  revert h
  cases k <;> simp only [volatiles, List.mem_cons, List.not_mem_nil, or_false] <;> rintro (rfl | rfl | rfl | rfl | rfl | h) <;>
    first | rfl | (subst h; rfl) | (rcases h with rfl | rfl <;> rfl)

theorem compute_ext {s s' : State} {A k size v} (h : Inv s A) (hs : step s (.compute k size v) = some s') :
    ∃ r, r.kind = k ∧ Ext Nothing s A s' (create A size v) ∧ s'.next = s.next + 1 ∧ s'.locs s.next = some ⟨.loaded r, size, 0, 0⟩ := by
  obtain ⟨⟨r, s1⟩, h1, h2⟩ := Option.bind_eq_some_iff.1 hs
  have e1 := allocate_ext h h1
  have hn : s1.next = s.next := by rw [e1.inv.count, h.count]
  obtain ⟨n1, n2⟩ := newLoaded_locs h2
  exact ⟨r, kind_of_mem (mem_order.1 (allocate_frame h1).1), Ext.trans h e1 (newLoaded_ext e1.inv h2) (fun _ _ hf => hf), by rw [n2, hn], by rw [n1, hn, upd_same]⟩

theorem putIn_spec {env s A src size r id s'} (h : Inv s A) (hsm : Small A) (hr : Ready s src) (hs : putIn env s src size r = some (id, s')) :
    ∃ A', Ext (srcIds src) s A s' A' ∧ A.count ≤ id ∧ s'.locs id = some ⟨.loaded r, size, 0, 0⟩ ∧ A'.value id = cont env A src % 256 ^ size := by
  unfold putIn at hs
  split at hs
  · rename_i hz
    subst hz
    obtain ⟨s1, h1, h2⟩ := Option.bind_eq_some_iff.1 hs
    obtain ⟨s2, h3, h4⟩ := Option.map_eq_some_iff.1 h2
    cases h4
    have e1 := release_ext h h1
    have e2 := newLoaded_ext e1.inv h3
    obtain ⟨n1, n2⟩ := newLoaded_locs h3
    refine ⟨_, Ext.trans h e1 e2 (fun _ _ hf => hf.elim), by rw [e1.inv.count]; exact e1.count, by rw [n1, upd_same], ?_⟩
    rw [e1.inv.count, (create_new _ _ _).2]
    simp [Nat.mod_one]
  · obtain ⟨s1, h1, h2⟩ := Option.bind_eq_some_iff.1 hs
    obtain ⟨⟨src2, s2⟩, h3, h4⟩ := Option.bind_eq_some_iff.1 h2
    obtain ⟨v, h5, h6⟩ := Option.bind_eq_some_iff.1 h4
    obtain ⟨s3, h7, h8⟩ := Option.bind_eq_some_iff.1 h6
    obtain ⟨s4, h9, h10⟩ := Option.map_eq_some_iff.1 h8
    cases h10
    have e1 := sameKind_ext h h1
    have r1 := hr.ext e1 (fun _ _ hf => hf)
    obtain ⟨A2, b⟩ := loadBase_spec (env := env) e1.inv (e1.small hsm) r1 h3
    have e2 := b.ext
    rw [content_eq e2.inv b.ready] at h5
    cases h5
    have e3 := release_ext e2.inv h7
    obtain ⟨e4, hn, hl⟩ := computeIn_ext e3.inv h9
    have e12 : Ext (srcIds src) s A s2 A2 := Ext.trans h (Ext.weaken h e1 (fun _ _ hf => hf.elim)) e2 (fun _ _ hf => hf)
    have e13 : Ext (srcIds src) s A s3 A2 := Ext.trans h e12 e3 (fun id hid hf => b.ids id (Nat.lt_of_lt_of_le hid e1.count) hf)
    refine ⟨_, Ext.trans h e13 e4 (fun _ _ hf => hf.elim), by rw [e3.inv.count]; exact e13.count, hl, ?_⟩
    rw [e3.inv.count, (create_new _ _ _).2, mod_add_mul_mod, b.same]

theorem regOf_loc {s src r} (h : regOf s src = some r) : ∃ id l, src = .loc id ∧ s.locs id = some l ∧ l.place = .loaded r := by
  unfold regOf at h
  split at h
  · split at h
    · rename_i hl
      cases h
      exact ⟨_, _, rfl, hl, rfl⟩
    · cases h
  · cases h

theorem loadGpr_spec {env s A src size id s'} (h : Inv s A) (hsm : Small A) (hr : Ready s src) (hs : loadGpr env s src size = some (id, s')) :
    ∃ A', Ext (srcIds src) s A s' A' ∧ (id < A.count → srcIds src id) ∧ (∃ l, s'.locs id = some l ∧ l.place ≠ .freed) ∧
      A'.value id % 256 ^ size = cont env A src % 256 ^ size := by
  unfold loadGpr at hs
  split at hs
  · rename_i id' r hreg
    cases hs
    obtain ⟨l, hl, hp, _⟩ := hr id rfl
    exact ⟨A, Ext.refl h, fun _ => rfl, ⟨l, hl, hp⟩, rfl⟩
  · obtain ⟨⟨r, s1⟩, h1, h2⟩ := Option.bind_eq_some_iff.1 hs
    have e1 := allocate_ext h h1
    obtain ⟨A2, e2, h3, h4, h5⟩ := putIn_spec e1.inv (e1.small hsm) (hr.ext e1 (fun _ _ hf => hf)) h2
    refine ⟨A2, Ext.trans h (Ext.weaken h e1 (fun _ _ hf => hf.elim)) e2 (fun _ _ hf => hf), fun hc => ?_, ⟨_, h4, by intro hc; cases hc⟩, ?_⟩
    · exact absurd hc (Nat.not_lt.2 h3)
    · rw [h5, Nat.mod_mod]

/-- The bytes at `rsp + at_` are those of `w`. -/
def Bytes (out : Int → Nat) (at_ : Int) (n w : Nat) : Prop := ∀ d : Nat, d < n → out (at_ + d) = w / 256 ^ d % 256

theorem outStore_bytes (out at_ n v) : Bytes (outStore out at_ n v) at_ n v := by
  intro d hd
  unfold outStore
  rw [if_pos ⟨by omega, by omega⟩]
  congr 3
  omega

theorem outStore_other (out : Int → Nat) (at_ : Int) (n v : Nat) (d : Int) (h : d < at_ ∨ at_ + n ≤ d) : outStore out at_ n v d = out d := by
  unfold outStore
  rw [if_neg (by omega)]

theorem digit_mod (w n d : Nat) (h : d < n) : w % 256 ^ n / 256 ^ d % 256 = w / 256 ^ d % 256 := by
  obtain ⟨k, rfl⟩ : ∃ k, n = d + (k + 1) := ⟨n - d - 1, by omega⟩
  rw [Nat.pow_add, Nat.mod_mul_right_div_self, Nat.pow_succ, Nat.mul_comm, Nat.mod_mul_right_mod]

theorem Bytes.congr {out at_ n w w'} (h : Bytes out at_ n w) (hw : w % 256 ^ n = w' % 256 ^ n) : Bytes out at_ n w' := by
  intro d hd
  rw [h d hd, ← digit_mod w n d hd, hw, digit_mod w' n d hd]

theorem storeOut_spec {env c A src size at_ c'} (h : Inv c.s A) (hsm : Small A) (hr : Ready c.s src) (hs : storeOut env c src size at_ = some c') :
    ∃ A', Ext (srcIds src) c.s A c'.s A' ∧ Bytes c'.out at_ size (cont env A src) ∧
      ∀ d, d < at_ ∨ at_ + size ≤ d → c'.out d = c.out d := by
  unfold storeOut at hs
  split at hs
  · rename_i hz
    subst hz
    obtain ⟨s1, h1, h2⟩ := Option.map_eq_some_iff.1 hs
    cases h2
    exact ⟨A, release_ext h h1, fun d hd => absurd hd (Nat.not_lt_zero _), fun _ _ => rfl⟩
  · split at hs
    · cases hs
      exact ⟨A, Ext.refl h, outStore_bytes _ _ _ _, fun d hd => outStore_other _ _ _ _ _ hd⟩
    · obtain ⟨⟨id, s1⟩, h1, h2⟩ := Option.bind_eq_some_iff.1 hs
      obtain ⟨v, h3, h4⟩ := Option.bind_eq_some_iff.1 h2
      obtain ⟨s2, h5, h6⟩ := Option.map_eq_some_iff.1 h4
      cases h6
      obtain ⟨A1, e1, g1, ⟨l, g2, g3⟩, g4⟩ := loadGpr_spec h hsm hr h1
      rw [value_eq e1.inv g2 g3] at h3
      cases h3
      have e2 := free_ext e1.inv h5
      refine ⟨A1, Ext.trans h e1 e2 (fun j hj hf => ?_), (outStore_bytes _ _ _ _).congr g4, fun d hd => outStore_other _ _ _ _ _ hd⟩
      subst hf; exact g1 hj

theorem copyBig_spec {env s A src size src' s'} (h : Inv s A) (hsm : Small A) (hr : Ready s src) (hs : copyBig env s src size = some (src', s')) :
    ∃ A' id cid o r, Ext (srcIds src) s A s' A' ∧ src' = .loc id ∧ A.count ≤ id ∧ r.kind = .gpr ∧ s'.locs id = some ⟨.loaded r, 8, 0, 0⟩ ∧
      A'.size id = 8 ∧ A'.value id = (env.rbp - o) % 256 ^ 8 ∧ A.count ≤ cid ∧ cid ≠ id ∧ s'.locs cid = some ⟨.stack o, size, 0, 0⟩ ∧
      A'.value cid = cont env A src % 256 ^ size := by
  unfold copyBig at hs
  obtain ⟨v, h1, h2⟩ := Option.bind_eq_some_iff.1 hs
  obtain ⟨s1, h3, h4⟩ := Option.bind_eq_some_iff.1 h2
  dsimp only at h4
  obtain ⟨s2, h5, h6⟩ := Option.bind_eq_some_iff.1 h4
  obtain ⟨s3, h7, h8⟩ := Option.map_eq_some_iff.1 h6
  cases h8
  rw [content_eq h hr] at h1
  cases h1
  have e1 := newStack_ext h h3
  obtain ⟨n1, n2⟩ := newStack_locs h3
  have hc1 : s1.locs A.count = some ⟨.stack (s1.base + s1.temp), size, 0, 0⟩ := by rw [n1, h.count, upd_same]
  have r1 := hr.ext e1 (fun _ _ hf => hf)
  have hlt : ∀ id, srcIds src id → id < A.count := fun id hid => hr.lt h hid
  have hstep : ∃ A2, Ext (srcIds src) s1 (create A size (cont env A src)) s2 A2 := by
    split at h5
    · exact ⟨_, release_ext e1.inv h5⟩
    · obtain ⟨⟨src2, t1⟩, g1, g2⟩ := Option.bind_eq_some_iff.1 h5
      obtain ⟨t2, g3, g4⟩ := Option.bind_eq_some_iff.1 g2
      obtain ⟨A2, b⟩ := loadBase_spec (env := env) e1.inv (e1.small hsm) r1 g1
      have f1 := allocateSpecific_ext b.ext.inv g3
      have f2 := release_ext f1.inv g4
      refine ⟨A2, Ext.trans e1.inv (Ext.trans e1.inv b.ext f1 (fun _ _ hf => hf.elim)) f2 (fun j hj hf => b.ids j hj hf)⟩
  obtain ⟨A2, e2⟩ := hstep
  obtain ⟨r, hk, e3, n3, hl⟩ := compute_ext e2.inv h7
  have e12 : Ext (srcIds src) s A s2 A2 := Ext.trans h (Ext.weaken h e1 (fun _ _ hf => hf.elim)) e2 (fun _ _ hf => hf)
  have e13 : Ext (srcIds src) s A s' _ := Ext.trans h e12 e3 (fun _ _ hf => hf.elim)
  have e23 : Ext (srcIds src) s1 _ s' _ := Ext.trans e1.inv e2 e3 (fun _ _ hf => hf.elim)
  have hcnt : A.count + 1 ≤ A2.count := e2.count
  obtain ⟨p, hp1, hp2⟩ := e23.alive A.count _ hc1 (by intro hc; cases hc) (fun hf => absurd (hlt _ hf) (Nat.lt_irrefl _))
  rw [hp2.stack] at hp1
  refine ⟨_, s2.next, A.count, s1.base + s1.temp, r, e13, rfl, by rw [e2.inv.count]; exact e12.count, hk, hl, ?_, ?_, Nat.le_refl _, ?_, hp1, ?_⟩
  · rw [e2.inv.count, (create_new _ _ _).1]
  · rw [e2.inv.count, (create_new _ _ _).2]
  · rw [e2.inv.count]; omega
  · rw [(e23.same A.count (Nat.lt_succ_self _)).2, (create_new _ _ _).2]

theorem moveFloat_spec {env s A src size adj src' size' s'} (h : Inv s A) (hr : Ready s src) (h8 : size ≤ 8)
    (hsz : ∀ id, src = .loc id → A.size id = size) (hs : moveFloat s src size adj = some (src', size', s')) :
    ∃ A', Ext (srcIds src) s A s' A' ∧ Ready s' src' ∧ (∀ id, id < A.count → srcIds src' id → srcIds src id) ∧ size ≤ size' ∧ size' ≤ 8 ∧
      (∀ id, src' = .loc id → A'.size id = size') ∧ cont env A' src' % 256 ^ size = cont env A src % 256 ^ size ∧
      ∀ r, regOf s' src' = some r → r.kind = .gpr := by
  have key : ∀ id n, src = .loc id → regOf s src = some ⟨.xmm, n⟩ → ∀ s1 s2 r, r.kind = .gpr →
      Ext Nothing s A s1 (create A 8 (s.regs ⟨.xmm, n⟩)) → s1.locs s.next = some ⟨.loaded r, 8, 0, 0⟩ → free s1 id = some s2 →
      ∃ A', Ext (srcIds src) s A s2 A' ∧ Ready s2 (.loc s.next) ∧ (∀ j, j < A.count → srcIds (.loc s.next) j → srcIds src j) ∧ size ≤ 8 ∧ 8 ≤ 8 ∧
        (∀ j, Src.loc s.next = .loc j → A'.size j = 8) ∧ cont env A' (.loc s.next) % 256 ^ size = cont env A src % 256 ^ size ∧
        ∀ r, regOf s2 (.loc s.next) = some r → r.kind = .gpr := by
    intro id n hsrc hreg s1 s2 r hk e1 hl hf
    subst hsrc
    obtain ⟨id', l, hid', hl', hp'⟩ := regOf_loc hreg
    cases hid'
    have e2 := free_ext e1.inv hf
    have hlt := lt_count h hl'
    have hne : s.next ≠ id := by rw [h.count]; omega
    obtain ⟨p, hp1, hp2⟩ := e2.alive s.next _ hl (by intro hc; cases hc) hne
    have hl2 : s2.locs s.next = some ⟨.loaded r, 8, 0, 0⟩ := by
      obtain ⟨l2, hl2, _, hc | hc⟩ := free_locs hf
      · rw [hc.1]; exact hl
      · rw [hc.1, upd_other _ _ hne]; exact hl
    refine ⟨_, Ext.trans h (Ext.weaken h e1 (fun _ _ hf => hf.elim)) e2 (fun _ _ hf => hf), ?_, ?_, h8, Nat.le_refl _, ?_, ?_, ?_⟩
    · intro j hj; cases hj; exact ⟨_, hl2, (by intro hc; cases hc), rfl, rfl⟩
    · intro j hj hid; cases hid; rw [h.count] at hj; exact absurd hj (Nat.lt_irrefl _)
    · intro j hj; cases hj; rw [h.count]; exact (create_new _ _ _).1
    · show (create A 8 _).value s.next % _ = A.value id % _
      rw [h.count, (create_new _ _ _).2, ← (h.loaded id l _ hl' hp').2, h.size id l hl', hsz id rfl, Nat.mod_mod,
        Nat.mod_mod_of_dvd _ (Nat.pow_dvd_pow 256 h8)]
    · intro r' hr'
      unfold regOf at hr'
      dsimp only at hr'
      rw [hl2] at hr'
      cases hr'
      exact hk
  unfold moveFloat at hs
  split at hs
  · rename_i id n hreg
    split at hs
    · obtain ⟨s1, h1, h2⟩ := Option.bind_eq_some_iff.1 hs
      obtain ⟨s2, h3, h4⟩ := Option.map_eq_some_iff.1 h2
      cases h4
      split at h1
      · obtain ⟨r, hk, e1, _, hl⟩ := compute_ext h h1
        exact key id n rfl hreg s1 _ r hk e1 hl h3
      · obtain ⟨e1, _, hl⟩ := computeIn_ext h h1
        exact key id n rfl hreg s1 _ _ rfl e1 hl h3
    · omega
  · rename_i hno
    cases hs
    refine ⟨A, Ext.refl h, hr, fun _ _ hid => hid, Nat.le_refl _, h8, hsz, rfl, ?_⟩
    intro r hreg
    obtain ⟨id, l, hid, _⟩ := regOf_loc hreg
    obtain ⟨k, n⟩ := r
    cases k with
    | gpr => rfl
    | xmm => exact absurd hreg (hno id n hid)

theorem toRegister_spec {env s A src size r id s'} (h : Inv s A) (hsm : Small A) (hr : Ready s src)
    (hsz : ∀ id, src = .loc id → A.size id = size) (hk : ∀ r', regOf s src = some r' → r'.num = r.num → r'.kind = r.kind)
    (hs : toRegister env s src size r = some (id, s')) :
    ∃ A', Ext (srcIds src) s A s' A' ∧ (id < A.count → srcIds src id) ∧ s'.locs id = some ⟨.loaded r, size, 1, 0⟩ ∧
      A'.value id % 256 ^ size = cont env A src % 256 ^ size := by
  have hload : ((allocateSpecific s r).bind (fun s =>
      (putIn env s src size r).bind (fun (id, s) => (step s (.preventSpilling id)).map (fun s => (id, s))))) = some (id, s') →
      ∃ A', Ext (srcIds src) s A s' A' ∧ (id < A.count → srcIds src id) ∧ s'.locs id = some ⟨.loaded r, size, 1, 0⟩ ∧
      A'.value id % 256 ^ size = cont env A src % 256 ^ size := by
    intro hs
    obtain ⟨s1, h1, h2⟩ := Option.bind_eq_some_iff.1 hs
    obtain ⟨⟨id', s2⟩, h3, h4⟩ := Option.bind_eq_some_iff.1 h2
    obtain ⟨s3, h5, h6⟩ := Option.map_eq_some_iff.1 h4
    cases h6
    have e1 := allocateSpecific_ext h h1
    obtain ⟨A2, e2, g1, g2, g3⟩ := putIn_spec e1.inv (e1.small hsm) (hr.ext e1 (fun _ _ hf => hf)) h3
    obtain ⟨l, g4, g5⟩ := lock_locs h5
    rw [g2] at g4; cases g4
    subst g5
    have e3 := set_ext (l' := ⟨.loaded r, size, 0 + 1, 0⟩) e2.inv g2 (by intro hc; cases hc) rfl rfl
    have e12 : Ext (srcIds src) s A s2 A2 := Ext.trans h (Ext.weaken h e1 (fun _ _ hf => hf.elim)) e2 (fun _ _ hf => hf)
    refine ⟨A2, Ext.trans h e12 e3 (fun j hj hf => ?_), fun hc => absurd hc (Nat.not_lt.2 g1), upd_same _ _ _, by rw [g3, Nat.mod_mod]⟩
    subst hf
    exact absurd hj (Nat.not_lt.2 g1)
  unfold toRegister at hs
  dsimp only at hs
  split at hs
  · rename_i id' r' hreg
    split at hs
    · rename_i hnum
      obtain ⟨s1, h1, h2⟩ := Option.map_eq_some_iff.1 hs
      cases h2
      obtain ⟨id2, l, hid2, hl, hp⟩ := regOf_loc hreg
      cases hid2
      have hkind := hk r' hreg hnum
      have hr' : r' = r := by
        cases r; cases r'; simp only at hnum hkind; subst hnum; subst hkind; rfl
      subst hr'
      obtain ⟨l2, hl2, g⟩ := lock_locs h1
      rw [hl] at hl2; cases hl2
      subst g
      obtain ⟨l3, hl3, _, hps, hpf⟩ := hr id rfl
      rw [hl] at hl3; cases hl3
      refine ⟨A, set_ext h hl (by rw [hp]; intro hc; cases hc) rfl rfl, fun _ => rfl, ?_, rfl⟩
      show upd _ _ _ _ = _
      rw [upd_same, hps, hp, hpf, h.size id l hl, hsz id rfl]
    · exact hload hs
  · exact hload hs

end Verif.Lemmas.Call
