import Verif.Lemmas.CallPass
import Verif.Spec.Call

/-!
# Lemmas: the call instruction and what follows it
-/

namespace Verif.Lemmas.Call

open Verif.RegAlloc Verif.Call Verif.Props.RegAlloc
open Verif.Spec.RegAlloc (Values create)

/-- Registers are only taken from locations. -/
def MapLe (s s' : State) : Prop := ∀ r id, s'.map r = some id → s.map r = some id

theorem spill_map {s s' : State} {r} (hs : spill s r = some s') : MapLe s s' := by
  obtain ⟨h1, h2, _⟩ := spill_frame hs
  intro r' id hm
  by_cases hr : r' = r
  · subst hr; rw [h1] at hm; cases hm
  · rw [← h2 r' hr]; exact hm

theorem spillUnless_spec {s s' : State} {A r keep} (h : Inv s A) (hs : spillUnless s r keep = some s') :
    Ext Nothing s A s' A ∧ MapLe s s' ∧ (∀ id, s'.map r = some id → keep = some id) := by
  unfold spillUnless at hs
  split at hs
  · rename_i hm
    cases hs
    exact ⟨Ext.refl h, fun _ _ hm => hm, fun id hid => by rw [hm] at hid; cases hid⟩
  · rename_i id hm
    split at hs
    · rename_i hk
      cases hs
      exact ⟨Ext.refl h, fun _ _ hm => hm, fun id' hid => by rw [hm] at hid; cases hid; exact hk⟩
    · refine ⟨spill_ext h hs, spill_map hs, fun id' hid => ?_⟩
      rw [(spill_frame hs).1] at hid; cases hid

theorem spillEach_spec : ∀ (rs : List (Reg × Option Nat)) {s s' : State} {A}, Inv s A → spillEach s rs = some s' →
    Ext Nothing s A s' A ∧ MapLe s s' ∧ ∀ p ∈ rs, ∀ id, s'.map p.1 = some id → p.2 = some id
  | [], s, s', A, h, hs => by
    cases hs
    exact ⟨Ext.refl h, fun _ _ hm => hm, fun p hp => absurd hp List.not_mem_nil⟩
  | (r, keep) :: rs, s, s', A, h, hs => by
    rw [spillEach] at hs
    obtain ⟨s1, h1, h2⟩ := Option.bind_eq_some_iff.1 hs
    obtain ⟨e1, m1, k1⟩ := spillUnless_spec h h1
    obtain ⟨e2, m2, k2⟩ := spillEach_spec rs e1.inv h2
    refine ⟨Ext.trans h e1 e2 (fun _ _ hf => hf), fun r id hm => m1 r id (m2 r id hm), ?_⟩
    intro p hp id hid
    rcases List.mem_cons.1 hp with rfl | hp
    · exact k1 id (m2 _ id hid)
    · exact k2 p hp id hid

theorem mem_join {α} {l : List (Option α)} {i : Nat} {a : α} (h : (l[i]?).join = some a) : some a ∈ l := by
  cases hi : l[i]? with
  | none => rw [hi] at h; cases h
  | some o => rw [hi] at h; cases h; exact List.mem_of_getElem? hi

theorem keepAt_mem {ret ids index id} (h : keepAt ret ids index = some id) : some id ∈ ids := by
  unfold keepAt at h
  split at h
  · exact mem_join h
  · cases h

/-- After the spilling only arguments are in volatile registers, or a location in `rcx` when the hidden argument is to come. -/
theorem spillRest_spec {s s' : State} {A ret ids} (h : Inv s A) (hret : ret ≤ 1) (hs : spillRest s ret ids = some s') :
    Ext Nothing s A s' A ∧ ∀ r id, r ∈ volatiles r.kind → s'.map r = some id → some id ∈ ids ∨ (ret = 1 ∧ r = ⟨.gpr, 1⟩) := by
  obtain ⟨e, m, k⟩ := spillEach_spec _ h hs
  refine ⟨e, fun r id hr hm => ?_⟩
  obtain ⟨kind, n⟩ := r
  cases kind with
  | xmm =>
    obtain ⟨i, hi, hri⟩ := List.mem_iff_getElem.1 hr
    refine .inl (keepAt_mem (k (⟨.xmm, n⟩, keepAt ret ids i) ?_ id hm))
    refine List.mem_append_right _ ?_
    rw [List.mem_mapIdx]
    exact ⟨i, hi, by rw [hri]⟩
  | gpr =>
    obtain ⟨i, hi, hri⟩ := List.mem_iff_getElem.1 hr
    by_cases hlt : i < ret
    · refine .inr ⟨by omega, ?_⟩
      have : i = 0 := by omega
      subst this
      rw [← hri]; rfl
    · refine .inl (keepAt_mem (k (⟨.gpr, n⟩, keepAt ret ids i) ?_ id hm))
      refine List.mem_append_left _ ?_
      rw [List.mem_drop_iff_getElem]
      refine ⟨i - ret, ?_, ?_⟩
      · rw [List.length_mapIdx]
        show _ < (volatiles Kind.gpr).length
        have : i < (volatiles Kind.gpr).length := hi
        omega
      · have : ret + (i - ret) = i := by omega
        simp only [List.getElem_mapIdx, this]
        rw [show (volatiles Kind.gpr)[i] = _ from hri]

theorem newLoaded_map {s s' : State} {r size v} (hs : newLoaded s r size v = some s') : s'.map = upd s.map r (some s.next) := by
  unfold newLoaded at hs
  split at hs
  · cases hs; rfl
  · cases hs

theorem newStack_map {s s' : State} {size align v} (hs : newStack s size align v = some s') : s'.map = s.map := by
  unfold newStack at hs
  split at hs
  · cases hs; rfl
  · cases hs

theorem free_map {s s' : State} {id} (hs : free s id = some s') : MapLe s s' := by
  unfold free at hs
  split at hs
  · cases hs
  · split at hs
    · cases hs
    · split at hs
      · cases hs; exact fun _ _ h => h
      · rename_i r _ _
        cases hs
        intro r' id' hm
        dsimp only at hm
        by_cases hr : r' = r
        · subst hr; rw [upd_same] at hm; cases hm
        · rw [upd_other _ _ hr] at hm; exact hm
    · split at hs <;> cases hs <;> exact fun _ _ h => h

theorem allocateSpecific_map {s s' : State} {r} (hs : allocateSpecific s r = some s') : MapLe s s' ∧ s'.map r = none := by
  refine ⟨?_, (allocateSpecific_frame hs).1⟩
  unfold allocateSpecific at hs
  split at hs
  · exact spill_map hs
  · cases hs; exact fun _ _ h => h

theorem allocate_map {s s' : State} {k r} (hs : allocate s k = some (r, s')) : MapLe s s' := by
  obtain ⟨_, f, hf | hf⟩ := allocate_frame hs
  · rw [hf.2]; exact fun _ _ h => h
  · have := spill_map hf
    exact fun r id hm => this r id hm

theorem computeIn_map {s s' : State} {A r size v} (h : Inv s A) (hs : step s (.computeIn r size v) = some s') :
    ∀ r' id, s'.map r' = some id → (r' = r ∧ id = s.next) ∨ (r' ≠ r ∧ s.map r' = some id) := by
  obtain ⟨s1, h1, h2⟩ := Option.bind_eq_some_iff.1 hs
  have hn : s1.next = s.next := by rw [(allocateSpecific_ext h h1).inv.count, h.count]
  intro r' id hm
  rw [newLoaded_map h2] at hm
  by_cases hr : r' = r
  · subst hr; rw [upd_same] at hm; cases hm; exact .inl ⟨rfl, hn⟩
  · rw [upd_other _ _ hr] at hm
    exact .inr ⟨hr, (allocateSpecific_map h1).1 r' id hm⟩

theorem reload_map {s s' : State} {A k id} (h : Inv s A) (hs : step s (.reload k id) = some s') :
    ∀ r' j, s'.map r' = some j → j = s.next ∨ s.map r' = some j := by
  unfold step at hs
  dsimp only at hs
  split at hs
  · obtain ⟨⟨r, s1⟩, h1, h2⟩ := Option.bind_eq_some_iff.1 hs
    obtain ⟨s2, h3, h4⟩ := Option.bind_eq_some_iff.1 h2
    have e1 := allocate_ext h h1
    have e2 := free_ext e1.inv h3
    have hn : s2.next = s.next := by rw [e2.inv.count, h.count]
    intro r' j hm
    rw [newLoaded_map h4] at hm
    by_cases hr : r' = r
    · subst hr; rw [upd_same] at hm; cases hm; exact .inl hn
    · rw [upd_other _ _ hr] at hm
      exact .inr (allocate_map h1 r' j (free_map h3 r' j hm))
  · cases hs

/-- The function pointer: the address that is called, and what is left. -/
theorem fn_spec {env s A src src' s1 v s2} (h : Inv s A) (hsm : Small A) (hr : Ready s src) (h1 : loadBase s src = some (src', s1))
    (h2 : content env s1 src' = some v) (h3 : release s1 src' = some s2) :
    v = cont env A src ∧ ∃ A', Ext (srcIds src) s A s2 A' ∧ ∀ r id, s2.map r = some id → s.map r = some id := by
  obtain ⟨A1, b⟩ := loadBase_spec (env := env) h hsm hr h1
  rw [content_eq b.ext.inv b.ready] at h2
  cases h2
  refine ⟨b.same, A1, Ext.trans h b.ext (release_ext b.ext.inv h3) b.ids, ?_⟩
  unfold loadBase at h1
  split at h1
  · split at h1
    · obtain ⟨t, g1, g2⟩ := Option.map_eq_some_iff.1 h1
      cases g2
      intro r id hm
      have hi := free_inv b.ext.inv h3
      obtain ⟨l, hl, hp⟩ := hi.mapped r id hm
      rcases reload_map h g1 r id (free_map h3 r id hm) with hid | hid
      · subst hid
        obtain ⟨l0, q1, q2, q3, q4⟩ := b.ready s.next rfl
        obtain ⟨l1, q5, _, q6 | q6⟩ := free_locs h3
        · rw [q1] at q5; cases q5; omega
        · rw [q6.1, upd_same] at hl; cases hl; cases hp
      · exact hid
    · cases h1
      exact free_map h3
  · cases h1
    intro r id hm
    cases src with
    | imm v => cases h3; exact hm
    | «variable» v => cases h3; exact hm
    | loc j => exact free_map h3 r id hm
    | deref j => exact free_map h3 r id hm

/-- The hidden argument. -/
def HiddenOk (env : Env) (n0 : Nat) (s : State) (A : Values) : Ret → Option (Nat × Nat) → Prop
  | .byAddress size _, some (room, ptr) =>
    n0 ≤ room ∧ n0 ≤ ptr ∧ room ≠ ptr ∧ s.locs ptr = some ⟨.loaded ⟨.gpr, 1⟩, 8, 1, 0⟩ ∧
      ∃ o, s.locs room = some ⟨.stack o, size, 0, 0⟩ ∧ A.value ptr = (env.rbp - o) % 256 ^ 8
  | .byAddress _ _, none => False
  | _, h => h = none

theorem HiddenOk.ext {env n0 F s A s' A' ret hid} (h : Inv s A) (e : Ext F s A s' A') (hF : ∀ id, n0 ≤ id → ¬ F id) (hk : HiddenOk env n0 s A ret hid) :
    HiddenOk env n0 s' A' ret hid := by
  cases ret with
  | byAddress size align =>
    cases hid with
    | none => exact hk
    | some p =>
      obtain ⟨room, ptr⟩ := p
      obtain ⟨h1, h2, h3, h4, o, h5, h6⟩ := hk
      obtain ⟨p, h7, h8⟩ := e.alive room _ h5 (by intro hc; cases hc) (hF room h1)
      rw [h8.stack] at h7
      exact ⟨h1, h2, h3, e.locked ptr _ h4 (by intro hc; cases hc) (hF ptr h2), o, h7, by rw [(e.same ptr (lt_count h h4)).2]; exact h6⟩
  | _ => exact hk

theorem hiddenArgument_spec {env n0 s A ret hid s'} (h : Inv s A) (hn : n0 ≤ A.count) (hs : hiddenArgument env s ret = some (hid, s')) :
    ∃ A', Ext Nothing s A s' A' ∧ HiddenOk env n0 s' A' ret hid ∧
      ∀ r id, s'.map r = some id → (hid.map (·.2) = some id) ∨ (s.map r = some id ∧ (ret.hidden = 1 → r ≠ ⟨.gpr, 1⟩)) := by
  cases ret with
  | byAddress size align =>
    unfold hiddenArgument at hs
    obtain ⟨s1, h1, h2⟩ := Option.bind_eq_some_iff.1 hs
    obtain ⟨s2, h3, h4⟩ := Option.bind_eq_some_iff.1 h2
    obtain ⟨s3, h5, h6⟩ := Option.map_eq_some_iff.1 h4
    cases h6
    have e1 := newStack_ext h h1
    obtain ⟨n1, n2⟩ := newStack_locs h1
    obtain ⟨e2, n3, l2⟩ := computeIn_ext e1.inv h3
    have hroom : s1.locs s.next = some ⟨.stack (s1.base + s1.temp), size, 0, 0⟩ := by rw [n1, upd_same]
    obtain ⟨p, k1, k2⟩ := e2.alive s.next _ hroom (by intro hc; cases hc) (fun hf => hf)
    rw [k2.stack] at k1
    obtain ⟨l, g1, g2⟩ := lock_locs h5
    rw [l2] at g1; cases g1
    have e3 := set_ext (l' := ⟨.loaded ⟨.gpr, 1⟩, 8, 0 + 1, 0⟩) e2.inv l2 (by intro hc; cases hc) rfl rfl
    have e12 : Ext Nothing s A s2 _ := Ext.trans h e1 e2 (fun _ _ hf => hf)
    have hc1 : s1.next = A.count + 1 := by rw [n2, h.count]
    have hne : s.next ≠ s1.next := by omega
    subst g2
    refine ⟨_, Ext.trans h e12 e3 (fun j hj hf => ?_), ⟨by rw [h.count]; exact hn, by omega, hne, upd_same _ _ _, s1.base + s1.temp, ?_, ?_⟩, ?_⟩
    · have hf : j = s1.next := hf
      omega
    · show upd _ _ _ _ = _
      rw [upd_other _ _ hne]; exact k1
    · rw [e1.inv.count, (create_new _ _ _).2]
    · intro r id hm
      rcases computeIn_map e1.inv h3 r id hm with ⟨_, hid⟩ | ⟨hr, hid⟩
      · subst hid; exact .inl rfl
      · rw [newStack_map h1] at hid
        exact .inr ⟨hid, fun _ => hr⟩
  | nothing => cases hs; exact ⟨A, Ext.refl h, rfl, fun r id hm => .inr ⟨hm, fun hc => by cases hc⟩⟩
  | integer _ => cases hs; exact ⟨A, Ext.refl h, rfl, fun r id hm => .inr ⟨hm, fun hc => by cases hc⟩⟩
  | small _ _ => cases hs; exact ⟨A, Ext.refl h, rfl, fun r id hm => .inr ⟨hm, fun hc => by cases hc⟩⟩
  | float _ => cases hs; exact ⟨A, Ext.refl h, rfl, fun r id hm => .inr ⟨hm, fun hc => by cases hc⟩⟩

/-- The locations of all operands. -/
def allIds (args : List Arg) (fn : Option Src) (id : Nat) : Prop := anyIds args id ∨ ∃ src, fn = some src ∧ srcIds src id

theorem hidden_le (ret : Ret) : ret.hidden ≤ 1 := by cases ret <;> simp [Ret.hidden]

theorem beforeCall_spec {env ret params args fn c A at_} (h : Inv c.s A) (hsm : Small A)
    (hd : Distinct args) (hok : ∀ j a, args[j]? = some a → ArgOk c.s A ret.hidden params j a)
    (hfn : ∀ src, fn = some src → Ready c.s src ∧ ∀ id, srcIds src id → ¬ anyIds args id)
    (hs : beforeCall env ret params args fn c = some at_) :
    at_.ids.length = args.length ∧ ∃ A', Ext (allIds args fn) c.s A at_.c.s A' ∧
      (∀ j a, args[j]? = some a → Passed env A.count ret.hidden params at_.c A' j a (cont env A a.src) ((at_.ids[j]?).join)) ∧
      at_.target = fn.map (cont env A) ∧ HiddenOk env A.count at_.c.s A' ret at_.hidden ∧
      (∀ r id, r ∈ volatiles r.kind → at_.c.s.map r = some id → some id ∈ at_.ids ++ [at_.hidden.map (·.2)]) ∧
      (∀ d : Int, 8 * ((ret.hidden + args.length : Nat) : Int) ≤ d → at_.c.out d = c.out d) := by
  unfold beforeCall at hs
  obtain ⟨⟨ids, c1⟩, h1, h2⟩ := Option.bind_eq_some_iff.1 hs
  obtain ⟨s2, h3, h4⟩ := Option.bind_eq_some_iff.1 h2
  obtain ⟨⟨hid, s3⟩, h5, h6⟩ := Option.bind_eq_some_iff.1 h4
  dsimp only at h3 h5 h6
  have hlt : ∀ id, anyIds args id → id < A.count := by
    intro id ⟨a, ha, hid⟩
    obtain ⟨j, hj, hja⟩ := List.mem_iff_getElem.1 ha
    exact (hok j a (by rw [List.getElem?_eq_getElem hj, hja])).ready.lt h hid
  obtain ⟨hlen, A1, e1, hp1, ho1⟩ := passFrom_spec (n0 := A.count) args 0 h hsm (Nat.le_refl _) hlt hd (fun j a hj => by rw [Nat.zero_add]; exact hok j a hj) h1
  obtain ⟨e2, m2⟩ := spillRest_spec e1.inv (hidden_le ret) h3
  obtain ⟨A3, e3, hk3, m3⟩ := hiddenArgument_spec (n0 := A.count) e2.inv e1.count h5
  have e13 : Ext (anyIds args) c.s A s3 A3 := Ext.trans h (Ext.trans h e1 e2 (fun _ _ hf => hf.elim)) e3 (fun _ _ hf => hf.elim)
  have e23 : Ext Nothing c1.s A1 s3 A3 := Ext.trans e1.inv e2 e3 (fun _ _ hf => hf)
  have hp3 : ∀ j a, args[j]? = some a → Passed env A.count ret.hidden params { c1 with s := s3 } A3 j a (cont env A a.src) ((ids[j]?).join) := by
    intro j a hj
    have := hp1 j a hj
    rw [Nat.zero_add] at this
    exact Passed.ext (c' := { c1 with s := s3 }) e1.inv e23 (fun _ _ hf => hf) (fun _ _ hf => hf) (fun _ _ => rfl) this
  have hm3 : ∀ r id, r ∈ volatiles r.kind → s3.map r = some id → some id ∈ ids ++ [hid.map (·.2)] := by
    intro r id hr hm
    rcases m3 r id hm with hm | ⟨hm, hne⟩
    · exact List.mem_append_right _ (by rw [hm]; exact List.mem_singleton.2 rfl)
    · rcases m2 r id hr hm with hm | ⟨h1', hm⟩
      · exact List.mem_append_left _ hm
      · exact absurd hm (hne h1')
  have hout : ∀ d : Int, 8 * ((ret.hidden + args.length : Nat) : Int) ≤ d → c1.out d = c.out d := fun d hd => ho1 d (by simpa using hd)
  cases fn with
  | none =>
    cases h6
    exact ⟨hlen, A3, Ext.weaken h e13 (fun _ _ hf => .inl hf), hp3, rfl, hk3, hm3, hout⟩
  | some src =>
    dsimp only at h6
    obtain ⟨⟨src', s4⟩, g1, g2⟩ := Option.bind_eq_some_iff.1 h6
    obtain ⟨v, g3, g4⟩ := Option.bind_eq_some_iff.1 g2
    obtain ⟨s5, g5, g6⟩ := Option.map_eq_some_iff.1 g4
    cases g6
    obtain ⟨hrd, hdis⟩ := hfn src rfl
    have hrd3 := hrd.ext e13 hdis
    have hltf : ∀ id, srcIds src id → id < A.count := fun id hid => hrd.lt h hid
    obtain ⟨hv, A4, e4, m4⟩ := fn_spec e13.inv (e13.small hsm) hrd3 g1 g3 g5
    rw [cont_ext h e13 hrd] at hv
    subst hv
    refine ⟨hlen, A4, Ext.trans h (Ext.weaken h e13 (fun _ _ hf => .inl hf)) e4 (fun _ _ hf => .inr ⟨src, rfl, hf⟩), ?_, rfl, ?_, ?_, hout⟩
    · intro j a hj
      exact Passed.ext (c := { c1 with s := s3 }) (c' := { c1 with s := s5 }) e13.inv e4
        (fun id hid hf => absurd (hltf id hf) (by omega)) (fun id hid hf => hdis id hf ⟨a, List.mem_of_getElem? hj, hid⟩) (fun _ _ => rfl) (hp3 j a hj)
    · exact hk3.ext e13.inv e4 (fun id hid hf => absurd (hltf id hf) (by omega))
    · intro r id hr hm
      exact hm3 r id hr (m4 r id hm)

/-! ## After the call -/

theorem unlock_spec {s s' : State} {A id r n} (h : Inv s A) (hl : s.locs id = some ⟨.loaded r, n, 1, 0⟩) (hs : unlock s id = some s') :
    Ext (· = id) s A s' A ∧ s'.locs id = some ⟨.freed, n, 0, 0⟩ ∧ MapLe s s' := by
  obtain ⟨s1, h1, h2⟩ := Option.bind_eq_some_iff.1 hs
  obtain ⟨l, h3, h4⟩ := Option.bind_eq_some_iff.1 h1
  obtain ⟨l', h5, h6⟩ := Option.map_eq_some_iff.1 h4
  rw [hl] at h3; cases h3
  cases h5
  subst h6
  have e1 := set_ext (l' := ⟨.loaded r, n, 0, 0⟩) h hl (by intro hc; cases hc) rfl rfl
  have e2 := free_ext e1.inv h2
  refine ⟨Ext.trans h e1 e2 (fun _ _ hf => hf), ?_, fun r id hm => free_map h2 r id hm⟩
  obtain ⟨l0, q1, _, q2 | q2⟩ := free_locs h2
  · have q1 : upd s.locs id _ id = some l0 := q1
    rw [upd_same] at q1; cases q1
    simp at q2
  · have q1 : upd s.locs id _ id = some l0 := q1
    rw [upd_same] at q1; cases q1
    rw [q2.1, upd_same]
    rfl

theorem unlockAll_spec : ∀ (ids : List (Option Nat)) {s s' : State} {A}, Inv s A → (ids.filterMap (fun x => x)).Nodup →
    (∀ id, some id ∈ ids → ∃ r n, s.locs id = some ⟨.loaded r, n, 1, 0⟩) → unlockAll s ids = some s' →
    Ext (fun id => some id ∈ ids) s A s' A ∧ MapLe s s' ∧ ∀ id, some id ∈ ids → ∃ n, s'.locs id = some ⟨.freed, n, 0, 0⟩
  | [], s, s', A, h, _, _, hs => by
    cases hs
    exact ⟨Ext.refl h, fun _ _ hm => hm, fun id hid => absurd hid List.not_mem_nil⟩
  | none :: ids, s, s', A, h, hn, hl, hs => by
    rw [unlockAll] at hs
    obtain ⟨e, m, k⟩ := unlockAll_spec ids h (by simpa using hn) (fun id hid => hl id (List.mem_cons_of_mem _ hid)) hs
    refine ⟨Ext.weaken h e (fun id _ hid => List.mem_cons_of_mem _ hid), m, fun id hid => ?_⟩
    rcases List.mem_cons.1 hid with hc | hid
    · cases hc
    · exact k id hid
  | some id :: ids, s, s', A, h, hn, hl, hs => by
    rw [unlockAll] at hs
    obtain ⟨s1, h1, h2⟩ := Option.bind_eq_some_iff.1 hs
    obtain ⟨r, n, hid⟩ := hl id List.mem_cons_self
    obtain ⟨e1, k1, m1⟩ := unlock_spec h hid h1
    have hn : (id :: ids.filterMap (fun x => x)).Nodup := by simpa using hn
    rw [List.nodup_cons] at hn
    have hnot : ∀ j, some j ∈ ids → j ≠ id := by
      rintro j hj rfl
      exact hn.1 (List.mem_filterMap.2 ⟨_, hj, rfl⟩)
    obtain ⟨e2, m2, k2⟩ := unlockAll_spec ids e1.inv hn.2 (fun j hj => by
      obtain ⟨r', n', hj'⟩ := hl j (List.mem_cons_of_mem _ hj)
      exact ⟨r', n', e1.locked j _ hj' (by intro hc; cases hc) (hnot j hj)⟩) h2
    refine ⟨Ext.trans h (Ext.weaken h e1 (fun j _ hj => ?_)) e2 (fun j _ hj => List.mem_cons_of_mem _ hj), fun r j hm => m1 r j (m2 r j hm), fun j hj => ?_⟩
    · have hj : j = id := hj
      subst hj; exact List.mem_cons_self
    · rcases List.mem_cons.1 hj with hc | hj
      · cases hc
        exact ⟨n, e2.gone id _ k1 rfl⟩
      · exact k2 j hj

/-- A store to a location on the stack. -/
theorem memStore_inv {s : State} {A id l o} (h : Inv s A) (hl : s.locs id = some l) (hp : l.place = .stack o) (v : Nat) :
    Inv { s with mem := store s.mem o l.size v } { A with value := upd A.value id (v % 256 ^ l.size) } := by
  obtain ⟨ho1, ho2, ho3, _⟩ := h.slot id l o hl hp
  refine ⟨h.count, h.fresh, h.size, h.mapped, ?_, ?_, h.apart⟩
  · intro j lj r hj hpj
    have : j ≠ id := by rintro rfl; rw [hl] at hj; cases hj; rw [hp] at hpj; cases hpj
    dsimp only
    rw [upd_other _ _ this]
    exact h.loaded j lj r hj hpj
  · intro j lj oj hj hpj
    dsimp only
    obtain ⟨h1, h2, h3, h4⟩ := h.slot j lj oj hj hpj
    refine ⟨h1, h2, h3, ?_⟩
    by_cases hji : j = id
    · subst hji
      rw [hl] at hj; cases hj
      rw [hp] at hpj; cases hpj
      rw [upd_same]
      exact load_store _ _ _ _ (by omega)
    · rw [upd_other _ _ hji, ← h4]
      have hap := h.apart j id lj l oj o hj hl hpj hp hji
      unfold Disjoint at hap
      exact load_congr _ _ _ _ (by omega) (fun d hd1 hd2 => store_outside _ _ _ _ _ (by omega) (by omega))

end Verif.Lemmas.Call
