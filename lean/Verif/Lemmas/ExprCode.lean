import Verif.Model.ExprCode
import Verif.Lemmas.Call

/-!
# Lemmas: the machine of `Model/ExprCode.lean`

The functions of the register allocator do not fail as long as at most two locations are locked, and what they leave alone.
-/

namespace Verif.Lemmas.ExprCode

open Verif.RegAlloc Verif.ExprCode Verif.Props.RegAlloc Verif.Spec.X64 Verif.Spec.ExprCode
open Verif.Spec.RegAlloc (Values create)
open Verif.Lemmas.Call (Moved lt_count Nothing create_same)

/-- The invariant of the allocator, and that a location can be spilled unless it is in the list. -/
structure Good (L : List Nat) (m : Machine) (A : Values) : Prop where
  inv : Inv m.s A
  pow : ∀ id l, m.s.locs id = some l → powerOfTwo l.size = true
  unl : ∀ id l, m.s.locs id = some l → id ∉ L → l.preventSpilling = 0
  short : L.length ≤ 2
  known : ∀ id ∈ L, id < A.count

/-- Everything but the locations in `F` is kept, up to spilling. -/
structure Frame (F : Nat → Prop) (m : Machine) (A : Values) (m' : Machine) (A' : Values) : Prop where
  count : A.count ≤ A'.count
  keep : ∀ id l, m.s.locs id = some l → l.place ≠ .freed → ¬ F id →
    ∃ p, m'.s.locs id = some { l with place := p } ∧ Moved l.place p ∧ (l.preventSpilling ≠ 0 → p = l.place)
  val : ∀ id l, m.s.locs id = some l → l.place ≠ .freed → ¬ F id → A'.size id = A.size id ∧ A'.value id = A.value id
  bytes : m'.bytes = m.bytes

theorem Frame.refl {F m A} : Frame F m A m A :=
  ⟨Nat.le_refl _, fun _ l hl _ _ => ⟨l.place, hl, .inl rfl, fun _ => rfl⟩, fun _ _ _ _ _ => ⟨rfl, rfl⟩, rfl⟩

theorem Frame.trans {F G H m A m1 A1 m2 A2} (h0 : Inv m.s A) (h1 : Frame F m A m1 A1) (h2 : Frame G m1 A1 m2 A2)
    (hF : ∀ j, j < A.count → F j → H j) (hG : ∀ j, j < A.count → G j → H j) : Frame H m A m2 A2 := by
  have key : ∀ id l, m.s.locs id = some l → ¬ H id → ¬ F id ∧ ¬ G id := fun id l hl hH =>
    ⟨fun h => hH (hF id (lt_count h0 hl) h), fun h => hH (hG id (lt_count h0 hl) h)⟩
  refine ⟨Nat.le_trans h1.count h2.count, ?_, ?_, h2.bytes.trans h1.bytes⟩
  · intro id l hl hp hH
    obtain ⟨a, b⟩ := key id l hl hH
    obtain ⟨p, h3, h4, h5⟩ := h1.keep id l hl hp a
    obtain ⟨q, h6, h7, h8⟩ := h2.keep id _ h3 (h4.live hp) b
    exact ⟨q, h6, h4.trans h7, fun h => (h8 h).trans (h5 h)⟩
  · intro id l hl hp hH
    obtain ⟨a, b⟩ := key id l hl hH
    obtain ⟨p, h3, h4, h5⟩ := h1.keep id l hl hp a
    obtain ⟨h6, h7⟩ := h1.val id l hl hp a
    obtain ⟨h8, h9⟩ := h2.val id _ h3 (h4.live hp) b
    exact ⟨h8.trans h6, h9.trans h7⟩

theorem Frame.mono {F H m A m1 A1} (h0 : Inv m.s A) (h1 : Frame F m A m1 A1) (hF : ∀ j, j < A.count → F j → H j) : Frame H m A m1 A1 :=
  Frame.trans h0 h1 (Frame.refl (F := Nothing)) hF (fun _ _ h => h.elim)

/-- A location of an operand: it can be spilled and freed. -/
def Live (m : Machine) (id : Nat) : Prop :=
  ∃ l, m.s.locs id = some l ∧ l.place ≠ .freed ∧ (∀ r, l.place = .loaded r → r.kind = .gpr) ∧ l.preventSpilling = 0 ∧ l.preventFreeing = 0

theorem Frame.live {F m A m' A' id} (h : Frame F m A m' A') (hl : Live m id) (hF : ¬ F id) : Live m' id := by
  obtain ⟨l, h1, h2, h3, h4, h5⟩ := hl
  obtain ⟨p, h6, h7, _⟩ := h.keep id l h1 h2 hF
  refine ⟨_, h6, h7.live h2, ?_, h4, h5⟩
  intro r hr
  dsimp only at hr
  subst hr
  rcases h7 with h7 | ⟨_, _, _, h7⟩
  · exact h3 r h7.symm
  · cases h7

theorem Live.lt {m A id} (h : Inv m.s A) (hl : Live m id) : id < A.count := by
  obtain ⟨l, h1, _⟩ := hl; exact lt_count h h1

theorem mapped_lt {m : Machine} {A r id} (h : Inv m.s A) (hm : m.s.map r = some id) : id < A.count := by
  obtain ⟨l, h1, _⟩ := h.mapped r id hm; exact lt_count h h1

theorem mapped_inj {m : Machine} {A r r' id} (h : Inv m.s A) (hm : m.s.map r = some id) (hm' : m.s.map r' = some id) : r = r' := by
  obtain ⟨l, h1, h2⟩ := h.mapped r id hm
  obtain ⟨l', h3, h4⟩ := h.mapped r' id hm'
  rw [h1] at h3; cases h3
  rw [h2] at h4; cases h4; rfl

/-! ## Spilling -/

theorem spill_total {L m A r j} (hg : Good L m A) (hm : m.s.map r = some j) (hj : j ∉ L) :
    ∃ s', spill m.s r = some s' ∧ Good L { m with s := s' } A ∧ Frame Nothing m A { m with s := s' } A ∧ s'.map r = none ∧
      (∀ r', r' ≠ r → s'.map r' = m.s.map r') ∧ s'.regs = m.s.regs := by
  obtain ⟨l, hl, hp⟩ := hg.inv.mapped r j hm
  have hlock := hg.unl j l hl hj
  have hpow := hg.pow j l hl
  have hex : ∃ s', spill m.s r = some s' := by
    unfold spill
    rw [hm]
    dsimp only
    rw [hl]
    dsimp only
    rw [if_pos (by simp [hlock, hpow])]
    exact ⟨_, rfl⟩
  obtain ⟨s', hs⟩ := hex
  obtain ⟨h1, h2, h3, h4, h5, id, l', o, h6, h7, h8, h9, h10⟩ := spill_frame hs
  rw [hm] at h6; cases h6
  rw [hl] at h7; cases h7
  refine ⟨s', hs, ⟨spill_inv hg.inv hs, ?_, ?_, hg.short, hg.known⟩, ⟨Nat.le_refl _, ?_, fun _ _ _ _ _ => ⟨rfl, rfl⟩, rfl⟩, h1, h2, h3⟩
  · intro id l'' hl''
    dsimp only at hl''
    by_cases hi : id = j
    · subst hi; rw [h9] at hl''; cases hl''; exact hpow
    · rw [h10 id hi] at hl''; exact hg.pow id l'' hl''
  · intro id l'' hl'' hn
    dsimp only at hl''
    by_cases hi : id = j
    · subst hi; rw [h9] at hl''; cases hl''; rfl
    · rw [h10 id hi] at hl''; exact hg.unl id l'' hl'' hn
  · intro id l'' hl'' _ _
    dsimp only
    by_cases hi : id = j
    · subst hi; rw [hl] at hl''; cases hl''
      refine ⟨.stack o, by rw [h9, ← hlock], .inr ⟨r, o, hp, rfl⟩, fun h => absurd hlock h⟩
    · exact ⟨l''.place, by rw [h10 id hi]; exact hl'', .inl rfl, fun _ => rfl⟩

theorem roll_good {L m A} (hg : Good L m A) (f) : Good L { m with s := { m.s with rolling := f } } A :=
  ⟨roll_inv hg.inv f, hg.pow, hg.unl, hg.short, hg.known⟩

theorem claim_total {L m A r} (hg : Good L m A) (hr : ∀ j, m.s.map r = some j → j ∉ L) :
    ∃ m', claim m r = some m' ∧ Good L m' A ∧ Frame Nothing m A m' A ∧ m'.s.map r = none ∧
      (∀ r', r' ≠ r → m'.s.map r' = m.s.map r') ∧ m'.s.regs = m.s.regs ∧ m'.flags = m.flags := by
  unfold claim allocateSpecific
  by_cases h : (m.s.map r).isSome
  · obtain ⟨j, hj⟩ := Option.isSome_iff_exists.1 h
    obtain ⟨s', h1, h2, h3, h4, h5, h6⟩ := spill_total hg hj (hr j hj)
    rw [if_pos h, h1]
    exact ⟨_, rfl, h2, h3, h4, h5, h6, rfl⟩
  · rw [if_neg h]
    exact ⟨_, rfl, hg, Frame.refl, by simpa using h, fun _ _ => rfl, rfl, rfl⟩

theorem gpr_of_order {k n r} (h : r ∈ order k n) : r.kind = k ∧ r ∈ volatiles k := by
  have hv : r ∈ volatiles k := by
    unfold order at h
    rcases List.mem_append.1 h with h | h
    · exact List.mem_of_mem_drop h
    · exact List.mem_of_mem_take h
  refine ⟨?_, hv⟩
  clear h
  cases k
  · simp [volatiles] at hv; rcases hv with h | h | h | h | h | h | h <;> subst h <;> rfl
  · simp [volatiles] at hv; rcases hv with h | h | h | h | h | h <;> subst h <;> rfl

theorem order_all {k n r} (h : r ∈ volatiles k) : r ∈ order k n := by
  unfold order
  rw [← List.take_append_drop n (volatiles k)] at h
  rcases List.mem_append.1 h with h | h
  · exact List.mem_append.2 (.inr h)
  · exact List.mem_append.2 (.inl h)

theorem few {L : List Nat} (h : L.length ≤ 2) {a b c : Nat} (hab : a ≠ b) (hac : a ≠ c) (hbc : b ≠ c) (ha : a ∈ L) (hb : b ∈ L) (hc : c ∈ L) : False := by
  match L, h with
  | [], _ => cases ha
  | [x], _ => simp at ha hb; omega
  | [x, y], _ => simp at ha hb hc; omega
  | _ :: _ :: _ :: _, h => simp at h

/-- There is always a register: at most two are locked. -/
theorem alloc_total {L m A} (hg : Good L m A) :
    ∃ r m', allocateReg m = some (r, m') ∧ Good L m' A ∧ Frame Nothing m A m' A ∧ r.kind = .gpr ∧ m'.s.map r = none ∧
      (∀ r', r' ≠ r → m'.s.map r' = m.s.map r') ∧ m'.s.regs = m.s.regs ∧ m'.flags = m.flags ∧
      ((∃ r' ∈ volatiles .gpr, m.s.map r' = none) → m.s.map r = none) := by
  unfold allocateReg allocate
  dsimp only
  generalize hf : (upd m.s.rolling .gpr _ : Kind → Nat) = f
  have hg' := roll_good hg f
  split
  · rename_i r hr
    have hm : m.s.map r = none := by simpa using List.find?_some hr
    exact ⟨r, _, rfl, hg', ⟨Nat.le_refl _, fun _ l hl _ _ => ⟨l.place, hl, .inl rfl, fun _ => rfl⟩, fun _ _ _ _ _ => ⟨rfl, rfl⟩, rfl⟩,
      (gpr_of_order (List.mem_of_find?_eq_some hr)).1, hm, fun _ _ => rfl, rfl, rfl, fun _ => hm⟩
  · rename_i hnone
    have hall : ∀ r ∈ volatiles .gpr, (m.s.map r).isSome := by
      intro r hr
      have := List.find?_eq_none.1 hnone r (order_all hr)
      simpa [Option.isSome_iff_ne_none] using this
    split
    · rename_i r hr
      have hu : unlocked { m.s with rolling := f } r = true := List.find?_some hr
      unfold unlocked at hu
      dsimp only at hu
      split at hu
      · cases hu
      · rename_i j hj
        have hjL : j ∉ L ∨ j ∈ L := (Decidable.em (j ∈ L)).symm
        obtain ⟨l, hl, hp⟩ := hg.inv.mapped r j hj
        rw [hl] at hu
        simp only [decide_eq_true_eq] at hu
        have hpow := hg.pow j l hl
        have hex : ∃ s', spill { m.s with rolling := f } r = some s' := by
          unfold spill
          dsimp only
          rw [hj]
          dsimp only
          rw [hl]
          dsimp only
          rw [if_pos (by simp [hu, hpow])]
          exact ⟨_, rfl⟩
        obtain ⟨s', hs⟩ := hex
        obtain ⟨h1, h2, h3, h4, h5, id, l', o, h6, h7, h8, h9, h10⟩ := spill_frame hs
        dsimp only at h2 h3 h6 h7 h10
        rw [hj] at h6; cases h6
        rw [hl] at h7; cases h7
        rw [hs]
        refine ⟨r, _, rfl, ⟨spill_inv hg'.inv hs, ?_, ?_, hg.short, hg.known⟩, ⟨Nat.le_refl _, ?_, fun _ _ _ _ _ => ⟨rfl, rfl⟩, rfl⟩,
          (gpr_of_order (List.mem_of_find?_eq_some hr)).1, h1, h2, h3, rfl, ?_⟩
        · intro id l'' hl''
          dsimp only at hl''
          by_cases hi : id = j
          · subst hi; rw [h9] at hl''; cases hl''; exact hpow
          · rw [h10 id hi] at hl''; exact hg.pow id l'' hl''
        · intro id l'' hl'' hn
          dsimp only at hl''
          by_cases hi : id = j
          · subst hi; rw [h9] at hl''; cases hl''; rfl
          · rw [h10 id hi] at hl''; exact hg.unl id l'' hl'' hn
        · intro id l'' hl'' _ _
          dsimp only
          by_cases hi : id = j
          · subst hi; rw [hl] at hl''; cases hl''
            refine ⟨.stack o, by rw [h9, ← hu], .inr ⟨r, o, hp, rfl⟩, fun h => absurd hu h⟩
          · exact ⟨l''.place, by rw [h10 id hi]; exact hl'', .inl rfl, fun _ => rfl⟩
        · rintro ⟨r', hr', hn⟩
          have := hall r' hr'
          rw [hn] at this; cases this
    · rename_i hlocked
      exfalso
      have hin : ∀ r ∈ volatiles .gpr, ∃ j, m.s.map r = some j ∧ j ∈ L := by
        intro r hr
        obtain ⟨j, hj⟩ := Option.isSome_iff_exists.1 (hall r hr)
        refine ⟨j, hj, Decidable.byContradiction (fun hn => ?_)⟩
        obtain ⟨l, hl, hp⟩ := hg.inv.mapped r j hj
        have := List.find?_eq_none.1 hlocked r (order_all hr)
        apply this
        unfold unlocked
        dsimp only
        rw [hj]
        dsimp only
        rw [hl]
        simp [hg.unl j l hl hn]
      obtain ⟨a, ha, ha'⟩ := hin ⟨.gpr, 1⟩ (by simp [volatiles])
      obtain ⟨b, hb, hb'⟩ := hin ⟨.gpr, 2⟩ (by simp [volatiles])
      obtain ⟨c, hc, hc'⟩ := hin ⟨.gpr, 8⟩ (by simp [volatiles])
      refine few hg.short ?_ ?_ ?_ ha' hb' hc'
      · rintro rfl; exact absurd (mapped_inj hg.inv ha hb) (by decide)
      · rintro rfl; exact absurd (mapped_inj hg.inv ha hc) (by decide)
      · rintro rfl; exact absurd (mapped_inj hg.inv hb hc) (by decide)

/-! ## Creating, freeing, writing and locking -/

theorem loaded_total {L m A r size} (v : Nat) (hg : Good L m A) (hr : m.s.map r = none) (hs : powerOfTwo size = true) :
    ∃ m', loaded m r size v = some (A.count, m') ∧ Good L m' (create A size v) ∧ Frame Nothing m A m' (create A size v) ∧
      m'.s.locs A.count = some ⟨.loaded r, size, 0, 0⟩ ∧ m'.s.map = upd m.s.map r (some A.count) ∧ m'.s.regs = upd m.s.regs r v ∧
      m'.flags = m.flags := by
  have hn : newLoaded m.s r size v = some { m.s with
      regs := upd m.s.regs r v
      map := upd m.s.map r (some m.s.next)
      locs := upd m.s.locs m.s.next (some ⟨.loaded r, size, 0, 0⟩)
      next := m.s.next + 1 } := by
    unfold newLoaded; rw [hr]; rfl
  have hc := hg.inv.count
  have hi := newLoaded_inv hg.inv hn
  unfold loaded
  rw [hn]
  refine ⟨_, congrArg (fun i => some (i, _)) hc, ⟨hi, ?_, ?_, hg.short, fun j hj => Nat.lt_succ_of_lt (hg.known j hj)⟩, ⟨Nat.le_succ _, ?_, ?_, rfl⟩, by rw [← hc]; exact upd_same _ _ _, by rw [← hc], rfl, rfl⟩
  · intro id l hl
    dsimp only at hl
    by_cases h : id = m.s.next
    · subst h; rw [upd_same] at hl; cases hl; exact hs
    · rw [upd_other _ _ h] at hl; exact hg.pow id l hl
  · intro id l hl hL
    dsimp only at hl
    by_cases h : id = m.s.next
    · subst h; rw [upd_same] at hl; cases hl; rfl
    · rw [upd_other _ _ h] at hl; exact hg.unl id l hl hL
  · intro id l hl _ _
    have : id ≠ m.s.next := by have := lt_count hg.inv hl; omega
    exact ⟨l.place, by show upd _ _ _ _ = _; rw [upd_other _ _ this]; exact hl, .inl rfl, fun _ => rfl⟩
  · intro id l hl _ _
    exact create_same (lt_count hg.inv hl)

theorem create_value {A : Values} {size v} : (create A size v).value A.count = v % 256 ^ size ∧ (create A size v).size A.count = size :=
  ⟨upd_same _ _ _, upd_same _ _ _⟩

theorem create_old {A : Values} {size v id} (h : id ≠ A.count) : (create A size v).value id = A.value id ∧ (create A size v).size id = A.size id :=
  ⟨upd_other _ _ h, upd_other _ _ h⟩

theorem free_total {L m A id l} (hg : Good L m A) (hl : m.s.locs id = some l) (hp : l.place ≠ .freed) (h0 : l.preventSpilling = 0)
    (h1 : l.preventFreeing = 0) :
    ∃ m', freeLoc m id = some m' ∧ Good L m' A ∧ Frame (· = id) m A m' A ∧ (∀ r, l.place = .loaded r → m'.s.map r = none) ∧
      (∀ r, l.place ≠ .loaded r → m'.s.map r = m.s.map r) ∧ m'.s.regs = m.s.regs ∧ m'.flags = m.flags := by
  have hex : ∃ s', free m.s id = some s' ∧ s'.locs = upd m.s.locs id (some { l with place := .freed }) ∧
      (∀ r, l.place = .loaded r → s'.map r = none) ∧ (∀ r, l.place ≠ .loaded r → s'.map r = m.s.map r) ∧ s'.regs = m.s.regs := by
    unfold free
    rw [hl]
    dsimp only
    obtain ⟨place, size, a, b⟩ := l
    dsimp only at h0 h1 hp ⊢
    subst h0; subst h1
    cases place with
    | freed => exact absurd rfl hp
    | loaded r =>
      refine ⟨_, rfl, rfl, ?_, ?_, rfl⟩
      · intro r' hr; cases hr; exact upd_same _ _ _
      · intro r' hr; exact upd_other _ _ (fun h => hr (by rw [h]))
    | stack o =>
      refine ⟨_, rfl, rfl, ?_, fun _ _ => rfl, rfl⟩
      intro r' hr; cases hr
  obtain ⟨s', hs, hlocs, hm1, hm2, hregs⟩ := hex
  unfold freeLoc
  rw [hs]
  refine ⟨_, rfl, ⟨free_inv hg.inv hs, ?_, ?_, hg.short, hg.known⟩, ⟨Nat.le_refl _, ?_, fun _ _ _ _ _ => ⟨rfl, rfl⟩, rfl⟩, hm1, hm2, hregs, rfl⟩
  · intro j lj hj
    dsimp only at hj
    rw [hlocs] at hj
    by_cases h : j = id
    · subst h; rw [upd_same] at hj; cases hj; exact hg.pow j l hl
    · rw [upd_other _ _ h] at hj; exact hg.pow j lj hj
  · intro j lj hj hL
    dsimp only at hj
    rw [hlocs] at hj
    by_cases h : j = id
    · subst h; rw [upd_same] at hj; cases hj; exact h0
    · rw [upd_other _ _ h] at hj; exact hg.unl j lj hj hL
  · intro j lj hj _ hne
    exact ⟨lj.place, by show s'.locs j = _; rw [hlocs, upd_other _ _ hne]; exact hj, .inl rfl, fun _ => rfl⟩

theorem free_locs {m m' : Machine} {id l} (h : freeLoc m id = some m') (hl : m.s.locs id = some l) (h0 : l.preventSpilling = 0)
    (h1 : l.preventFreeing = 0) : m'.s.locs id = some { l with place := .freed } := by
  unfold freeLoc free at h
  rw [hl] at h
  dsimp only at h
  have hn : ¬ (l.preventFreeing ≠ 0 ∨ l.preventSpilling ≠ 0) := by omega
  split at h
  · cases h
  · rw [if_neg hn] at h; cases h; exact upd_same _ _ _
  · rw [if_neg hn] at h; cases h; exact upd_same _ _ _

/-- The values after an instruction wrote `v` to `r`. -/
def wrote (m : Machine) (A : Values) (r : Reg) (v : Nat) : Values :=
  match m.s.map r with
  | none => A
  | some j => { A with value := upd A.value j (v % 256 ^ A.size j) }

theorem wrote_count {m A r v} : (wrote m A r v).count = A.count := by
  unfold wrote; split <;> rfl

theorem wrote_size {m A r v} : (wrote m A r v).size = A.size := by
  unfold wrote; split <;> rfl

theorem wrote_value {m A r v j} (h : m.s.map r ≠ some j) : (wrote m A r v).value j = A.value j := by
  unfold wrote
  split
  · rfl
  · rename_i k hk
    exact upd_other _ _ (fun hc => h (by rw [hk, hc]))

theorem wrote_at {m A r v j} (h : m.s.map r = some j) : (wrote m A r v).value j = v % 256 ^ A.size j := by
  unfold wrote
  rw [h]
  exact upd_same _ _ _

theorem write_good {L m A r v} (hg : Good L m A) : Good L (write m r v) (wrote m A r v) ∧
    Frame (fun j => m.s.map r = some j) m A (write m r v) (wrote m A r v) := by
  constructor
  · refine ⟨?_, hg.pow, hg.unl, hg.short, fun j hj => by rw [wrote_count]; exact hg.known j hj⟩
    unfold wrote write
    split
    · rename_i hn
      refine regs_inv hg.inv _ (fun r' id hm => upd_other _ _ ?_)
      rintro rfl; rw [hn] at hm; cases hm
    · rename_i j hj
      obtain ⟨l, hl, hp⟩ := hg.inv.mapped r j hj
      exact write_inv hg.inv hl hp v
  · refine ⟨by rw [wrote_count]; exact Nat.le_refl _, fun _ l hl _ _ => ⟨l.place, hl, .inl rfl, fun _ => rfl⟩, ?_, rfl⟩
    intro id l _ _ hF
    exact ⟨by rw [wrote_size], wrote_value hF⟩

theorem lock_total {L m A id l} (hg : Good L m A) (hl : m.s.locs id = some l) (hs : L.length ≤ 1) :
    lock m id = some { m with s := { m.s with locs := upd m.s.locs id (some { l with preventSpilling := l.preventSpilling + 1 }) } } ∧
    Good (id :: L) { m with s := { m.s with locs := upd m.s.locs id (some { l with preventSpilling := l.preventSpilling + 1 }) } } A ∧
    Frame (· = id) m A { m with s := { m.s with locs := upd m.s.locs id (some { l with preventSpilling := l.preventSpilling + 1 }) } } A := by
  refine ⟨?_, ⟨setLoc_inv hg.inv hl rfl rfl, ?_, ?_, by simp; omega, ?_⟩, ⟨Nat.le_refl _, ?_, fun _ _ _ _ _ => ⟨rfl, rfl⟩, rfl⟩⟩
  · unfold lock step setLoc
    dsimp only
    rw [hl]; rfl
  · intro j lj hj
    dsimp only at hj
    by_cases h : j = id
    · subst h; rw [upd_same] at hj; cases hj; exact hg.pow j l hl
    · rw [upd_other _ _ h] at hj; exact hg.pow j lj hj
  · intro j lj hj hL
    dsimp only at hj
    have h : j ≠ id := fun h => hL (by rw [h]; exact List.mem_cons_self)
    rw [upd_other _ _ h] at hj; exact hg.unl j lj hj (fun hc => hL (List.mem_cons_of_mem _ hc))
  · intro j hj
    rcases List.mem_cons.1 hj with h | h
    · rw [h]; exact lt_count hg.inv hl
    · exact hg.known j h
  · intro j lj hj _ hne
    exact ⟨lj.place, by show upd _ _ _ _ = _; rw [upd_other _ _ hne]; exact hj, .inl rfl, fun _ => rfl⟩

theorem unlock_total {L m A id l} (hg : Good (id :: L) m A) (hl : m.s.locs id = some l) (h1 : l.preventSpilling = 1) :
    unlock m id = some { m with s := { m.s with locs := upd m.s.locs id (some { l with preventSpilling := 0 }) } } ∧
    Good L { m with s := { m.s with locs := upd m.s.locs id (some { l with preventSpilling := 0 }) } } A ∧
    Frame (· = id) m A { m with s := { m.s with locs := upd m.s.locs id (some { l with preventSpilling := 0 }) } } A := by
  have hsh := hg.short
  refine ⟨?_, ⟨setLoc_inv hg.inv hl rfl rfl, ?_, ?_, by simp at hsh; omega, fun j hj => hg.known j (List.mem_cons_of_mem _ hj)⟩, ⟨Nat.le_refl _, ?_, fun _ _ _ _ _ => ⟨rfl, rfl⟩, rfl⟩⟩
  · unfold unlock step setLoc
    dsimp only
    rw [hl]
    simp [h1]
  · intro j lj hj
    dsimp only at hj
    by_cases h : j = id
    · subst h; rw [upd_same] at hj; cases hj; exact hg.pow j l hl
    · rw [upd_other _ _ h] at hj; exact hg.pow j lj hj
  · intro j lj hj hL
    dsimp only at hj
    by_cases h : j = id
    · subst h; rw [upd_same] at hj; cases hj; rfl
    · rw [upd_other _ _ h] at hj
      exact hg.unl j lj hj (fun hc => by rcases List.mem_cons.1 hc with hc | hc; exact h hc; exact hL hc)
  · intro j lj hj _ hne
    exact ⟨lj.place, by show upd _ _ _ _ = _; rw [upd_other _ _ hne]; exact hj, .inl rfl, fun _ => rfl⟩

/-- `loc->size = size` of a loaded location. -/
theorem resize_loaded {L m A id l r size} (hg : Good L m A) (hl : m.s.locs id = some l) (hp : l.place = .loaded r) (hs : powerOfTwo size = true) :
    ∃ m', setSize m (.loc id) size = some (.loc id, m') ∧
      Good L m' { A with size := upd A.size id size, value := upd A.value id (m.s.regs r % 256 ^ size) } ∧
      Frame (· = id) m A m' { A with size := upd A.size id size, value := upd A.value id (m.s.regs r % 256 ^ size) } ∧
      m'.s.locs id = some { l with size := size } ∧ m'.s.map = m.s.map ∧ m'.s.regs = m.s.regs ∧ m'.flags = m.flags := by
  have hm := (hg.inv.loaded id l r hl hp).1
  have key : ∀ {P : Loc → Prop} {j lj}, upd m.s.locs id (some { l with size := size }) j = some lj → (j = id → P { l with size := size }) →
      (j ≠ id → m.s.locs j = some lj → P lj) → P lj := by
    intro P j lj hj h1 h2
    by_cases hi : j = id
    · have := h1 hi; subst hi; rw [upd_same] at hj; cases hj; exact this
    · rw [upd_other _ _ hi] at hj; exact h2 hi hj
  refine ⟨{ m with s := { m.s with locs := upd m.s.locs id (some { l with size := size }) } }, ?_, ⟨⟨hg.inv.count, ?_, ?_, ?_, ?_, ?_, ?_⟩, ?_, ?_, hg.short, hg.known⟩, ⟨Nat.le_refl _, ?_, ?_, rfl⟩,
    upd_same _ _ _, rfl, rfl, rfl⟩
  · unfold setSize setLoc
    dsimp only
    rw [hl]; rfl
  · intro j hj
    show upd _ _ _ _ = _
    have : j ≠ id := by rintro rfl; rw [hg.inv.fresh j hj] at hl; cases hl
    rw [upd_other _ _ this]; exact hg.inv.fresh j hj
  · intro j lj hj
    dsimp only
    by_cases hi : j = id
    · subst hi; dsimp only at hj; rw [upd_same] at hj ⊢; cases hj; rfl
    · dsimp only at hj; rw [upd_other _ _ hi] at hj ⊢; exact hg.inv.size j lj hj
  · intro r' j hj
    obtain ⟨lj, h1, h2⟩ := hg.inv.mapped r' j hj
    dsimp only
    by_cases hi : j = id
    · subst hi; rw [hl] at h1; cases h1; exact ⟨_, upd_same _ _ _, h2⟩
    · exact ⟨lj, by rw [upd_other _ _ hi]; exact h1, h2⟩
  · intro j lj r' hj hp'
    dsimp only at hj ⊢
    by_cases hi : j = id
    · subst hi; rw [upd_same] at hj ⊢; cases hj
      dsimp only at hp' ⊢
      rw [hp] at hp'; cases hp'
      exact ⟨hm, rfl⟩
    · rw [upd_other _ _ hi] at hj ⊢; exact hg.inv.loaded j lj r' hj hp'
  · intro j lj o hj hp'
    dsimp only at hj ⊢
    by_cases hi : j = id
    · subst hi; rw [upd_same] at hj; cases hj
      dsimp only at hp'
      rw [hp] at hp'; cases hp'
    · rw [upd_other _ _ hi] at hj ⊢; exact hg.inv.slot j lj o hj hp'
  · intro j k lj lk o o' hj hk hpj hpk hne
    dsimp only at hj hk
    by_cases hi : j = id
    · subst hi; rw [upd_same] at hj; cases hj
      dsimp only at hpj
      rw [hp] at hpj; cases hpj
    · by_cases hi' : k = id
      · subst hi'; rw [upd_same] at hk; cases hk
        dsimp only at hpk
        rw [hp] at hpk; cases hpk
      · rw [upd_other _ _ hi] at hj; rw [upd_other _ _ hi'] at hk
        exact hg.inv.apart j k lj lk o o' hj hk hpj hpk hne
  · intro j lj hj
    exact key (P := fun l => powerOfTwo l.size = true) hj (fun _ => hs) (fun _ h => hg.pow j lj h)
  · intro j lj hj hL
    exact key (P := fun l => l.preventSpilling = 0) hj (fun h => hg.unl j l (by rw [h]; exact hl) hL) (fun _ h => hg.unl j lj h hL)
  · intro j lj hj _ hne
    exact ⟨lj.place, by show upd _ _ _ _ = _; rw [upd_other _ _ hne]; exact hj, .inl rfl, fun _ => rfl⟩
  · intro j lj hj _ hne
    exact ⟨upd_other _ _ hne, upd_other _ _ hne⟩

theorem load_prefix (mem : Nat → Nat) : ∀ (k n o : Nat), k ≤ n → load mem o n % 256 ^ k = load mem o k % 256 ^ k
  | 0, _, _, _ => by simp [Nat.mod_one]
  | k + 1, 0, _, h => by omega
  | k + 1, n + 1, o, h => by
    have ih := load_prefix mem k n (o - 1) (by omega)
    rw [load, load, Nat.pow_succ, Nat.mul_comm (256 ^ k), Nat.add_mod, Nat.mul_mod_mul_left, ih, ← Nat.mul_mod_mul_left, ← Nat.add_mod]

/-- `loc->size = size` of a spilled location. -/
theorem resize_stack {L m A id l o size} (hg : Good L m A) (hl : m.s.locs id = some l) (hp : l.place = .stack o) (hs : powerOfTwo size = true)
    (hle : size ≤ l.size) :
    ∃ m', setSize m (.loc id) size = some (.loc id, m') ∧
      Good L m' { A with size := upd A.size id size, value := upd A.value id (load m.s.mem o size) } ∧
      Frame (· = id) m A m' { A with size := upd A.size id size, value := upd A.value id (load m.s.mem o size) } ∧
      m'.s.locs id = some { l with size := size } ∧ m'.s.map = m.s.map ∧ m'.s.regs = m.s.regs ∧ m'.flags = m.flags := by
  obtain ⟨ho1, ho2, ho3, ho4⟩ := hg.inv.slot id l o hl hp
  have key : ∀ {P : Loc → Prop} {j lj}, upd m.s.locs id (some { l with size := size }) j = some lj → (j = id → P { l with size := size }) →
      (j ≠ id → m.s.locs j = some lj → P lj) → P lj := by
    intro P j lj hj h1 h2
    by_cases hi : j = id
    · have := h1 hi; subst hi; rw [upd_same] at hj; cases hj; exact this
    · rw [upd_other _ _ hi] at hj; exact h2 hi hj
  refine ⟨{ m with s := { m.s with locs := upd m.s.locs id (some { l with size := size }) } }, ?_, ⟨⟨hg.inv.count, ?_, ?_, ?_, ?_, ?_, ?_⟩, ?_, ?_, hg.short, hg.known⟩, ⟨Nat.le_refl _, ?_, ?_, rfl⟩,
    upd_same _ _ _, rfl, rfl, rfl⟩
  · unfold setSize setLoc
    dsimp only
    rw [hl]; rfl
  · intro j hj
    show upd _ _ _ _ = _
    have : j ≠ id := by rintro rfl; rw [hg.inv.fresh j hj] at hl; cases hl
    rw [upd_other _ _ this]; exact hg.inv.fresh j hj
  · intro j lj hj
    dsimp only
    by_cases hi : j = id
    · subst hi; dsimp only at hj; rw [upd_same] at hj ⊢; cases hj; rfl
    · dsimp only at hj; rw [upd_other _ _ hi] at hj ⊢; exact hg.inv.size j lj hj
  · intro r' j hj
    obtain ⟨lj, h1, h2⟩ := hg.inv.mapped r' j hj
    dsimp only
    by_cases hi : j = id
    · subst hi; rw [hl] at h1; cases h1; rw [hp] at h2; cases h2
    · exact ⟨lj, by rw [upd_other _ _ hi]; exact h1, h2⟩
  · intro j lj r' hj hp'
    dsimp only at hj ⊢
    by_cases hi : j = id
    · subst hi; rw [upd_same] at hj ⊢; cases hj
      dsimp only at hp' ⊢
      rw [hp] at hp'; cases hp'
    · rw [upd_other _ _ hi] at hj ⊢; exact hg.inv.loaded j lj r' hj hp'
  · intro j lj o' hj hp'
    dsimp only at hj ⊢
    by_cases hi : j = id
    · subst hi; rw [upd_same] at hj ⊢; cases hj
      dsimp only at hp' ⊢
      rw [hp] at hp'; cases hp'
      exact ⟨by omega, ho2, powerOfTwo_pos hs, rfl⟩
    · rw [upd_other _ _ hi] at hj ⊢; exact hg.inv.slot j lj o' hj hp'
  · intro j k lj lk o1 o2 hj hk hpj hpk hne
    dsimp only at hj hk
    by_cases hi : j = id
    · subst hi; rw [upd_same] at hj; cases hj
      rw [upd_other _ _ (Ne.symm hne)] at hk
      dsimp only at hpj ⊢
      have := hg.inv.apart j k l lk o1 o2 hl hk hpj hpk hne
      unfold Props.RegAlloc.Disjoint at this ⊢
      omega
    · rw [upd_other _ _ hi] at hj
      by_cases hi' : k = id
      · subst hi'; rw [upd_same] at hk; cases hk
        dsimp only at hpk ⊢
        have := hg.inv.apart j k lj l o1 o2 hj hl hpj hpk hne
        unfold Props.RegAlloc.Disjoint at this ⊢
        omega
      · rw [upd_other _ _ hi'] at hk
        exact hg.inv.apart j k lj lk o1 o2 hj hk hpj hpk hne
  · intro j lj hj
    exact key (P := fun l => powerOfTwo l.size = true) hj (fun _ => hs) (fun _ h => hg.pow j lj h)
  · intro j lj hj hL
    exact key (P := fun l => l.preventSpilling = 0) hj (fun h => hg.unl j l (by rw [h]; exact hl) hL) (fun _ h => hg.unl j lj h hL)
  · intro j lj hj _ hne
    exact ⟨lj.place, by show upd _ _ _ _ = _; rw [upd_other _ _ hne]; exact hj, .inl rfl, fun _ => rfl⟩
  · intro j lj hj _ hne
    exact ⟨upd_other _ _ hne, upd_other _ _ hne⟩

/-! ## Operands -/

/-- The location of the register an operand uses. -/
def root : Opnd → Option Nat
  | .loc id => some id
  | .deref base _ => root base
  | _ => none

def sizeA (A : Values) : Opnd → Nat
  | .imm _ size | .mem _ size | .deref _ size | .cond _ size => size
  | .loc id => A.size id

/-- Operands that have a value: no conditions, and bases are addresses. -/
def WF (A : Values) : Opnd → Prop
  | .imm _ size | .mem _ size => okSize size = true
  | .loc id => okSize (A.size id) = true
  | .deref base size => okSize size = true ∧ WF A base ∧ sizeA A base = 8
  | .cond _ _ => False

/-- The number an operand denotes. -/
def valA (A : Values) (bytes : Nat → Nat) : Opnd → Nat
  | .imm v size => v % 256 ^ size
  | .mem a size => readBytes bytes a size
  | .loc id => A.value id % 256 ^ A.size id
  | .deref base size => readBytes bytes (valA A bytes base) size
  | .cond _ _ => 0

theorem ok_pow {n} (h : okSize n = true) : powerOfTwo n = true := by
  simp only [okSize, Bool.or_eq_true, decide_eq_true_eq] at h
  rcases h with ((h | h) | h) | h <;> subst h <;> rfl

theorem ok_cases {n} (h : okSize n = true) : n = 1 ∨ n = 2 ∨ n = 4 ∨ n = 8 := by
  simp only [okSize, Bool.or_eq_true, decide_eq_true_eq] at h
  omega

theorem WF.ok {A o} (h : WF A o) : okSize (sizeA A o) = true := by
  cases o with
  | deref => exact h.1
  | cond => exact h.elim
  | _ => exact h

theorem readBytes_lt (bytes : Nat → Nat) : ∀ n a, readBytes bytes a n < 256 ^ n
  | 0, _ => by simp [readBytes]
  | n + 1, a => by
    have := readBytes_lt bytes n (a + 1)
    rw [readBytes, Nat.pow_succ]; omega

theorem valA_lt {A bytes o} (h : WF A o) : valA A bytes o < 256 ^ sizeA A o := by
  cases o with
  | imm v size => exact Nat.mod_lt _ (Nat.pow_pos (by omega))
  | loc id => exact Nat.mod_lt _ (Nat.pow_pos (by omega))
  | mem a size => exact readBytes_lt ..
  | deref b size => exact readBytes_lt ..
  | cond => exact h.elim

/-- The values of the locations of operands are unchanged. -/
theorem keep_values {A A' : Values} : ∀ {o}, (∀ id, root o = some id → A'.size id = A.size id ∧ A'.value id = A.value id) →
    sizeA A' o = sizeA A o ∧ (∀ bytes, valA A' bytes o = valA A bytes o) ∧ (WF A o → WF A' o)
  | .imm .., _ => ⟨rfl, fun _ => rfl, id⟩
  | .mem .., _ => ⟨rfl, fun _ => rfl, id⟩
  | .cond .., _ => ⟨rfl, fun _ => rfl, id⟩
  | .loc id, h => by
    obtain ⟨h1, h2⟩ := h id rfl
    refine ⟨h1, fun _ => ?_, fun hw => ?_⟩
    · rw [valA, valA, h1, h2]
    · rw [WF, h1]; exact hw
  | .deref b size, h => by
    obtain ⟨h1, h2, h3⟩ := keep_values (o := b) h
    refine ⟨rfl, fun _ => ?_, fun hw => ⟨hw.1, h3 hw.2.1, h1.trans hw.2.2⟩⟩
    rw [valA, valA, h2]

/-- An operand on the stack. -/
structure Usable (L : List Nat) (m : Machine) (A : Values) (o : Opnd) : Prop where
  wf : WF A o
  live : ∀ id, root o = some id → Live m id
  unl : ∀ id, root o = some id → id ∉ L

theorem Frame.usable {F L L' m A m' A' o} (h : Frame F m A m' A') (hu : Usable L m A o) (hF : ∀ id, root o = some id → ¬ F id)
    (hL : ∀ id, root o = some id → id ∉ L') :
    Usable L' m' A' o ∧ sizeA A' o = sizeA A o ∧ (∀ bytes, valA A' bytes o = valA A bytes o) := by
  obtain ⟨h1, h2, h3⟩ := keep_values (A := A) (A' := A') (o := o) (fun id hr => by
    obtain ⟨l, hl, hp, _⟩ := hu.live id hr
    exact h.val id l hl hp (hF id hr))
  exact ⟨⟨h3 hu.wf, fun id hr => h.live (hu.live id hr) (hF id hr), hL⟩, h1, h2⟩

theorem pow_256 (n : Nat) : 256 ^ n = 2 ^ (8 * n) := by
  rw [Nat.pow_mul]

theorem writeReg_mod {size old v} (h : okSize size = true) : writeReg (8 * size) old v % 256 ^ size = v % 256 ^ size := by
  rcases ok_cases h with h | h | h | h <;> subst h <;> simp [writeReg] <;> omega

theorem writeImm_mod {size old v} (h : okSize size = true) : writeReg (if size = 8 then 64 else 32) old v % 256 ^ size = v % 256 ^ size := by
  rcases ok_cases h with h | h | h | h <;> subst h <;> simp [writeReg] <;> omega

theorem writeZero_mod {size old} (h : okSize size = true) : writeReg (if size = 1 then 32 else 8 * size) old 0 % 256 ^ size = 0 := by
  rcases ok_cases h with h | h | h | h <;> subst h <;> simp [writeReg]
  omega

/-! ## Loading -/

/-- What loading an operand achieves: its value is in a register, in location `id`. The locations `R` are used up, `F` may have changed. -/
structure Done (L : List Nat) (R F : Nat → Prop) (m : Machine) (A : Values) (id : Nat) (m' : Machine) (A' : Values) (size w : Nat)
    (dst : Option Reg) : Prop where
  good : Good L m' A'
  frame : Frame F m A m' A'
  reg : ∃ r, m'.s.locs id = some ⟨.loaded r, size, 0, 0⟩ ∧ r.kind = .gpr ∧ (∀ d, dst = some d → r = d)
  value : A'.value id = w
  fresh : R id ∨ A.count ≤ id
  unl : id ∉ L
  occ : ∀ r j, m'.s.map r = some j → j = id ∨ (m.s.map r = some j ∧ ¬ R j)
  flags : m'.flags = m.flags

theorem pick_total {L m A} (dst : Option Reg) (hg : Good L m A) (hk : ∀ r, dst = some r → r.kind = .gpr) :
    ∃ r m', pick m dst = some (r, m') ∧ Good L m' A ∧ Frame Nothing m A m' A ∧ r.kind = .gpr ∧ m'.s.regs = m.s.regs ∧ m'.flags = m.flags ∧
      (∀ r' j, m'.s.map r' = some j → m.s.map r' = some j) ∧ (∀ j, m'.s.map r = some j → dst = some r ∧ m.s.map r = some j) ∧
      (∀ d, dst = some d → r = d) := by
  cases dst with
  | none =>
    obtain ⟨r, m', h1, h2, h3, h4, h5, h6, h7, h8, _⟩ := alloc_total hg
    refine ⟨r, m', h1, h2, h3, h4, h7, h8, ?_, ?_, by simp⟩
    · intro r' j hj
      by_cases hr : r' = r
      · rw [hr, h5] at hj; cases hj
      · rw [← h6 r' hr]; exact hj
    · intro j hj; rw [h5] at hj; cases hj
  | some d =>
    exact ⟨d, m, rfl, hg, Frame.refl, hk d rfl, rfl, rfl, fun _ _ h => h, fun j hj => ⟨rfl, hj⟩, fun d' h => by cases h; rfl⟩

/-- The register is claimed, and its contents become a new location. -/
theorem claimLoaded_total {L m A r size} (f : Machine → Nat) (hg : Good L m A) (hr : ∀ j, m.s.map r = some j → j ∉ L) (hs : powerOfTwo size = true) :
    ∃ m1 m', claim m r = some m1 ∧ m1.s.regs = m.s.regs ∧ loaded m1 r size (f m1) = some (A.count, m') ∧ Good L m' (create A size (f m1)) ∧
      Frame Nothing m A m' (create A size (f m1)) ∧ m'.s.locs A.count = some ⟨.loaded r, size, 0, 0⟩ ∧
      (∀ r', r' ≠ r → m'.s.map r' = m.s.map r') ∧ m'.s.map r = some A.count ∧ m'.s.regs = upd m.s.regs r (f m1) ∧ m'.flags = m.flags ∧
      m1.flags = m.flags := by
  obtain ⟨m1, h1, h2, h3, h4, h5, h6, h7⟩ := claim_total hg hr
  obtain ⟨m2, h8, h9, h10, h11, h12, h13, h14⟩ := loaded_total (f m1) h2 h4 hs
  refine ⟨m1, m2, h1, h6, h8, h9, h3.trans hg.inv h10 (fun _ _ h => h) (fun _ _ h => h), h11, ?_, ?_, by rw [h13, h6], h14.trans h7, h7⟩
  · intro r' hr'; rw [h12, upd_other _ _ hr', h5 r' hr']
  · rw [h12, upd_same]

/-- The last steps of a load: the instruction, then the register is claimed for the new location. -/
theorem put_total {L m A r size v w} (hg : Good L m A) (hr : ∀ j, m.s.map r = some j → j ∉ L) (hk : r.kind = .gpr) (hs : okSize size = true)
    (hv : v % 256 ^ size = w) :
    ∃ id m' A', (claim (write m r v) r).bind (fun m => loaded m r size (m.s.regs r)) = some (id, m') ∧
      Done L Nothing (fun j => m.s.map r = some j) m A id m' A' size w (some r) ∧ A.count ≤ id := by
  obtain ⟨h1, h2⟩ := write_good (r := r) (v := v) hg
  obtain ⟨m1, m', h3, h4, h5, h6, h7, h8, h9, h10, h11, h12, _⟩ := claimLoaded_total (r := r) (size := size) (fun m => m.s.regs r) h1 hr (ok_pow hs)
  have hreg : m1.s.regs r = v := by rw [h4]; exact upd_same _ _ _
  refine ⟨A.count, m', create (wrote m A r v) size (m1.s.regs r), by rw [h3, ← wrote_count (m := m) (A := A) (r := r) (v := v)]; exact h5, ⟨h6, ?_, ?_, ?_, .inr (Nat.le_refl _), ?_, ?_, h12⟩, Nat.le_refl _⟩
  · exact h2.trans hg.inv h7 (fun _ _ h => h) (fun _ _ h => h.elim)
  · rw [wrote_count] at h8; exact ⟨r, h8, hk, fun d h => by cases h; rfl⟩
  · have := (create_value (A := wrote m A r v) (size := size) (v := m1.s.regs r)).1
    rw [wrote_count] at this
    rw [this, hreg, hv]
  · intro hL; exact absurd (hg.known _ hL) (Nat.lt_irrefl _)
  · intro r' j hj
    by_cases hr' : r' = r
    · subst hr'; rw [h10, wrote_count] at hj; left; exact (Option.some.inj hj).symm
    · rw [h9 r' hr'] at hj; exact .inr ⟨hj, fun h => h.elim⟩

theorem Done.weaken {L F S H m0 A0 m A id m' A' size w dst dst'} (h0 : Inv m0.s A0) (hf : Frame F m0 A0 m A) (h : Done L S H m A id m' A' size w dst)
    {R G : Nat → Prop} (hF : ∀ j, j < A0.count → F j → G j) (hH : ∀ j, j < A0.count → H j → G j) (hid : R id ∨ A0.count ≤ id)
    (hocc : ∀ r j, m.s.map r = some j → j = id ∨ (m0.s.map r = some j ∧ ¬ R j)) (hfl : m.flags = m0.flags) (hd : ∀ d, dst' = some d → dst = some d) :
    Done L R G m0 A0 id m' A' size w dst' := by
  refine ⟨h.good, hf.trans h0 h.frame hF hH, ?_, h.value, hid, h.unl, ?_, h.flags.trans hfl⟩
  · obtain ⟨r, h1, h2, h3⟩ := h.reg
    exact ⟨r, h1, h2, fun d hd' => h3 d (hd d hd')⟩
  · intro r j hj
    rcases h.occ r j hj with h1 | h1
    · exact .inl h1
    · exact hocc r j h1.1

/-- `emit_load_gpr` and `emit_load_into_specific_gpr` succeed and load the value of the operand. -/
theorem emitLoad_total : ∀ {L m A} (o : Opnd) (dst : Option Reg), Good L m A → Usable L m A o →
    (∀ r j, dst = some r → m.s.map r = some j → j ∉ L) → (∀ r, dst = some r → r.kind = .gpr) →
    ∃ id m' A', emitLoad o dst m = some (id, m') ∧
      Done L (fun j => root o = some j) (fun j => root o = some j ∨ ∃ r, dst = some r ∧ m.s.map r = some j) m A id m' A' (sizeA A o) (valA A m.bytes o) dst
  | L, m, A, .imm v size, dst, hg, hu, hd, hk => by
    have hs : okSize size = true := hu.wf
    obtain ⟨r, m1, h1, h2, h3, h4, h5, h6, h7, h8, h9⟩ := pick_total dst hg hk
    have hr : ∀ j, m1.s.map r = some j → j ∉ L := fun j hj => hd r j (h8 j hj).1 (h8 j hj).2
    rw [emitLoad, if_pos hs, h1, Option.bind_some]
    dsimp only
    by_cases hv : v = 0
    · rw [if_pos hv]
      obtain ⟨m2, m', h10, h11, h12, h13, h14, h15, h16, h17, h18, h19, _⟩ := claimLoaded_total (r := r) (size := size)
        (fun m => writeReg (if size = 1 then 32 else 8 * size) (m.s.regs r) 0) h2 hr (ok_pow hs)
      rw [h10, Option.bind_some, h12]
      refine ⟨_, _, _, rfl, ⟨h13, h3.trans hg.inv h14 (fun _ _ h => h.elim) (fun _ _ h => h.elim), ⟨r, h15, h4, h9⟩, ?_, .inr (Nat.le_refl _), ?_, ?_, h19.trans h6⟩⟩
      · rw [create_value.1, writeZero_mod hs, valA, hv]; simp
      · intro hL; exact absurd (hg.known _ hL) (Nat.lt_irrefl _)
      · intro r' j hj
        by_cases hr' : r' = r
        · subst hr'; rw [h17] at hj; left; exact (Option.some.inj hj).symm
        · rw [h16 r' hr'] at hj; exact .inr ⟨h7 r' j hj, fun h => by cases h⟩
    · rw [if_neg hv]
      obtain ⟨id, m', A', h10, h11, h12⟩ := put_total (r := r) (size := size) (v := writeReg (if size = 8 then 64 else 32) (m1.s.regs r) v) h2 hr h4 hs
        (writeImm_mod hs)
      refine ⟨id, m', A', h10, h11.weaken hg.inv h3 (fun _ _ h => h.elim) ?_ (.inr h12) (fun r j h => .inr ⟨h7 r j h, fun h => by cases h⟩) h6 ?_⟩
      · intro j _ hj; exact .inr ⟨r, h8 j hj⟩
      · intro d hd'; rw [h9 d hd']
  | L, m, A, .mem a size, dst, hg, hu, hd, hk => by
    have hs : okSize size = true := hu.wf
    obtain ⟨r, m1, h1, h2, h3, h4, h5, h6, h7, h8, h9⟩ := pick_total dst hg hk
    have hr : ∀ j, m1.s.map r = some j → j ∉ L := fun j hj => hd r j (h8 j hj).1 (h8 j hj).2
    rw [emitLoad, if_pos hs, h1, Option.bind_some]
    dsimp only
    obtain ⟨id, m', A', h10, h11, h12⟩ := put_total (r := r) (size := size) (v := mov (8 * size) (m1.s.regs r) (readBytes m1.bytes a size)) h2 hr h4 hs
      (writeReg_mod hs)
    have hw : readBytes m1.bytes a size % 256 ^ size = valA A m.bytes (.mem a size) := by
      rw [h3.bytes, Nat.mod_eq_of_lt (readBytes_lt ..)]; rfl
    rw [hw] at h11
    refine ⟨id, m', A', h10, h11.weaken hg.inv h3 (fun _ _ h => h.elim) ?_ (.inr h12) (fun r j h => .inr ⟨h7 r j h, fun h => by cases h⟩) h6 ?_⟩
    · intro j _ hj; exact .inr ⟨r, h8 j hj⟩
    · intro d hd'; rw [h9 d hd']
  | L, m, A, .deref base size, dst, hg, hu, hd, hk => by
    obtain ⟨hs, hwf, h8'⟩ : okSize size = true ∧ WF A base ∧ sizeA A base = 8 := hu.wf
    obtain ⟨r, m1, h1, h2, h3, h4, h5, h6, h7, h8, h9⟩ := pick_total dst hg hk
    have hr : ∀ j, m1.s.map r = some j → j ∉ L := fun j hj => hd r j (h8 j hj).1 (h8 j hj).2
    have hub : Usable L m A base := ⟨hwf, hu.live, hu.unl⟩
    obtain ⟨hub1, _, _⟩ := h3.usable hub (fun _ _ h => h.elim) hub.unl
    rw [emitLoad, if_pos hs, h1, Option.bind_some]
    dsimp only
    obtain ⟨b, m2, A2, h10, D⟩ := emitLoad_total base none h2 hub1 (by simp) (by simp)
    rw [h10, Option.bind_some]
    dsimp only
    obtain ⟨rb, h11, h12, _⟩ := D.reg
    have hreg : regOf m2 b = some rb := by unfold regOf; rw [h11]; dsimp only; rw [if_pos h12]
    rw [hreg, Option.bind_some]
    have hval : m2.s.regs rb % 2 ^ 64 = valA A m.bytes base := by
      have := (D.good.inv.loaded b _ rb h11 rfl).2
      dsimp only at this
      rw [D.value, h8', h3.bytes] at this
      exact this
    generalize hv : mov (8 * size) (m2.s.regs r) (readBytes m2.bytes (m2.s.regs rb % 2 ^ 64) size) = v
    obtain ⟨h13, h14⟩ := write_good (r := r) (v := v) D.good
    obtain ⟨m3, h15, h16, h17, h18, h19, h20, h21⟩ := free_total (id := b) h13 h11 (by simp) rfl rfl
    rw [h15, Option.bind_some]
    have hb3 : ∀ j, m3.s.map r = some j → j ≠ b ∧ m2.s.map r = some j := by
      intro j hj
      by_cases hrb : rb = r
      · subst hrb; rw [h18 rb rfl] at hj; cases hj
      · rw [h19 r (by intro h; exact hrb (Place.loaded.inj h))] at hj
        refine ⟨?_, hj⟩
        rintro rfl
        exact hrb (mapped_inj D.good.inv (D.good.inv.loaded j _ rb h11 rfl).1 hj)
    have hr3 : ∀ j, m3.s.map r = some j → m1.s.map r = some j := by
      intro j hj
      obtain ⟨h22, h23⟩ := hb3 j hj
      rcases D.occ r j h23 with h | h
      · exact absurd h h22
      · exact h.1
    obtain ⟨m4, m', h22, h23, h24, h25, h26, h27, h28, h29, h30, h31, _⟩ := claimLoaded_total (r := r) (size := size) (fun m => m.s.regs r) h16
      (fun j hj => hr j (hr3 j hj)) (ok_pow hs)
    rw [h22, Option.bind_some, h24]
    have hc : A.count ≤ (wrote m2 A2 r v).count := by rw [wrote_count]; exact Nat.le_trans h3.count D.frame.count
    have hbroot : b < A.count → root base = some b := by
      intro hlt
      rcases D.fresh with h | h
      · exact h
      · omega
    refine ⟨_, _, _, rfl, ⟨h25, ?_, ⟨r, h27, h4, h9⟩, ?_, .inr hc, ?_, ?_, ?_⟩⟩
    · refine ((((h3.trans hg.inv D.frame (H := fun j => root base = some j) (fun _ _ h => h.elim) ?_).trans hg.inv h14
        (H := fun j => root base = some j ∨ ∃ r, dst = some r ∧ m.s.map r = some j) (fun _ _ h => .inl h) ?_).trans hg.inv h17 (fun _ _ h => h) ?_).trans hg.inv h26
        (fun _ _ h => h) (fun _ _ h => h.elim))
      · rintro j _ (h | ⟨_, h, _⟩)
        · exact h
        · cases h
      · intro j hj hm
        rcases D.occ r j hm with h | h
        · subst h; exact .inl (hbroot hj)
        · exact .inr ⟨r, h8 j h.1⟩
      · intro j hj hjb
        subst hjb
        exact .inl (hbroot hj)
    · rw [create_value.1]
      have : m4.s.regs r = v := by rw [h23, h20]; exact upd_same _ _ _
      rw [this, ← hv, mov, writeReg_mod hs, hval, D.frame.bytes, h3.bytes, Nat.mod_eq_of_lt (readBytes_lt ..)]; rfl
    · intro hL; exact absurd (hg.known _ hL) (Nat.not_lt.2 hc)
    · intro r' j hj
      by_cases hr' : r' = r
      · subst hr'; rw [h29] at hj; left; exact (Option.some.inj hj).symm
      · rw [h28 r' hr'] at hj
        right
        by_cases hrb : rb = r'
        · subst hrb; rw [h18 rb rfl] at hj; cases hj
        · rw [h19 r' (by intro h; exact hrb (Place.loaded.inj h))] at hj
          have hj' : m2.s.map r' = some j := hj
          rcases D.occ r' j hj' with h | h
          · subst h
            exact absurd (mapped_inj D.good.inv (D.good.inv.loaded j _ rb h11 rfl).1 hj') hrb
          · exact ⟨h7 r' j h.1, h.2⟩
    · exact h31.trans (h21.trans (D.flags.trans h6))
  | L, m, A, .loc id, dst, hg, hu, hd, hk => by
    have hs : okSize (A.size id) = true := hu.wf
    obtain ⟨l, hl, hp, hgp, hsp, hfr⟩ := hu.live id rfl
    have hsz := hg.inv.size id l hl
    have hL := hu.unl id rfl
    obtain ⟨place, size, a, b⟩ := l
    dsimp only at hp hgp hsp hfr hsz
    subst hsp; subst hfr; subst hsz
    cases place with
    | freed => exact absurd rfl hp
    | loaded r' =>
      have hkr := hgp r' rfl
      obtain ⟨hm, hv⟩ := hg.inv.loaded id _ r' hl rfl
      dsimp only at hv
      have hval : A.value id = valA A m.bytes (.loc id) := by rw [valA, ← hv, Nat.mod_mod]
      have hocc0 : ∀ r j, m.s.map r = some j → j = id ∨ (m.s.map r = some j ∧ ¬ root (.loc id) = some j) := by
        intro r j hj
        by_cases h : j = id
        · exact .inl h
        · exact .inr ⟨hj, fun hc => h (Option.some.inj hc).symm⟩
      rw [emitLoad, hl]
      dsimp only
      rw [if_pos hkr]
      cases dst with
      | none => exact ⟨id, m, A, rfl, hg, Frame.refl, ⟨r', hl, hkr, by simp⟩, hval, .inl rfl, hL, hocc0, rfl⟩
      | some r =>
        dsimp only
        rw [if_pos hs]
        by_cases hrr : r' = r
        · rw [if_pos hrr]
          exact ⟨id, m, A, rfl, hg, Frame.refl, ⟨r', hl, hkr, fun d h => by cases h; exact hrr⟩, hval, .inl rfl, hL, hocc0, rfl⟩
        · rw [if_neg hrr]
          obtain ⟨m1, m', h1, h2, h3, h4, h5, h6, h7, h8, h9, h10, _⟩ := claimLoaded_total (r := r) (size := A.size id)
            (fun m => mov (8 * A.size id) (m.s.regs r) (m.s.regs r')) hg (fun j hj => hd r j rfl hj) (ok_pow hs)
          rw [h1, Option.bind_some, h3, Option.bind_some]
          obtain ⟨p, h11, h12, _⟩ := h5.keep id _ hl hp (fun h => h.elim)
          have hlt := lt_count hg.inv hl
          obtain ⟨m2, h13, h14, h15, h16, h17, h18, h19⟩ := free_total h4 h11 (h12.live hp) rfl rfl
          rw [h13]
          have hne : A.count ≠ id := by omega
          refine ⟨_, _, _, rfl, ⟨h14, h5.trans hg.inv h15 (fun _ _ h => h.elim) (fun j _ h => .inl (by rw [h]; rfl)), ⟨r, ?_, hk r rfl, fun d h => by cases h; rfl⟩, ?_,
            .inr (Nat.le_refl _), ?_, ?_, h19.trans h10⟩⟩
          · obtain ⟨p, h20, h21, h22⟩ := h15.keep A.count _ h6 (by simp) hne
            have hp2 : p = .loaded r := by
              rcases h21 with h21 | ⟨_, _, _, h21⟩
              · exact h21
              · exfalso
                have : m2.s.map r = some A.count := by
                  rw [h17 r (by intro hc; exact hne (Option.some.inj ((h8.symm.trans (h4.inv.loaded id _ r h11 hc).1)))), h8]
                obtain ⟨_, h23, h24⟩ := h14.inv.mapped r _ this
                rw [h20] at h23; cases h23
                rw [h21] at h24; cases h24
            subst hp2; exact h20
          · rw [create_value.1, mov, writeReg_mod hs, h2, hv]; exact hval
          · intro hL; exact absurd (hg.known _ hL) (Nat.lt_irrefl _)
          · intro r'' j hj
            have hj' : m'.s.map r'' = some j := by
              by_cases hpl : p = .loaded r''
              · rw [h16 r'' hpl] at hj; cases hj
              · rw [h17 r'' hpl] at hj; exact hj
            by_cases hr' : r'' = r
            · subst hr'; rw [h8] at hj'; left; exact (Option.some.inj hj').symm
            · rw [h7 r'' hr'] at hj'
              refine .inr ⟨hj', fun hc => ?_⟩
              cases hc
              obtain ⟨_, h23, h24⟩ := h14.inv.mapped r'' _ hj
              rw [free_locs h13 h11 rfl rfl] at h23
              cases h23
              cases h24
    | stack off =>
      have hslot := hg.inv.slot id _ off hl rfl
      rw [emitLoad, hl]
      dsimp only
      rw [if_pos hs]
      obtain ⟨r, m1, h1, h2, h3, h4, h5, h6, h7, h8, h9⟩ := pick_total dst hg hk
      have hr : ∀ j, m1.s.map r = some j → j ∉ L := fun j hj => hd r j (h8 j hj).1 (h8 j hj).2
      rw [h1, Option.bind_some]
      dsimp only
      obtain ⟨p, hl1, hmv, _⟩ := h3.keep id _ hl hp (fun h => h.elim)
      have hp1 : p = .stack off := by
        rcases hmv with h | ⟨_, _, h, _⟩
        · exact h
        · cases h
      subst hp1
      dsimp only at hl1
      have hload : load m1.s.mem off (A.size id) % 256 ^ A.size id = valA A m.bytes (.loc id) := by
        have := (h2.inv.slot id _ off hl1 rfl).2.2.2
        dsimp only at this
        rw [this]; rfl
      generalize hv : mov (8 * A.size id) (m1.s.regs r) (load m1.s.mem off (A.size id)) = v
      obtain ⟨h13, h14⟩ := write_good (r := r) (v := v) h2
      obtain ⟨m3, h15, h16, h17, h18, h19, h20, h21⟩ := free_total (id := id) h13 hl1 (by simp) rfl rfl
      rw [h15, Option.bind_some]
      have hm3 : ∀ r', m3.s.map r' = m1.s.map r' := fun r' => h19 r' (by simp)
      obtain ⟨m4, m', h22, h23, h24, h25, h26, h27, h28, h29, h30, h31, _⟩ := claimLoaded_total (r := r) (size := A.size id) (fun m => m.s.regs r) h16
        (fun j hj => hr j (by rw [← hm3]; exact hj)) (ok_pow hs)
      rw [h22, Option.bind_some, h24]
      refine ⟨_, _, _, rfl, ⟨h25, ?_, ⟨r, h27, h4, h9⟩, ?_, .inr (by rw [wrote_count]; exact Nat.le_refl _), ?_, ?_, h31.trans (h21.trans h6)⟩⟩
      · refine (((h3.trans hg.inv h14 (H := fun j => root (.loc id) = some j ∨ ∃ r, dst = some r ∧ m.s.map r = some j) (fun _ _ h => h.elim) ?_).trans hg.inv h17 (fun _ _ h => h) ?_).trans hg.inv h26
          (fun _ _ h => h) (fun _ _ h => h.elim))
        · intro j hj hm; exact .inr ⟨r, h8 j hm⟩
        · intro j _ hj; subst hj; exact .inl rfl
      · rw [create_value.1]
        have : m4.s.regs r = v := by rw [h23, h20]; exact upd_same _ _ _
        rw [this, ← hv, mov, writeReg_mod hs, hload]
      · intro hL; exact absurd (hg.known _ hL) (by rw [wrote_count]; exact Nat.lt_irrefl _)
      · intro r' j hj
        by_cases hr' : r' = r
        · subst hr'; rw [h29] at hj; left; exact (Option.some.inj hj).symm
        · rw [h28 r' hr', hm3] at hj
          refine .inr ⟨h7 r' j hj, fun hc => ?_⟩
          cases hc
          obtain ⟨_, h32, h33⟩ := hg.inv.mapped r' _ (h7 r' _ hj)
          rw [hl] at h32
          cases h32
          cases h33
  | _, _, _, .cond _ _, _, _, hu, _, _ => hu.wf.elim

end Verif.Lemmas.ExprCode
