import Verif.Lemmas.ExprCode

/-!
# Lemmas: the operations of `Model/ExprCode.lean`

Each operation succeeds on usable operands, leaves everything else alone, and its result is that of the instruction.
-/

namespace Verif.Lemmas.ExprCode

open Verif.RegAlloc Verif.ExprCode Verif.Props.RegAlloc Verif.Spec.X64 Verif.Spec.ExprCode
open Verif.Spec.RegAlloc (Values create)
open Verif.Lemmas.Call (Moved lt_count Nothing create_same)

theorem at_reg {L m A id r size a b} (hg : Good L m A) (hl : m.s.locs id = some ⟨.loaded r, size, a, b⟩) (hk : r.kind = .gpr) :
    regOf m id = some r ∧ m.s.regs r % 256 ^ size = A.value id ∧ A.size id = size ∧ opSize m (.loc id) = some size ∧ m.s.map r = some id := by
  obtain ⟨h1, h2⟩ := hg.inv.loaded id _ r hl rfl
  refine ⟨?_, h2, (hg.inv.size id _ hl).symm, ?_, h1⟩
  · unfold regOf; rw [hl]; dsimp only; rw [if_pos hk]
  · show (m.s.locs id).map _ = _; rw [hl]; rfl

theorem loaded_usable {L m A id r size} (hg : Good L m A) (hl : m.s.locs id = some ⟨.loaded r, size, 0, 0⟩) (hk : r.kind = .gpr)
    (hs : okSize size = true) (hL : id ∉ L) : Usable L m A (.loc id) := by
  refine ⟨?_, ?_, ?_⟩
  · show okSize (A.size id) = true
    rw [(at_reg hg hl hk).2.2.1]; exact hs
  · intro j hj; cases hj
    exact ⟨_, hl, by simp, fun r' h => by cases h; exact hk, rfl, rfl⟩
  · intro j hj; cases hj; exact hL

/-- What an operation achieves: it uses up the locations `R`, and `o` has the result. -/
structure Out (L : List Nat) (R : Nat → Prop) (m : Machine) (A : Values) (o : Opnd) (m' : Machine) (A' : Values) (size w : Nat) : Prop where
  good : Good L m' A'
  frame : Frame R m A m' A'
  usable : Usable L m' A' o
  fresh : ∀ id, root o = some id → R id ∨ A.count ≤ id
  occ : ∀ r j, m'.s.map r = some j → root o = some j ∨ (m.s.map r = some j ∧ ¬ R j)
  size : sizeA A' o = size
  value : valA A' m'.bytes o = w

/-- Loading into any register. -/
theorem load_total {L m A o} (hg : Good L m A) (hu : Usable L m A o) :
    ∃ id m' A' r, emitLoad o none m = some (id, m') ∧
      Done L (fun j => root o = some j) (fun j => root o = some j) m A id m' A' (sizeA A o) (valA A m.bytes o) none ∧
      m'.s.locs id = some ⟨.loaded r, sizeA A o, 0, 0⟩ ∧ r.kind = .gpr ∧ m'.s.regs r % 256 ^ sizeA A o = valA A m.bytes o := by
  obtain ⟨id, m', A', h1, h2⟩ := emitLoad_total o none hg hu (by simp) (by simp)
  obtain ⟨r, h3, h4, h5⟩ := h2.reg
  refine ⟨id, m', A', r, h1, ⟨h2.good, ?_, ⟨r, h3, h4, h5⟩, h2.value, h2.fresh, h2.unl, h2.occ, h2.flags⟩, h3, h4, ?_⟩
  · refine h2.frame.mono hg.inv ?_
    rintro j _ (h | ⟨_, h, _⟩)
    · exact h
    · cases h
  · rw [(at_reg h2.good h3 h4).2.1, h2.value]

theorem Done.out {L R m A id m' A' size w dst} (h : Done L R R m A id m' A' size w dst) (hs : okSize size = true) (hw : w < 256 ^ size) :
    Out L R m A (.loc id) m' A' size w := by
  obtain ⟨r, h3, h4, h5⟩ := h.reg
  refine ⟨h.good, h.frame, loaded_usable h.good h3 h4 hs h.unl, ?_, ?_, (at_reg h.good h3 h4).2.2.1, ?_⟩
  · intro j hj; cases hj; exact h.fresh
  · intro r j hj
    rcases h.occ r j hj with h | h
    · exact .inl (by rw [h]; rfl)
    · exact .inr h
  · rw [valA, (at_reg h.good h3 h4).2.2.1, h.value, Nat.mod_eq_of_lt hw]

theorem release_total : ∀ {L m A} (o : Opnd), Good L m A → (∀ id, root o = some id → Live m id) →
    ∃ m', release m o = some m' ∧ Good L m' A ∧ Frame (fun j => root o = some j) m A m' A ∧
      (∀ r j, m'.s.map r = some j → m.s.map r = some j ∧ root o ≠ some j) ∧ m'.s.regs = m.s.regs ∧ m'.flags = m.flags
  | _, m, _, .imm .., hg, _ => ⟨m, rfl, hg, Frame.refl, fun _ _ h => ⟨h, by simp [root]⟩, rfl, rfl⟩
  | _, m, _, .mem .., hg, _ => ⟨m, rfl, hg, Frame.refl, fun _ _ h => ⟨h, by simp [root]⟩, rfl, rfl⟩
  | _, m, _, .cond .., hg, _ => ⟨m, rfl, hg, Frame.refl, fun _ _ h => ⟨h, by simp [root]⟩, rfl, rfl⟩
  | _, m, _, .deref b _, hg, hl => release_total b hg hl
  | _, m, A, .loc id, hg, hl => by
    obtain ⟨l, h1, h2, h3, h4, h5⟩ := hl id rfl
    obtain ⟨m', h6, h7, h8, h9, h10, h11, h12⟩ := free_total hg h1 h2 h4 h5
    refine ⟨m', h6, h7, h8.mono hg.inv (fun j _ h => by rw [h]; rfl), ?_, h11, h12⟩
    intro r j hj
    have h13 : m.s.map r = some j := by
      by_cases hp : l.place = .loaded r
      · rw [h9 r hp] at hj; cases hj
      · rw [h10 r hp] at hj; exact hj
    refine ⟨h13, ?_⟩
    intro hc
    cases hc
    obtain ⟨l', h14, h15⟩ := h7.inv.mapped r _ hj
    rw [free_locs h6 h1 h4 h5] at h14
    cases h14
    cases h15

/-! ## Conditions -/

theorem holds_of_flags {m m' : Machine} {c b} (h : m'.flags = m.flags) (hc : condHolds m c = some b) : condHolds m' c = some b := by
  unfold condHolds at hc ⊢
  rw [h]; exact hc

theorem condLoad_total {L m A c size b} (hg : Good L m A) (hs : size = 4 ∨ size = 1) (hc : condHolds m c = some b) :
    ∃ id m' A', emitLoad (.cond c size) none m = some (id, m') ∧
      Done L Nothing Nothing m A id m' A' size (if b then 1 else 0) none := by
  obtain ⟨r, m1, h1, h2, h3, h4, h5, h6, h7, h8, h9⟩ := pick_total none hg (by simp)
  rw [emitLoad, if_pos hs, h1, Option.bind_some]
  dsimp only
  rw [holds_of_flags h6 hc, Option.bind_some]
  have hok : okSize size = true := by rcases hs with h | h <;> subst h <;> rfl
  obtain ⟨m2, m', h10, h11, h12, h13, h14, h15, h16, h17, h18, h19, _⟩ := claimLoaded_total (r := r) (size := size)
    (fun m => if size = 1 then writeReg 8 (m.s.regs r) (if b then 1 else 0) else
      movzx 32 8 (writeReg 8 (m.s.regs r) (if b then 1 else 0)) (writeReg 8 (m.s.regs r) (if b then 1 else 0))) h2
    (fun j hj => by cases (h8 j hj).1) (ok_pow hok)
  rw [h10, Option.bind_some]
  rw [h12]
  refine ⟨_, _, _, rfl, ⟨h13, h3.trans hg.inv h14 (fun _ _ h => h.elim) (fun _ _ h => h.elim), ⟨r, h15, h4, h9⟩, ?_, .inr (Nat.le_refl _), ?_, ?_, h19.trans h6⟩⟩
  · rw [create_value.1]
    rcases hs with h | h <;> subst h <;> cases b <;> simp [writeReg, movzx] <;> omega
  · intro hL; exact absurd (hg.known _ hL) (Nat.lt_irrefl _)
  · intro r' j hj
    by_cases hr' : r' = r
    · subst hr'; rw [h17] at hj; left; exact (Option.some.inj hj).symm
    · rw [h16 r' hr'] at hj; exact .inr ⟨h7 r' j hj, fun h => h.elim⟩

/-- A machine without an operand on top: what is left after a comparison. -/
structure Gone (L : List Nat) (R : Nat → Prop) (m : Machine) (A : Values) (m' : Machine) (A' : Values) : Prop where
  good : Good L m' A'
  frame : Frame R m A m' A'
  occ : ∀ r j, m'.s.map r = some j → m.s.map r = some j ∧ ¬ R j

/-- A value is compared to zero. -/
theorem testZero_total {L m A o} (hg : Good L m A) (hu : Usable L m A o) :
    ∃ m' A', (emitLoad o none m).bind (fun (n, m) => testZero m n) = some m' ∧ Gone L (fun j => root o = some j) m A m' A' ∧
      m'.flags = Spec.Flags.cmp (8 * sizeA A o) (valA A m.bytes o) 0 false := by
  obtain ⟨id, m1, A1, r, h1, D, h2, h3, h4⟩ := load_total hg hu
  obtain ⟨h5, h6, h7, h8, h9⟩ := at_reg D.good h2 h3
  rw [h1, Option.bind_some]
  dsimp only
  unfold testZero
  rw [h5, Option.bind_some, h8, Option.bind_some]
  have hg2 : Good L { m1 with flags := Spec.Flags.cmp (8 * sizeA A o) (m1.s.regs r % 2 ^ (8 * sizeA A o)) 0 false } A1 :=
    ⟨D.good.inv, D.good.pow, D.good.unl, D.good.short, D.good.known⟩
  obtain ⟨m2, h10, h11, h12, h13, h14, h15, h16⟩ := free_total hg2 h2 (by simp) rfl rfl
  refine ⟨m2, A1, h10, ⟨h11, ?_, ?_⟩, ?_⟩
  · refine D.frame.trans hg.inv (⟨h12.count, h12.keep, h12.val, h12.bytes⟩ : Frame (· = id) m1 A1 m2 A1) (fun _ _ h => h) ?_
    intro j hj h; subst h
    rcases D.fresh with h | h
    · exact h
    · omega
  · intro r' j hj
    have hj1 : m1.s.map r' = some j ∧ j ≠ id := by
      by_cases hr : r = r'
      · subst hr; rw [h13 r rfl] at hj; cases hj
      · rw [h14 r' (by intro h; exact hr (Place.loaded.inj h))] at hj
        refine ⟨hj, ?_⟩
        rintro rfl
        exact hr (mapped_inj D.good.inv h9 hj)
    rcases D.occ r' j hj1.1 with h | h
    · exact absurd h hj1.2
    · exact h
  · rw [h16, ← pow_256, h4]

/-- The condition of a value that is not a condition itself. -/
theorem condOf_total {L m A o} (hg : Good L m A) (hu : Usable L m A o) :
    ∃ m' A', condOf m o = some (2, m') ∧ Gone L (fun j => root o = some j) m A m' A' ∧
      m'.flags = Spec.Flags.cmp (8 * sizeA A o) (valA A m.bytes o) 0 false := by
  obtain ⟨m', A', h1, h2, h3⟩ := testZero_total hg hu
  refine ⟨m', A', ?_, h2, h3⟩
  have hc : condOf m o = ((emitLoad o none m).bind (fun (n, m) => testZero m n)).map (fun m => (2, m)) := by
    cases o with
    | cond => exact hu.wf.elim
    | _ => simp only [condOf]; generalize emitLoad _ none m = x; cases x <;> rfl
  rw [hc, h1]; rfl

theorem Gone.out {R L m A m1 A1 id m' A' size w dst} (hi : Inv m.s A) (h : Gone L R m A m1 A1) (D : Done L Nothing Nothing m1 A1 id m' A' size w dst)
    (hs : okSize size = true) (hw : w < 256 ^ size) : Out L R m A (.loc id) m' A' size w := by
  obtain ⟨r, h3, h4, h5⟩ := D.reg
  have hc : A.count ≤ id := by
    rcases D.fresh with h' | h'
    · exact h'.elim
    · exact Nat.le_trans h.frame.count h'
  have O := D.out hs hw
  refine ⟨D.good, h.frame.trans hi D.frame (fun _ _ h => h) (fun _ _ h => h.elim), O.usable, fun j hj => by cases hj; exact .inr hc, ?_, O.size, O.value⟩
  intro r j hj
  rcases D.occ r j hj with h1 | h1
  · exact .inl (by rw [h1]; rfl)
  · exact .inr (h.occ r j h1.1)

/-! ## Second operands -/

/-- A source of an instruction: the number read, and what is freed afterwards. -/
structure Src (L : List Nat) (R : Nat → Prop) (m : Machine) (A : Values) (v : Nat) (src : Opnd) (m' : Machine) (A' : Values) (size w : Nat) : Prop where
  good : Good L m' A'
  frame : Frame R m A m' A'
  value : v % 256 ^ size = w
  live : ∀ id, root src = some id → Live m' id ∧ id ∉ L ∧ (R id ∨ A.count ≤ id)
  occ : ∀ r j, m'.s.map r = some j → root src = some j ∨ (m.s.map r = some j ∧ ¬ R j)
  flags : m'.flags = m.flags

theorem loadSrc_total {L m A o} (hg : Good L m A) (hu : Usable L m A o) :
    ∃ n m' A' r, emitLoad o none m = some (n, m') ∧ regOf m' n = some r ∧
      Src L (fun j => root o = some j) m A (m'.s.regs r) (.loc n) m' A' (sizeA A o) (valA A m.bytes o) := by
  obtain ⟨id, m1, A1, r, h1, D, h2, h3, h4⟩ := load_total hg hu
  obtain ⟨h5, h6, h7, h8, h9⟩ := at_reg D.good h2 h3
  have O := D.out hu.wf.ok (valA_lt hu.wf)
  refine ⟨id, m1, A1, r, h1, h5, ⟨D.good, D.frame, h4, ?_, O.occ, D.flags⟩⟩
  intro j hj
  exact ⟨O.usable.live j hj, O.usable.unl j hj, O.fresh j hj⟩

theorem readSrc_total {L m A o} (hg : Good L m A) (hu : Usable L m A o) (hm : inMemory m o = true) :
    ∃ v src m' A', readOpnd m o = some (v, src, m') ∧ Src L (fun j => root o = some j) m A v src m' A' (sizeA A o) (valA A m.bytes o) := by
  cases o with
  | imm => cases hm
  | cond => cases hm
  | mem a size =>
    exact ⟨_, _, m, A, rfl, ⟨hg, Frame.refl, Nat.mod_eq_of_lt (readBytes_lt ..), by simp [root], fun r j h => .inr ⟨h, by simp [root]⟩, rfl⟩⟩
  | deref b size =>
    have hb : Usable L m A b := ⟨hu.wf.2.1, hu.live, hu.unl⟩
    obtain ⟨n, m1, A1, r, h1, h2, S⟩ := loadSrc_total hg hb
    refine ⟨readBytes m1.bytes (m1.s.regs r % 2 ^ 64) size, .loc n, m1, A1, ?_, ⟨S.good, S.frame, ?_, S.live, S.occ, S.flags⟩⟩
    · unfold readOpnd; dsimp only; rw [h1, Option.bind_some]; dsimp only; rw [h2]; rfl
    · have := S.value
      rw [hu.wf.2.2] at this
      have h64 : m1.s.regs r % 2 ^ 64 = valA A m.bytes b := this
      show _ % 256 ^ size = readBytes m.bytes (valA A m.bytes b) size
      rw [h64, S.frame.bytes, Nat.mod_eq_of_lt (readBytes_lt ..)]
  | loc id =>
    obtain ⟨l, hl, hp, hgp, hsp, hfr⟩ := hu.live id rfl
    have hsz := hg.inv.size id l hl
    unfold inMemory at hm
    dsimp only at hm
    rw [hl] at hm
    obtain ⟨place, size, a, b⟩ := l
    cases place with
    | freed => cases hm
    | loaded => cases hm
    | stack off =>
      dsimp only at hsz
      have hslot := (hg.inv.slot id _ off hl rfl).2.2.2
      dsimp only at hslot
      refine ⟨load m.s.mem off size, .loc id, m, A, ?_, ⟨hg, Frame.refl, ?_, ?_, ?_, rfl⟩⟩
      · unfold readOpnd; dsimp only; rw [hl]
      · rw [hslot]; rfl
      · intro j hj; cases hj; exact ⟨hu.live id rfl, hu.unl id rfl, .inl rfl⟩
      · intro r j hj
        by_cases h : j = id
        · exact .inl (by rw [h]; rfl)
        · exact .inr ⟨hj, fun hc => h (Option.some.inj hc).symm⟩

/-- A usable location is in a register or in memory. -/
theorem loc_cases {L m A id} (hg : Good L m A) (hu : Usable L m A (.loc id)) :
    (∃ r, m.s.locs id = some ⟨.loaded r, A.size id, 0, 0⟩ ∧ r.kind = .gpr) ∨
    (∃ off, m.s.locs id = some ⟨.stack off, A.size id, 0, 0⟩) := by
  obtain ⟨l, hl, hp, hgp, hsp, hfr⟩ := hu.live id rfl
  have hsz := hg.inv.size id l hl
  obtain ⟨place, size, a, b⟩ := l
  dsimp only at hsz hsp hfr hgp hp
  subst hsz; subst hsp; subst hfr
  cases place with
  | freed => exact absurd rfl hp
  | loaded r => exact .inl ⟨r, hl, hgp r rfl⟩
  | stack off => exact .inr ⟨off, hl⟩

theorem sizeOf_eq {L m A o} (hg : Good L m A) (hu : Usable L m A o) : opSize m o = some (sizeA A o) := by
  cases o with
  | loc id =>
    rcases loc_cases hg hu with ⟨r, h, _⟩ | ⟨off, h⟩ <;> (show (m.s.locs id).map _ = _; rw [h]; rfl)
  | cond => exact hu.wf.elim
  | _ => rfl

theorem wide_cases {n} (h : wideSize n = true) : n = 4 ∨ n = 8 := by
  simpa [wideSize] using h

theorem wide_ok {n} (h : wideSize n = true) : okSize n = true := by
  rcases wide_cases h with h | h <;> subst h <;> rfl

/-- The immediate of a 32-bit instruction. -/
theorem imm_pattern {v} : pattern 32 (sext 32 v) % 256 ^ 4 = v % 256 ^ 4 := by
  unfold sext pattern
  simp only [Nat.reducePow, Nat.reduceSub, Int.reducePow]
  omega

theorem binaryOperand_total {L m A o} (hg : Good L m A) (hu : Usable L m A o) (hs : wideSize (sizeA A o) = true) :
    ∃ v src m' A', binaryOperand m (sizeA A o) o = some (v, src, m') ∧
      Src L (fun j => root o = some j) m A v src m' A' (sizeA A o) (valA A m.bytes o) := by
  cases o with
  | cond => exact hu.wf.elim
  | imm v sz =>
    unfold binaryOperand
    dsimp only
    by_cases h : sz = 8 ∨ (sz = 4 ∧ sext 64 v > 2 ^ 31 - 1)
    · rw [if_pos h]
      obtain ⟨n, m1, A1, r, h1, h2, S⟩ := loadSrc_total hg hu
      rw [h1, Option.bind_some]
      dsimp only
      have hsz : sz = sizeA A (.imm v sz) := rfl
      rw [if_pos hsz, h2]
      exact ⟨_, _, _, _, rfl, S⟩
    · rw [if_neg h]
      have h4 : sz = 4 := by
        rcases wide_cases hs with h' | h'
        · exact h'
        · exact absurd (.inl h') h
      subst h4
      rw [if_pos (rfl : 4 = 4)]
      refine ⟨_, _, m, A, rfl, ⟨hg, Frame.refl, ?_, by simp [root], fun r j h => .inr ⟨h, by simp [root]⟩, rfl⟩⟩
      exact imm_pattern
  | mem a size =>
    unfold binaryOperand
    dsimp only
    rw [if_pos (sizeOf_eq hg hu)]
    exact readSrc_total hg hu rfl
  | deref b size =>
    unfold binaryOperand
    dsimp only
    rw [if_pos (sizeOf_eq hg hu)]
    exact readSrc_total hg hu rfl
  | loc id =>
    unfold binaryOperand
    dsimp only
    rw [sizeOf_eq hg hu, if_pos rfl]
    rcases loc_cases hg hu with ⟨r, hl, hk⟩ | ⟨off, hl⟩
    · obtain ⟨h5, h6, h7, h8, h9⟩ := at_reg hg hl hk
      rw [h5]
      refine ⟨_, _, m, A, rfl, ⟨hg, Frame.refl, ?_, ?_, ?_, rfl⟩⟩
      · show _ % 256 ^ A.size id = A.value id % 256 ^ A.size id
        rw [← h6, Nat.mod_mod]
      · intro j hj; cases hj; exact ⟨hu.live id rfl, hu.unl id rfl, .inl rfl⟩
      · intro r j hj
        by_cases h : j = id
        · exact .inl (by rw [h]; rfl)
        · exact .inr ⟨hj, fun hc => h (Option.some.inj hc).symm⟩
    · have hn : regOf m id = none := by unfold regOf; rw [hl]
      rw [hn]
      exact readSrc_total hg hu (by unfold inMemory; dsimp only; rw [hl])

theorem mulOperand_total {L m A o} (hg : Good L m A) (hu : Usable L m A o) :
    ∃ v src m' A', mulOperand m o = some (v, src, m') ∧ Src L (fun j => root o = some j) m A v src m' A' (sizeA A o) (valA A m.bytes o) := by
  unfold mulOperand
  split
  · rename_i h
    exact readSrc_total hg hu h.1
  · obtain ⟨n, m1, A1, r, h1, h2, S⟩ := loadSrc_total hg hu
    rw [h1, Option.bind_some]
    dsimp only
    rw [h2]
    exact ⟨_, _, _, _, rfl, S⟩

/-! ## Arithmetic -/

/-- A location keeps its register while it is locked. -/
theorem Frame.locked {F m A m' A' id r size k b} (h : Frame F m A m' A') (hl : m.s.locs id = some ⟨.loaded r, size, k + 1, b⟩) (hF : ¬ F id) :
    m'.s.locs id = some ⟨.loaded r, size, k + 1, b⟩ := by
  obtain ⟨p, h1, _, h3⟩ := h.keep id _ hl (by simp) hF
  have := h3 (by simp)
  subst this
  exact h1

theorem unaryOp_total {L m A o} (f : Nat → Nat → Nat) (hg : Good L m A) (hu : Usable L m A o) (hs : wideSize (sizeA A o) = true) :
    ∃ id m' A' x, unaryOp m f o = some (id, m') ∧ x % 256 ^ sizeA A o = valA A m.bytes o ∧
      Out L (fun j => root o = some j) m A (.loc id) m' A' (sizeA A o) (f (8 * sizeA A o) x % 256 ^ sizeA A o) := by
  obtain ⟨id, m1, A1, r, h1, D, h2, h3, h4⟩ := load_total hg hu
  obtain ⟨h5, h6, h7, h8, h9⟩ := at_reg D.good h2 h3
  unfold unaryOp
  rw [h1, Option.bind_some]
  dsimp only
  rw [h8, Option.bind_some, h5, Option.bind_some, if_pos hs]
  generalize hv : writeReg (8 * sizeA A o) (m1.s.regs r) (f (8 * sizeA A o) (m1.s.regs r)) = v
  obtain ⟨h10, h11⟩ := write_good (r := r) (v := v) D.good
  have hval : v % 256 ^ sizeA A o = f (8 * sizeA A o) (m1.s.regs r) % 256 ^ sizeA A o := by rw [← hv, writeReg_mod hu.wf.ok]
  refine ⟨id, write m1 r v, wrote m1 A1 r v, m1.s.regs r, rfl, h4, ?_⟩
  refine Done.out (dst := none) ⟨h10, D.frame.trans hg.inv h11 (fun _ _ h => h) ?_, ⟨r, h2, h3, by simp⟩, ?_, D.fresh, D.unl, D.occ, D.flags⟩ hu.wf.ok
    (Nat.mod_lt _ (Nat.pow_pos (by omega)))
  · intro j hj h
    rw [h9] at h; cases h
    rcases D.fresh with h | h
    · exact h
    · omega
  · rw [wrote_at h9, h7, hval]

/-- Both operands of a binary operation are in place: the first in a locked register. -/
structure Ready (R : Nat → Prop) (m : Machine) (A : Values) (dest : Nat) (r : Reg) (v : Nat) (src : Opnd) (m' : Machine) (A' : Values)
    (size x y : Nat) : Prop where
  good : Good [dest] m' A'
  frame : Frame R m A m' A'
  loc : m'.s.locs dest = some ⟨.loaded r, size, 1, 0⟩
  kind : r.kind = .gpr
  left : m'.s.regs r % 256 ^ size = x
  right : v % 256 ^ size = y
  fresh : R dest ∨ A.count ≤ dest
  live : ∀ id, root src = some id → Live m' id ∧ id ∉ [dest] ∧ (R id ∨ A.count ≤ id)
  occ : ∀ r j, m'.s.map r = some j → j = dest ∨ root src = some j ∨ (m.s.map r = some j ∧ ¬ R j)

theorem binary_ready {m A l r} (hg : Good [] m A) (hl : Usable [] m A l) (hr : Usable [] m A r) (hd : ∀ id, root l = some id → root r ≠ some id)
    (hsz : sizeA A l = sizeA A r) (hs : wideSize (sizeA A r) = true) :
    ∃ dest m1 m2 v src m3 A3 d, emitLoad l none m = some (dest, m1) ∧ opSize m1 (.loc dest) = some (sizeA A r) ∧ lock m1 dest = some m2 ∧
      binaryOperand m2 (sizeA A r) r = some (v, src, m3) ∧ regOf m3 dest = some d ∧
      Ready (fun j => root l = some j ∨ root r = some j) m A dest d v src m3 A3 (sizeA A r) (valA A m.bytes l) (valA A m.bytes r) := by
  obtain ⟨dest, m1, A1, d, h1, D, h2, h3, h4⟩ := load_total hg hl
  obtain ⟨h5, h6, h7, h8, h9⟩ := at_reg D.good h2 h3
  obtain ⟨h10, h11, h12⟩ := lock_total D.good h2 (by simp)
  have hdest : ¬ root r = some dest := by
    intro hc
    rcases D.fresh with h | h
    · exact hd dest h hc
    · have := Live.lt hg.inv (hr.live dest hc); omega
  have hfr := D.frame.trans hg.inv h12 (H := fun j => root l = some j ∨ j = dest) (fun _ _ h => .inl h) (fun _ _ h => .inr h)
  obtain ⟨hu2, hs2, hv2⟩ := hfr.usable (L' := [dest]) hr (fun id hid h => by
    rcases h with h | h
    · exact hd id h hid
    · rw [h] at hid; exact hdest hid) (fun id hid h => by
      rw [List.mem_singleton.1 h] at hid; exact hdest hid)
  obtain ⟨v, src, m3, A3, h13, S⟩ := binaryOperand_total h11 hu2 (by rw [hs2]; exact hs)
  rw [hs2] at h13 S
  rw [hv2] at S
  have hl3 : m3.s.locs dest = some ⟨.loaded d, sizeA A l, 1, 0⟩ := S.frame.locked (k := 0) (upd_same _ _ _) hdest
  obtain ⟨h14, h15, h16, h17, h18⟩ := at_reg S.good hl3 h3
  have hA3 : A3.value dest = A1.value dest := (S.frame.val dest _ (upd_same _ _ _) (by simp) hdest).2
  rw [hsz] at hl3 h8 h15
  refine ⟨dest, m1, _, v, src, m3, A3, d, h1, h8, h10, h13, h14, ⟨S.good, ?_, hl3, h3, ?_, ?_, ?_, ?_, ?_⟩⟩
  · refine hfr.trans hg.inv S.frame ?_ (fun _ _ h => .inr h)
    rintro j hj (h | h)
    · exact .inl h
    · subst h
      rcases D.fresh with h | h
      · exact .inl h
      · omega
  · rw [h15, hA3, D.value]
  · rw [S.value]; show valA A m1.bytes r = _; rw [D.frame.bytes]
  · rcases D.fresh with h | h
    · exact .inl (.inl h)
    · exact .inr h
  · intro id hid
    obtain ⟨h19, h20, h21⟩ := S.live id hid
    refine ⟨h19, h20, ?_⟩
    rcases h21 with h | h
    · exact .inl (.inr h)
    · exact .inr (Nat.le_trans D.frame.count h)
  · intro r' j hj
    rcases S.occ r' j hj with h | ⟨h, h'⟩
    · exact .inr (.inl h)
    · rcases D.occ r' j h with e1 | ⟨e1, e2⟩
      · exact .inl e1
      · exact .inr (.inr ⟨e1, fun hc => by rcases hc with hc | hc; exact e2 hc; exact h' hc⟩)

theorem release_locs {id} : ∀ {m m' : Machine} (src : Opnd), release m src = some m' → root src ≠ some id → m'.s.locs id = m.s.locs id
  | _, _, .imm .., h, _ => by cases h; rfl
  | _, _, .mem .., h, _ => by cases h; rfl
  | _, _, .cond .., h, _ => by cases h; rfl
  | _, _, .deref b _, h, hne => release_locs b h hne
  | m, m', .loc j, h, hne => by
    have hj : id ≠ j := fun h => hne (by rw [h]; rfl)
    obtain ⟨s', hs, rfl⟩ : ∃ s', free m.s j = some s' ∧ { m with s := s' } = m' := by
      unfold release freeLoc at h
      cases hf : free m.s j with
      | none => rw [hf] at h; cases h
      | some s' => rw [hf] at h; cases h; exact ⟨s', rfl, rfl⟩
    dsimp only
    unfold free at hs
    split at hs
    · cases hs
    · split at hs
      · cases hs
      · split at hs <;> cases hs
        · rfl
        · exact upd_other _ _ hj
      · split at hs <;> cases hs
        · rfl
        · exact upd_other _ _ hj

/-- After the instruction: the destination is unlocked, the source freed. -/
theorem finish_total {m A dest r size src} (hg : Good [dest] m A) (hl : m.s.locs dest = some ⟨.loaded r, size, 1, 0⟩)
    (hs : ∀ id, root src = some id → Live m id ∧ id ∉ [dest]) :
    ∃ m', (unlock m dest).bind (fun m => (release m src).map (fun m => (dest, m))) = some (dest, m') ∧ Good [] m' A ∧
      Frame (fun j => j = dest ∨ root src = some j) m A m' A ∧ m'.s.locs dest = some ⟨.loaded r, size, 0, 0⟩ ∧
      (∀ r j, m'.s.map r = some j → m.s.map r = some j ∧ root src ≠ some j) ∧ m'.s.regs = m.s.regs ∧ m'.flags = m.flags := by
  obtain ⟨h1, h2, h3⟩ := unlock_total hg hl rfl
  have hne : ∀ id, root src = some id → id ≠ dest := fun id hid h => (hs id hid).2 (by rw [h]; exact List.mem_singleton.2 rfl)
  obtain ⟨m', h4, h5, h6, h7, h8, h9⟩ := release_total src h2 (fun id hid => h3.live (hs id hid).1 (hne id hid))
  rw [h1, Option.bind_some, h4]
  refine ⟨m', rfl, h5, h3.trans hg.inv h6 (fun _ _ h => .inl h) (fun _ _ h => .inr h), ?_, h7, h8, h9⟩
  rw [release_locs src h4 (fun h => hne dest h rfl)]
  exact upd_same _ _ _

theorem binaryOp_total {m A l r} (op : Compound.Op) (hg : Good [] m A) (hl : Usable [] m A l) (hr : Usable [] m A r)
    (hd : ∀ id, root l = some id → root r ≠ some id) (hsz : sizeA A l = sizeA A r) (hs : wideSize (sizeA A r) = true)
    (hop : op = .add ∨ op = .sub ∨ op = .and ∨ op = .or ∨ op = .xor) :
    ∃ id m' A' x y w, binaryOp m (some op) l r = some (id, m') ∧ x % 256 ^ sizeA A r = valA A m.bytes l ∧ y % 256 ^ sizeA A r = valA A m.bytes r ∧
      binary op (8 * sizeA A r) x y = some w ∧
      Out [] (fun j => root l = some j ∨ root r = some j) m A (.loc id) m' A' (sizeA A r) (w % 256 ^ sizeA A r) := by
  obtain ⟨dest, m1, m2, v, src, m3, A3, d, h1, h2, h3, h4, h5, Y⟩ := binary_ready hg hl hr hd hsz hs
  have hw : ∃ w, binary op (8 * sizeA A r) (m3.s.regs d) v = some w := by
    rcases hop with h | h | h | h | h <;> subst h <;> exact ⟨_, rfl⟩
  obtain ⟨w, hw⟩ := hw
  generalize hv : writeReg (8 * sizeA A r) (m3.s.regs d) w = x
  obtain ⟨h6, h7⟩ := write_good (r := d) (v := x) Y.good
  obtain ⟨_, h9, h10, _, h12⟩ := at_reg Y.good Y.loc Y.kind
  obtain ⟨m', h13, h14, h15, h16, h17, h18, h19⟩ := finish_total (dest := dest) (src := src) h6 Y.loc (fun id hid => ⟨by
    obtain ⟨l, e1, e2⟩ := (Y.live id hid).1; exact ⟨l, e1, e2⟩, (Y.live id hid).2.1⟩)
  have hdR : ∀ j, j < A.count → j = dest → root l = some j ∨ root r = some j := by
    intro j hj h; subst h
    rcases Y.fresh with h | h
    · exact h
    · omega
  refine ⟨dest, m', wrote m3 A3 d x, m3.s.regs d, v, w, ?_, Y.left, Y.right, hw, ?_⟩
  · unfold binaryOp
    rw [h1, Option.bind_some]
    dsimp only
    rw [h2, Option.bind_some, if_pos hs, h3, Option.bind_some, h4, Option.bind_some]
    dsimp only
    rw [h5, Option.bind_some]
    unfold binaryInst
    dsimp only
    rw [hw, Option.map_some, Option.bind_some, hv]
    exact h13
  · have hout : Out [] (fun j => root l = some j ∨ root r = some j) m A (.loc dest) m' (wrote m3 A3 d x) (sizeA A r) (x % 256 ^ sizeA A r) := by
      refine ⟨h14, (Y.frame.trans hg.inv h7 (fun _ _ h => h) ?_).trans hg.inv h15 (fun _ _ h => h) ?_, loaded_usable h14 h16 Y.kind (wide_ok hs) (by simp), ?_, ?_, ?_, ?_⟩
      · intro j hj h
        rw [h12] at h; cases h
        exact hdR dest hj rfl
      · rintro j hj (h | h)
        · exact hdR j hj h
        · rcases (Y.live j h).2.2 with h' | h'
          · exact h'
          · omega
      · intro id hid; cases hid; exact Y.fresh
      · intro r' j hj
        obtain ⟨h20, h21⟩ := h17 r' j hj
        rcases Y.occ r' j h20 with h | h | h
        · exact .inl (by rw [h]; rfl)
        · exact absurd h h21
        · exact .inr h
      · show (wrote m3 A3 d x).size dest = _
        rw [wrote_size, h10]
      · show (wrote m3 A3 d x).value dest % 256 ^ (wrote m3 A3 d x).size dest = _
        rw [wrote_at h12, wrote_size, h10, Nat.mod_mod]
    rw [← hv, writeReg_mod (wide_ok hs)] at hout
    rw [← hv] 
    exact hout

theorem compare_total {m A l r} (hg : Good [] m A) (hl : Usable [] m A l) (hr : Usable [] m A r)
    (hd : ∀ id, root l = some id → root r ≠ some id) (hsz : sizeA A l = sizeA A r) (hs : wideSize (sizeA A r) = true) :
    ∃ m' A', (binaryOp m none l r).bind (fun (n, m) => freeLoc m n) = some m' ∧
      Gone [] (fun j => root l = some j ∨ root r = some j) m A m' A' ∧
      m'.flags = Spec.Flags.cmp (8 * sizeA A r) (valA A m.bytes l) (valA A m.bytes r) false := by
  obtain ⟨dest, m1, m2, v, src, m3, A3, d, h1, h2, h3, h4, h5, Y⟩ := binary_ready hg hl hr hd hsz hs
  generalize hm4 : ({ m3 with flags := Spec.Flags.cmp (8 * sizeA A r) (m3.s.regs d % 2 ^ (8 * sizeA A r)) (v % 2 ^ (8 * sizeA A r)) false } : Machine) = m4
  have hs4 : m4.s = m3.s := by rw [← hm4]
  have hb4 : m4.bytes = m3.bytes := by rw [← hm4]
  have h6 : Good [dest] m4 A3 := by rw [← hm4]; exact ⟨Y.good.inv, Y.good.pow, Y.good.unl, Y.good.short, Y.good.known⟩
  have h7 : Frame Nothing m3 A3 m4 A3 := ⟨Nat.le_refl _, fun _ l hl _ _ => ⟨l.place, by rw [hs4]; exact hl, .inl rfl, fun _ => rfl⟩, fun _ _ _ _ _ => ⟨rfl, rfl⟩, hb4⟩
  obtain ⟨_, h9, h10, _, h12⟩ := at_reg Y.good Y.loc Y.kind
  obtain ⟨m5, h13, h14, h15, h16, h17, h18, h19⟩ := finish_total (dest := dest) (src := src) h6 (by rw [hs4]; exact Y.loc) (fun id hid =>
    ⟨h7.live (Y.live id hid).1 (fun h => h.elim), (Y.live id hid).2.1⟩)
  obtain ⟨m6, h20, h21, h22, h23, h24, h25, h26⟩ := free_total h14 h16 (by simp) rfl rfl
  have hdR : ∀ j, j < A.count → j = dest → root l = some j ∨ root r = some j := by
    intro j hj h; subst h
    rcases Y.fresh with h | h
    · exact h
    · omega
  have h5m := at_reg h14 h16 Y.kind
  refine ⟨m6, A3, ?_, ⟨h21, ((Y.frame.trans hg.inv h7 (fun _ _ h => h) (fun _ _ h => h.elim)).trans hg.inv h15 (fun _ _ h => h) ?_).trans hg.inv h22 (fun _ _ h => h) ?_, ?_⟩, ?_⟩
  · unfold binaryOp
    rw [h1, Option.bind_some]
    dsimp only
    rw [h2, Option.bind_some, if_pos hs, h3, Option.bind_some, h4, Option.bind_some]
    dsimp only
    rw [h5, Option.bind_some]
    unfold binaryInst
    dsimp only
    rw [Option.bind_some, hm4, h13, Option.bind_some]
    exact h20
  · rintro j hj (h | h)
    · exact hdR j hj h
    · rcases (Y.live j h).2.2 with h' | h'
      · exact h'
      · omega
  · intro j hj h
    exact hdR j hj h
  · intro r' j hj
    have h27 : m5.s.map r' = some j ∧ j ≠ dest := by
      by_cases hr : d = r'
      · subst hr; rw [h23 d rfl] at hj; cases hj
      · rw [h24 r' (by intro h; exact hr (Place.loaded.inj h))] at hj
        refine ⟨hj, ?_⟩
        rintro rfl
        exact hr (mapped_inj h14.inv h5m.2.2.2.2 hj)
    obtain ⟨h28, h29⟩ := h17 r' j h27.1
    rw [hs4] at h28
    rcases Y.occ r' j h28 with h | h | h
    · exact absurd h h27.2
    · exact absurd h h29
    · exact h
  · rw [h26, h19, ← hm4]
    dsimp only
    rw [← pow_256, Y.left, Y.right]

end Verif.Lemmas.ExprCode
