import Verif.Lemmas.ExprOps

/-!
# Lemmas: multiplication, division, shifts and casts of `Model/ExprCode.lean`
-/

namespace Verif.Lemmas.ExprCode

open Verif.RegAlloc Verif.ExprCode Verif.Props.RegAlloc Verif.Spec.X64 Verif.Spec.ExprCode
open Verif.Spec.RegAlloc (Values create)
open Verif.Lemmas.Call (Moved lt_count Nothing create_same)

/-- The left operand is in `rax`, and `rdx` is reserved; both are locked. -/
theorem mulBegin_total {m A l size} (hg : Good [] m A) (hl : Usable [] m A l) (hsz : sizeA A l = size) (hs : wideSize size = true) :
    ∃ upper lower m' A', mulBegin m size l = some (upper, lower, m') ∧ Good [lower, upper] m' A' ∧ Frame (fun j => root l = some j) m A m' A' ∧
      m'.s.locs lower = some ⟨.loaded rax, size, 1, 0⟩ ∧ m'.s.locs upper = some ⟨.loaded rdx, size, 1, 0⟩ ∧
      m'.s.regs rax % 256 ^ size = valA A m.bytes l ∧ (root l = some lower ∨ A.count ≤ lower) ∧ A.count ≤ upper ∧ lower ≠ upper ∧
      (∀ r j, m'.s.map r = some j → j = lower ∨ j = upper ∨ (m.s.map r = some j ∧ ¬ root l = some j)) := by
  have hpow := ok_pow (wide_ok hs)
  unfold mulBegin
  obtain ⟨m0, m1, h1, h2, h3, h4, h5, h6, h7, h8, h9, h10, _⟩ := claimLoaded_total (r := rdx) (size := size) (fun m => m.s.regs rdx) hg (by simp) hpow
  rw [h1, Option.bind_some, h3, Option.bind_some]
  dsimp only at *
  generalize hA1 : create A size (m0.s.regs rdx) = A1 at h4 h5
  have hc1 : A1.count = A.count + 1 := by rw [← hA1]; rfl
  obtain ⟨h11, h12, h13⟩ := lock_total h4 h6 (by simp)
  rw [h11, Option.bind_some]
  generalize hm2 : ({ m1 with s := _ } : Machine) = m2 at h12 h13
  have hmap2 : m2.s.map = m1.s.map := by rw [← hm2]
  have hloc2 : m2.s.locs A.count = some ⟨.loaded rdx, size, 1, 0⟩ := by rw [← hm2]; exact upd_same _ _ _
  have hrr : rax ≠ rdx := by decide
  obtain ⟨m0', m3, g1, g2, g3, g4, g5, g6, g7, g8, g9, g10, _⟩ := claimLoaded_total (r := rax) (size := size) (fun m => m.s.regs rax) h12 (by
    intro j hj hin
    rw [List.mem_singleton.1 hin] at hj
    exact hrr (mapped_inj h12.inv hj (by rw [hmap2]; exact h8))) hpow
  rw [g1, Option.bind_some, g3, Option.bind_some]
  dsimp only at g4 g5 g9 ⊢
  generalize hA3 : create A1 size (m0'.s.regs rax) = A3 at g4 g5
  have hc3 : A3.count = A1.count + 1 := by rw [← hA3]; rfl
  have hne : A.count ≠ A1.count := by omega
  have hloc3 : m3.s.locs A.count = some ⟨.loaded rdx, size, 1, 0⟩ := g5.locked (k := 0) hloc2 (fun h => h.elim)
  obtain ⟨g11, g12, g13⟩ := lock_total g4 g6 (by simp)
  rw [g11, Option.bind_some]
  generalize hm4 : ({ m3 with s := _ } : Machine) = m4 at g12 g13
  have hmap4 : m4.s.map = m3.s.map := by rw [← hm4]
  have hloc4 : m4.s.locs A1.count = some ⟨.loaded rax, size, 1, 0⟩ := by rw [← hm4]; exact upd_same _ _ _
  have hloc4' : m4.s.locs A.count = some ⟨.loaded rdx, size, 1, 0⟩ := g13.locked (k := 0) hloc3 hne
  obtain ⟨g14, g15, g16⟩ := unlock_total g12 hloc4 rfl
  rw [g14, Option.bind_some]
  generalize hm5 : ({ m4 with s := _ } : Machine) = m5 at g15 g16
  have hmap5 : m5.s.map = m4.s.map := by rw [← hm5]
  have hloc5' : m5.s.locs A.count = some ⟨.loaded rdx, size, 1, 0⟩ := g16.locked (k := 0) hloc4' hne
  have hfr : Frame (fun j => j = A.count ∨ j = A1.count) m A m5 A3 :=
    (((h5.trans hg.inv h13 (fun _ _ h => h.elim) (fun _ _ h => .inl h)).trans hg.inv g5 (fun _ _ h => h) (fun _ _ h => h.elim)).trans hg.inv g13
      (fun _ _ h => h) (fun _ _ h => .inr h)).trans hg.inv g16 (fun _ _ h => h) (fun _ _ h => .inr h)
  have hlt : ∀ id, root l = some id → id < A.count := fun id hid => Live.lt hg.inv (hl.live id hid)
  obtain ⟨hu5, hs5, hv5⟩ := hfr.usable (L' := [A.count]) hl (fun id hid h => by have := hlt id hid; omega)
    (fun id hid h => by have := hlt id hid; rw [List.mem_singleton] at h; omega)
  have hrax5 : m5.s.map rax = some A1.count := by rw [hmap5, hmap4]; exact g8
  obtain ⟨lower, m6, A6, e1, D⟩ := emitLoad_total l (some rax) g15 hu5 (by
    intro r j hr hj
    cases hr
    rw [hrax5] at hj
    cases hj
    rw [List.mem_singleton]; omega) (by intro r hr; cases hr; rfl)
  obtain ⟨r6, e2, e3, e4⟩ := D.reg
  have hr6 := e4 rax rfl
  subst hr6
  rw [hs5, hsz] at e2
  have hlow : root l = some lower ∨ A3.count ≤ lower := by
    rcases D.fresh with h | h
    · exact .inl h
    · exact .inr h
  have hupF : ¬ (root l = some A.count ∨ ∃ r, some rax = some r ∧ m5.s.map r = some A.count) := by
    rintro (h | ⟨r, h, h'⟩)
    · have := hlt _ h; omega
    · cases h; rw [hrax5] at h'; exact hne (Option.some.inj h').symm
  have hloc6 : m6.s.locs A.count = some ⟨.loaded rdx, size, 1, 0⟩ := D.frame.locked (k := 0) hloc5' hupF
  obtain ⟨e5, e6, e7⟩ := lock_total D.good e2 (by simp)
  have hlu : lower ≠ A.count := by
    rcases hlow with h | h
    · have := hlt _ h; omega
    · omega
  rw [e1, Option.bind_some]
  dsimp only
  rw [e5]
  obtain ⟨_, f2, _, _, f5⟩ := at_reg D.good e2 (rfl : rax.kind = .gpr)
  refine ⟨A.count, lower, _, A6, rfl, e6, ?_, upd_same _ _ _, e7.locked (k := 0) hloc6 (Ne.symm hlu), ?_, ?_, Nat.le_refl _, hlu, ?_⟩
  · refine (hfr.trans hg.inv D.frame ?_ ?_).trans hg.inv e7 (fun _ _ h => h) ?_
    · rintro j hj (h | h) <;> omega
    · rintro j hj (h | ⟨r, h, h'⟩)
      · exact h
      · cases h; rw [hrax5] at h'; have := Option.some.inj h'; omega
    · intro j hj h
      subst h
      rcases hlow with h | h
      · exact h
      · omega
  · show m6.s.regs rax % _ = _
    rw [f2, D.value, hv5, hfr.bytes]
  · rcases hlow with h | h
    · exact .inl h
    · exact .inr (by omega)
  · intro r j hj
    have hj6 : m6.s.map r = some j := hj
    by_cases hr : r = rax
    · left; rw [hr, f5] at hj6; exact (Option.some.inj hj6).symm
    · rcases D.occ r j hj6 with h | ⟨h, h'⟩
      · exact .inl h
      · right
        rw [hmap5, hmap4, g7 r hr, hmap2] at h
        by_cases hr' : r = rdx
        · left; rw [hr', h8] at h; exact (Option.some.inj h).symm
        · right; rw [h7 r hr'] at h; exact ⟨h, h'⟩

/-- The instruction is executed on both registers, which are then unlocked. -/
theorem mulDiv_total {m A l r} (inst : Nat → Nat → Nat → Nat → Option (Nat × Nat)) (k : MulKind) (sgn : Bool) (hg : Good [] m A) (hl : Usable [] m A l) (hr : Usable [] m A r)
    (hd : ∀ id, root l = some id → root r ≠ some id) (hsz : sizeA A l = sizeA A r) (hs : wideSize (sizeA A r) = true)
    (hdef : ∀ a hi x y, a % 256 ^ sizeA A r = valA A m.bytes l → hi % 256 ^ sizeA A r = (if sgn then signOf (8 * sizeA A r) a else 0) % 256 ^ sizeA A r →
      x % 256 ^ sizeA A r = valA A m.bytes l → y % 256 ^ sizeA A r = valA A m.bytes r → ∃ p, inst (8 * sizeA A r) hi x y = some p) :
    ∃ id m' A' a hi x y p, mulDivWith inst m k sgn l r = some (id, m') ∧ a % 256 ^ sizeA A r = valA A m.bytes l ∧
      hi % 256 ^ sizeA A r = (if sgn then signOf (8 * sizeA A r) a else 0) % 256 ^ sizeA A r ∧
      x % 256 ^ sizeA A r = valA A m.bytes l ∧ y % 256 ^ sizeA A r = valA A m.bytes r ∧ inst (8 * sizeA A r) hi x y = some p ∧
      Out [] (fun j => root l = some j ∨ root r = some j) m A (.loc id) m' A' (sizeA A r) ((if k = .mod then p.1 else p.2) % 256 ^ sizeA A r) := by
  generalize hsize : sizeA A r = size at *
  have hok := wide_ok hs
  have hkx : rax.kind = .gpr := rfl
  have hkd : rdx.kind = .gpr := rfl
  have hrr : rax ≠ rdx := by decide
  obtain ⟨upper, lower, m1, A1, h1, h2, h3, h4, h5, h6, h7, h8, h9, h10⟩ := mulBegin_total hg hl hsz hs
  unfold mulDivWith
  rw [sizeOf_eq hg hl, Option.bind_some, hsz, if_pos hs, h1, Option.bind_some]
  dsimp only
  -- `cdq`
  unfold extendA
  generalize hx : writeReg (8 * size) (m1.s.regs rdx) (if sgn then signOf (8 * size) (m1.s.regs rax) else 0) = x
  obtain ⟨g1, g2⟩ := write_good (r := rdx) (v := x) h2
  obtain ⟨_, _, u1, _, u2⟩ := at_reg h2 h5 hkd
  obtain ⟨_, l0, l1, _, l2⟩ := at_reg h2 h4 hkx
  have hF : Frame (fun j => root l = some j ∨ j = upper ∨ j = lower) m A (write m1 rdx x) (wrote m1 A1 rdx x) :=
    h3.trans hg.inv g2 (fun _ _ h => .inl h) (fun j _ h => by rw [u2] at h; cases h; exact .inr (.inl rfl))
  have hlt : ∀ id, root r = some id → id < A.count := fun id hid => Live.lt hg.inv (hr.live id hid)
  have hrl : ¬ root r = some lower := by
    intro hc
    rcases h7 with h | h
    · exact hd _ h hc
    · have := hlt _ hc; omega
  have hru : ¬ root r = some upper := by intro hc; have := hlt _ hc; omega
  obtain ⟨hu2, hs2, hv2⟩ := hF.usable (L' := [lower, upper]) hr (fun id hid h => by
      rcases h with h | h | h
      · exact hd id h hid
      · rw [h] at hid; exact hru hid
      · rw [h] at hid; exact hrl hid) (fun id hid h => by
      simp only [List.mem_cons, List.not_mem_nil, or_false] at h
      rcases h with h | h <;> (rw [h] at hid; first | exact hrl hid | exact hru hid))
  obtain ⟨v, src, m3, A3, g3, S⟩ := mulOperand_total g1 hu2
  rw [hs2, hsize] at S
  rw [hv2, hF.bytes] at S
  rw [g3, Option.bind_some]
  dsimp only
  have hl3 : m3.s.locs lower = some ⟨.loaded rax, size, 1, 0⟩ := S.frame.locked (k := 0) h4 hrl
  have hu3 : m3.s.locs upper = some ⟨.loaded rdx, size, 1, 0⟩ := S.frame.locked (k := 0) h5 hru
  obtain ⟨_, w1, w2, _, w3⟩ := at_reg S.good hl3 hkx
  obtain ⟨_, w4, w5, _, w6⟩ := at_reg S.good hu3 hkd
  have hal : A3.value lower = valA A m.bytes l := by
    rw [(S.frame.val lower _ (h4 : (write m1 rdx x).s.locs lower = _) (by simp) hrl).2, wrote_value (by rw [u2]; intro h; exact h9 (Option.some.inj h).symm), ← l0, h6]
  have hau : A3.value upper = x % 256 ^ size := by
    rw [(S.frame.val upper _ (h5 : (write m1 rdx x).s.locs upper = _) (by simp) hru).2, wrote_at u2, u1]
  have hrax : m3.s.regs rax % 256 ^ size = valA A m.bytes l := by rw [w1, hal]
  have hrdx : m3.s.regs rdx % 256 ^ size = (if sgn then signOf (8 * size) (m1.s.regs rax) else 0) % 256 ^ size := by
    rw [w4, hau, ← hx, writeReg_mod hok]
  obtain ⟨p, hp⟩ := hdef (m1.s.regs rax) (m3.s.regs rdx) (m3.s.regs rax) v h6 hrdx hrax S.value
  rw [hp, Option.bind_some]
  obtain ⟨hi, lo⟩ := p
  dsimp only
  generalize hvd : writeReg (8 * size) (m3.s.regs rdx) hi = vd
  generalize hva : writeReg (8 * size) (m3.s.regs rax) lo = va
  obtain ⟨k1, k2⟩ := write_good (r := rdx) (v := vd) S.good
  obtain ⟨k3, k4⟩ := write_good (r := rax) (v := va) k1
  generalize hm4 : write (write m3 rdx vd) rax va = m4 at k3 k4
  have hs4l : m4.s.locs = m3.s.locs := by rw [← hm4]; rfl
  have hs4m : m4.s.map = m3.s.map := by rw [← hm4]; rfl
  generalize hA4 : wrote (write m3 rdx vd) (wrote m3 A3 rdx vd) rax va = A4 at k3 k4
  have hA4l : A4.value lower = va % 256 ^ size := by
    rw [← hA4, wrote_at (m := write m3 rdx vd) (j := lower) w3, wrote_size, w2]
  have hA4u : A4.value upper = vd % 256 ^ size := by
    rw [← hA4, wrote_value (m := write m3 rdx vd) (by show m3.s.map rax ≠ _; rw [w3]; intro h; exact h9 (Option.some.inj h)), wrote_at w6, w5]
  have hA4s : A4.size = A3.size := by rw [← hA4, wrote_size, wrote_size]
  have hsl : ∀ id, root src = some id → id ≠ lower ∧ id ≠ upper := by
    intro id hid
    have := (S.live id hid).2.1
    simp only [List.mem_cons, List.not_mem_nil, or_false] at this
    exact ⟨fun h => this (.inl h), fun h => this (.inr h)⟩
  obtain ⟨m5, q1, q2, q3, q4, q5, q6⟩ := release_total src k3 (fun id hid => by
    obtain ⟨l, e1, e2⟩ := (S.live id hid).1
    exact ⟨l, by rw [hs4l]; exact e1, e2⟩)
  rw [q1, Option.bind_some]
  have hl5 : m5.s.locs lower = some ⟨.loaded rax, size, 1, 0⟩ := by
    rw [release_locs src q1 (fun h => (hsl _ h).1 rfl), hs4l]; exact hl3
  have hu5 : m5.s.locs upper = some ⟨.loaded rdx, size, 1, 0⟩ := by
    rw [release_locs src q1 (fun h => (hsl _ h).2 rfl), hs4l]; exact hu3
  obtain ⟨r1, r2, r3⟩ := unlock_total q2 hl5 rfl
  rw [r1, Option.bind_some]
  generalize hm6 : ({ m5 with s := _ } : Machine) = m6 at r2 r3
  have hmap6 : m6.s.map = m5.s.map := by rw [← hm6]
  have hl6 : m6.s.locs lower = some ⟨.loaded rax, size, 0, 0⟩ := by rw [← hm6]; exact upd_same _ _ _
  have hu6 : m6.s.locs upper = some ⟨.loaded rdx, size, 1, 0⟩ := r3.locked (k := 0) hu5 (Ne.symm h9)
  obtain ⟨r4, r5, r6⟩ := unlock_total r2 hu6 rfl
  rw [r4, Option.bind_some]
  generalize hm7 : ({ m6 with s := _ } : Machine) = m7 at r5 r6
  have hmap7 : m7.s.map = m5.s.map := by rw [← hm7]; exact hmap6
  have hu7 : m7.s.locs upper = some ⟨.loaded rdx, size, 0, 0⟩ := by rw [← hm7]; exact upd_same _ _ _
  have hl7 : m7.s.locs lower = some ⟨.loaded rax, size, 0, 0⟩ := by
    rw [← hm7]; show upd _ _ _ _ = _; rw [upd_other _ _ h9]; exact hl6
  -- everything up to here
  have hFr : Frame (fun j => root l = some j ∨ root r = some j) m A m7 A4 := by
    have hlow : ∀ j, j < A.count → j = lower → root l = some j ∨ root r = some j := by
      intro j hj h; subst h
      rcases h7 with h | h
      · exact .inl h
      · omega
    have hup : ∀ j, j < A.count → j = upper → root l = some j ∨ root r = some j := by intro j hj h; omega
    refine ((((((hF.trans hg.inv S.frame ?_ (fun _ _ h => .inr h)).trans hg.inv k2 (fun _ _ h => h) ?_).trans hg.inv k4 (fun _ _ h => h) ?_).trans hg.inv q3 (fun _ _ h => h) ?_).trans
      hg.inv r3 (fun _ _ h => h) hlow).trans hg.inv r6 (fun _ _ h => h) hup)
    · rintro j hj (h | h | h)
      · exact .inl h
      · exact hup j hj h
      · exact hlow j hj h
    · intro j hj h; rw [w6] at h; cases h; exact hup _ hj rfl
    · intro j hj h
      have h : m3.s.map rax = some j := h
      rw [w3] at h; cases h; exact hlow _ hj rfl
    · intro j hj h
      rcases (S.live j h).2.2 with h' | h'
      · exact .inr h'
      · have := hF.count; omega
  have hocc7 : ∀ r' j, m7.s.map r' = some j → j = lower ∨ j = upper ∨ (m.s.map r' = some j ∧ ¬ (root l = some j ∨ root r = some j)) := by
    intro r' j hj
    rw [hmap7] at hj
    obtain ⟨h, h'⟩ := q4 r' j hj
    rw [hs4m] at h
    rcases S.occ r' j h with e | ⟨e, e'⟩
    · exact absurd e h'
    · have e : m1.s.map r' = some j := e
      rcases h10 r' j e with c | c | ⟨c, c'⟩
      · exact .inl c
      · exact .inr (.inl c)
      · exact .inr (.inr ⟨c, fun hc => by rcases hc with hc | hc; exact c' hc; exact e' hc⟩)
  by_cases hk : k = .mod
  · rw [if_pos hk]
    obtain ⟨m8, z1, z2, z3, z4, z5, z6, z7⟩ := free_total r5 hl7 (by simp) rfl rfl
    have hu8 : m8.s.locs upper = some ⟨.loaded rdx, size, 0, 0⟩ := by
      have := release_locs (id := upper) (.loc lower) z1 (by intro h; exact h9 (Option.some.inj h))
      rw [this]; exact hu7
    rw [z1]
    refine ⟨upper, m8, A4, m1.s.regs rax, m3.s.regs rdx, m3.s.regs rax, v, (hi, lo), rfl, h6, hrdx, hrax, S.value, hp, ?_⟩
    refine ⟨z2, hFr.trans hg.inv z3 (fun _ _ h => h) ?_, loaded_usable z2 hu8 hkd hok (by simp), ?_, ?_, ?_, ?_⟩
    · intro j hj h; subst h
      rcases h7 with h | h
      · exact .inl h
      · omega
    · intro id hid; cases hid; exact .inr h8
    · intro r' j hj
      have : m7.s.map r' = some j ∧ j ≠ lower := by
        have hmm := (at_reg r5 hl7 hkx).2.2.2.2
        by_cases hr' : rax = r'
        · subst hr'; rw [z4 rax rfl] at hj; cases hj
        · rw [z5 r' (by intro h; exact hr' (Place.loaded.inj h))] at hj
          refine ⟨hj, ?_⟩
          rintro rfl
          exact hr' (mapped_inj r5.inv hmm hj)
      rcases hocc7 r' j this.1 with h | h | h
      · exact absurd h this.2
      · exact .inl (by rw [h]; rfl)
      · exact .inr h
    · show A4.size upper = size
      rw [hA4s, w5]
    · show A4.value upper % 256 ^ A4.size upper = _
      rw [hA4s, w5, hA4u, Nat.mod_mod, if_pos hk, ← hvd, writeReg_mod hok]
  · rw [if_neg hk]
    obtain ⟨m8, z1, z2, z3, z4, z5, z6, z7⟩ := free_total r5 hu7 (by simp) rfl rfl
    have hl8 : m8.s.locs lower = some ⟨.loaded rax, size, 0, 0⟩ := by
      have := release_locs (id := lower) (.loc upper) z1 (by intro h; exact h9 (Option.some.inj h).symm)
      rw [this]; exact hl7
    rw [z1]
    refine ⟨lower, m8, A4, m1.s.regs rax, m3.s.regs rdx, m3.s.regs rax, v, (hi, lo), rfl, h6, hrdx, hrax, S.value, hp, ?_⟩
    refine ⟨z2, hFr.trans hg.inv z3 (fun _ _ h => h) ?_, loaded_usable z2 hl8 hkx hok (by simp), ?_, ?_, ?_, ?_⟩
    · intro j hj h; subst h; omega
    · intro id hid; cases hid
      rcases h7 with h | h
      · exact .inl (.inl h)
      · exact .inr h
    · intro r' j hj
      have : m7.s.map r' = some j ∧ j ≠ upper := by
        have hmm := (at_reg r5 hu7 hkd).2.2.2.2
        by_cases hr' : rdx = r'
        · subst hr'; rw [z4 rdx rfl] at hj; cases hj
        · rw [z5 r' (by intro h; exact hr' (Place.loaded.inj h))] at hj
          refine ⟨hj, ?_⟩
          rintro rfl
          exact hr' (mapped_inj r5.inv hmm hj)
      rcases hocc7 r' j this.1 with h | h | h
      · exact .inl (by rw [h]; rfl)
      · exact absurd h this.2
      · exact .inr h
    · show A4.size lower = size
      rw [hA4s, w2]
    · show A4.value lower % 256 ^ A4.size lower = _
      rw [hA4s, w2, hA4l, Nat.mod_mod, if_neg hk, ← hva, writeReg_mod hok]

/-! ## Shifts -/

theorem shiftRcx_total {m A r} (hg : Good [] m A) (hr : Usable [] m A r) :
    ∃ c m' A', shiftRcx m r = some (c, m') ∧
      Done [] (fun j => root r = some j) (fun j => root r = some j) m A c m' A' (sizeA A r) (valA A m.bytes r) (some rcx) := by
  have main : ∃ c m' A', (claim m rcx).bind (fun m => emitLoad r (some rcx) m) = some (c, m') ∧
      Done [] (fun j => root r = some j) (fun j => root r = some j) m A c m' A' (sizeA A r) (valA A m.bytes r) (some rcx) := by
    obtain ⟨m1, h1, h2, h3, h4, h5, h6, h7⟩ := claim_total (r := rcx) hg (by simp)
    obtain ⟨hu, hs, hv⟩ := h3.usable hr (fun _ _ h => h.elim) hr.unl
    obtain ⟨c, m', A', h8, D⟩ := emitLoad_total r (some rcx) h2 hu (by simp) (by intro r hr; cases hr; rfl)
    rw [h3.bytes] at D
    rw [h1, Option.bind_some, h8]
    have hF : ∀ j, (root r = some j ∨ ∃ r, some rcx = some r ∧ m1.s.map r = some j) → root r = some j := by
      rintro j (h | ⟨r, h, h'⟩)
      · exact h
      · cases h; rw [h4] at h'; cases h'
    refine ⟨c, m', A', rfl, D.good, h3.trans hg.inv D.frame (fun _ _ h => h.elim) (fun j _ h => hF j h), D.reg, D.value, D.fresh, D.unl, ?_, D.flags.trans h7⟩
    intro r' j hj
    rcases D.occ r' j hj with h | ⟨h, h'⟩
    · exact .inl h
    · refine .inr ⟨?_, h'⟩
      by_cases hrr : r' = rcx
      · rw [hrr, h4] at h; cases h
      · rw [h5 r' hrr] at h; exact h
  cases r with
  | loc id =>
    unfold shiftRcx
    dsimp only
    split
    · rename_i hreg
      rcases loc_cases hg hr with ⟨r', hl, hk⟩ | ⟨off, hl⟩
      · have hat := at_reg hg hl hk
        rw [hat.1] at hreg; cases hreg
        refine ⟨id, m, A, rfl, hg, Frame.refl, ⟨rcx, hl, hk, fun d h => by cases h; rfl⟩, ?_, .inl rfl, by simp, ?_, rfl⟩
        · show _ = A.value id % 256 ^ A.size id
          rw [← hat.2.1, Nat.mod_mod]
        · intro r j hj
          by_cases h : j = id
          · exact .inl h
          · exact .inr ⟨hj, fun hc => h (Option.some.inj hc).symm⟩
      · have hn : regOf m id = none := by unfold regOf; rw [hl]
        rw [hn] at hreg; cases hreg
    · exact main
  | cond => exact hr.wf.elim
  | imm => exact main
  | mem => exact main
  | deref => exact main

theorem shiftOp_total {m A l r} (left sgn : Bool) (hg : Good [] m A) (hl : Usable [] m A l) (hr : Usable [] m A r)
    (hd : ∀ id, root l = some id → root r ≠ some id) (hs : wideSize (sizeA A l) = true) (h1 : sizeA A r = 1) :
    ∃ id m' A' x y, shiftOp m left sgn l r = some (id, m') ∧ x % 256 ^ sizeA A l = valA A m.bytes l ∧ y % 256 = valA A m.bytes r ∧
      Out [] (fun j => root l = some j ∨ root r = some j) m A (.loc id) m' A' (sizeA A l)
        (shiftInst left sgn (8 * sizeA A l) x y % 256 ^ sizeA A l) := by
  have hok := wide_ok hs
  have main : (∀ v sz, r ≠ .imm v sz) → ∃ id m' A' x y, shiftOp m left sgn l r = some (id, m') ∧ x % 256 ^ sizeA A l = valA A m.bytes l ∧
      y % 256 = valA A m.bytes r ∧ Out [] (fun j => root l = some j ∨ root r = some j) m A (.loc id) m' A' (sizeA A l)
        (shiftInst left sgn (8 * sizeA A l) x y % 256 ^ sizeA A l) := by
    intro hni
    have heq : shiftOp m left sgn l r = (shiftRcx m r).bind (fun (c, m) => (lock m c).bind (fun m =>
          (emitLoad l none m).bind (fun (d, m) => (regOf m d).bind (fun r =>
            (unlock (write m r (writeReg (8 * sizeA A l) (m.s.regs r) (shiftInst left sgn (8 * sizeA A l) (m.s.regs r) (m.s.regs rcx)))) c).bind (fun m =>
              (freeLoc m c).map (fun m => (d, m))))))) := by
      unfold shiftOp
      rw [sizeOf_eq hg hl, Option.bind_some, if_pos hs]
      cases r with
      | imm v sz => exact absurd rfl (hni v sz)
      | _ => rfl
    rw [heq]
    obtain ⟨c, m1, A1, g1, D⟩ := shiftRcx_total hg hr
    obtain ⟨r0, g2, g3, g4⟩ := D.reg
    have hr0 := g4 rcx rfl
    subst hr0
    rw [h1] at g2 D
    obtain ⟨g5, g6, g7⟩ := lock_total D.good g2 (by simp)
    rw [g1, Option.bind_some]
    dsimp only
    rw [g5, Option.bind_some]
    generalize hm2 : ({ m1 with s := _ } : Machine) = m2 at g6 g7
    have hmap2 : m2.s.map = m1.s.map := by rw [← hm2]
    have hloc2 : m2.s.locs c = some ⟨.loaded rcx, 1, 1, 0⟩ := by rw [← hm2]; exact upd_same _ _ _
    have hcl : ¬ root l = some c := by
      intro hc
      rcases D.fresh with h | h
      · exact hd c hc h
      · have := Live.lt hg.inv (hl.live c hc); omega
    have hF : Frame (fun j => root r = some j ∨ j = c) m A m2 A1 := D.frame.trans hg.inv g7 (fun _ _ h => .inl h) (fun _ _ h => .inr h)
    obtain ⟨hu2, hs2, hv2⟩ := hF.usable (L' := [c]) hl (fun id hid h => by
      rcases h with h | h
      · exact hd id hid h
      · rw [h] at hid; exact hcl hid) (fun id hid h => by
        rw [List.mem_singleton.1 h] at hid; exact hcl hid)
    obtain ⟨d, m3, A3, rd, g8, E, g9, g10, g11⟩ := load_total g6 hu2
    rw [hs2] at g9 g11 E
    rw [hv2, hF.bytes] at g11 E
    obtain ⟨t1, t2, t3, t4, t5⟩ := at_reg E.good g9 g10
    have hloc3 : m3.s.locs c = some ⟨.loaded rcx, 1, 1, 0⟩ := E.frame.locked (k := 0) hloc2 hcl
    obtain ⟨c1, c2, c3, c4, c5⟩ := at_reg E.good hloc3 (rfl : rcx.kind = .gpr)
    have hcd : d ≠ c := by
      intro h
      exact E.unl (by rw [h]; exact List.mem_singleton.2 rfl)
    have hrne : rd ≠ rcx := by
      rintro rfl
      rw [t5] at c5
      exact hcd (Option.some.inj c5)
    have hAc : A3.value c = valA A m.bytes r := by
      rw [(E.frame.val c _ hloc2 (by simp) hcl).2, D.value]
    rw [g8, Option.bind_some]
    dsimp only
    rw [t1, Option.bind_some]
    generalize hv : writeReg (8 * sizeA A l) (m3.s.regs rd) (shiftInst left sgn (8 * sizeA A l) (m3.s.regs rd) (m3.s.regs rcx)) = v
    obtain ⟨k1, k2⟩ := write_good (r := rd) (v := v) E.good
    obtain ⟨k3, k4, k5⟩ := unlock_total (m := write m3 rd v) k1 hloc3 rfl
    rw [k3, Option.bind_some]
    generalize hm5 : ({ write m3 rd v with s := _ } : Machine) = m5 at k4 k5
    have hmap5 : m5.s.map = m3.s.map := by rw [← hm5]; rfl
    have hloc5 : m5.s.locs c = some ⟨.loaded rcx, 1, 0, 0⟩ := by rw [← hm5]; exact upd_same _ _ _
    have hloc5d : m5.s.locs d = some ⟨.loaded rd, sizeA A l, 0, 0⟩ := by
      rw [← hm5]; show upd _ _ _ _ = _; rw [upd_other _ _ hcd]; exact g9
    obtain ⟨m6, z1, z2, z3, z4, z5, z6, z7⟩ := free_total k4 hloc5 (by simp) rfl rfl
    have hl6 : m6.s.locs d = some ⟨.loaded rd, sizeA A l, 0, 0⟩ := by
      have := release_locs (id := d) (.loc c) z1 (by intro h; exact hcd (Option.some.inj h).symm)
      rw [this]; exact hloc5d
    rw [z1]
    have hcR : ∀ j, j < A.count → j = c → root l = some j ∨ root r = some j := by
      intro j hj h; subst h
      rcases D.fresh with h | h
      · exact .inr h
      · omega
    have hdR : ∀ j, j < A.count → j = d → root l = some j ∨ root r = some j := by
      intro j hj h; subst h
      rcases E.fresh with h | h
      · exact .inl h
      · have := hF.count; omega
    refine ⟨d, m6, wrote m3 A3 rd v, m3.s.regs rd, m3.s.regs rcx, rfl, g11, ?_, ?_⟩
    · have : m3.s.regs rcx % 256 = A3.value c := c2
      rw [this, hAc]
    · refine ⟨z2, ?_, loaded_usable z2 hl6 g10 hok (by simp), ?_, ?_, ?_, ?_⟩
      · refine ((((hF.trans hg.inv E.frame ?_ (fun _ _ h => .inl h)).trans hg.inv k2 (fun _ _ h => h) ?_).trans hg.inv k5 (fun _ _ h => h) hcR).trans hg.inv z3 (fun _ _ h => h) hcR)
        · rintro j hj (h | h)
          · exact .inr h
          · exact hcR j hj h
        · intro j hj h; rw [t5] at h; cases h; exact hdR _ hj rfl
      · intro id hid; cases hid
        rcases E.fresh with h | h
        · exact .inl (.inl h)
        · exact .inr (Nat.le_trans hF.count h)
      · intro r' j hj
        have : m5.s.map r' = some j ∧ j ≠ c := by
          have hmm := (at_reg k4 hloc5 (rfl : rcx.kind = .gpr)).2.2.2.2
          by_cases hr' : rcx = r'
          · subst hr'; rw [z4 rcx rfl] at hj; cases hj
          · rw [z5 r' (by intro h; exact hr' (Place.loaded.inj h))] at hj
            refine ⟨hj, ?_⟩
            rintro rfl
            exact hr' (mapped_inj k4.inv hmm hj)
        obtain ⟨e1, e2⟩ := this
        rw [hmap5] at e1
        rcases E.occ r' j e1 with h | ⟨h, h'⟩
        · exact .inl (by rw [h]; rfl)
        · rw [hmap2] at h
          rcases D.occ r' j h with e | ⟨e, e'⟩
          · exact absurd e e2
          · exact .inr ⟨e, fun hc => by rcases hc with hc | hc; exact h' hc; exact e' hc⟩
      · show (wrote m3 A3 rd v).size d = _
        rw [wrote_size, t3]
      · show (wrote m3 A3 rd v).value d % 256 ^ (wrote m3 A3 rd v).size d = _
        rw [wrote_at t5, wrote_size, t3, Nat.mod_mod, ← hv, writeReg_mod hok]
  cases r with
  | imm v sz =>
    have hsz : sz = 1 := h1
    subst hsz
    unfold shiftOp
    rw [sizeOf_eq hg hl, Option.bind_some, if_pos hs]
    dsimp only
    rw [if_pos (rfl : 1 = 1)]
    obtain ⟨id, m1, A1, r, h1, D, h2, h3, h4⟩ := load_total hg hl
    obtain ⟨h5, h6, h7, h8, h9⟩ := at_reg D.good h2 h3
    rw [h1, Option.bind_some]
    dsimp only
    rw [h5, Option.map_some]
    generalize hv : writeReg (8 * sizeA A l) (m1.s.regs r) (shiftInst left sgn (8 * sizeA A l) (m1.s.regs r) v) = w
    obtain ⟨h10, h11⟩ := write_good (r := r) (v := w) D.good
    refine ⟨id, write m1 r w, wrote m1 A1 r w, m1.s.regs r, v, rfl, h4, rfl, ?_⟩
    refine Done.out (dst := none) ⟨h10, D.frame.trans hg.inv h11 (fun _ _ h => .inl h) ?_, ⟨r, h2, h3, by simp⟩, ?_, ?_, D.unl, ?_, D.flags⟩ hok
      (Nat.mod_lt _ (Nat.pow_pos (by omega)))
    · intro j hj h
      rw [h9] at h; cases h
      rcases D.fresh with h | h
      · exact .inl h
      · omega
    · rw [wrote_at h9, h7, ← hv, writeReg_mod hok]
    · rcases D.fresh with h | h
      · exact .inl (.inl h)
      · exact .inr h
    · intro r' j hj
      rcases D.occ r' j hj with h | ⟨h, h'⟩
      · exact .inl h
      · exact .inr ⟨h, fun hc => by rcases hc with hc | hc; exact h' hc; cases hc⟩
  | cond => exact hr.wf.elim
  | loc => exact main (by simp)
  | mem => exact main (by simp)
  | deref => exact main (by simp)

/-! ## Casts -/

def notImm : Opnd → Prop
  | .imm _ _ => False
  | _ => True

theorem readBytes_prefix (bytes : Nat → Nat) : ∀ (k n a : Nat), k ≤ n → readBytes bytes a k = readBytes bytes a n % 256 ^ k
  | 0, _, _, _ => by simp [readBytes, Nat.mod_one]
  | k + 1, 0, _, h => by omega
  | k + 1, n + 1, a, h => by
    have ih := readBytes_prefix bytes k n (a + 1) (by omega)
    rw [readBytes, readBytes, ih, Nat.pow_succ, Nat.mul_comm (256 ^ k), Nat.mod_mul]
    congr 1
    · omega
    · congr 2; omega

/-- Truncation: the location is used with a smaller size. -/
theorem truncate_total {m A o size} (hg : Good [] m A) (hu : Usable [] m A o) (hn : notImm o) (hs : okSize size = true) (hle : size ≤ sizeA A o) :
    ∃ o' m' A', setSize m o size = some (o', m') ∧ notImm o' ∧
      Out [] (fun j => root o = some j) m A o' m' A' size (valA A m.bytes o % 256 ^ size) := by
  have base : ∀ o', WF A o' → root o' = root o → sizeA A o' = size → valA A m.bytes o' = valA A m.bytes o % 256 ^ size →
      Out [] (fun j => root o = some j) m A o' m A size (valA A m.bytes o % 256 ^ size) := by
    intro o' h1 h2 h3 h4
    refine ⟨hg, Frame.refl, ⟨h1, fun id hid => hu.live id (by rw [← h2]; exact hid), by simp⟩, fun id hid => .inl (by rw [← h2]; exact hid), ?_, h3, h4⟩
    intro r j hj
    by_cases h : root o = some j
    · exact .inl (by rw [h2]; exact h)
    · exact .inr ⟨hj, h⟩
  cases o with
  | imm => exact hn.elim
  | cond => exact hu.wf.elim
  | mem a sz =>
    exact ⟨.mem a size, m, A, rfl, trivial, base _ hs rfl rfl (readBytes_prefix _ _ _ _ hle)⟩
  | deref b sz =>
    exact ⟨.deref b size, m, A, rfl, trivial, base _ ⟨hs, hu.wf.2⟩ rfl rfl (readBytes_prefix _ _ _ _ hle)⟩
  | loc id =>
    rcases loc_cases hg hu with ⟨r, hl, hk⟩ | ⟨off, hl⟩
    · obtain ⟨m', h1, h2, h3, h4, h5, h6, h7⟩ := resize_loaded (size := size) hg hl rfl (ok_pow hs)
      have hat := at_reg hg hl hk
      refine ⟨_, m', _, h1, trivial, ⟨h2, h3.mono hg.inv (fun j _ h => by rw [h]; rfl), loaded_usable h2 h4 hk hs (by simp), fun j hj => .inl hj, ?_, ?_, ?_⟩⟩
      · intro r j hj
        rw [h5] at hj
        by_cases h : j = id
        · exact .inl (by rw [h]; rfl)
        · exact .inr ⟨hj, fun hc => h (Option.some.inj hc).symm⟩
      · exact upd_same _ _ _
      · show upd _ _ _ _ % 256 ^ upd _ _ _ _ = (A.value id % 256 ^ A.size id) % 256 ^ size
        have hle' : size ≤ A.size id := hle
        rw [upd_same, upd_same, Nat.mod_mod, ← hat.2.1, Nat.mod_mod, Nat.mod_mod_of_dvd _ (Nat.pow_dvd_pow 256 hle')]
    · obtain ⟨m', h1, h2, h3, h4, h5, h6, h7⟩ := resize_stack (size := size) hg hl rfl (ok_pow hs) hle
      have hslot := (hg.inv.slot id _ off hl rfl).2.2.2
      dsimp only at hslot
      refine ⟨_, m', _, h1, trivial, ⟨h2, h3.mono hg.inv (fun j _ h => by rw [h]; rfl), ⟨?_, ?_, by simp⟩, fun j hj => .inl hj, ?_, ?_, ?_⟩⟩
      · show okSize (upd _ _ _ _) = true
        rw [upd_same]; exact hs
      · intro j hj; cases hj
        exact ⟨_, h4, by simp, by simp, rfl, rfl⟩
      · intro r j hj
        rw [h5] at hj
        by_cases h : j = id
        · exact .inl (by rw [h]; rfl)
        · exact .inr ⟨hj, fun hc => h (Option.some.inj hc).symm⟩
      · exact upd_same _ _ _
      · show upd _ _ _ _ % 256 ^ upd _ _ _ _ = (A.value id % 256 ^ A.size id) % 256 ^ size
        have hle' : size ≤ A.size id := hle
        rw [upd_same, upd_same, Nat.mod_mod_of_dvd _ (Nat.pow_dvd_pow 256 hle'), ← hslot, load_prefix _ _ _ _ hle']

/-- `movsx` and `movzx`. -/
theorem integerCast_total {m A o src dst} (sgn : Bool) (hg : Good [] m A) (hu : Usable [] m A o) (hn : notImm o) (hsrc : sizeA A o = src / 8)
    (hs : okSize (dst / 8) = true) :
    ∃ id m' A' old x, integerCast m sgn src dst o = some (.loc id, m') ∧ x % 256 ^ (src / 8) = valA A m.bytes o ∧
      Out [] (fun j => root o = some j) m A (.loc id) m' A' (dst / 8) (extend sgn src dst old x % 256 ^ (dst / 8)) := by
  have hwf := hu.wf.ok
  cases o with
  | imm => exact hn.elim
  | cond => exact hu.wf.elim
  | mem a sz =>
    have hsz : sz = src / 8 := hsrc
    subst hsz
    unfold integerCast
    dsimp only
    obtain ⟨r, m1, h1, h2, h3, h4, h5, h6, h7, h8, _⟩ := alloc_total hg
    rw [h1, Option.bind_some]
    dsimp only
    obtain ⟨m', g1, g2, g3, g4, g5, g6, g7⟩ := loaded_total (extend sgn src dst (m1.s.regs r) (readBytes m1.bytes a (src / 8))) h2 h5 (ok_pow hs)
    rw [g1]
    refine ⟨A.count, m', _, m1.s.regs r, readBytes m1.bytes a (src / 8), rfl, ?_, ⟨g2, h3.trans hg.inv g3 (fun _ _ h => h.elim) (fun _ _ h => h.elim),
      loaded_usable g2 g4 h4 hs (by simp), fun id hid => by cases hid; exact .inr (Nat.le_refl _), ?_, create_value.2, ?_⟩⟩
    · rw [h3.bytes, Nat.mod_eq_of_lt (readBytes_lt ..)]; rfl
    · intro r' j hj
      rw [g5] at hj
      by_cases hr' : r' = r
      · subst hr'; rw [upd_same] at hj; exact .inl hj
      · rw [upd_other _ _ hr', h6 r' hr'] at hj; exact .inr ⟨hj, by simp [root]⟩
    · show (create _ _ _).value _ % 256 ^ (create _ _ _).size _ = _
      rw [create_value.1, create_value.2, Nat.mod_mod]
  | deref b sz =>
    have hsz : sz = src / 8 := hsrc
    subst hsz
    unfold integerCast
    dsimp only
    obtain ⟨r, m1, h1, h2, h3, h4, h5, h6, h7, h8, _⟩ := alloc_total hg
    rw [h1, Option.bind_some]
    dsimp only
    have hub : Usable [] m A b := ⟨hu.wf.2.1, hu.live, hu.unl⟩
    obtain ⟨hub1, hs1, hv1⟩ := h3.usable hub (fun _ _ h => h.elim) hub.unl
    obtain ⟨bi, m2, A2, rb, e1, D, e2, e3, e4⟩ := load_total h2 hub1
    rw [hv1, h3.bytes] at e4
    rw [hu.wf.2.2] at e2 e4
    have h64 : m2.s.regs rb % 2 ^ 64 = valA A m.bytes b := e4
    obtain ⟨t1, t2, t3, t4, t5⟩ := at_reg D.good e2 e3
    rw [e1, Option.bind_some]
    dsimp only
    rw [t1, Option.bind_some]
    generalize hv : extend sgn src dst (m2.s.regs r) (readBytes m2.bytes (m2.s.regs rb % 2 ^ 64) (src / 8)) = v
    obtain ⟨k1, k2⟩ := write_good (r := r) (v := v) D.good
    obtain ⟨m3, z1, z2, z3, z4, z5, z6, z7⟩ := free_total (m := write m2 r v) k1 e2 (by simp) rfl rfl
    rw [z1, Option.bind_some]
    have hfree : ∀ r' j, m3.s.map r' = some j → j ≠ bi ∧ m1.s.map r' = some j ∧ ¬ root b = some j := by
      intro r' j hj
      have : m2.s.map r' = some j ∧ j ≠ bi := by
        by_cases hr : rb = r'
        · subst hr; rw [z4 rb rfl] at hj; cases hj
        · rw [z5 r' (by intro h; exact hr (Place.loaded.inj h))] at hj
          refine ⟨hj, ?_⟩
          rintro rfl
          exact hr (mapped_inj D.good.inv t5 hj)
      rcases D.occ r' j this.1 with h | h
      · exact absurd h this.2
      · exact ⟨this.2, h⟩
    have hr3 : m3.s.map r = none := by
      cases hc : m3.s.map r with
      | none => rfl
      | some j => have := (hfree r j hc).2.1; rw [h5] at this; cases this
    obtain ⟨m', g1, g2, g3, g4, g5, g6, g7⟩ := loaded_total (m3.s.regs r) z2 hr3 (ok_pow hs)
    rw [wrote_count] at g1 g4 g5
    rw [g1]
    have hbR : ∀ j, j < A.count → j = bi → root b = some j := by
      intro j hj h; subst h
      rcases D.fresh with h | h
      · exact h
      · omega
    have hcc : A.count ≤ A2.count := D.frame.count
    have hval : m3.s.regs r = v := by rw [z6]; exact upd_same _ _ _
    refine ⟨A2.count, m', _, m2.s.regs r, readBytes m2.bytes (m2.s.regs rb % 2 ^ 64) (src / 8), rfl, ?_, ⟨g2, ?_,
      loaded_usable g2 g4 h4 hs (by simp), fun id hid => by cases hid; exact .inr hcc, ?_, ?_, ?_⟩⟩
    · rw [h64, D.frame.bytes, h3.bytes, Nat.mod_eq_of_lt (readBytes_lt ..)]; rfl
    · refine ((((h3.trans hg.inv D.frame (H := fun j => root b = some j) (fun _ _ h => h.elim) (fun _ _ h => h)).trans hg.inv k2 (fun _ _ h => h) ?_).trans hg.inv z3 (fun _ _ h => h) hbR).trans hg.inv g3
        (fun _ _ h => h) (fun _ _ h => h.elim))
      intro j hj h
      rcases D.occ r j h with h | h
      · exact hbR j hj h
      · rw [h5] at h; cases h.1
    · intro r' j hj
      rw [g5] at hj
      by_cases hr' : r' = r
      · subst hr'; rw [upd_same] at hj; exact .inl hj
      · rw [upd_other _ _ hr'] at hj
        obtain ⟨_, c1, c2⟩ := hfree r' j hj
        rw [h6 r' hr'] at c1
        exact .inr ⟨c1, c2⟩
    · have := (create_value (A := wrote m2 A2 r v) (size := dst / 8) (v := m3.s.regs r)).2
      rw [wrote_count] at this
      exact this
    · have h2' := (create_value (A := wrote m2 A2 r v) (size := dst / 8) (v := m3.s.regs r))
      rw [wrote_count] at h2'
      show (create _ _ _).value _ % 256 ^ (create _ _ _).size _ = _
      rw [h2'.1, h2'.2, Nat.mod_mod, hval, hv]
  | loc id =>
    have hsz : A.size id = src / 8 := hsrc
    have hself : ∀ r' j, m.s.map r' = some j → root (.loc id) = some j ∨ (m.s.map r' = some j ∧ ¬ root (.loc id) = some j) := by
      intro r' j hj
      by_cases h : j = id
      · exact .inl (by rw [h]; rfl)
      · exact .inr ⟨hj, fun hc => h (Option.some.inj hc).symm⟩
    rcases loc_cases hg hu with ⟨r, hl, hk⟩ | ⟨off, hl⟩
    · have hat := at_reg hg hl hk
      unfold integerCast
      dsimp only
      rw [hl]
      dsimp only
      rw [if_pos hk]
      generalize hv : extend sgn src dst (m.s.regs r) (m.s.regs r) = v
      obtain ⟨k1, k2⟩ := write_good (r := r) (v := v) hg
      obtain ⟨m', h1, h2, h3, h4, h5, h6, h7⟩ := resize_loaded (m := write m r v) (size := dst / 8) k1 hl rfl (ok_pow hs)
      refine ⟨id, m', _, m.s.regs r, m.s.regs r, h1, ?_, ⟨h2, ?_, loaded_usable h2 h4 hk hs (by simp), fun j hj => .inl hj, ?_, upd_same _ _ _, ?_⟩⟩
      · show _ = A.value id % 256 ^ A.size id
        rw [← hsz, hat.2.1, ← hat.2.1, Nat.mod_mod]
      · refine k2.trans hg.inv h3 ?_ ?_
        · intro j _ h; rw [hat.2.2.2.2] at h; exact h
        · intro j _ h; rw [h]; rfl
      · intro r' j hj
        rw [h5] at hj
        exact hself r' j hj
      · show upd _ _ _ _ % 256 ^ upd _ _ _ _ = _
        rw [upd_same, upd_same, Nat.mod_mod, hv]
        show upd _ _ _ _ % _ = _
        rw [upd_same]
    · have hslot := (hg.inv.slot id _ off hl rfl).2.2.2
      dsimp only at hslot
      unfold integerCast
      dsimp only
      rw [hl]
      dsimp only
      obtain ⟨r, m1, h1, h2, h3, h4, h5, h6, h7, h8, _⟩ := alloc_total hg
      rw [h1, Option.bind_some]
      dsimp only
      obtain ⟨p, hl1, hmv, _⟩ := h3.keep id _ hl (by simp) (fun h => h.elim)
      have hp1 : p = .stack off := by
        rcases hmv with h | ⟨_, _, h, _⟩
        · exact h
        · cases h
      subst hp1
      dsimp only at hl1
      have hload := (h2.inv.slot id _ off hl1 rfl).2.2.2
      dsimp only at hload
      generalize hv : extend sgn src dst (m1.s.regs r) (load m1.s.mem off (src / 8)) = v
      obtain ⟨m3, z1, z2, z3, z4, z5, z6, z7⟩ := free_total h2 hl1 (by simp) rfl rfl
      rw [z1, Option.bind_some]
      have hm3 : ∀ r', m3.s.map r' = m1.s.map r' := fun r' => z5 r' (by simp)
      obtain ⟨m', g1, g2, g3, g4, g5, g6, g7⟩ := loaded_total v z2 (by rw [hm3]; exact h5) (ok_pow hs)
      rw [g1]
      refine ⟨A.count, m', _, m1.s.regs r, load m1.s.mem off (src / 8), rfl, ?_, ⟨g2, ?_,
        loaded_usable g2 g4 h4 hs (by simp), fun id hid => by cases hid; exact .inr (Nat.le_refl _), ?_, create_value.2, ?_⟩⟩
      · show _ = A.value id % 256 ^ A.size id
        rw [← hsz, hload]
      · exact (h3.trans hg.inv z3 (fun _ _ h => h.elim) (fun j _ h => by rw [h]; rfl)).trans hg.inv g3 (fun _ _ h => h) (fun _ _ h => h.elim)
      · intro r' j hj
        rw [g5] at hj
        by_cases hr' : r' = r
        · subst hr'; rw [upd_same] at hj; exact .inl hj
        · rw [upd_other _ _ hr', hm3, h6 r' hr'] at hj
          refine .inr ⟨hj, fun hc => ?_⟩
          cases hc
          obtain ⟨_, c1, c2⟩ := hg.inv.mapped r' _ hj
          rw [hl] at c1; cases c1; cases c2
      · show (create _ _ _).value _ % 256 ^ (create _ _ _).size _ = _
        rw [create_value.1, create_value.2, Nat.mod_mod, hv]

/-- The cast to `_Bool`. -/
theorem toBool_total {m A o} (hg : Good [] m A) (hu : Usable [] m A o) :
    ∃ id m' A', castOpnd m .toBool o = some (.loc id, m') ∧
      Out [] (fun j => root o = some j) m A (.loc id) m' A' 1 (if valA A m.bytes o = 0 then 0 else 1) := by
  obtain ⟨m1, A1, h1, h2, h3⟩ := testZero_total hg hu
  have hc : condHolds m1 2 = some (! decide (valA A m.bytes o = 0)) := by
    unfold condHolds
    rw [h3]
    have : Cond.setOpcode 2 = some 0x95 := rfl
    rw [this]
    show some (!decide ((valA A m.bytes o + (2 ^ (8 * sizeA A o) - 0)) % 2 ^ (8 * sizeA A o) = 0)) = _
    have hlt := valA_lt (bytes := m.bytes) hu.wf
    rw [pow_256] at hlt
    rw [Nat.sub_zero, Nat.add_mod_right, Nat.mod_eq_of_lt hlt]
  obtain ⟨id, m2, A2, h4, D⟩ := condLoad_total (size := 1) h2.good (.inr rfl) hc
  refine ⟨id, m2, A2, ?_, ?_⟩
  · unfold castOpnd
    dsimp only
    have : (emitLoad o none m).bind (fun (n, m) => (testZero m n).bind (fun m => (emitLoad (.cond 2 1) none m).map (fun (n, m) => (Opnd.loc n, m)))) =
        ((emitLoad o none m).bind (fun (n, m) => testZero m n)).bind (fun m => (emitLoad (.cond 2 1) none m).map (fun (n, m) => (Opnd.loc n, m))) := by
      cases emitLoad o none m <;> rfl
    rw [this, h1, Option.bind_some, h4]
    rfl
  · have := h2.out hg.inv D rfl (by split <;> decide)
    by_cases hz : valA A m.bytes o = 0 <;> simpa [hz] using this

end Verif.Lemmas.ExprCode
