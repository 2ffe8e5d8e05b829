import Verif.Lemmas.ExprEval

/-!
# Assignments and jumps
-/
namespace Verif.Lemmas.ExprRun
open Verif.IntType Verif.Fold Verif.RegAlloc Verif.ExprCode Verif.Props.RegAlloc Verif.Spec.X64 Verif.Spec.ExprCode Verif.Spec.IntType
open Verif.Lemmas.ExprCode Verif.Lemmas.ExprSem
open Verif.Props.Cast (Holds)
open Verif.Props.Cond (Implements)
open Verif.Spec.RegAlloc (Values create)
open Verif.Lemmas.Call (Moved lt_count Nothing create_same)

/-! ## Loading with a free register spills nothing -/

theorem alloc_inv {m r m'} (h : allocateReg m = some (r, m')) (hf : ∃ r' ∈ volatiles .gpr, m.s.map r' = none) :
    m.s.map r = none ∧ m'.s.map = m.s.map ∧ m'.s.locs = m.s.locs ∧ m'.s.next = m.s.next := by
  obtain ⟨⟨r1, s1⟩, h1, h2⟩ := Option.map_eq_some_iff.1 h
  cases h2
  unfold allocate at h1
  dsimp only at h1
  split at h1
  · rename_i hfind
    cases h1
    have := List.find?_some hfind
    exact ⟨Option.isNone_iff_eq_none.1 this, rfl, rfl, rfl⟩
  · rename_i hfind
    exfalso
    obtain ⟨r', hr', hn⟩ := hf
    have := List.find?_eq_none.1 hfind r' (order_all hr')
    rw [hn] at this
    exact this rfl

theorem claim_inv {m r m'} (h : claim m r = some m') (hr : m.s.map r = none) : m' = m := by
  unfold claim allocateSpecific at h
  rw [hr] at h
  cases h
  rfl

theorem loaded_inv {m r size v n m'} (h : loaded m r size v = some (n, m')) :
    n = m.s.next ∧ m'.s.map = upd m.s.map r (some n) ∧ m'.s.locs n = some ⟨.loaded r, size, 0, 0⟩ := by
  obtain ⟨s, h1, h2⟩ := Option.map_eq_some_iff.1 h
  unfold newLoaded at h1
  split at h1
  · cases h1; cases h2
    exact ⟨rfl, rfl, upd_same _ _ _⟩
  · cases h1

theorem free_inv {m id m'} (h : freeLoc m id = some m') (r : Reg) (hr : ∀ l, m.s.locs id = some l → l.place ≠ .loaded r) :
    m'.s.map r = m.s.map r := by
  obtain ⟨s, h1, h2⟩ := Option.map_eq_some_iff.1 h
  cases h2
  unfold free at h1
  split at h1
  · cases h1
  · rename_i l hl
    split at h1
    · cases h1
    · rename_i r' hp
      split at h1
      · cases h1; rfl
      · cases h1
        exact upd_other _ _ (fun e => hr l hl (by rw [hp, e]))
    · split at h1 <;> cases h1 <;> rfl

/-- The register may be occupied by a location that is freed before. -/
theorem put_inv {m r size rn n k m'} {v : Machine → Nat} (hm : m.s.map rn = some n) (hr : r ≠ rn) (hn : m.s.map r = none)
    (h : (claim m r).bind (fun m => loaded m r size (v m)) = some (k, m')) :
    m'.s.map rn = some n ∧ ∀ l, m'.s.locs k = some l → l.place ≠ .loaded rn := by
  obtain ⟨m1, h1, h2⟩ := Option.bind_eq_some_iff.1 h
  have := claim_inv h1 hn
  subst this
  obtain ⟨h3, h4, h5⟩ := loaded_inv h2
  refine ⟨by rw [h4, upd_other _ _ (Ne.symm hr), hm], fun l hl => ?_⟩
  rw [h5] at hl
  cases hl
  exact fun e => hr (Place.loaded.inj e)

theorem keeps : ∀ (o : Opnd) {m A id m' rn n}, Good [] m A → Usable [] m A o → (∃ r' ∈ volatiles .gpr, m.s.map r' = none) → m.s.map rn = some n →
    root o ≠ some n → emitLoad o none m = some (id, m') → m'.s.map rn = some n ∧ ∀ l, m'.s.locs id = some l → l.place ≠ .loaded rn
  | .imm v size, m, A, id, m', rn, n, hg, hu, hf, hm, _, h => by
    rw [emitLoad, if_pos (show okSize size = true from hu.wf)] at h
    obtain ⟨⟨r, m1⟩, h1, h2⟩ := Option.bind_eq_some_iff.1 h
    obtain ⟨e1, e2, e3, e4⟩ := alloc_inv h1 hf
    have hr : r ≠ rn := by rintro rfl; rw [e1] at hm; cases hm
    dsimp only at h2
    split at h2
    · exact put_inv (by rw [e2, hm]) hr (by rw [e2, e1]) h2
    · exact put_inv (m := write m1 r _) (by show m1.s.map rn = _; rw [e2, hm]) hr (by show m1.s.map r = _; rw [e2, e1]) h2
  | .mem a size, m, A, id, m', rn, n, hg, hu, hf, hm, _, h => by
    rw [emitLoad, if_pos (show okSize size = true from hu.wf)] at h
    obtain ⟨⟨r, m1⟩, h1, h2⟩ := Option.bind_eq_some_iff.1 h
    obtain ⟨e1, e2, e3, e4⟩ := alloc_inv h1 hf
    have hr : r ≠ rn := by rintro rfl; rw [e1] at hm; cases hm
    exact put_inv (m := write m1 r _) (by show m1.s.map rn = _; rw [e2, hm]) hr (by show m1.s.map r = _; rw [e2, e1]) h2
  | .cond c size, m, A, id, m', rn, n, hg, hu, hf, hm, _, h => hu.wf.elim
  | .loc j, m, A, id, m', rn, n, hg, hu, hf, hm, hne, h => by
    have hjn : j ≠ n := fun e => hne (by rw [e]; rfl)
    rw [emitLoad] at h
    rcases loc_cases hg hu with ⟨r, hl, hk⟩ | ⟨off, hl⟩
    · rw [hl] at h
      dsimp only at h
      rw [if_pos hk] at h
      cases h
      refine ⟨hm, fun l hl' hp => hjn ?_⟩
      have := (hg.inv.loaded j l rn hl' hp).1
      rw [hm] at this
      exact (Option.some.inj this).symm
    · rw [hl] at h
      dsimp only at h
      rw [if_pos (show okSize (A.size j) = true from hu.wf)] at h
      obtain ⟨⟨r, m1⟩, h1, h2⟩ := Option.bind_eq_some_iff.1 h
      obtain ⟨e1, e2, e3, e4⟩ := alloc_inv h1 hf
      have hr : r ≠ rn := by rintro rfl; rw [e1] at hm; cases hm
      obtain ⟨m2, h3, h4⟩ := Option.bind_eq_some_iff.1 h2
      have hl1 : ∀ r' l, (write m1 r (mov (8 * A.size j) (m1.s.regs r) (load m1.s.mem off (A.size j)))).s.locs j = some l → l.place ≠ .loaded r' := by
        intro r' l hl'
        have : m1.s.locs j = some l := hl'
        rw [e3, hl] at this
        cases this
        exact fun e => by cases e
      exact put_inv (by rw [free_inv h3 rn (hl1 rn)]; show m1.s.map rn = _; rw [e2, hm]) hr
        (by rw [free_inv h3 r (hl1 r)]; show m1.s.map r = _; rw [e2, e1]) h4
  | .deref b size, m, A, id, m', rn, n, hg, hu, hf, hm, hne, h => by
    obtain ⟨hs, hwf, h8⟩ : okSize size = true ∧ WF A b ∧ sizeA A b = 8 := hu.wf
    rw [emitLoad, if_pos hs] at h
    obtain ⟨⟨r, m1⟩, h1, h2⟩ := Option.bind_eq_some_iff.1 h
    obtain ⟨e1, e2, e3, e4⟩ := alloc_inv h1 hf
    have hr : r ≠ rn := by rintro rfl; rw [e1] at hm; cases hm
    obtain ⟨⟨nb, m2⟩, h3, h4⟩ := Option.bind_eq_some_iff.1 h2
    obtain ⟨r2, m1', g1, g2, g3, -⟩ := alloc_total hg
    have h1' : allocateReg m = some (r, m1) := h1
    rw [g1] at h1'
    cases h1'
    obtain ⟨hub, hsz, -⟩ := g3.usable (L' := []) (o := b) ⟨hwf, hu.live, hu.unl⟩ (fun _ _ h => h.elim) (by simp)
    obtain ⟨f1, f2⟩ := keeps b g2 hub (by rw [e2]; exact hf) (by rw [e2, hm]) hne h3
    obtain ⟨rb, h5, h6⟩ := Option.bind_eq_some_iff.1 h4
    obtain ⟨m3, h7, h9⟩ := Option.bind_eq_some_iff.1 h6
    obtain ⟨id', m2', A2, rd, g4, D, hloc, hkd, -⟩ := load_total g2 hub
    rw [g4] at h3
    cases h3
    have hm3 : m3.s.map r = none := by
      by_cases hrd : rd = r
      · subst hrd
        obtain ⟨m3', k1, k2, k3, k4, k5, -⟩ := free_total (id := nb) (write_good (r := rd)
          (v := mov (8 * size) (m2.s.regs rd) (readBytes m2.bytes (m2.s.regs rb % 2 ^ 64) size)) D.good).1 hloc (by simp) rfl rfl
        have : freeLoc (write m2 rd (mov (8 * size) (m2.s.regs rd) (readBytes m2.bytes (m2.s.regs rb % 2 ^ 64) size))) nb = some m3 := h7
        rw [k1] at this
        cases this
        exact k4 rd rfl
      · rw [free_inv h7 r (fun l hl hp => by
          have : m2.s.locs nb = some l := hl
          rw [hloc] at this
          cases this
          exact hrd (Place.loaded.inj hp))]
        show m2.s.map r = none
        cases hmr : m2.s.map r with
        | none => rfl
        | some j =>
          rcases D.occ r j hmr with e | e
          · subst e
            exact absurd (mapped_inj D.good.inv (D.good.inv.loaded j _ rd hloc rfl).1 hmr) hrd
          · rw [e2, e1] at e; cases e.1
    exact put_inv (by rw [free_inv h7 rn f2]; exact f1) hr hm3 h9

/-! ## The address of a destination -/

def Addr (m : Machine) (A : Values) (l : Opnd) (t : Ty) (a : Nat) : Prop :=
  l = .mem a (t.bits / 8) ∨ ∃ b x, l = .deref b (t.bits / 8) ∧ Val m A b .u64 x ∧ x.toNat = a

theorem u64_value {m A b x} (h : Val m A b .u64 x) : valA A m.bytes b = x.toNat := by
  have hlt := h.lt
  obtain ⟨_, h1, h2⟩ := h.holds
  simp only [Ty.bits, InRange, minVal, maxVal, Nat.reducePow, Int.reducePow] at *
  omega

theorem Frame.addr {F m A m' A' l t a} (h : Frame F m A m' A') (hl : Addr m A l t a) (hF : ∀ id, root l = some id → ¬ F id) : Addr m' A' l t a := by
  rcases hl with hl | ⟨b, x, rfl, hv, hx⟩
  · exact .inl hl
  · exact .inr ⟨b, x, rfl, Frame.value h hv hF, hx⟩

theorem dest_total {m A l t a} (hg : Good [] m A) (hl : Addr m A l t a) :
    ∃ b m' A', destOf m l = some (a, b, m') ∧ Good [] m' A' ∧ Frame (fun j => root l = some j) m A m' A' ∧
      (∀ id, root b = some id → Live m' id ∧ (root l = some id ∨ A.count ≤ id)) ∧
      (∀ r j, m'.s.map r = some j → root b = some j ∨ (m.s.map r = some j ∧ root l ≠ some j)) ∧
      (∀ rn n, m.s.map rn = some n → root l ≠ some n → (∃ r' ∈ volatiles .gpr, m.s.map r' = none) → m'.s.map rn = some n) := by
  rcases hl with rfl | ⟨b, x, rfl, hv, hx⟩
  · exact ⟨_, m, A, rfl, hg, Frame.refl, by simp [root], fun r j h => .inr ⟨h, by simp [root]⟩, fun _ _ h _ _ => h⟩
  · obtain ⟨id, m', A', r, h1, h2, h3, h4, h5⟩ := load_total hg hv.usable
    have h64 : sizeA A b = 8 := hv.size
    have hreg := at_reg h2.good h3 h4
    refine ⟨.loc id, m', A', ?_, h2.good, h2.frame, ?_, ?_, ?_⟩
    · rw [destOf, h1, Option.bind_some]
      dsimp only
      rw [hreg.1, Option.map_some]
      have : m'.s.regs r % 2 ^ 64 = a := by
        rw [h64] at h5
        have h5' : m'.s.regs r % 2 ^ 64 = valA A m.bytes b := h5
        rw [h5', u64_value hv, hx]
      rw [this]
    · intro j hj
      cases hj
      exact ⟨⟨_, h3, by simp, fun r' e => by cases e; exact h4, rfl, rfl⟩, h2.fresh⟩
    · intro r' j hj
      rcases h2.occ r' j hj with e | e
      · exact .inl (by rw [e]; rfl)
      · exact .inr e
    · intro rn n hm hne hf
      exact (keeps b hg hv.usable hf hm hne h1).1

/-- Two locations leave a register. -/
theorem free_register {m A} {p q : Nat → Prop} (hg : Good [] m A) (hp : ∀ i j, p i → p j → i = j) (hq : ∀ i j, q i → q j → i = j)
    (h : ∀ r j, m.s.map r = some j → p j ∨ q j) : ∃ r' ∈ volatiles .gpr, m.s.map r' = none := by
  cases h1 : m.s.map ⟨.gpr, 1⟩ with
  | none => exact ⟨_, by simp [volatiles], h1⟩
  | some i =>
    cases h2 : m.s.map ⟨.gpr, 2⟩ with
    | none => exact ⟨_, by simp [volatiles], h2⟩
    | some j =>
      cases h3 : m.s.map ⟨.gpr, 8⟩ with
      | none => exact ⟨_, by simp [volatiles], h3⟩
      | some k =>
        exfalso
        have hij : i ≠ j := fun e => by subst e; have := mapped_inj hg.inv h1 h2; cases this
        have hik : i ≠ k := fun e => by subst e; have := mapped_inj hg.inv h1 h3; cases this
        have hjk : j ≠ k := fun e => by subst e; have := mapped_inj hg.inv h2 h3; cases this
        rcases h _ _ h1 with a | a <;> rcases h _ _ h2 with b | b <;> rcases h _ _ h3 with c | c
        · exact hij (hp _ _ a b)
        · exact hij (hp _ _ a b)
        · exact hik (hp _ _ a c)
        · exact hjk (hq _ _ b c)
        · exact hjk (hp _ _ b c)
        · exact hik (hq _ _ a c)
        · exact hij (hq _ _ a b)
        · exact hij (hq _ _ a b)

/-- The destination is loaded while a register holds the right side. -/
theorem store_dest {m A l t a n rn size} (hg : Good [] m A) (hl : Addr m A l t a) (hn : m.s.locs n = some ⟨.loaded rn, size, 0, 0⟩) (hk : rn.kind = .gpr)
    (hne : root l ≠ some n) (hocc : ∀ r j, m.s.map r = some j → j = n ∨ root l = some j) :
    ∃ b m' A', destOf m l = some (a, b, m') ∧ m'.s.regs rn % 256 ^ size = A.value n ∧ m'.bytes = m.bytes ∧ Good [] m' A' ∧
      m'.s.locs n = some ⟨.loaded rn, size, 0, 0⟩ ∧ root b ≠ some n ∧ (∀ id, root b = some id → Live m' id) ∧
      ∀ r j, m'.s.map r = some j → j = n ∨ root b = some j := by
  obtain ⟨b, m', A', h1, h2, h3, h4, h5, h6⟩ := dest_total hg hl
  have hf := free_register hg (p := (· = n)) (q := fun j => root l = some j) (fun i j h h' => by rw [h, h'])
    (fun i j h h' => by rw [h] at h'; exact Option.some.inj h') hocc
  have hm := (at_reg hg hn hk).2.2.2.2
  have hm' := h6 rn n hm hne hf
  obtain ⟨l', e1, e2⟩ := h2.inv.mapped rn n hm'
  obtain ⟨p, e3, e4, _⟩ := h3.keep n _ hn (by simp) hne
  rw [e3] at e1
  cases e1
  have e2' : p = .loaded rn := e2
  subst e2'
  have hv := h3.val n _ hn (by simp) hne
  refine ⟨b, m', A', h1, ?_, h3.bytes, h2, e3, ?_, fun id h => (h4 id h).1, ?_⟩
  · rw [(at_reg h2 e3 hk).2.1, hv.2]
  · intro hb
    rcases (h4 n hb).2 with e | e
    · exact hne e
    · have := mapped_lt hg.inv hm; omega
  · intro r j hj
    rcases h5 r j hj with e | ⟨e, e'⟩
    · exact .inr e
    · rcases hocc r j e with h | h
      · exact .inl h
      · exact absurd h e'

theorem good_bytes {L m A} (f : Nat → Nat) (hg : Good L m A) : Good L { m with bytes := f } A := ⟨hg.inv, hg.pow, hg.unl, hg.short, hg.known⟩

theorem write_mod {bytes a n v w} (h : v % 256 ^ n = w % 256 ^ n) : writeBytes bytes a n v = writeBytes bytes a n w := by
  funext b
  unfold writeBytes
  by_cases hb : a ≤ b ∧ b < a + n
  · rw [if_pos hb, if_pos hb]
    have key : ∀ u : Nat, u / 256 ^ (b - a) % 256 = u % 256 ^ n / 256 ^ (b - a) % 256 := by
      intro u
      have hn : n = (b - a) + (n - (b - a) - 1 + 1) := by omega
      have e : 256 ^ n = 256 ^ (b - a) * 256 ^ (n - (b - a) - 1 + 1) := by rw [← Nat.pow_add, ← hn]
      rw [e, Nat.mod_mul_right_div_self, Nat.mod_mod_of_dvd]
      exact ⟨256 ^ (n - (b - a) - 1), by rw [Nat.pow_succ, Nat.mul_comm]⟩
    rw [key v, key w, h]
  · rw [if_neg hb, if_neg hb]

theorem holds_pattern {t : Ty} {x : Nat} {w : Int} (h : Holds t x w) : x % 2 ^ t.bits = pattern t.bits w % 2 ^ t.bits := by
  have := pattern_eq h.2.2
  unfold pattern
  rw [this, Nat.mod_mod]

theorem store_bytes {t : Ty} {x a : Nat} {w : Int} {bytes} (h : Holds t x w) :
    writeBytes bytes a (t.bits / 8) x = writeBytes bytes a (t.bits / 8) (pattern t.bits w) := by
  refine write_mod ?_
  rw [size_pow h.1]
  exact holds_pattern h

/-- `IR_store`, when nothing but the two operands is in registers. -/
theorem store_total {m A l r t a w} (hg : Good [] m A) (hl : Addr m A l t a) (hr : Val m A r t w) (hd : ∀ id, root l = some id → root r ≠ some id)
    (hocc : ∀ i j, m.s.map i = some j → root l = some j ∨ root r = some j) :
    ∃ o m' A', storeOp m l r = some (o, m') ∧ Good [] m' A' ∧ m'.bytes = writeBytes m.bytes a (t.bits / 8) (pattern t.bits w) ∧
      (∀ id, root o = some id → Live m' id) ∧ ∀ i j, m'.s.map i = some j → root o = some j := by
  have hls : opSize m l = some (t.bits / 8) := by
    rcases hl with rfl | ⟨b, x, rfl, _⟩ <;> rfl
  have hsz := hr.size
  -- the right side is loaded
  have load : ∃ n m1 rn b m2 A2, emitLoad r none m = some (n, m1) ∧ opSize m1 (.loc n) = some (t.bits / 8) ∧ regOf m1 n = some rn ∧ destOf m1 l = some (a, b, m2) ∧
      m2.s.locs n = some ⟨.loaded rn, t.bits / 8, 0, 0⟩ ∧ rn.kind = .gpr ∧
      Good [] m2 A2 ∧ writeBytes m2.bytes a (t.bits / 8) (m2.s.regs rn) = writeBytes m.bytes a (t.bits / 8) (pattern t.bits w) ∧ Live m2 n ∧ root b ≠ some n ∧
      (∀ id, root b = some id → Live m2 id) ∧ ∀ r j, m2.s.map r = some j → j = n ∨ root b = some j := by
    obtain ⟨n, m1, A1, rn, h1, h2, h3, h4, h5⟩ := load_total hg hr.usable
    have hl1 := Frame.addr h2.frame hl (fun id h h' => hd id h h')
    have hne : root l ≠ some n := by
      intro h
      rcases h2.fresh with e | e
      · exact hd n h e
      · rcases hl with rfl | ⟨b, x, rfl, hv, _⟩
        · cases h
        · have := Live.lt hg.inv (hv.usable.live n h); omega
    have hreg := at_reg h2.good h3 h4
    obtain ⟨b, m2, A2, e1, e2, e3, e4, e5, e6, e7, e8⟩ := store_dest h2.good hl1 h3 h4 hne (fun i j hj => by
      rcases h2.occ i j hj with e | ⟨e, e'⟩
      · exact .inl e
      · rcases hocc i j e with h | h
        · exact .inr h
        · exact absurd h e')
    rw [hsz] at e2 e5 hreg
    refine ⟨n, m1, rn, b, m2, A2, h1, hreg.2.2.2.1, hreg.1, e1, e5, h4, e4, ?_, ⟨_, e5, by simp, fun r' e => by cases e; exact h4, rfl, rfl⟩, e6, e7, e8⟩
    rw [e3, h2.frame.bytes]
    refine store_bytes (holds_congr hr.holds ?_)
    rw [size_pow hr.int, h2.value] at e2
    rw [e2, Nat.mod_eq_of_lt hr.lt]
  have finish : (∀ v sz, r ≠ .imm v sz) → ∃ o m' A', storeOp m l r = some (o, m') ∧ Good [] m' A' ∧ m'.bytes = writeBytes m.bytes a (t.bits / 8) (pattern t.bits w) ∧
      (∀ id, root o = some id → Live m' id) ∧ ∀ i j, m'.s.map i = some j → root o = some j := fun hni => by
    obtain ⟨n, m1, rn, b, m2, A2, e1, e2, e3, e4, e5, e5k, e6, e7, e8, e9, e10, e11⟩ := load
    obtain ⟨m3, f1, f2, f3, f4, f5, f6⟩ := release_total b (good_bytes (writeBytes m2.bytes a (t.bits / 8) (m2.s.regs rn)) e6) e10
    have : storeOp m l r = some (.loc n, m3) := by
      unfold storeOp
      rw [hls, Option.bind_some]
      have : ∀ (r' : Opnd) (_ : ∀ v sz, r' ≠ .imm v sz), emitLoad r' none m = some (n, m1) →
        (match r' with
        | .imm v sz =>
          if sz ≤ t.bits / 8 then
            if sz = 8 then
              (emitLoad (.imm v sz) none m).bind (fun (n, m) => (regOf m n).bind (fun r => (destOf m l).bind (fun (a, b, m) =>
                (freeLoc { m with bytes := writeBytes m.bytes a (t.bits / 8) (m.s.regs r) } n).bind (fun m =>
                  (release m b).map (fun m => (Opnd.imm v sz, m))))))
            else (destOf m l).bind (fun (a, b, m) =>
              (release { m with bytes := writeBytes m.bytes a (t.bits / 8) v } b).map (fun m => (.imm v (t.bits / 8), m)))
          else none
        | rhs =>
          (emitLoad rhs none m).bind (fun (n, m) => (opSize m (.loc n)).bind (fun sz => (regOf m n).bind (fun r =>
            if sz ≤ t.bits / 8 then
              (destOf m l).bind (fun (a, b, m) =>
                (release { m with bytes := writeBytes m.bytes a (t.bits / 8) (m.s.regs r) } b).map (fun m => (.loc n, m)))
            else none)))) = some (.loc n, m3) := by
        intro r' hni' hload
        split
        · exact absurd rfl (hni' _ _)
        · rw [hload, Option.bind_some]
          dsimp only
          rw [e2, Option.bind_some, e3, Option.bind_some, if_pos (Nat.le_refl _), e4, Option.bind_some]
          dsimp only
          rw [f1]
          rfl
      exact this r hni e1
    refine ⟨.loc n, m3, A2, this, f2, by rw [f3.bytes]; exact e7, ?_, ?_⟩
    · intro id hid
      cases hid
      exact f3.live (m := { m2 with bytes := _ }) e8 e9
    · intro i j hj
      obtain ⟨g1, g2⟩ := f4 i j hj
      rcases e11 i j g1 with e | e
      · rw [e]; rfl
      · exact absurd e g2
  cases r with
  | mem a' sz => exact finish (by simp)
  | loc j => exact finish (by simp)
  | deref b sz => exact finish (by simp)
  | cond c sz => exact hr.usable.wf.elim
  | imm v sz =>
    have hsz' : sz = t.bits / 8 := hsz
    subst hsz'
    unfold storeOp
    rw [hls, Option.bind_some]
    dsimp only
    rw [if_pos (Nat.le_refl _)]
    by_cases h8 : t.bits / 8 = 8
    · rw [if_pos h8]
      obtain ⟨n, m1, rn, b, m2, A2, e1, e2, e3, e4, e5, e5k, e6, e7, e8, e9, e10, e11⟩ := load
      rw [e1, Option.bind_some]
      dsimp only
      rw [e3, Option.bind_some, e4, Option.bind_some]
      dsimp only
      have hg2 := good_bytes (writeBytes m2.bytes a (t.bits / 8) (m2.s.regs rn)) e6
      obtain ⟨m3, f1, f2, f3, f4, f5, f6⟩ := free_total (id := n) hg2 e5 (by simp) rfl rfl
      rw [f1, Option.bind_some]
      obtain ⟨m4, g1, g2, g3, g4, g5, g6⟩ := release_total b f2 (fun id hid => f3.live (m := { m2 with bytes := _ }) (e10 id hid) (fun e => e9 (by rw [hid, e])))
      rw [g1]
      refine ⟨_, m4, A2, rfl, g2, by rw [g3.bytes, f3.bytes]; exact e7, by simp [root], ?_⟩
      intro i j hj
      exfalso
      obtain ⟨k1, k2⟩ := g4 i j hj
      by_cases hi : rn = i
      · subst hi; rw [f4 rn rfl] at k1; cases k1
      · rw [f5 i (fun e => hi (Place.loaded.inj e))] at k1
        rcases e11 i j k1 with e | e
        · subst e
          exact hi (mapped_inj e6.inv (e6.inv.loaded j _ rn e5 rfl).1 k1)
        · exact k2 e
    · rw [if_neg h8]
      obtain ⟨b, m', A', h1, h2, h3, h4, h5, h6⟩ := dest_total hg hl
      rw [h1, Option.bind_some]
      dsimp only
      obtain ⟨m3, f1, f2, f3, f4, f5, f6⟩ := release_total b (good_bytes (writeBytes m'.bytes a (t.bits / 8) v) h2) (fun id hid => (h4 id hid).1)
      rw [f1]
      refine ⟨_, m3, A', rfl, f2, ?_, by simp [root], ?_⟩
      · rw [f3.bytes]
        show writeBytes m'.bytes a (t.bits / 8) v = _
        rw [h3.bytes]
        refine store_bytes ?_
        have := hr.holds
        refine holds_congr this ?_
        show v % 2 ^ t.bits = v % 256 ^ (t.bits / 8) % 2 ^ t.bits
        rw [size_pow hr.int, Nat.mod_mod]
      · intro i j hj
        exfalso
        obtain ⟨k1, k2⟩ := f4 i j hj
        rcases h5 i j k1 with e | ⟨e, e'⟩
        · exact k2 e
        · rcases hocc i j e with h | h
          · exact e' h
          · cases h

/-! ## Statements -/

def Idle (m : Machine) : Prop := ∀ r, m.s.map r = none

theorem designates_push {bytes lv t a c} (hd : Designates bytes lv t a)
    (hc : lowerLValue lv = some c) :
    c.1 = t ∧ Plain c.2 ∧ ∀ rest m A stack taken, Good [] m A → m.bytes = bytes → stack.length + needLValue lv ≤ 256 →
      ∃ o m' A', run (c.2 ++ rest) ⟨m, stack, taken⟩ = run rest ⟨m', o :: stack, taken⟩ ∧ Good [] m' A' ∧ Frame Nothing m A m' A' ∧ Addr m' A' o t a ∧
        (∀ id, root o = some id → A.count ≤ id) ∧ ∀ r j, m'.s.map r = some j → root o = some j ∨ m.s.map r = some j := by
  cases hd with
  | var ht =>
    cases hc
    refine ⟨rfl, plain_cons rfl, fun rest m A stack taken hg hb hs => ?_⟩
    refine ⟨.mem a (t.bits / 8), m, A, ?_, hg, Frame.refl, .inl rfl, by simp [root], fun _ _ h => .inr h⟩
    show (push _ _).bind _ = _
    unfold push
    dsimp only
    rw [if_pos (by simp only [needLValue] at hs; omega)]
    rfl
  | deref ht he ha =>
    rename_i e s p x
    obtain ⟨low, h1, h2⟩ := Option.map_eq_some_iff.1 hc
    subst h2
    have hok := lower_ok he h1
    cases low with
    | lit l =>
      refine ⟨rfl, plain_cons rfl, fun rest m A stack taken hg hb hs => ?_⟩
      refine ⟨.deref (.imm x.toNat 8) (t.bits / 8), m, A, ?_, hg, Frame.refl,
        .inr ⟨_, x, rfl, ⟨⟨(rfl : okSize 8 = true), by simp [root], by simp⟩, rfl, trivial, converts_in ha, ?_⟩, rfl⟩, by simp [root], fun _ _ h => .inr h⟩
      · show (push _ _).bind _ = _
        unfold push
        dsimp only
        have := need_pos e
        rw [if_pos (by simp only [needLValue] at hs; omega), literal_pointer hok ha]
        rfl
      · have hr := converts_in ha
        simp only [Ty.bits, InRange, minVal, maxVal, valA, Nat.reducePow, Int.reducePow] at *
        omega
    | code s' c =>
      obtain ⟨rfl, hok⟩ := hok
      have hp := (cast_code hok (t := .u64) trivial ha).pushes
      refine ⟨rfl, hp.1.append, fun rest m A stack taken hg hb hs => ?_⟩
      obtain ⟨o, m', A', h1, h2, h3⟩ := hp.2 (.deref (t.bits / 8) :: rest) m A stack taken hg hb hs (plain_cons rfl)
      refine ⟨.deref o (t.bits / 8), m', A', ?_, h2.good, h2.frame, .inr ⟨o, x, rfl, h2.val, rfl⟩, h2.fresh, h2.occ⟩
      show run ((c ++ castIr false s' .u64 ++ [Ir.deref (t.bits / 8)]) ++ rest) _ = _
      rw [List.append_assoc, List.singleton_append, h1]; rfl

theorem castLow_pushes {bytes low s t v w n} (h : LowOK bytes low s v n) (hn : 1 ≤ n) (ht : isInteger t) (hw : Converts t v w) :
    ∃ imm, Pushes bytes (castLow t low).irs t w n imm := by
  cases low with
  | lit l => exact ⟨true, lit_pushes (cast_lit ht h hw) hn⟩
  | code s' c =>
    obtain ⟨rfl, h⟩ := h
    exact ⟨false, (cast_code h ht hw).pushes⟩

theorem Designates.int {bytes lv t a} (h : Designates bytes lv t a) : isInteger t := by cases h <;> assumption

theorem stmt_ok {bytes bytes' s c rest m A taken} (h : Assigned bytes s bytes') (hc : lowerStmt s = some c) (hn : needStmt s ≤ 256)
    (hg : Good [] m A) (hi : Idle m) (hb : m.bytes = bytes) :
    ∃ m' A', run (c ++ rest) ⟨m, [], taken⟩ = run rest ⟨m', [], taken⟩ ∧ Good [] m' A' ∧ Idle m' ∧ m'.bytes = bytes' := by
  obtain ⟨t, a, u, v, w, h1, h2, h3, rfl⟩ := h
  obtain ⟨⟨t', cl⟩, h4, h5⟩ := Option.bind_eq_some_iff.1 hc
  obtain ⟨low, h6, h7⟩ := Option.map_eq_some_iff.1 h5
  subst h7
  obtain ⟨e1, e2, e3⟩ := designates_push h1 h4
  dsimp only at e1 e2 e3
  subst e1
  have hn' : max (needLValue s.lv) (need s.e + 1) ≤ 256 := hn
  obtain ⟨imm, hp⟩ := castLow_pushes (lower_ok h2 h6) (need_pos s.e) (Designates.int h1) h3
  obtain ⟨l, m1, A1, f1, f2, f3, f4, f5, f6⟩ := e3 ((castLow t' low).irs ++ ([.store, .pop] ++ rest)) m A [] taken hg hb (by simp only [List.length_nil]; omega)
  obtain ⟨r, m2, A2, g1, g2, g3⟩ := hp.2 ([.store, .pop] ++ rest) m1 A1 [l] taken f2 (by rw [f3.bytes, hb]) (by simp only [List.length_cons, List.length_nil]; omega)
    (plain_cons rfl)
  have hl := Frame.addr g2.frame f4 (fun _ _ h => h)
  have hll : ∀ id, root l = some id → id < A1.count := by
    intro id hid
    rcases f4 with rfl | ⟨b, x, rfl, hv, _⟩
    · cases hid
    · exact Live.lt f2.inv (hv.usable.live id hid)
  obtain ⟨o, m3, A3, k1, k2, k3, k4, k5⟩ := store_total g2.good hl g2.val (fun id hl hr => by have := hll id hl; have := g2.fresh id hr; omega)
    (fun i j hj => by
      rcases g2.occ i j hj with e | e
      · exact .inr e
      · rcases f6 i j e with e | e
        · exact .inl e
        · rw [hi i] at e; cases e)
  obtain ⟨m4, p1, p2, p3, p4, p5, p6⟩ := release_total o k2 k4
  refine ⟨m4, A3, ?_, p2, ?_, ?_⟩
  · rw [List.append_assoc, List.append_assoc, f1, g1]
    show ((storeOp m2 l r).map _).bind _ = _
    rw [k1]
    show ((release m3 o).map _).bind _ = _
    rw [p1]
    rfl
  · intro i
    cases hj : m4.s.map i with
    | none => rfl
    | some j =>
      obtain ⟨q1, q2⟩ := p4 i j hj
      exact absurd (k5 i j q1) q2
  · rw [p3.bytes, k3, g2.frame.bytes, f3.bytes, hb]

theorem stmts_ok {bytes ss bytes'} (h : Exec bytes ss bytes') : ∀ {c m A taken}, lowerStmts ss = some c → (∀ s ∈ ss, needStmt s ≤ 256) →
    Good [] m A → Idle m → m.bytes = bytes →
    ∃ m' A', run c ⟨m, [], taken⟩ = some ⟨m', [], taken⟩ ∧ Good [] m' A' ∧ Idle m' ∧ m'.bytes = bytes' := by
  induction h with
  | nil =>
    intro c m A taken hc _ hg hi hb
    cases hc
    exact ⟨m, A, rfl, hg, hi, hb⟩
  | cons h _ ih =>
    intro c m A taken hc hn hg hi hb
    obtain ⟨c1, h1, h2⟩ := Option.bind_eq_some_iff.1 hc
    obtain ⟨c2, h3, h4⟩ := Option.map_eq_some_iff.1 h2
    subst h4
    obtain ⟨m1, A1, e1, e2, e3, e4⟩ := stmt_ok (rest := c2) (taken := taken) h h1 (hn _ (by simp)) hg hi hb
    obtain ⟨m2, A2, f1, f2, f3, f4⟩ := ih (taken := taken) h3 (fun s hs => hn s (by simp [hs])) e2 e3 e4
    exact ⟨m2, A2, by rw [e1, f1], f2, f3, f4⟩

/-! ## Jumps -/

theorem idle_spill {s : State} : ∀ (rs : List Reg), (∀ r, s.map r = none) → spillList s rs = some s
  | [], _ => rfl
  | r :: rs, h => by
    rw [spillList]
    unfold allocateSpecific
    rw [h r]
    exact idle_spill rs h

theorem jump_ok {bytes e t v low m A taken} (onTrue : Bool) (lab : Nat) (h : Eval bytes e t v) (hl : lower e = some low) (hn : need e ≤ 256)
    (hg : Good [] m A) (hi : Idle m) (hb : m.bytes = bytes) :
    ∃ m' A', run (low.irs ++ [.jumpIf onTrue lab]) ⟨m, [], taken⟩ = some ⟨m', [], some (if v ≠ 0 then onTrue else !onTrue)⟩ ∧ Good [] m' A' ∧ Idle m' ∧
      m'.bytes = bytes := by
  have hok := lower_ok h hl
  -- the operand
  have key : ∃ o m1 A1, run (low.irs ++ [.jumpIf onTrue lab]) ⟨m, [], taken⟩ = run [.jumpIf onTrue lab] ⟨m1, [o], taken⟩ ∧
      (Top m A o m1 A1 t v ∨ Cnd m A o m1 A1 t v) := by
    cases low with
    | lit l =>
      refine ⟨.imm (litBytes l) (t.bits / 8), m, A, ?_, .inl (top_refl hg ⟨⟨size_ok hok.int, by simp [root], by simp⟩, rfl, ?_⟩ rfl)⟩
      · show (emit _ _ _).bind _ = _
        rw [emit, emitWith, push]
        rw [if_pos (by simp)]
        rw [hok.ty]
        rfl
      · show Holds t (litBytes l % 256 ^ (t.bits / 8)) v
        rw [size_pow hok.int]
        exact lit_holds hok
    | code s c =>
      obtain ⟨rfl, hok⟩ := hok
      obtain ⟨o, m1, A1, h1, h2⟩ := hok.2 [.jumpIf onTrue lab] m A [] taken hg hb (by simpa using hn)
      refine ⟨o, m1, A1, h1, ?_⟩
      rcases h2 with h2 | h2
      · exact .inl h2.1
      · exact .inr h2.2
  obtain ⟨o, m1, A1, h1, h2⟩ := key
  have key2 : ∃ cc m2 A2 b, condOf m1 o = some (cc, m2) ∧ Gone [] Nothing m A m2 A2 ∧ Implements cc m2.flags b ∧ (v = 0 ↔ b = false) := by
    rcases h2 with h2 | h2
    · obtain ⟨m2, A2, e1, e2, e3⟩ := condOf_total h2.good h2.val.usable
      rw [h2.val.size, bits_size h2.val.int] at e3
      refine ⟨2, m2, A2, decide (valA A1 m1.bytes o ≠ 0), e1, ⟨e2.good, ?_, ?_⟩, by rw [e3]; exact sem_test h2.val.lt, ?_⟩
      · exact h2.frame.trans hg.inv e2.frame (fun _ _ h => h) (fun j hj hr => by have := h2.fresh j hr; omega)
      · intro r j hj
        obtain ⟨e4, e5⟩ := e2.occ r j hj
        rcases h2.occ r j e4 with e | e
        · exact absurd e e5
        · exact ⟨e, id⟩
      · rw [← zero_iff h2.val.lt h2.val.holds]; simp
    · obtain ⟨cc, cc', b, e1, e2, e3, e4⟩ := h2.cond
      subst e1
      exact ⟨cc, m1, A1, b, rfl, h2.gone, e3, by rw [e4]; cases b <;> simp⟩
  obtain ⟨cc, m2, A2, b, e1, e2, e3, e4⟩ := key2
  have hidle : Idle m2 := by
    intro r
    cases hj : m2.s.map r with
    | none => rfl
    | some j => have := (e2.occ r j hj).1; rw [hi r] at this; cases this
  refine ⟨m2, A2, ?_, e2.good, hidle, by rw [e2.frame.bytes, hb]⟩
  rw [h1]
  show ((condOf m1 o).bind _).bind _ = _
  rw [e1, Option.bind_some]
  dsimp only
  rw [show spillAll m2.s = some m2.s from idle_spill _ hidle, Option.bind_some]
  obtain ⟨⟨o1, a1, b1, c1⟩, ⟨o2, a2, b2, c2⟩, ⟨o3, a3, b3, c3⟩⟩ := e3
  cases onTrue
  · rw [a3]
    show some _ = some _
    dsimp only
    rw [c3]
    cases b <;> simp_all
  · rw [a2]
    show some _ = some _
    dsimp only
    rw [c2]
    cases b <;> simp_all

/-! ## Returning -/

theorem ret_ok {bytes e u v t w c m A taken} (h : Eval bytes e u v) (hc : lowerReturn t e = some c) (ht : isInteger t) (hw : Converts t v w)
    (hn : need e ≤ 256) (hg : Good [] m A) (hi : Idle m) (hb : m.bytes = bytes) :
    ∃ m' A', run c ⟨m, [], taken⟩ = some ⟨m', [], taken⟩ ∧ Good [] m' A' ∧ Idle m' ∧ m'.bytes = bytes ∧ Holds t (m'.s.regs rax) w := by
  obtain ⟨low, hl, rfl⟩ := Option.map_eq_some_iff.1 hc
  obtain ⟨imm, hp⟩ := castLow_pushes (lower_ok h hl) (need_pos e) ht hw
  obtain ⟨o, m1, A1, h1, h2, _⟩ := hp.2 [.ret] m A [] taken hg hb (by simpa using hn) (plain_cons rfl)
  obtain ⟨id, m2, A2, h3, h4⟩ := emitLoad_total o (some rax) h2.good h2.val.usable (by simp) (by intro r h; cases h; rfl)
  obtain ⟨r, h5, h6, h7⟩ := h4.reg
  cases h7 rax rfl
  obtain ⟨m3, k1, k2, k3, k4, k5, k6⟩ := release_total (.loc id) h4.good (by
    intro j hj
    cases hj
    exact ⟨_, h5, by simp, by (intro r h; cases h; rfl), rfl, rfl⟩)
  have hidle : Idle m3 := by
    intro i
    cases hj : m3.s.map i with
    | none => rfl
    | some j =>
      obtain ⟨q1, q2⟩ := k4 i j hj
      rcases h4.occ i j q1 with e | ⟨e1, e2⟩
      · subst e; exact absurd rfl q2
      · rcases h2.occ i j e1 with e | e
        · exact absurd e e2
        · rw [hi i] at e; cases e
  refine ⟨m3, A2, ?_, k2, hidle, by rw [k3.bytes, h4.frame.bytes, h2.frame.bytes, hb], ?_⟩
  · rw [h1]
    show ((emitLoad o (some rax) m1).bind _).bind _ = _
    rw [h3, Option.bind_some]
    show ((freeLoc m2 id).map _).bind _ = _
    rw [show freeLoc m2 id = some m3 from k1]
    rfl
  · have hv := (h4.good.inv.loaded id _ rax h5 rfl).2
    rw [k5]
    refine holds_congr h2.val.holds ?_
    rw [h4.value, h2.val.size, size_pow ht] at hv
    rw [hv, Nat.mod_eq_of_lt h2.val.lt]

end Verif.Lemmas.ExprRun
