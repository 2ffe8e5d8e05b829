import Verif.Lemmas.Call

/-!
# Lemmas: the arguments of a call
-/

namespace Verif.Lemmas.Call

open Verif.RegAlloc Verif.Call Verif.Props.RegAlloc
open Verif.Spec.RegAlloc (Values create)

/-- `w` is, in its low `n` bytes, what is passed for the argument `a` with the value `v`: the value, or the address of a copy. -/
def Rep (env : Env) (n0 : Nat) (s : State) (A : Values) (a : Arg) (v w n : Nat) : Prop :=
  if big a.size = true then
    n = 8 ∧ ∃ cid o, n0 ≤ cid ∧ s.locs cid = some ⟨.stack o, a.size, 0, 0⟩ ∧ A.value cid = v % 256 ^ a.size ∧ w % 256 ^ 8 = (env.rbp - o) % 256 ^ 8
  else a.size ≤ n ∧ n ≤ 8 ∧ w % 256 ^ a.size = v % 256 ^ a.size

/-- The argument is in its register, locked. -/
def InReg (env : Env) (n0 : Nat) (s : State) (A : Values) (k : Kind) (adj : Nat) (a : Arg) (v id : Nat) : Prop :=
  (id < n0 → srcIds a.src id) ∧ ∃ n, s.locs id = some ⟨.loaded (argReg k adj), n, 1, 0⟩ ∧ Rep env n0 s A a v (A.value id) n

/-- The argument is on the stack. -/
def InMem (env : Env) (n0 : Nat) (c : CallState) (A : Values) (adj : Nat) (a : Arg) (v : Nat) : Prop :=
  ∃ w n, Bytes c.out (8 * (adj : Nat)) n w ∧ Rep env n0 c.s A a v w n

/-- What holds for the argument with the given index after it was passed. -/
def Passed (env : Env) (n0 ret params : Nat) (c : CallState) (A : Values) (i : Nat) (a : Arg) (v : Nat) (id : Option Nat) : Prop :=
  if 4 ≤ ret + i then id = none ∧ InMem env n0 c A (ret + i) a v
  else ∃ j, id = some j ∧ InReg env n0 c.s A (expectedKind params i a) (ret + i) a v j

theorem Rep.ext {env n0 F s A s' A' a v w n} (h : Inv s A) (e : Ext F s A s' A') (hF : ∀ id, n0 ≤ id → ¬ F id) (hr : Rep env n0 s A a v w n) :
    Rep env n0 s' A' a v w n := by
  unfold Rep at hr ⊢
  split
  · rename_i hb
    rw [if_pos hb] at hr
    obtain ⟨h1, cid, o, h2, h3, h4, h5⟩ := hr
    obtain ⟨p, h6, h7⟩ := e.alive cid _ h3 (by intro hc; cases hc) (hF cid h2)
    rw [h7.stack] at h6
    exact ⟨h1, cid, o, h2, h6, by rw [(e.same cid (lt_count h h3)).2]; exact h4, h5⟩
  · rename_i hb
    rw [if_neg hb] at hr
    exact hr

theorem Passed.ext {env n0 ret params F c A c' A' i a v id} (h : Inv c.s A) (e : Ext F c.s A c'.s A') (hF : ∀ id, n0 ≤ id → ¬ F id)
    (hF' : ∀ id, srcIds a.src id → ¬ F id) (hout : ∀ d : Int, 8 * ((ret + i : Nat) : Int) ≤ d → c'.out d = c.out d)
    (hp : Passed env n0 ret params c A i a v id) : Passed env n0 ret params c' A' i a v id := by
  unfold Passed at hp ⊢
  split
  · rename_i hb
    rw [if_pos hb] at hp
    obtain ⟨h0, w, n, h1, h2⟩ := hp
    refine ⟨h0, w, n, fun d hd => ?_, h2.ext h e hF⟩
    rw [hout _ (by omega)]
    exact h1 d hd
  · rename_i hb
    rw [if_neg hb] at hp
    obtain ⟨j, hj, h1, n, h2, h3⟩ := hp
    have hFj : ¬ F j := by
      by_cases hlt : j < n0
      · exact hF' j (h1 hlt)
      · exact hF j (Nat.le_of_not_lt hlt)
    refine ⟨j, hj, h1, n, e.locked j _ h2 (by intro hc; cases hc) hFj, ?_⟩
    rw [(e.same j (lt_count h h2)).2]
    exact h3.ext h e hF

/-- What is required of an argument before the call: its location is live and not locked, it has the size of the argument, and is
not in a register of the other kind. -/
structure ArgOk (s : State) (A : Values) (ret params i : Nat) (a : Arg) : Prop where
  ready : Ready s a.src
  size : ∀ id, a.src = .loc id → A.size id = a.size
  small : big a.size = true → a.float = false
  float : i < params → a.float = true → ret + i < 4 → regOf s a.src ≠ some ⟨.gpr, ret + i⟩
  integer : i < params → a.float = false → big a.size = false → ∀ r, regOf s a.src = some r → r.kind = .gpr

theorem regOf_ext {F s A s' A' src r} (e : Ext F s A s' A') (hr : Ready s src) (hF : ∀ id, srcIds src id → ¬ F id) (h : regOf s' src = some r) :
    regOf s src = some r := by
  obtain ⟨id, l, rfl, hl, hp⟩ := regOf_loc h
  obtain ⟨l0, h0, h1, _⟩ := hr id rfl
  obtain ⟨p, h2, h3⟩ := e.alive id l0 h0 h1 (hF id rfl)
  rw [hl] at h2
  cases h2
  simp only at hp
  rcases h3 with h3 | ⟨r', o, _, h3⟩
  · unfold regOf
    dsimp only
    obtain ⟨place, size, ps, pf⟩ := l0
    simp only at h3
    rw [h0, ← h3, hp]
  · rw [hp] at h3; cases h3

theorem ArgOk.ext {F s A s' A' ret params i a} (h : Inv s A) (e : Ext F s A s' A') (hF : ∀ id, srcIds a.src id → ¬ F id) (hok : ArgOk s A ret params i a) :
    ArgOk s' A' ret params i a := by
  refine ⟨hok.ready.ext e hF, fun id hid => ?_, hok.small, fun h1 h2 h3 h4 => hok.float h1 h2 h3 (regOf_ext e hok.ready hF h4),
    fun h1 h2 h3 r h4 => hok.integer h1 h2 h3 r (regOf_ext e hok.ready hF h4)⟩
  have hlt := hok.ready.lt (id := id) h (by rw [hid]; rfl)
  rw [(e.same id hlt).1]
  exact hok.size id hid

theorem big_le {n} (h : big n = false) : n ≤ 8 := by
  simp only [big, Bool.or_eq_false_iff, decide_eq_false_iff_not] at h
  omega

theorem argReg_kind (k : Kind) (i : Nat) : (argReg k i).kind = k := by cases k <;> rfl

theorem gpr_num {r r' : Reg} (h1 : r.kind = .gpr) (h2 : r'.kind = .gpr) : r.num = r'.num → r.kind = r'.kind := fun _ => h1.trans h2.symm

/-- The last part of an iteration, when the argument is in its final form. -/
theorem place_spec {env n0 ret params i a v} {c : CallState} {s A src size id c'} (h : Inv s A) (hsm : Small A) (hr : Ready s src)
    (hsz : ∀ id, src = .loc id → A.size id = size) (hn : n0 ≤ A.count) (hids : ∀ id, id < n0 → srcIds src id → srcIds a.src id)
    (hk : ret + i < 4 → ∀ r', regOf s src = some r' → r'.num = (argReg (expectedKind params i a) (ret + i)).num → r'.kind = expectedKind params i a)
    (hrep : ∀ w, w % 256 ^ size = cont env A src % 256 ^ size → Rep env n0 s A a v w size) (hs8 : size ≤ 8)
    (hnew : ∀ cid, n0 ≤ cid → srcIds src cid → ∃ l r, s.locs cid = some l ∧ l.place = .loaded r)
    (hs : (if 4 ≤ ret + i then (storeOut env { c with s := s } src size (8 * (ret + i : Nat))).map (fun c => (none, c))
      else (toRegister env s src size (argReg (expectedKind params i a) (ret + i))).map (fun (id, s) => (some id, { c with s := s })))
      = some (id, c')) :
    ∃ A', Ext (srcIds src) s A c'.s A' ∧ Passed env n0 ret params c' A' i a v id ∧ ∀ d : Int, 8 * ((ret + i : Nat) : Int) + 8 ≤ d → c'.out d = c.out d := by
  have lift : ∀ {s' A' w}, Ext (srcIds src) s A s' A' → Rep env n0 s A a v w size → Rep env n0 s' A' a v w size := by
    intro s' A' w e hw
    unfold Rep at hw ⊢
    split
    · rename_i hb
      rw [if_pos hb] at hw
      obtain ⟨h1, cid, o, h2, h3, h4, h5⟩ := hw
      have hne : ¬ srcIds src cid := by
        intro hc
        obtain ⟨l, r, hl, hp⟩ := hnew cid h2 hc
        rw [h3] at hl; cases hl; cases hp
      obtain ⟨p, h6, h7⟩ := e.alive cid _ h3 (by intro hc; cases hc) hne
      rw [h7.stack] at h6
      exact ⟨h1, cid, o, h2, h6, by rw [(e.same cid (lt_count h h3)).2]; exact h4, h5⟩
    · rename_i hb
      rw [if_neg hb] at hw
      exact hw
  unfold Passed
  split at hs
  · rename_i h4
    obtain ⟨c1, h1, h2⟩ := Option.map_eq_some_iff.1 hs
    cases h2
    obtain ⟨A', e, hb, ho⟩ := storeOut_spec (c := { c with s := s }) h hsm hr h1
    refine ⟨A', e, ?_, fun d hd => ho d (.inr (by omega))⟩
    rw [if_pos h4]
    exact ⟨rfl, _, size, hb, lift e (hrep _ rfl)⟩
  · rename_i h4
    obtain ⟨⟨j, s1⟩, h1, h2⟩ := Option.map_eq_some_iff.1 hs
    cases h2
    obtain ⟨A', e, h5, h6, h7⟩ := toRegister_spec h hsm hr hsz (fun r' hr' hnum => by rw [argReg_kind]; exact hk (by omega) r' hr' hnum) h1
    refine ⟨A', e, ?_, fun _ _ => rfl⟩
    rw [if_neg h4]
    exact ⟨j, rfl, fun hj => hids j hj (h5 (Nat.lt_of_lt_of_le hj hn)), size, h6, lift e (hrep _ h7)⟩

theorem passOne_spec {env n0 ret params i a c A id c'} (h : Inv c.s A) (hsm : Small A) (hn : n0 ≤ A.count)
    (hsrc : ∀ id, srcIds a.src id → id < n0) (hok : ArgOk c.s A ret params i a)
    (hs : passOne env ret params i a c = some (id, c')) :
    ∃ A', Ext (srcIds a.src) c.s A c'.s A' ∧ Passed env n0 ret params c' A' i a (cont env A a.src) id ∧
      ∀ d : Int, 8 * ((ret + i : Nat) : Int) + 8 ≤ d → c'.out d = c.out d := by
  unfold passOne at hs
  obtain ⟨⟨src1, size1, s1⟩, h1, h2⟩ := Option.bind_eq_some_iff.1 hs
  obtain ⟨⟨src2, size2, s2⟩, h3, h4⟩ := Option.bind_eq_some_iff.1 h2
  dsimp only at h3 h4
  cases hb : big a.size with
  | true =>
    rw [if_pos hb] at h1
    obtain ⟨⟨src', s'⟩, g1, g2⟩ := Option.map_eq_some_iff.1 h1
    cases g2
    obtain ⟨A1, id1, cid, o, r, e1, rfl, k1, k2, k3, k4, k5, k6, k7, k8, k9⟩ := copyBig_spec h hsm hok.ready g1
    have hreg : regOf s1 (.loc id1) = some r := by unfold regOf; dsimp only; rw [k3]
    have hkind : expectedKind params i a = .gpr := by
      unfold expectedKind; rw [hok.small hb, Bool.and_false]; rfl
    have hsame : (src2, size2, s2) = (.loc id1, 8, s1) := by
      split at h3
      · unfold moveFloat at h3
        split at h3
        · rename_i hx
          rw [hreg] at hx
          cases hx; cases k2
        · exact (Option.some.inj h3).symm
      · exact (Option.some.inj h3).symm
    cases hsame
    have hr1 : Ready s1 (.loc id1) := by
      intro j hj; cases hj; exact ⟨_, k3, (by intro hc; cases hc), rfl, rfl⟩
    have := place_spec (env := env) (n0 := n0) (v := cont env A a.src) e1.inv (e1.small hsm) hr1 (fun j hj => by cases hj; exact k4)
      (Nat.le_trans hn e1.count) (fun j hj hid => by cases hid; omega)
      (fun _ r' hr' _ => by rw [hreg] at hr'; cases hr'; rw [hkind]; exact k2)
      (fun w hw => by
        unfold Rep
        rw [if_pos hb]
        refine ⟨rfl, cid, o, Nat.le_trans hn k6, k8, k9, ?_⟩
        rw [hw]
        show A1.value id1 % _ = _
        rw [k5, Nat.mod_mod])
      (Nat.le_refl _) (fun j hj hid => by cases hid; exact ⟨_, r, k3, rfl⟩) h4
    obtain ⟨A2, e2, hp, ho⟩ := this
    refine ⟨A2, Ext.trans h e1 e2 (fun j hj hid => ?_), hp, ho⟩
    cases hid; omega
  | false =>
    rw [if_neg (by rw [hb]; decide)] at h1
    cases h1
    have hs8 := big_le hb
    split at h3
    · rename_i hpi
      obtain ⟨A1, e1, k1, k2, k3, k4, k5, k6, k7⟩ := moveFloat_spec (env := env) h hok.ready hs8 hok.size h3
      have hkind : expectedKind params i a = .gpr := by
        unfold expectedKind; rw [decide_eq_false (Nat.not_lt.2 hpi), Bool.false_and]; rfl
      have := place_spec (env := env) (n0 := n0) (v := cont env A a.src) e1.inv (e1.small hsm) k1 k5 (Nat.le_trans hn e1.count)
        (fun j hj hid => k2 j (Nat.lt_of_lt_of_le hj hn) hid) (fun _ r' hr' _ => by rw [hkind]; exact k7 r' hr')
        (fun w hw => by
          unfold Rep
          rw [if_neg (by rw [hb]; decide)]
          refine ⟨k3, k4, ?_⟩
          have := congrArg (· % 256 ^ a.size) hw
          simp only [Nat.mod_mod_of_dvd _ (Nat.pow_dvd_pow 256 k3)] at this
          rw [this, k6]) k4
        (fun j hj hid => by
          have hjA : A.count ≤ j ∨ j < n0 := by
            by_cases hj' : j < A.count
            · exact .inr (hsrc j (k2 j hj' hid))
            · exact .inl (by omega)
          rcases hjA with hjA | hjA
          · unfold moveFloat at h3
            split at h3
            · rename_i idx n _ hreg
              split at h3
              · obtain ⟨t1, g1, g2⟩ := Option.bind_eq_some_iff.1 h3
                obtain ⟨t2, g3, g4⟩ := Option.map_eq_some_iff.1 g2
                cases g4
                cases hid
                obtain ⟨l, hl, hlive, _⟩ := k1 c.s.next rfl
                obtain ⟨lf, hlf, _, hc⟩ := free_locs g3
                have hmem : ∃ r, t1.locs c.s.next = some ⟨.loaded r, 8, 0, 0⟩ := by
                  split at g1
                  · obtain ⟨r, _, _, _, hl⟩ := compute_ext h g1; exact ⟨r, hl⟩
                  · obtain ⟨_, _, hl⟩ := computeIn_ext h g1; exact ⟨_, hl⟩
                obtain ⟨r, hr⟩ := hmem
                rcases hc with hc | hc
                · exact ⟨⟨.loaded r, 8, 0, 0⟩, r, by rw [hc.1]; exact hr, rfl⟩
                · refine ⟨⟨.loaded r, 8, 0, 0⟩, r, ?_, rfl⟩
                  rw [hc.1]
                  rw [hc.1] at hl
                  by_cases hx : c.s.next = idx
                  · rw [← hx, upd_same] at hl
                    cases hl
                    exact absurd rfl hlive
                  · rw [upd_other _ _ hx]; exact hr
              · cases h3
                have := hok.ready.lt h hid
                omega
            · cases h3
              have := hok.ready.lt h hid
              omega
          · omega) h4
      obtain ⟨A2, e2, hp, ho⟩ := this
      exact ⟨A2, Ext.trans h e1 e2 k2, hp, ho⟩
    · rename_i hpi
      cases h3
      have := place_spec (env := env) (n0 := n0) (v := cont env A a.src) h hsm hok.ready hok.size hn (fun j _ hid => hid)
        (fun h4 r' hr' hnum => by
          have hip : i < params := by omega
          cases hf : a.float with
          | true =>
            have hkind : expectedKind params i a = .xmm := by
              unfold expectedKind; rw [hf, decide_eq_true hip]; rfl
            rw [hkind] at hnum ⊢
            obtain ⟨k, n⟩ := r'
            cases k with
            | xmm => rfl
            | gpr =>
              have hnum : n = ret + i := hnum
              subst hnum
              exact absurd hr' (hok.float hip hf h4)
          | false =>
            have hkind : expectedKind params i a = .gpr := by
              unfold expectedKind; rw [hf, Bool.and_false]; rfl
            rw [hkind]
            exact hok.integer hip hf hb r' hr')
        (fun w hw => by
          unfold Rep
          rw [if_neg (by rw [hb]; decide)]
          exact ⟨Nat.le_refl _, hs8, hw⟩) hs8
        (fun j hj hid => absurd (hsrc j hid) (by omega)) h4
      obtain ⟨A2, e2, hp, ho⟩ := this
      exact ⟨A2, e2, hp, ho⟩

/-- The locations of the arguments. -/
def anyIds (args : List Arg) (id : Nat) : Prop := ∃ a ∈ args, srcIds a.src id

/-- No two arguments have the same location. -/
def Distinct : List Arg → Prop
  | [] => True
  | a :: as => (∀ id, srcIds a.src id → ¬ anyIds as id) ∧ Distinct as

theorem passFrom_spec {env n0 ret params} : ∀ (args : List Arg) (i : Nat) {c A ids c'}, Inv c.s A → Small A → n0 ≤ A.count →
    (∀ id, anyIds args id → id < n0) → Distinct args → (∀ j a, args[j]? = some a → ArgOk c.s A ret params (i + j) a) →
    passFrom env ret params i args c = some (ids, c') →
    ids.length = args.length ∧ ∃ A', Ext (anyIds args) c.s A c'.s A' ∧
      (∀ j a, args[j]? = some a → Passed env n0 ret params c' A' (i + j) a (cont env A a.src) ((ids[j]?).join)) ∧
      (∀ d : Int, 8 * ((ret + i + args.length : Nat) : Int) ≤ d → c'.out d = c.out d)
  | [], i, c, A, ids, c', h, hsm, hn, hlt, hd, hok, hs => by
    cases hs
    exact ⟨rfl, A, Ext.refl h, fun j a hj => by simp at hj, fun _ _ => rfl⟩
  | a :: as, i, c, A, ids, c', h, hsm, hn, hlt, hd, hok, hs => by
    rw [passFrom] at hs
    obtain ⟨⟨ids1, c1⟩, h1, h2⟩ := Option.bind_eq_some_iff.1 hs
    obtain ⟨⟨id, c2⟩, h3, h4⟩ := Option.map_eq_some_iff.1 h2
    cases h4
    obtain ⟨hlen, A1, e1, hp1, ho1⟩ := passFrom_spec as (i + 1) h hsm hn (fun id ⟨b, hb, hid⟩ => hlt id ⟨b, List.mem_cons_of_mem _ hb, hid⟩) hd.2
      (fun j b hj => by
        have := hok (j + 1) b (by simpa using hj)
        rwa [show i + (j + 1) = i + 1 + j from by omega] at this) h1
    have hok0 := hok 0 a rfl
    have hsrc : ∀ id, srcIds a.src id → id < n0 := fun id hid => hlt id ⟨a, List.mem_cons_self, hid⟩
    obtain ⟨A2, e2, hp2, ho2⟩ := passOne_spec (n0 := n0) e1.inv (e1.small hsm) (Nat.le_trans hn e1.count) hsrc (hok0.ext h e1 hd.1) h3
    rw [cont_ext h e1 hok0.ready] at hp2
    refine ⟨by simp [hlen], A2, ?_, ?_, ?_⟩
    · refine Ext.trans h (Ext.weaken h e1 (fun id _ ⟨b, hb, hid⟩ => ⟨b, List.mem_cons_of_mem _ hb, hid⟩)) e2 (fun id _ hid => ⟨a, List.mem_cons_self, hid⟩)
    · intro j b hj
      cases j with
      | zero =>
        simp only [List.getElem?_cons_zero, Option.some.injEq] at hj
        subst hj
        simpa using hp2
      | succ j =>
        have hj : as[j]? = some b := by simpa using hj
        have := hp1 j b hj
        rw [show i + 1 + j = i + (j + 1) from by omega] at this
        refine Passed.ext e1.inv e2 (fun id hid hf => absurd (hsrc id hf) (by omega)) ?_ ?_ this
        · intro id hid hf
          exact hd.1 id hf ⟨b, List.mem_of_getElem? hj, hid⟩
        · intro d hd'
          exact ho2 d (by omega)
    · intro d hd'
      rw [ho2 d (by simp only [List.length_cons] at hd'; omega)]
      exact ho1 d (by simp only [List.length_cons] at hd'; omega)

end Verif.Lemmas.Call
