import Verif.Model.RegAlloc
import Verif.Spec.RegAlloc
import Verif.Props.Align

/-!
# C51: register allocation
-/

namespace Verif.Props.RegAlloc

open Verif.RegAlloc Verif.Align

theorem upd_same {α β : Type} [DecidableEq α] (f : α → β) (a : α) (b : β) : upd f a b a = b := if_pos rfl

theorem upd_other {α β : Type} [DecidableEq α] (f : α → β) {a x : α} (b : β) (h : x ≠ a) : upd f a b x = f x := if_neg h

/-! ## Memory -/

theorem store_outside : ∀ (n : Nat) (mem : Nat → Nat) (o v d : Nat), n ≤ o → (o < d ∨ d + n ≤ o) → store mem o n v d = mem d
  | 0, _, _, _, _, _, _ => rfl
  | n + 1, mem, o, v, d, hn, h => by
    rw [store, store_outside n _ _ _ _ (by omega) (by omega), upd_other _ _ (by omega)]

theorem load_congr : ∀ (n : Nat) (mem mem' : Nat → Nat) (o : Nat), n ≤ o → (∀ d, d ≤ o → o < d + n → mem d = mem' d) →
    load mem o n = load mem' o n
  | 0, _, _, _, _, _ => rfl
  | n + 1, mem, mem', o, hn, h => by
    rw [load, load, h o (by omega) (by omega), load_congr n mem mem' (o - 1) (by omega) (fun d h1 h2 => h d (by omega) (by omega))]

theorem load_store : ∀ (n : Nat) (mem : Nat → Nat) (o v : Nat), n ≤ o → load (store mem o n v) o n = v % 256 ^ n
  | 0, _, _, v, _ => by simp [load, Nat.mod_one]
  | n + 1, mem, o, v, hn => by
    rw [load, store, load_store n _ _ _ (by omega), store_outside n _ _ _ _ (by omega) (by omega), upd_same,
      Nat.pow_succ, Nat.mul_comm (256 ^ n), Nat.mod_mul]

theorem powerOfTwo_cases {n} (h : powerOfTwo n = true) : ∃ k, n = 2 ^ k := by
  simp only [powerOfTwo, Bool.or_eq_true, decide_eq_true_eq] at h
  rcases h with ((((h | h) | h) | h) | h) | h
  · exact ⟨0, h⟩
  · exact ⟨1, h⟩
  · exact ⟨2, h⟩
  · exact ⟨3, h⟩
  · exact ⟨4, h⟩
  · exact ⟨5, h⟩

theorem powerOfTwo_pos {n} (h : powerOfTwo n = true) : 0 < n := by
  obtain ⟨k, rfl⟩ := powerOfTwo_cases h; exact Nat.two_pow_pos k

theorem alignUp_ge {n} (h : powerOfTwo n = true) (x : Nat) : x ≤ alignUp x n := by
  obtain ⟨k, rfl⟩ := powerOfTwo_cases h; exact le_alignUp x k

/-! ## The invariant -/

/-- The bytes of two stack slots. -/
def Disjoint (o n o' n' : Nat) : Prop := o + n' ≤ o' ∨ o' + n ≤ o

structure Inv (s : State) (a : Spec.RegAlloc.Values) : Prop where
  count : s.next = a.count
  fresh : ∀ id, s.next ≤ id → s.locs id = none
  size : ∀ id l, s.locs id = some l → l.size = a.size id
  mapped : ∀ r id, s.map r = some id → ∃ l, s.locs id = some l ∧ l.place = .loaded r
  loaded : ∀ id l r, s.locs id = some l → l.place = .loaded r → s.map r = some id ∧ s.regs r % 256 ^ l.size = a.value id
  slot : ∀ id l o, s.locs id = some l → l.place = .stack o →
    s.base + l.size ≤ o ∧ o ≤ s.base + s.temp ∧ 0 < l.size ∧ load s.mem o l.size = a.value id
  apart : ∀ id id' l l' o o', s.locs id = some l → s.locs id' = some l' → l.place = .stack o → l'.place = .stack o' →
    id ≠ id' → Disjoint o l.size o' l'.size

theorem spill_inv {s s' : State} {a r} (h : Inv s a) (hs : spill s r = some s') : Inv s' a := by
  unfold spill at hs
  split at hs
  · cases hs
  · rename_i id hid
    split at hs
    · cases hs
    · rename_i l hl
      split at hs
      · rename_i hc
        simp only [Bool.and_eq_true, decide_eq_true_eq] at hc
        obtain ⟨hlock, hp⟩ := hc
        have hge := alignUp_ge hp s.temp
        have hpos := powerOfTwo_pos hp
        generalize hal : alignUp s.temp l.size = al at hs hge
        cases hs
        obtain ⟨l0, hl0, hplace⟩ := h.mapped r id hid
        rw [hl] at hl0; cases hl0
        have hval := (h.loaded id l r hl hplace).2
        have hother : ∀ id', id' ≠ id → ∀ l', s.locs id' = some l' → l'.place ≠ .loaded r := by
          intro id' hne l' hl' hp'
          have := (h.loaded id' l' r hl' hp').1
          rw [hid] at this
          exact hne (Option.some.inj this).symm
        refine ⟨h.count, ?_, ?_, ?_, ?_, ?_, ?_⟩
        · intro id' hge'
          dsimp only at hge' ⊢
          have : id' ≠ id := by
            rintro rfl; rw [h.fresh id' hge'] at hl; cases hl
          rw [upd_other _ _ this]; exact h.fresh id' hge'
        · intro id' l' hl'
          dsimp only at hl'
          by_cases hi : id' = id
          · subst hi; rw [upd_same] at hl'; cases hl'; exact h.size id' l hl
          · rw [upd_other _ _ hi] at hl'; exact h.size id' l' hl'
        · intro r' id' hm
          dsimp only at hm ⊢
          by_cases hr : r' = r
          · subst hr; rw [upd_same] at hm; cases hm
          · rw [upd_other _ _ hr] at hm
            obtain ⟨l', h1, h2⟩ := h.mapped r' id' hm
            have : id' ≠ id := by
              rintro rfl
              rw [hl] at h1; cases h1
              rw [hplace] at h2; cases h2; exact hr rfl
            exact ⟨l', by rw [upd_other _ _ this]; exact h1, h2⟩
        · intro id' l' r' hl' hp'
          dsimp only at hl' ⊢
          by_cases hi : id' = id
          · subst hi; rw [upd_same] at hl'; cases hl'; cases hp'
          · rw [upd_other _ _ hi] at hl'
            have hr : r' ≠ r := by rintro rfl; exact hother id' hi l' hl' hp'
            rw [upd_other _ _ hr]
            exact h.loaded id' l' r' hl' hp'
        · intro id' l' o hl' hp'
          dsimp only at hl' ⊢
          by_cases hi : id' = id
          · subst hi
            rw [upd_same] at hl'
            cases hl'
            dsimp only at hp' ⊢
            cases hp'
            refine ⟨by omega, by omega, hpos, ?_⟩
            rw [load_store _ _ _ _ (by omega)]
            exact hval
          · rw [upd_other _ _ hi] at hl'
            obtain ⟨h1, h2, h3, h4⟩ := h.slot id' l' o hl' hp'
            refine ⟨h1, by omega, h3, ?_⟩
            rw [← h4]
            exact load_congr _ _ _ _ (by omega) (fun d hd1 hd2 => store_outside _ _ _ _ _ (by omega) (by omega))
        · intro i j li lj oi oj hi hj hpi hpj hne
          dsimp only at hi hj
          unfold Disjoint
          by_cases h1 : i = id
          · subst h1
            rw [upd_same] at hi
            cases hi
            cases hpi
            rw [upd_other _ _ (Ne.symm hne)] at hj
            obtain ⟨_, h2, _⟩ := h.slot j lj oj hj hpj
            dsimp only
            omega
          · rw [upd_other _ _ h1] at hi
            by_cases h2 : j = id
            · subst h2
              rw [upd_same] at hj
              cases hj
              cases hpj
              obtain ⟨_, h2, _⟩ := h.slot i li oi hi hpi
              dsimp only
              omega
            · rw [upd_other _ _ h2] at hj
              exact h.apart i j li lj oi oj hi hj hpi hpj hne
      · cases hs

/-- What a spill changes: only the location in the register, which was not locked. -/
theorem spill_frame {s s' : State} {r} (hs : spill s r = some s') :
    s'.map r = none ∧ (∀ r', r' ≠ r → s'.map r' = s.map r') ∧ s'.regs = s.regs ∧ s'.next = s.next ∧ s'.rolling = s.rolling ∧
    ∃ id l o, s.map r = some id ∧ s.locs id = some l ∧ l.preventSpilling = 0 ∧
      s'.locs id = some ⟨.stack o, l.size, 0, l.preventFreeing⟩ ∧ (∀ id', id' ≠ id → s'.locs id' = s.locs id') := by
  unfold spill at hs
  split at hs
  · cases hs
  · rename_i id hid
    split at hs
    · cases hs
    · rename_i l hl
      split at hs
      · rename_i hc
        simp only [Bool.and_eq_true, decide_eq_true_eq] at hc
        cases hs
        exact ⟨upd_same _ _ _, fun r' hr => upd_other _ _ hr, rfl, rfl, rfl, id, l, _, hid, hl, hc.1, upd_same _ _ _,
          fun id' hi => upd_other _ _ hi⟩
      · cases hs

theorem allocateSpecific_inv {s s' : State} {a r} (h : Inv s a) (hs : allocateSpecific s r = some s') : Inv s' a := by
  unfold allocateSpecific at hs
  split at hs
  · exact spill_inv h hs
  · cases hs; exact h

theorem spillList_inv {a} : ∀ (rs : List Reg) (s s' : State), Inv s a → spillList s rs = some s' → Inv s' a
  | [], s, s', h, hs => by cases hs; exact h
  | r :: rs, s, s', h, hs => by
    unfold spillList at hs
    obtain ⟨s1, h1, h2⟩ := Option.bind_eq_some_iff.1 hs
    exact spillList_inv rs s1 s' (allocateSpecific_inv h h1) h2

theorem roll_inv {s : State} {a} (h : Inv s a) (f) : Inv { s with rolling := f } a :=
  ⟨h.count, h.fresh, h.size, h.mapped, h.loaded, h.slot, h.apart⟩

theorem allocate_inv {s s' : State} {a k r} (h : Inv s a) (hs : allocate s k = some (r, s')) : Inv s' a := by
  unfold allocate at hs
  dsimp only at hs
  split at hs
  · cases hs; exact roll_inv h _
  · split at hs
    · obtain ⟨s1, h1, h2⟩ := Option.map_eq_some_iff.1 hs
      cases h2
      exact spill_inv (roll_inv h _) h1
    · cases hs

/-- What an allocation does: either nothing, if the register is free, or a spill of this register. -/
theorem allocate_frame {s s' : State} {k r} (hs : allocate s k = some (r, s')) :
    r ∈ order k (s.rolling k) ∧ ∃ f, (s.map r = none ∧ s' = { s with rolling := f }) ∨ spill { s with rolling := f } r = some s' := by
  unfold allocate at hs
  dsimp only at hs
  split at hs
  · rename_i r' hf
    cases hs
    refine ⟨List.mem_of_find?_eq_some hf, _, .inl ⟨?_, rfl⟩⟩
    simpa using List.find?_some hf
  · split at hs
    · rename_i hf
      obtain ⟨s1, h1, h2⟩ := Option.map_eq_some_iff.1 hs
      cases h2
      exact ⟨List.mem_of_find?_eq_some hf, _, .inr h1⟩
    · cases hs

theorem newLoaded_inv {s s' : State} {a r size v} (h : Inv s a) (hs : newLoaded s r size v = some s') :
    Inv s' (Spec.RegAlloc.create a size v) := by
  unfold newLoaded at hs
  split at hs
  · rename_i hn
    have hn : s.map r = none := by simpa using hn
    cases hs
    have hold : ∀ id l, s.locs id = some l → id ≠ s.next := by
      rintro id l hl rfl; rw [h.fresh _ (Nat.le_refl _)] at hl; cases hl
    have hc := h.count
    refine ⟨?_, ?_, ?_, ?_, ?_, ?_, ?_⟩
    · simp [Spec.RegAlloc.create, hc]
    · intro id hid
      dsimp only at hid ⊢
      rw [upd_other _ _ (by omega)]
      exact h.fresh id (by omega)
    · intro id l hl
      dsimp only [Spec.RegAlloc.create] at hl ⊢
      rw [← hc]
      by_cases hi : id = s.next
      · subst hi; rw [upd_same] at hl ⊢; cases hl; rfl
      · rw [upd_other _ _ hi] at hl ⊢; exact h.size id l hl
    · intro r' id hm
      dsimp only at hm ⊢
      by_cases hr : r' = r
      · subst hr; rw [upd_same] at hm; cases hm; exact ⟨_, upd_same _ _ _, rfl⟩
      · rw [upd_other _ _ hr] at hm
        obtain ⟨l, h1, h2⟩ := h.mapped r' id hm
        exact ⟨l, by rw [upd_other _ _ (hold id l h1)]; exact h1, h2⟩
    · intro id l r' hl hp
      dsimp only [Spec.RegAlloc.create] at hl ⊢
      rw [← hc]
      by_cases hi : id = s.next
      · subst hi; rw [upd_same] at hl ⊢; cases hl; cases hp
        exact ⟨upd_same _ _ _, by rw [upd_same]⟩
      · rw [upd_other _ _ hi] at hl ⊢
        obtain ⟨h1, h2⟩ := h.loaded id l r' hl hp
        have : r' ≠ r := by rintro rfl; rw [hn] at h1; cases h1
        rw [upd_other _ _ this, upd_other _ _ this]
        exact ⟨h1, h2⟩
    · intro id l o hl hp
      dsimp only [Spec.RegAlloc.create] at hl ⊢
      rw [← hc]
      by_cases hi : id = s.next
      · subst hi; rw [upd_same] at hl; cases hl; cases hp
      · rw [upd_other _ _ hi] at hl ⊢; exact h.slot id l o hl hp
    · intro i j li lj oi oj hi hj hpi hpj hne
      dsimp only at hi hj
      by_cases h1 : i = s.next
      · subst h1; rw [upd_same] at hi; cases hi; cases hpi
      · by_cases h2 : j = s.next
        · subst h2; rw [upd_same] at hj; cases hj; cases hpj
        · rw [upd_other _ _ h1] at hi
          rw [upd_other _ _ h2] at hj
          exact h.apart i j li lj oi oj hi hj hpi hpj hne
  · cases hs

theorem newStack_inv {s s' : State} {a size align v} (h : Inv s a) (hs : newStack s size align v = some s') :
    Inv s' (Spec.RegAlloc.create a size v) := by
  unfold newStack at hs
  split at hs
  · rename_i hn
    simp only [Bool.and_eq_true, decide_eq_true_eq] at hn
    have hge := alignUp_ge hn.2 s.temp
    have hpos := hn.1
    generalize alignUp s.temp align = al at hs hge
    cases hs
    have hc := h.count
    have hold : ∀ id l, s.locs id = some l → id ≠ s.next := by
      rintro id l hl rfl; rw [h.fresh _ (Nat.le_refl _)] at hl; cases hl
    refine ⟨?_, ?_, ?_, ?_, ?_, ?_, ?_⟩
    · simp [Spec.RegAlloc.create, hc]
    · intro id hid
      dsimp only at hid ⊢
      rw [upd_other _ _ (by omega)]
      exact h.fresh id (by omega)
    · intro id l hl
      dsimp only [Spec.RegAlloc.create] at hl ⊢
      rw [← hc]
      by_cases hi : id = s.next
      · subst hi; rw [upd_same] at hl ⊢; cases hl; rfl
      · rw [upd_other _ _ hi] at hl ⊢; exact h.size id l hl
    · intro r' id hm
      dsimp only at hm ⊢
      obtain ⟨l, h1, h2⟩ := h.mapped r' id hm
      exact ⟨l, by rw [upd_other _ _ (hold id l h1)]; exact h1, h2⟩
    · intro id l r' hl hp
      dsimp only [Spec.RegAlloc.create] at hl ⊢
      rw [← hc]
      by_cases hi : id = s.next
      · subst hi; rw [upd_same] at hl; cases hl; cases hp
      · rw [upd_other _ _ hi] at hl ⊢
        exact h.loaded id l r' hl hp
    · intro id l o hl hp
      dsimp only [Spec.RegAlloc.create] at hl ⊢
      rw [← hc]
      by_cases hi : id = s.next
      · subst hi
        rw [upd_same] at hl ⊢
        cases hl
        dsimp only at hp ⊢
        cases hp
        refine ⟨by omega, by omega, hpos, ?_⟩
        exact load_store _ _ _ _ (by omega)
      · rw [upd_other _ _ hi] at hl ⊢
        obtain ⟨h1, h2, h3, h4⟩ := h.slot id l o hl hp
        refine ⟨h1, by omega, h3, ?_⟩
        rw [← h4]
        exact load_congr _ _ _ _ (by omega) (fun d hd1 hd2 => store_outside _ _ _ _ _ (by omega) (by omega))
    · intro i j li lj oi oj hi hj hpi hpj hne
      dsimp only at hi hj
      unfold Disjoint
      by_cases h1 : i = s.next
      · subst h1
        rw [upd_same] at hi
        cases hi
        cases hpi
        rw [upd_other _ _ (Ne.symm hne)] at hj
        obtain ⟨_, h2, _⟩ := h.slot j lj oj hj hpj
        dsimp only
        omega
      · rw [upd_other _ _ h1] at hi
        by_cases h2 : j = s.next
        · subst h2
          rw [upd_same] at hj
          cases hj
          cases hpj
          obtain ⟨_, h2, _⟩ := h.slot i li oi hi hpi
          dsimp only
          omega
        · rw [upd_other _ _ h2] at hj
          exact h.apart i j li lj oi oj hi hj hpi hpj hne
  · cases hs

/-- Replace a location by one in the same place and of the same size. -/
theorem setLoc_inv {s : State} {a id l l'} (h : Inv s a) (hl : s.locs id = some l) (hp : l'.place = l.place) (hsz : l'.size = l.size) :
    Inv { s with locs := upd s.locs id (some l') } a := by
  have key : ∀ j lj, upd s.locs id (some l') j = some lj → ∃ lj', s.locs j = some lj' ∧ lj'.place = lj.place ∧ lj'.size = lj.size := by
    intro j lj hj
    by_cases hi : j = id
    · subst hi; rw [upd_same] at hj; cases hj; exact ⟨l, hl, hp.symm, hsz.symm⟩
    · rw [upd_other _ _ hi] at hj; exact ⟨lj, hj, rfl, rfl⟩
  refine ⟨h.count, ?_, ?_, ?_, ?_, ?_, ?_⟩
  · intro j hj
    dsimp only at hj ⊢
    have : j ≠ id := by rintro rfl; rw [h.fresh j hj] at hl; cases hl
    rw [upd_other _ _ this]; exact h.fresh j hj
  · intro j lj hj
    obtain ⟨k, h1, h2, h3⟩ := key j lj hj
    rw [← h3]; exact h.size j k h1
  · intro r j hm
    obtain ⟨k, h1, h2⟩ := h.mapped r j hm
    dsimp only
    by_cases hi : j = id
    · subst hi; rw [h1] at hl; cases hl; exact ⟨l', upd_same _ _ _, hp.trans h2⟩
    · exact ⟨k, by rw [upd_other _ _ hi]; exact h1, h2⟩
  · intro j lj r hj hpj
    obtain ⟨k, h1, h2, h3⟩ := key j lj hj
    rw [← h3]; exact h.loaded j k r h1 (h2.trans hpj)
  · intro j lj o hj hpj
    obtain ⟨k, h1, h2, h3⟩ := key j lj hj
    rw [← h3]; exact h.slot j k o h1 (h2.trans hpj)
  · intro i j li lj oi oj hi hj hpi hpj hne
    obtain ⟨ki, a1, a2, a3⟩ := key i li hi
    obtain ⟨kj, b1, b2, b3⟩ := key j lj hj
    rw [← a3, ← b3]
    exact h.apart i j ki kj oi oj a1 b1 (a2.trans hpi) (b2.trans hpj) hne

theorem free_inv {s s' : State} {a id} (h : Inv s a) (hs : free s id = some s') : Inv s' a := by
  have key : ∀ l, s.locs id = some l → ∀ map',
      (∀ r, map' r = if l.place = .loaded r then none else s.map r) →
      Inv { s with map := map', locs := upd s.locs id (some { l with place := .freed }) } a := by
    intro l hl map' hmap
    have old : ∀ j lj, upd s.locs id (some { l with place := Place.freed }) j = some lj → lj.place ≠ .freed →
        s.locs j = some lj ∧ j ≠ id := by
      intro j lj hj hp
      by_cases hi : j = id
      · subst hi; rw [upd_same] at hj; cases hj; exact absurd rfl hp
      · rw [upd_other _ _ hi] at hj; exact ⟨hj, hi⟩
    refine ⟨h.count, ?_, ?_, ?_, ?_, ?_, ?_⟩
    · intro j hj
      dsimp only at hj ⊢
      have : j ≠ id := by rintro rfl; rw [h.fresh j hj] at hl; cases hl
      rw [upd_other _ _ this]; exact h.fresh j hj
    · intro j lj hj
      dsimp only at hj
      by_cases hi : j = id
      · subst hi; rw [upd_same] at hj; cases hj; exact h.size j l hl
      · rw [upd_other _ _ hi] at hj; exact h.size j lj hj
    · intro r j hm
      dsimp only at hm ⊢
      rw [hmap] at hm
      split at hm
      · cases hm
      · rename_i hne
        obtain ⟨k, h1, h2⟩ := h.mapped r j hm
        have : j ≠ id := by rintro rfl; rw [hl] at h1; cases h1; exact hne h2
        exact ⟨k, by rw [upd_other _ _ this]; exact h1, h2⟩
    · intro j lj r hj hp
      obtain ⟨h1, hne⟩ := old j lj hj (by rw [hp]; intro hc; cases hc)
      obtain ⟨h2, h3⟩ := h.loaded j lj r h1 hp
      refine ⟨?_, h3⟩
      dsimp only
      rw [hmap, if_neg]
      · exact h2
      · intro hc
        have := (h.loaded id l r hl hc).1
        rw [h2] at this
        exact hne (Option.some.inj this)
    · intro j lj o hj hp
      obtain ⟨h1, hne⟩ := old j lj hj (by rw [hp]; intro hc; cases hc)
      exact h.slot j lj o h1 hp
    · intro i j li lj oi oj hi hj hpi hpj hne
      obtain ⟨h1, _⟩ := old i li hi (by rw [hpi]; intro hc; cases hc)
      obtain ⟨h2, _⟩ := old j lj hj (by rw [hpj]; intro hc; cases hc)
      exact h.apart i j li lj oi oj h1 h2 hpi hpj hne
  unfold free at hs
  split at hs
  · cases hs
  · rename_i l hl
    split at hs
    · cases hs
    · rename_i r hp
      split at hs
      · cases hs; exact h
      · cases hs
        refine key l hl _ (fun r' => ?_)
        rw [hp]
        by_cases hr : r' = r
        · subst hr; rw [upd_same, if_pos rfl]
        · rw [upd_other _ _ hr, if_neg (by intro hc; cases hc; exact hr rfl)]
    · rename_i o hp
      split at hs
      · cases hs; exact h
      · cases hs
        exact key l hl _ (fun r' => by rw [hp, if_neg (by intro hc; cases hc)])

theorem allocateSpecific_frame {s s' : State} {r} (hs : allocateSpecific s r = some s') :
    s'.map r = none ∧ (∀ r', s.map r' = none → s'.map r' = none) ∧ (∀ r', r' ≠ r → s'.map r' = s.map r') := by
  unfold allocateSpecific at hs
  split at hs
  · obtain ⟨h1, h2, _⟩ := spill_frame hs
    refine ⟨h1, fun r' hr => ?_, h2⟩
    by_cases h : r' = r
    · subst h; exact h1
    · rw [h2 r' h]; exact hr
  · rename_i hn
    cases hs
    exact ⟨by simpa using hn, fun _ h => h, fun _ _ => rfl⟩

theorem spillList_frame : ∀ (rs : List Reg) (s s' : State), spillList s rs = some s' →
    (∀ r, r ∈ rs ∨ s.map r = none → s'.map r = none) ∧ (∀ r, r ∉ rs → s'.map r = s.map r)
  | [], s, s', hs => by
    cases hs; exact ⟨fun r h => h.elim (fun h => absurd h List.not_mem_nil) id, fun _ _ => rfl⟩
  | r :: rs, s, s', hs => by
    unfold spillList at hs
    obtain ⟨s1, h1, h2⟩ := Option.bind_eq_some_iff.1 hs
    obtain ⟨ha, hb⟩ := spillList_frame rs s1 s' h2
    obtain ⟨hc, hd, he⟩ := allocateSpecific_frame h1
    refine ⟨fun r' h => ?_, fun r' h => ?_⟩
    · rcases h with h | h
      · rcases List.mem_cons.1 h with rfl | h
        · exact ha _ (.inr hc)
        · exact ha _ (.inl h)
      · exact ha _ (.inr (hd _ h))
    · rw [hb r' (fun hm => h (List.mem_cons_of_mem _ hm)), he r' (fun hm => h (hm ▸ List.mem_cons_self))]

theorem spillAll_frame {s s' : State} (hs : spillAll s = some s') (r : Reg) (hr : r ∈ volatiles r.kind) : s'.map r = none := by
  refine (spillList_frame _ _ _ hs).1 r (.inl ?_)
  rw [List.mem_append]
  cases hk : r.kind <;> rw [hk] at hr
  · exact .inl hr
  · exact .inr hr

theorem regs_inv {s : State} {a} (h : Inv s a) (f : Reg → Nat) (hf : ∀ r id, s.map r = some id → f r = s.regs r) :
    Inv { s with regs := f } a :=
  ⟨h.count, h.fresh, h.size, h.mapped, fun id l r hl hp => by
    obtain ⟨h1, h2⟩ := h.loaded id l r hl hp
    refine ⟨h1, ?_⟩
    dsimp only
    rw [hf r id h1]; exact h2, h.slot, h.apart⟩

theorem write_inv {s : State} {a id l r} (h : Inv s a) (hl : s.locs id = some l) (hp : l.place = .loaded r) (v : Nat) :
    Inv { s with regs := upd s.regs r v } { a with value := upd a.value id (v % 256 ^ a.size id) } := by
  have hm := (h.loaded id l r hl hp).1
  have hother : ∀ id' l', s.locs id' = some l' → id' ≠ id → l'.place ≠ .loaded r := by
    intro id' l' hl' hne hp'
    have := (h.loaded id' l' r hl' hp').1
    rw [hm] at this
    exact hne (Option.some.inj this).symm
  refine ⟨h.count, h.fresh, h.size, h.mapped, ?_, ?_, h.apart⟩
  · intro id' l' r' hl' hp'
    dsimp only at hl' ⊢
    by_cases hi : id' = id
    · subst hi
      rw [hl] at hl'; cases hl'
      rw [hp] at hp'; cases hp'
      rw [upd_same, upd_same, h.size id' l hl]
      exact ⟨hm, rfl⟩
    · have hr : r' ≠ r := by rintro rfl; exact hother id' l' hl' hi hp'
      rw [upd_other _ _ hi, upd_other _ _ hr]
      exact h.loaded id' l' r' hl' hp'
  · intro id' l' o hl' hp'
    dsimp only at hl' ⊢
    have hi : id' ≠ id := by rintro rfl; rw [hl] at hl'; cases hl'; rw [hp] at hp'; cases hp'
    rw [upd_other _ _ hi]
    exact h.slot id' l' o hl' hp'

/-- An allocation leaves a location on the stack alone. -/
theorem allocate_stack {s s' : State} {a k r id l o} (h : Inv s a) (hs : allocate s k = some (r, s')) (hl : s.locs id = some l)
    (hp : l.place = .stack o) : s'.locs id = some l := by
  obtain ⟨_, f, hc | hc⟩ := allocate_frame hs
  · rw [hc.2]; exact hl
  · obtain ⟨_, _, _, _, _, id', l', o', h1, h2, _, _, h5⟩ := spill_frame hc
    have : id ≠ id' := by
      rintro rfl
      obtain ⟨l'', h6, h7⟩ := h.mapped r id h1
      rw [hl] at h6; cases h6
      rw [hp] at h7; cases h7
    rw [h5 id this]; exact hl

theorem free_mem {s s' : State} {id} (hs : free s id = some s') : s'.mem = s.mem := by
  unfold free at hs
  split at hs
  · cases hs
  · split at hs
    · cases hs
    · split at hs <;> cases hs <;> rfl
    · split at hs <;> cases hs <;> rfl

theorem step_inv {s s' : State} {a} (h : Inv s a) (op : Op) (hs : step s op = some s') : Inv s' (Spec.RegAlloc.step a op) := by
  cases op with
  | compute k size v =>
    obtain ⟨⟨r, s1⟩, h1, h2⟩ := Option.bind_eq_some_iff.1 hs
    exact newLoaded_inv (allocate_inv h h1) h2
  | computeIn r size v =>
    obtain ⟨s1, h1, h2⟩ := Option.bind_eq_some_iff.1 hs
    exact newLoaded_inv (allocateSpecific_inv h h1) h2
  | reload k id =>
    unfold step at hs
    dsimp only at hs
    split at hs
    · rename_i o size ps pf hl
      obtain ⟨⟨r, s1⟩, h1, h2⟩ := Option.bind_eq_some_iff.1 hs
      obtain ⟨s2, h3, h4⟩ := Option.bind_eq_some_iff.1 h2
      have hi1 := allocate_inv h h1
      have hl1 := allocate_stack h h1 hl rfl
      have hv := (hi1.slot id _ o hl1 rfl).2.2.2
      have hsz := h.size id _ hl
      dsimp only at hv hsz
      rw [free_mem h3, hv, hsz] at h4
      exact newLoaded_inv (free_inv hi1 h3) h4
    · cases hs
  | temporary size align v => exact newStack_inv h hs
  | write id v =>
    unfold step at hs
    dsimp only at hs
    split at hs
    · rename_i r size ps pf hl
      cases hs
      exact write_inv h hl rfl v
    · cases hs
  | preventSpilling id =>
    obtain ⟨l, hl, h2⟩ := Option.bind_eq_some_iff.1 hs
    obtain ⟨l', h3, h4⟩ := Option.map_eq_some_iff.1 h2
    cases h3; cases h4
    exact setLoc_inv h hl rfl rfl
  | allowSpilling id =>
    obtain ⟨l, hl, h2⟩ := Option.bind_eq_some_iff.1 hs
    obtain ⟨l', h3, h4⟩ := Option.map_eq_some_iff.1 h2
    dsimp only at h3
    split at h3
    · cases h3
    · cases h3; cases h4
      exact setLoc_inv h hl rfl rfl
  | preventFreeing id =>
    obtain ⟨l, hl, h2⟩ := Option.bind_eq_some_iff.1 hs
    obtain ⟨l', h3, h4⟩ := Option.map_eq_some_iff.1 h2
    cases h3; cases h4
    exact setLoc_inv h hl rfl rfl
  | allowFreeing id =>
    obtain ⟨l, hl, h2⟩ := Option.bind_eq_some_iff.1 hs
    obtain ⟨l', h3, h4⟩ := Option.map_eq_some_iff.1 h2
    dsimp only at h3
    split at h3
    · cases h3
    · cases h3; cases h4
      exact setLoc_inv h hl rfl rfl
  | free id => exact free_inv h hs
  | spillAll => exact spillList_inv _ _ _ h hs
  | call after =>
    obtain ⟨s1, h1, h2⟩ := Option.map_eq_some_iff.1 hs
    cases h2
    refine regs_inv (spillList_inv _ _ _ h h1) _ (fun r id hm => if_neg (fun hr => ?_))
    rw [spillAll_frame h1 r hr] at hm; cases hm

theorem run_inv : ∀ (ops : List Op) (s s' : State) (a : Spec.RegAlloc.Values), Inv s a → run s ops = some s' →
    Inv s' (Spec.RegAlloc.run a ops)
  | [], s, s', a, h, hs => by cases hs; exact h
  | op :: ops, s, s', a, h, hs => by
    unfold run at hs
    obtain ⟨s1, h1, h2⟩ := Option.bind_eq_some_iff.1 hs
    exact run_inv ops s1 s' _ (step_inv h op h1) h2

theorem start_inv (base regs mem) : Inv (start base regs mem) {} := by
  refine ⟨rfl, fun _ _ => rfl, ?_, ?_, ?_, ?_, ?_⟩
  · intro _ _ h; cases h
  · intro _ _ h; cases h
  · intro _ _ _ h; cases h
  · intro _ _ _ h; cases h
  · intro _ _ _ _ _ _ h; cases h

/-- **C51.** Whatever the emitter does with locations, every location that was not freed holds the value last written to it,
whether it is in a register, was spilled for another value, before a jump or before a call, or was loaded again. -/
theorem C51_values (base regs mem) (ops : List Op) {s : State} (h : run (start base regs mem) ops = some s) (id : Nat)
    (hl : live s id = true) : value s id = some ((Spec.RegAlloc.run {} ops).value id) := by
  have hi := run_inv ops _ _ _ (start_inv base regs mem) h
  unfold live at hl
  unfold value
  cases hc : s.locs id with
  | none => rw [hc] at hl; cases hl
  | some l =>
    rw [hc] at hl
    obtain ⟨place, size, ps, pf⟩ := l
    cases place with
    | loaded r => exact congrArg some (hi.loaded id _ r hc rfl).2
    | stack o => exact congrArg some (hi.slot id _ o hc rfl).2.2.2
    | freed => simp at hl

/-- The example below: the second value needs the register of the first, which is spilled; the call
spills the second one too; then the first is loaded again. -/
def sample : List Op :=
  [.computeIn ⟨.gpr, 1⟩ 4 (2 ^ 32 + 11), .write 0 (2 ^ 40 + 12), .computeIn ⟨.gpr, 1⟩ 8 22, .call (fun _ => 7), .reload .gpr 0]

example : ((run (start 32 (fun _ => 0) (fun _ => 0)) sample).map (fun s =>
    (live s 0, [1, 2].map (value s)))) = some (false, [some 22, some 12]) := by decide +kernel

/-! ## The stack -/

theorem spill_mem {s s' : State} {r} (hs : spill s r = some s') : s'.base = s.base ∧ ∀ d, d ≤ s.base → s'.mem d = s.mem d := by
  unfold spill at hs
  split at hs
  · cases hs
  · split at hs
    · cases hs
    · split at hs
      · rename_i l _ hc
        cases hs
        refine ⟨rfl, fun d hd => ?_⟩
        dsimp only
        simp only [Bool.and_eq_true] at hc
        have := powerOfTwo_pos hc.2
        generalize Align.alignUp s.temp l.size = al
        exact store_outside _ _ _ _ _ (by omega) (by omega)
      · cases hs

/-- The base is the same and the bytes above it too. -/
def Kept (s s' : State) : Prop := s'.base = s.base ∧ ∀ d, d ≤ s.base → s'.mem d = s.mem d

theorem Kept.refl (s : State) : Kept s s := ⟨rfl, fun _ _ => rfl⟩

theorem Kept.trans {s t u : State} (h : Kept s t) (h' : Kept t u) : Kept s u :=
  ⟨h'.1.trans h.1, fun d hd => (h'.2 d (by rw [h.1]; exact hd)).trans (h.2 d hd)⟩

theorem allocateSpecific_mem {s s' : State} {r} (hs : allocateSpecific s r = some s') : Kept s s' := by
  unfold allocateSpecific at hs
  split at hs
  · exact spill_mem hs
  · cases hs; exact Kept.refl _

theorem spillList_mem : ∀ (rs : List Reg) (s s' : State), spillList s rs = some s' → Kept s s'
  | [], s, s', hs => by cases hs; exact Kept.refl _
  | r :: rs, s, s', hs => by
    unfold spillList at hs
    obtain ⟨s1, h1, h2⟩ := Option.bind_eq_some_iff.1 hs
    exact (allocateSpecific_mem h1).trans (spillList_mem rs _ _ h2)

theorem allocate_mem {s s' : State} {k r} (hs : allocate s k = some (r, s')) : Kept s s' := by
  obtain ⟨_, f, h | h⟩ := allocate_frame hs
  · rw [h.2]; exact ⟨rfl, fun _ _ => rfl⟩
  · exact ⟨(spill_mem h).1, (spill_mem h).2⟩

theorem newLoaded_mem {s s' : State} {r size v} (hs : newLoaded s r size v = some s') : Kept s s' := by
  unfold newLoaded at hs
  split at hs
  · cases hs; exact ⟨rfl, fun _ _ => rfl⟩
  · cases hs

theorem newStack_mem {s s' : State} {size align v} (hs : newStack s size align v = some s') : Kept s s' := by
  unfold newStack at hs
  split at hs
  · rename_i hn
    simp only [Bool.and_eq_true, decide_eq_true_eq] at hn
    cases hs
    refine ⟨rfl, fun d hd => ?_⟩
    dsimp only
    generalize Align.alignUp s.temp align = al
    exact store_outside _ _ _ _ _ (by omega) (by omega)
  · cases hs

theorem free_kept {s s' : State} {id} (hs : free s id = some s') : Kept s s' := by
  unfold free at hs
  split at hs
  · cases hs
  · split at hs
    · cases hs
    · split at hs <;> cases hs <;> exact ⟨rfl, fun _ _ => rfl⟩
    · split at hs <;> cases hs <;> exact ⟨rfl, fun _ _ => rfl⟩

theorem setLoc_mem {s s' : State} {id f} (hs : setLoc s id f = some s') : Kept s s' := by
  obtain ⟨l, hl, h2⟩ := Option.bind_eq_some_iff.1 hs
  obtain ⟨l', h3, h4⟩ := Option.map_eq_some_iff.1 h2
  cases h4; exact ⟨rfl, fun _ _ => rfl⟩

theorem step_mem {s s' : State} (op : Op) (hs : step s op = some s') : Kept s s' := by
  cases op with
  | compute k size v =>
    obtain ⟨⟨r, s1⟩, h1, h2⟩ := Option.bind_eq_some_iff.1 hs
    exact (allocate_mem h1).trans (newLoaded_mem h2)
  | computeIn r size v =>
    obtain ⟨s1, h1, h2⟩ := Option.bind_eq_some_iff.1 hs
    exact (allocateSpecific_mem h1).trans (newLoaded_mem h2)
  | reload k id =>
    unfold step at hs
    dsimp only at hs
    split at hs
    · obtain ⟨⟨r, s1⟩, h1, h2⟩ := Option.bind_eq_some_iff.1 hs
      obtain ⟨s2, h3, h4⟩ := Option.bind_eq_some_iff.1 h2
      exact ((allocate_mem h1).trans (free_kept h3)).trans (newLoaded_mem h4)
    · cases hs
  | temporary size align v => exact newStack_mem hs
  | write id v =>
    unfold step at hs
    dsimp only at hs
    split at hs
    · cases hs; exact ⟨rfl, fun _ _ => rfl⟩
    · cases hs
  | preventSpilling id => exact setLoc_mem hs
  | allowSpilling id => exact setLoc_mem hs
  | preventFreeing id => exact setLoc_mem hs
  | allowFreeing id => exact setLoc_mem hs
  | free id => exact free_kept hs
  | spillAll => exact spillList_mem _ _ _ hs
  | call after =>
    obtain ⟨s1, h1, h2⟩ := Option.map_eq_some_iff.1 hs
    cases h2
    exact (spillList_mem _ _ _ h1).trans ⟨rfl, fun _ _ => rfl⟩

theorem run_mem : ∀ (ops : List Op) (s s' : State), run s ops = some s' → Kept s s'
  | [], s, s', hs => by cases hs; exact Kept.refl _
  | op :: ops, s, s', hs => by
    unfold run at hs
    obtain ⟨s1, h1, h2⟩ := Option.bind_eq_some_iff.1 hs
    exact (step_mem op h1).trans (run_mem ops _ _ h2)

/-- **C51, the stack.** Spilled values are below the local variables of the function, which spilling does not change, inside the space
that is reserved in the end, and no two of them share a byte. -/
theorem C51_slots (base regs mem) (ops : List Op) {s : State} (h : run (start base regs mem) ops = some s) :
    (∀ d, d ≤ base → s.mem d = mem d) ∧
    (∀ id l o, s.locs id = some l → l.place = .stack o → ∀ d, o < d + l.size → d ≤ o → base < d ∧ d ≤ base + s.temp) ∧
    (∀ id id' l l' o o', s.locs id = some l → s.locs id' = some l' → l.place = .stack o → l'.place = .stack o' → id ≠ id' →
      ∀ d, ¬ ((o < d + l.size ∧ d ≤ o) ∧ (o' < d + l'.size ∧ d ≤ o'))) := by
  have hi := run_inv ops _ _ _ (start_inv base regs mem) h
  obtain ⟨hb, hm⟩ := run_mem ops _ _ h
  have hb : s.base = base := hb
  refine ⟨hm, ?_, ?_⟩
  · intro id l o hl hp d h1 h2
    obtain ⟨h3, h4, _⟩ := hi.slot id l o hl hp
    omega
  · intro id id' l l' o o' hl hl' hp hp' hne d hd
    rcases hi.apart id id' l l' o o' hl hl' hp hp' hne with h1 | h1 <;> omega


example : ((run (start 32 (fun _ => 0) (fun d => d)) sample).map (fun s => (s.mem 7, s.temp, s.locs 1, s.locs 2))) =
  some (7, 16, some ⟨.stack 48, 8, 0, 0⟩, some ⟨.loaded ⟨.gpr, 1⟩, 4, 0, 0⟩) := by decide +kernel

/-! ## The choice of a register -/

theorem mem_order {k n r} : r ∈ order k n ↔ r ∈ volatiles k := by
  unfold order
  rw [List.mem_append]
  constructor
  · rintro (h | h)
    · exact List.mem_of_mem_drop h
    · exact List.mem_of_mem_take h
  · intro h
    rw [← List.take_append_drop n (volatiles k), List.mem_append] at h
    exact h.symm

/-- **C51, the choice.** The register that is handed out is a volatile one of the requested kind, no location is in it any more, and
every locked location is where it was. -/
theorem C51_allocate (base regs mem) (ops : List Op) {s : State} (h : run (start base regs mem) ops = some s) (k : Kind) {r s'}
    (ha : allocate s k = some (r, s')) :
    r ∈ volatiles k ∧ (∀ id l, s'.locs id = some l → l.place ≠ .loaded r) ∧
    (∀ id l, s.locs id = some l → l.preventSpilling ≠ 0 → s'.locs id = some l) ∧
    (∀ r', r' ≠ r → s'.map r' = s.map r') := by
  have hi := run_inv ops _ _ _ (start_inv base regs mem) h
  have hi' := allocate_inv hi ha
  obtain ⟨hm, f, hf⟩ := allocate_frame ha
  have hn : s'.map r = none := by
    rcases hf with hf | hf
    · rw [hf.2]; exact hf.1
    · exact (spill_frame hf).1
  refine ⟨mem_order.1 hm, ?_, ?_, ?_⟩
  · intro id l hl hp
    have := (hi'.loaded id l r hl hp).1
    rw [hn] at this; cases this
  · intro id l hl hp
    rcases hf with hf | hf
    · rw [hf.2]; exact hl
    · obtain ⟨_, _, _, _, _, id', l', o', h1, h2, h3, h4, h5⟩ := spill_frame hf
      have : id ≠ id' := by
        rintro rfl
        have h2 : s.locs id = some l' := h2
        rw [hl] at h2; cases h2; exact hp h3
      rw [h5 id this]; exact hl
  · intro r' hr
    rcases hf with hf | hf
    · rw [hf.2]
    · exact (spill_frame hf).2.1 r' hr


/-- All general purpose registers are in use and the first is locked: the second is handed out. -/
example : (run (start 32 (fun _ => 0) (fun _ => 0))
      (((volatiles .gpr).mapIdx (fun i r => .computeIn r 8 i)) ++ [.preventSpilling 0])).bind
    (fun s => (allocate s .gpr).map (fun p => (p.1, p.2.locs 0, p.2.locs 1))) =
  some (⟨.gpr, 2⟩, some ⟨.loaded ⟨.gpr, 1⟩, 8, 1, 0⟩, some ⟨.stack 40, 8, 0, 0⟩) := by decide +kernel

/-- **C51, exhaustion.** When the locations have sizes that registers have, no register is found exactly if every volatile register of the
kind holds a locked location. -/
theorem C51_exhausted (base regs mem) (ops : List Op) {s : State} (h : run (start base regs mem) ops = some s)
    (hsz : ∀ id l, s.locs id = some l → powerOfTwo l.size = true) (k : Kind) :
    allocate s k = none ↔
      ∀ r ∈ volatiles k, ∃ id l, s.locs id = some l ∧ l.place = .loaded r ∧ l.preventSpilling ≠ 0 := by
  have hi := run_inv ops _ _ _ (start_inv base regs mem) h
  unfold allocate
  dsimp only
  split
  · rename_i r hf
    refine ⟨fun h => (by cases h), fun hall => ?_⟩
    obtain ⟨id, l, hl, hp, _⟩ := hall r (mem_order.1 (List.mem_of_find?_eq_some hf))
    have h1 := List.find?_some hf
    rw [(hi.loaded id l r hl hp).1] at h1
    cases h1
  · rename_i hnone
    split
    · rename_i r hf
      have hu := List.find?_some hf
      unfold unlocked at hu
      dsimp only at hu
      have hm := mem_order.1 (List.mem_of_find?_eq_some hf)
      refine ⟨fun h => ?_, fun hall => ?_⟩
      · split at hu
        · cases hu
        · rename_i id hid
          split at hu
          · cases hu
          · rename_i l hl
            have hu : l.preventSpilling = 0 := by simpa using hu
            have hid : s.map r = some id := hid
            have hl : s.locs id = some l := hl
            rw [Option.map_eq_none_iff] at h
            unfold spill at h
            dsimp only at h
            rw [hid] at h
            dsimp only at h
            rw [hl] at h
            dsimp only at h
            rw [if_pos (by simp [hu, hsz id l hl])] at h
            cases h
      · obtain ⟨id, l, hl, hp, hlock⟩ := hall r hm
        rw [(hi.loaded id l r hl hp).1] at hu
        dsimp only at hu
        rw [hl] at hu
        dsimp only at hu
        exact absurd (by simpa using hu) hlock
    · rename_i hno
      refine ⟨fun _ r hr => ?_, fun _ => rfl⟩
      have h1 := List.find?_eq_none.1 hnone r (mem_order.2 hr)
      have h2 := List.find?_eq_none.1 hno r (mem_order.2 hr)
      cases hm : s.map r with
      | none => rw [hm] at h1; exact absurd rfl h1
      | some id =>
        obtain ⟨l, hl, hp⟩ := hi.mapped r id hm
        refine ⟨id, l, hl, hp, fun hz => h2 ?_⟩
        unfold unlocked
        dsimp only
        rw [hm]
        dsimp only
        rw [hl]
        simp [hz]


/-- Six locked locations in the float registers: the next request for one fails, one for a general purpose register does not. -/
example : (run (start 32 (fun _ => 0) (fun _ => 0))
      ((volatiles .xmm).mapIdx (fun i r => [.computeIn r 8 i, .preventSpilling i])).flatten).map
    (fun s => ((allocate s .gpr).isNone, (allocate s .xmm).isNone)) = some (false, true) := by decide +kernel

end Verif.Props.RegAlloc
