import Verif.Model.Scope
import Verif.Spec.Scope
import Verif.Lemmas.Probe
import Mathlib.Data.Nat.ModEq

/-!
# C26: lookup finds the latest declaration in the innermost scope that has one
-/
namespace Verif.Props.Scope
open Verif.Scope Verif.Probe
open Verif.Spec.Scope (Event Open after Means Latest Silent)

theorem slot_inj {max h o o' : Nat} (ho : o < max) (ho' : o' < max) (he : (o + h) % max = (o' + h) % max) : o = o' := by
  have : o ≡ o' [MOD max] := Nat.ModEq.add_right_cancel' h he
  have := this
  unfold Nat.ModEq at this
  rwa [Nat.mod_eq_of_lt ho, Nat.mod_eq_of_lt ho'] at this

theorem slot_lt {max o : Nat} (h : Nat) (ho : o < max) : (o + h) % max < max := Nat.mod_lt _ (by omega)

/-- The declaration in a cell, if the cell declares `k`. -/
def val (cells : Nat → Cell) (max h k o : Nat) : Option Nat :=
  match cells ((o + h) % max) with
  | .decl k' d => if k' = k then some d else none
  | _ => none

/-- The declarations of `k` met by a search from offset `a` over `n` cells. -/
def seg (cells : Nat → Cell) (max h k a n : Nat) : List Nat := (List.range' a n).filterMap (val cells max h k)

theorem val_some {cells : Nat → Cell} {max h k o d : Nat} : val cells max h k o = some d ↔ cells ((o + h) % max) = .decl k d := by
  unfold val
  constructor
  · intro h
    split at h
    · rename_i k' d' he
      split at h
      · rename_i hk; cases h; rw [he, hk]
      · cases h
    · cases h
  · intro h; rw [h]; simp

theorem seg_append (cells : Nat → Cell) (max h k a m n : Nat) : seg cells max h k a (m + n) = seg cells max h k a m ++ seg cells max h k (a + m) n := by
  unfold seg
  rw [← List.range'_append_1, List.filterMap_append]

theorem seg_one (cells : Nat → Cell) (max h k a : Nat) : seg cells max h k a 1 = (val cells max h k a).toList := by
  unfold seg
  rw [List.range'_one]
  cases hv : val cells max h k a <;> simp [List.filterMap, hv]

theorem seg_zero (cells : Nat → Cell) (max h k a : Nat) : seg cells max h k a 0 = [] := rfl

theorem seg_succ (cells : Nat → Cell) (max h k a n : Nat) : seg cells max h k a (n + 1) = (val cells max h k a).toList ++ seg cells max h k (a + 1) n := by
  rw [Nat.add_comm n 1, seg_append, seg_one]

theorem seg_congr {cells cells' : Nat → Cell} {max h k a n : Nat} (hc : ∀ o, a ≤ o → o < a + n → val cells max h k o = val cells' max h k o) :
    seg cells max h k a n = seg cells' max h k a n := by
  unfold seg
  apply List.filterMap_congr
  intro o ho
  rw [List.mem_range'_1] at ho
  exact hc o ho.1 ho.2

theorem seg_nil {cells : Nat → Cell} {max h k a n : Nat} (hc : ∀ o, a ≤ o → o < a + n → ∀ d, cells ((o + h) % max) ≠ .decl k d) : seg cells max h k a n = [] := by
  unfold seg
  rw [List.filterMap_eq_nil_iff]
  intro o ho
  rw [List.mem_range'_1] at ho
  cases hv : val cells max h k o with
  | none => rfl
  | some d => exact absurd (val_some.mp hv) (hc o ho.1 ho.2 d)

theorem mem_seg {cells : Nat → Cell} {max h k a n d : Nat} (hd : d ∈ seg cells max h k a n) : ∃ o, a ≤ o ∧ o < a + n ∧ cells ((o + h) % max) = .decl k d := by
  unfold seg at hd
  rw [List.mem_filterMap] at hd
  obtain ⟨o, ho, hv⟩ := hd
  rw [List.mem_range'_1] at ho
  exact ⟨o, ho.1, ho.2, val_some.mp hv⟩

/-- The declaration in a cell. -/
def live : Cell → Option (Nat × Nat)
  | .decl k d => some (k, d)
  | _ => none

/-- There are no tombstones. -/
def NoTomb (cells : Nat → Cell) (max : Nat) : Prop := ∀ p, p < max → cells p ≠ .tomb

/-- Every declaration can be reached from the hash of its name without meeting a null. -/
def Reach (hash : Nat → Nat) (cells : Nat → Cell) (max : Nat) : Prop :=
  ∀ p k d, p < max → cells p = .decl k d → ∃ o, o < max ∧ p = (o + hash k) % max ∧ ∀ o' < o, cells ((o' + hash k) % max) ≠ .null

/-- The number of declarations. -/
def count (cells : Nat → Cell) (max : Nat) : Nat := (occupied max fun p => live (cells p)).card

theorem Reach.before {hash : Nat → Nat} {cells : Nat → Cell} {max : Nat} (hr : Reach hash cells max) {k d o f : Nat} (ho : o < max) (hf : f < max)
    (hd : cells ((o + hash k) % max) = .decl k d) (hn : cells ((f + hash k) % max) = .null) : o < f := by
  obtain ⟨o', ho', he, hb⟩ := hr _ k d (slot_lt _ ho) hd
  have := slot_inj ho ho' he
  subst this
  rcases Nat.lt_trichotomy o f with h | h | h
  · exact h
  · subst h; rw [hd] at hn; cases hn
  · exact absurd hn (hb f h)

/-- The same for any name with the same hash. -/
theorem Reach.before' {hash : Nat → Nat} {cells : Nat → Cell} {max : Nat} (hr : Reach hash cells max) {h k d o f : Nat} (hk : hash k = h) (ho : o < max) (hf : f < max)
    (hd : cells ((o + h) % max) = .decl k d) (hn : cells ((f + h) % max) = .null) : o < f := by
  subst hk; exact hr.before ho hf hd hn

theorem first_null {cells : Nat → Cell} {max : Nat} (hnt : NoTomb cells max) (hc : count cells max < max) (h : Nat) :
    ∃ f, f < max ∧ cells ((f + h) % max) = .null ∧ ∀ o < f, cells ((o + h) % max) ≠ .null := by
  obtain ⟨f, hf, hn, hb⟩ := first_free (nodes := fun p => live (cells p)) hc h
  refine ⟨f, hf, ?_, fun o ho hx => hb o ho ?_⟩
  · rw [Nat.add_comm] at hn
    cases hx : cells ((f + h) % max) with
    | null => rfl
    | tomb => exact absurd hx (hnt _ (slot_lt _ hf))
    | decl k d => rw [hx] at hn; cases hn
  · rw [Nat.add_comm, hx]; rfl

/-! ## Putting a declaration at the end of its chain -/

theorem place_spec {new : Nat → Cell} {newMax h f : Nat} {c : Cell} (hn : new ((f + h) % newMax) = .null) (hb : ∀ o < f, new ((o + h) % newMax) ≠ .null)
    (fuel o : Nat) (ho : o ≤ f) (hfuel : f - o < fuel) : place new newMax h c o fuel = set new ((f + h) % newMax) c := by
  induction fuel generalizing o with
  | zero => omega
  | succ fuel ih =>
    rw [place]
    by_cases he : o = f
    · subst he; rw [if_pos hn]
    · rw [if_neg (hb o (by omega))]
      exact ih (o + 1) (by omega) (by omega)

theorem set_ne {cells : Nat → Cell} {i j : Nat} {c : Cell} (h : j ≠ i) : set cells i c j = cells j := if_neg h

theorem set_eq {cells : Nat → Cell} {i : Nat} {c : Cell} : set cells i c i = c := if_pos rfl

theorem append_noTomb {cells : Nat → Cell} {max p k d : Nat} (h : NoTomb cells max) : NoTomb (set cells p (.decl k d)) max := by
  intro q hq
  by_cases he : q = p
  · subst he; rw [set_eq]; exact fun h => by cases h
  · rw [set_ne he]; exact h q hq

theorem append_reach {hash : Nat → Nat} {cells : Nat → Cell} {max k d f : Nat} (hr : Reach hash cells max) (hf : f < max)
    (hb : ∀ o < f, cells ((o + hash k) % max) ≠ .null) : Reach hash (set cells ((f + hash k) % max) (.decl k d)) max := by
  have keep : ∀ q, cells q ≠ .null → set cells ((f + hash k) % max) (.decl k d) q ≠ .null := by
    intro q hq
    by_cases he : q = (f + hash k) % max
    · subst he; rw [set_eq]; exact fun h => by cases h
    · rw [set_ne he]; exact hq
  intro p k' d' hp hd
  by_cases he : p = (f + hash k) % max
  · subst he
    rw [set_eq] at hd
    cases hd
    exact ⟨f, hf, rfl, fun o ho => keep _ (hb o ho)⟩
  · rw [set_ne he] at hd
    obtain ⟨o, h1, h2, h3⟩ := hr p k' d' hp hd
    exact ⟨o, h1, h2, fun o' ho' => keep _ (h3 o' ho')⟩

theorem append_count {cells : Nat → Cell} {max p k d : Nat} (hp : p < max) (hn : cells p = .null) : count (set cells p (.decl k d)) max = count cells max + 1 := by
  unfold count
  have : (fun q => live (set cells p (.decl k d) q)) = fun j => if j = p then some (k, d) else live (cells j) := by
    funext q
    by_cases he : q = p
    · subst he; rw [set_eq, if_pos rfl]; rfl
    · rw [set_ne he, if_neg he]
  rw [this]
  exact occupied_insert hp (by rw [hn]; rfl) (k, d)

theorem append_seg {hash : Nat → Nat} {cells : Nat → Cell} {max k d f : Nat} (hr : Reach hash cells max) (hf : f < max) (hn : cells ((f + hash k) % max) = .null) (k' : Nat) :
    seg (set cells ((f + hash k) % max) (.decl k d)) max (hash k') k' 0 max = seg cells max (hash k') k' 0 max ++ if k' = k then [d] else [] := by
  by_cases hk : k' = k
  · subst hk
    rw [if_pos rfl]
    have e : max = f + (1 + (max - f - 1)) := by omega
    have hv : ∀ o, o < max → o ≠ f → val (set cells ((f + hash k') % max) (.decl k' d)) max (hash k') k' o = val cells max (hash k') k' o := by
      intro o ho hne
      unfold val
      rw [set_ne (fun he => hne (slot_inj ho hf he))]
    have hafter : ∀ o, f + 1 ≤ o → o < f + 1 + (max - f - 1) → ∀ d, cells ((o + hash k') % max) ≠ .decl k' d := by
      intro o h1 h2 d' hd
      have := hr.before (by omega) hf hd hn
      omega
    have hs : ∀ c : Nat → Cell, seg c max (hash k') k' 0 max = seg c max (hash k') k' 0 f ++ ((val c max (hash k') k' f).toList ++ seg c max (hash k') k' (f + 1) (max - f - 1)) := by
      intro c
      rw [← seg_succ]
      have := seg_append c max (hash k') k' 0 f (max - f - 1 + 1)
      rw [show f + (max - f - 1 + 1) = max by omega, Nat.zero_add] at this
      exact this
    rw [hs, hs cells, seg_nil hafter]
    rw [show seg (set cells ((f + hash k') % max) (.decl k' d)) max (hash k') k' (f + 1) (max - f - 1) = [] from by
      rw [seg_congr (fun o h1 h2 => hv o (by omega) (by omega))]; exact seg_nil hafter]
    rw [seg_congr (fun o h1 h2 => hv o (by omega) (by omega))]
    have h1 : val (set cells ((f + hash k') % max) (.decl k' d)) max (hash k') k' f = some d := val_some.mpr set_eq
    have h2 : val cells max (hash k') k' f = none := by unfold val; rw [hn]
    rw [h1, h2]
    simp
  · rw [if_neg hk, List.append_nil]
    apply seg_congr
    intro o _ _
    unfold val
    by_cases he : (o + hash k') % max = (f + hash k) % max
    · rw [he, set_eq, hn]
      simp only
      rw [if_neg (fun h => hk h.symm)]
    · rw [set_ne he]

/-! ## Growing -/

/-- The state of the move: of the declarations with hash `h` the ones at the first `c h` offsets of the
old table `T` are moved. -/
structure Moving (hash : Nat → Nat) (T : Nat → Cell) (max newMax : Nat) (c : Nat → Nat) (old new : Nat → Cell) : Prop where
  moved : ∀ p k d, p < max → T p = .decl k d → (∃ o < c (hash k), p = (o + hash k) % max) → old p = .tomb
  kept : ∀ p k d, p < max → T p = .decl k d → (¬ ∃ o < c (hash k), p = (o + hash k) % max) → old p = .decl k d
  null : ∀ p, p < max → T p = .null → old p = .null
  noTomb : NoTomb new newMax
  reach : Reach hash new newMax
  order : ∀ k, seg new newMax (hash k) k 0 newMax = seg T max (hash k) k 0 (c (hash k))
  total : count new newMax + count old max = count T max

theorem count_le (cells : Nat → Cell) (max : Nat) : count cells max ≤ max := by
  have := Finset.card_filter_le (Finset.range max) fun p => (live (cells p)).isSome = true
  rwa [Finset.card_range] at this

theorem count_tomb {cells : Nat → Cell} {max p k d : Nat} (hp : p < max) (hd : cells p = .decl k d) : count (set cells p .tomb) max + 1 = count cells max := by
  unfold count
  have : (fun q => live (cells q)) = fun j => if j = p then some (k, d) else live (set cells p .tomb j) := by
    funext q
    by_cases he : q = p
    · subst he; rw [if_pos rfl, hd]; rfl
    · rw [if_neg he, set_ne he]
  rw [this]
  exact (occupied_insert hp (by rw [set_eq]; rfl) (k, d)).symm

/-- Counting one more offset of the hash `h`. -/
def bump (c : Nat → Nat) (h n : Nat) : Nat → Nat := fun x => if x = h then n else c x

theorem moving_skip {hash : Nat → Nat} {T : Nat → Cell} {max newMax h o n : Nat} {c : Nat → Nat} {old new : Nat → Cell}
    (hm : Moving hash T max newMax c old new) (hc : c h = o) (hon : o ≤ n) (hn : n ≤ max)
    (hskip : ∀ o', o ≤ o' → o' < n → ∀ k d, hash k = h → T ((o' + h) % max) ≠ .decl k d) :
    Moving hash T max newMax (bump c h n) old new := by
  have hiff : ∀ p k d, p < max → T p = .decl k d → ((∃ o < bump c h n (hash k), p = (o + hash k) % max) ↔ ∃ o < c (hash k), p = (o + hash k) % max) := by
    intro p k d hp hT
    unfold bump
    by_cases hk : hash k = h
    · rw [if_pos hk, hk, hc]
      constructor
      · rintro ⟨o', h1, h2⟩
        refine ⟨o', ?_, h2⟩
        by_cases hlt : o' < o
        · exact hlt
        · exact absurd (h2 ▸ hT) (hskip o' (by omega) h1 k d hk)
      · rintro ⟨o', h1, h2⟩; exact ⟨o', by omega, h2⟩
    · rw [if_neg hk]
  refine ⟨fun p k d hp hT he => hm.moved p k d hp hT ((hiff p k d hp hT).mp he),
    fun p k d hp hT he => hm.kept p k d hp hT (fun h' => he ((hiff p k d hp hT).mpr h')), hm.null, hm.noTomb, hm.reach, ?_, hm.total⟩
  intro k
  rw [hm.order]
  unfold bump
  by_cases hk : hash k = h
  · rw [if_pos hk, hk, hc]
    have := seg_append T max h k 0 o (n - o)
    rw [show o + (n - o) = n by omega, Nat.zero_add] at this
    rw [this, seg_nil (a := o) (fun o' h1 h2 d hd => hskip o' h1 (by omega) k d hk hd), List.append_nil]
  · rw [if_neg hk]

theorem moveChain_spec {hash : Nat → Nat} {T : Nat → Cell} {max newMax h : Nat} (hT : NoTomb T max) (hr : Reach hash T max) (hmax : max < newMax)
    (fuel o : Nat) (ho : o + fuel = max) (c : Nat → Nat) (old new : Nat → Cell) (hm : Moving hash T max newMax c old new) (hc : c h = o) :
    Moving hash T max newMax (bump c h max) (moveChain hash max newMax h old new o fuel).1 (moveChain hash max newMax h old new o fuel).2 := by
  induction fuel generalizing o c old new with
  | zero =>
    rw [moveChain]
    exact moving_skip hm hc (by omega) (Nat.le_refl _) (fun o' h1 h2 => by omega)
  | succ fuel ih =>
    have hlt : o < max := by omega
    have hbump : ∀ c : Nat → Nat, bump (bump c h (o + 1)) h max = bump c h max := by
      intro c; funext x; unfold bump; by_cases hx : x = h <;> simp [hx]
    have hself : bump c h (o + 1) h = o + 1 := if_pos rfl
    rw [moveChain]
    cases hx : T ((o + h) % max) with
    | null =>
      rw [hm.null _ (slot_lt _ hlt) hx]
      refine moving_skip hm hc (by omega) (Nat.le_refl _) (fun o' h1 h2 k d hk hd => ?_)
      have := hr.before' hk h2 hlt hd hx
      omega
    | tomb => exact absurd hx (hT _ (slot_lt _ hlt))
    | decl k d =>
      by_cases hk : hash k = h
      · have hold : old ((o + h) % max) = .decl k d := by
          refine hm.kept _ k d (slot_lt _ hlt) hx ?_
          rintro ⟨o', h1, h2⟩
          rw [hk] at h1 h2
          have := slot_inj hlt (by omega) h2
          omega
        rw [hold]
        simp only
        rw [if_neg (fun h' => h' hk)]
        have hcount := count_tomb (slot_lt h hlt) hold
        have hnc : count new newMax < newMax := by
          have := hm.total
          have := count_le T max
          omega
        obtain ⟨f, hf, hfn, hfb⟩ := first_null hm.noTomb hnc h
        have hpl := place_spec (c := .decl k d) hfn hfb newMax 0 (by omega) (by omega)
        rw [hpl, ← hbump]
        subst hk
        refine ih (o + 1) (by omega) (bump c (hash k) (o + 1)) _ _ ⟨?_, ?_, ?_, append_noTomb hm.noTomb, append_reach hm.reach hf hfb, ?_, ?_⟩ hself
        · intro p k' d' hp hTp he
          by_cases hpe : p = (o + hash k) % max
          · subst hpe; rw [set_eq]
          · rw [set_ne hpe]
            refine hm.moved p k' d' hp hTp ?_
            obtain ⟨o', h1, h2⟩ := he
            unfold bump at h1
            by_cases hk : hash k' = hash k
            · rw [if_pos hk] at h1
              refine ⟨o', ?_, h2⟩
              rw [hk] at h2 ⊢
              have : o' ≠ o := fun e => hpe (e ▸ h2)
              omega
            · rw [if_neg hk] at h1; exact ⟨o', h1, h2⟩
        · intro p k' d' hp hTp he
          have hpe : p ≠ (o + hash k) % max := by
            intro e
            apply he
            subst e
            rw [hx] at hTp
            cases hTp
            exact ⟨o, by unfold bump; rw [if_pos rfl]; omega, rfl⟩
          rw [set_ne hpe]
          refine hm.kept p k' d' hp hTp (fun ⟨o', h1, h2⟩ => he ⟨o', ?_, h2⟩)
          unfold bump
          by_cases hk : hash k' = hash k
          · rw [if_pos hk]; rw [hk, hc] at h1; omega
          · rw [if_neg hk]; exact h1
        · intro p hp hTp
          have hpe : p ≠ (o + hash k) % max := fun e => by rw [e, hx] at hTp; cases hTp
          rw [set_ne hpe]; exact hm.null p hp hTp
        · intro k'
          rw [append_seg hm.reach hf hfn k', hm.order k']
          unfold bump
          by_cases hk : hash k' = hash k
          · rw [if_pos hk, hk, hc]
            have := seg_append T max (hash k) k' 0 o 1
            rw [Nat.zero_add] at this
            rw [this, seg_one]
            congr 1
            unfold val
            rw [hx]
            simp only
            by_cases hkk : k' = k
            · rw [if_pos hkk, if_pos hkk.symm]; rfl
            · rw [if_neg hkk, if_neg (fun e => hkk e.symm)]; rfl
          · rw [if_neg hk, if_neg (fun e => hk (by rw [e])), List.append_nil]
        · rw [append_count (slot_lt _ hf) hfn]
          have := hm.total
          omega
      · have hstep : Moving hash T max newMax (bump c h (o + 1)) old new := by
          refine moving_skip hm hc (by omega) (by omega) (fun o' h1 h2 k' d' hk' hd => ?_)
          have : o' = o := by omega
          subst this
          rw [hx] at hd
          cases hd
          exact hk hk'
        have hgo : ∀ (t : (Nat → Cell) × (Nat → Cell)), t = moveChain hash max newMax h old new (o + 1) fuel → Moving hash T max newMax (bump c h max) t.1 t.2 := by
          intro t ht
          rw [ht, ← hbump]
          exact ih (o + 1) (by omega) _ old new hstep hself
        by_cases hmv : ∃ o' < c (hash k), (o + h) % max = (o' + hash k) % max
        · rw [hm.moved _ k d (slot_lt _ hlt) hx hmv]
          exact hgo _ rfl
        · rw [hm.kept _ k d (slot_lt _ hlt) hx hmv]
          simp only
          rw [if_pos hk]
          exact hgo _ rfl

theorem moveAll_spec {hash : Nat → Nat} {T : Nat → Cell} {max newMax : Nat} (hT : NoTomb T max) (hr : Reach hash T max) (hmax : max < newMax)
    (fuel i : Nat) (hi : i + fuel = max) (c : Nat → Nat) (old new : Nat → Cell) (hm : Moving hash T max newMax c old new)
    (hc : ∀ h, c h = 0 ∨ c h = max) (hdone : ∀ p k d, p < i → T p = .decl k d → c (hash k) = max) :
    ∃ c' : Nat → Nat, Moving hash T max newMax c' (moveAll hash max newMax old new i fuel).1 (moveAll hash max newMax old new i fuel).2 ∧
      (∀ h, c' h = 0 ∨ c' h = max) ∧ ∀ p k d, p < max → T p = .decl k d → c' (hash k) = max := by
  induction fuel generalizing i c old new with
  | zero =>
    rw [moveAll]
    exact ⟨c, hm, hc, fun p k d hp hd => hdone p k d (by omega) hd⟩
  | succ fuel ih =>
    have hlt : i < max := by omega
    rw [moveAll]
    have hlast : ∀ c' : Nat → Nat, (∀ p k d, p < i → T p = .decl k d → c' (hash k) = max) → (∀ k d, T i = .decl k d → c' (hash k) = max) →
        ∀ p k d, p < i + 1 → T p = .decl k d → c' (hash k) = max := by
      intro c' h1 h2 p k d hp hd
      by_cases he : p = i
      · subst he; exact h2 k d hd
      · exact h1 p k d (by omega) hd
    cases hx : T i with
    | null =>
      rw [hm.null i hlt hx]
      exact ih (i + 1) (by omega) c old new hm hc (hlast c hdone (fun k d hd => by rw [hx] at hd; cases hd))
    | tomb => exact absurd hx (hT i hlt)
    | decl k d =>
      obtain ⟨o, ho, hio, _⟩ := hr i k d hlt hx
      rcases hc (hash k) with h0 | hfull
      · have hold := hm.kept i k d hlt hx (by rintro ⟨o', h1, _⟩; rw [h0] at h1; omega)
        rw [hold]
        simp only
        refine ih (i + 1) (by omega) (bump c (hash k) max) _ _ (moveChain_spec hT hr hmax max 0 (by omega) c old new hm h0) ?_ (hlast _ ?_ ?_)
        · intro h'
          unfold bump
          split
          · exact .inr rfl
          · exact hc h'
        · intro p k' d' hp hd
          unfold bump
          split
          · rfl
          · exact hdone p k' d' hp hd
        · intro k' d' hd
          rw [hx] at hd
          cases hd
          exact if_pos rfl
      · have hold := hm.moved i k d hlt hx ⟨o, by omega, hio⟩
        rw [hold]
        refine ih (i + 1) (by omega) c old new hm hc (hlast c hdone (fun k' d' hd => ?_))
        rw [hx] at hd
        cases hd
        exact hfull

/-! ## A scope represents the list of its declarations -/

/-- The declarations of `k` in a list. -/
def ofName (l : List (Nat × Nat)) (k : Nat) : List Nat := l.filterMap fun e => if e.1 = k then some e.2 else none

/-- A scope represents the list of its declarations, the latest first. -/
structure Rep (hash : Nat → Nat) (s : Scope) (c : Verif.Spec.Scope.Scope) : Prop where
  function : s.function = c.function
  amount : s.amount = c.declared.length
  load : 2 * s.amount ≤ s.max
  count : count s.cells s.max = s.amount
  noTomb : NoTomb s.cells s.max
  reach : Reach hash s.cells s.max
  order : ∀ k, seg s.cells s.max (hash k) k 0 s.max = ofName c.declared k

theorem rep_new (hash : Nat → Nat) (b : Bool) : Rep hash (Scope.new b) ⟨b, []⟩ := by
  refine ⟨rfl, rfl, by simp [Scope.new], ?_, fun p hp => ?_, fun p k d hp => ?_, fun k => rfl⟩
  · have := count_le (Scope.new b).cells (Scope.new b).max
    have h0 : (Scope.new b).max = 0 := rfl
    have h1 : (Scope.new b).amount = 0 := rfl
    omega
  · exact absurd hp (Nat.not_lt_zero _)
  · exact absurd hp (Nat.not_lt_zero _)

/-- What growing keeps, and that there is room afterwards. -/
structure Room (hash : Nat → Nat) (s t : Scope) : Prop where
  function : t.function = s.function
  amount : t.amount = s.amount + 1
  load : 2 * t.amount ≤ t.max
  count : Props.Scope.count t.cells t.max = s.amount
  noTomb : NoTomb t.cells t.max
  reach : Reach hash t.cells t.max
  order : ∀ k, seg t.cells t.max (hash k) k 0 t.max = seg s.cells s.max (hash k) k 0 s.max

theorem maybeGrow_room {hash : Nat → Nat} {s : Scope} {c : Verif.Spec.Scope.Scope} (hr : Rep hash s c) (heven : s.max % 2 = 0) : Room hash s (maybeGrow hash s) := by
  have hload := hr.load
  unfold maybeGrow
  split
  · rename_i hfull
    have h8 : 8 ≤ Nat.max (2 * s.max) 8 := Nat.le_max_right _ _
    have h2 : 2 * s.max ≤ Nat.max (2 * s.max) 8 := Nat.le_max_left _ _
    have hinit : Moving hash s.cells s.max (Nat.max (2 * s.max) 8) (fun _ => 0) s.cells (fun _ => .null) := by
      have hnil : ∀ k, seg (fun _ => Cell.null) (Nat.max (2 * s.max) 8) (hash k) k 0 (Nat.max (2 * s.max) 8) = [] :=
        fun k => seg_nil (fun o _ _ d hd => by cases hd)
      refine ⟨fun p k d _ _ he => ?_, fun p k d _ hd _ => hd, fun p _ h => h, fun p _ h => (by cases h), fun p k d _ h => (by cases h), fun k => hnil k, ?_⟩
      · obtain ⟨o, h1, _⟩ := he
        exact absurd h1 (Nat.not_lt_zero _)
      · have : count (fun _ => Cell.null) (Nat.max (2 * s.max) 8) = 0 := by
          unfold count occupied
          rw [Finset.card_eq_zero]
          ext p
          simp [live]
        omega
    obtain ⟨c', hm, hc', hall⟩ := moveAll_spec hr.noTomb hr.reach (show s.max < Nat.max (2 * s.max) 8 by omega) s.max 0 (by omega) _ _ _ hinit (fun _ => .inl rfl)
      (fun p k d hp => absurd hp (Nat.not_lt_zero _))
    have hnone : count (moveAll hash s.max (Nat.max (2 * s.max) 8) s.cells (fun _ => .null) 0 s.max).1 s.max = 0 := by
      unfold count occupied
      rw [Finset.card_eq_zero]
      ext p
      simp only [Finset.mem_filter, Finset.mem_range, Finset.notMem_empty, iff_false]
      rintro ⟨hp, hl⟩
      cases hx : s.cells p with
      | null => rw [hm.null p hp hx] at hl; cases hl
      | tomb => exact hr.noTomb p hp hx
      | decl k d =>
        obtain ⟨o, ho, hpo, _⟩ := hr.reach p k d hp hx
        rw [hm.moved p k d hp hx ⟨o, by rw [hall p k d hp hx]; exact ho, hpo⟩] at hl
        cases hl
    refine ⟨rfl, rfl, ?_, ?_, hm.noTomb, hm.reach, ?_⟩
    · simp only
      omega
    · have := hm.total
      rw [hnone, hr.count] at this
      exact this
    · intro k
      simp only
      rw [hm.order k]
      rcases hc' (hash k) with h0 | hf
      · rw [h0, seg_zero]
        symm
        apply seg_nil
        intro o _ ho d hd
        have := hall _ k d (slot_lt _ (by omega)) hd
        omega
      · rw [hf]
  · rename_i hnf
    refine ⟨rfl, rfl, ?_, hr.count, hr.noTomb, hr.reach, fun k => rfl⟩
    simp only
    omega

/-! ## Adding a declaration -/

theorem push_spec {max h k f : Nat} (hf : f < max) (fuel : Nat) (cells : Nat → Cell) (d o : Nat) (hnt : NoTomb cells max)
    (hn : cells ((f + h) % max) = .null) (hb : ∀ o' < f, cells ((o' + h) % max) ≠ .null) (ho : o ≤ f) (hfuel : f - o < fuel) :
    (∀ o' < o, push max h cells k d o fuel ((o' + h) % max) = cells ((o' + h) % max)) ∧
    (∀ p, p < max → p ≠ (f + h) % max → push max h cells k d o fuel p = cells p ∨ ∃ d1 d2, cells p = .decl k d1 ∧ push max h cells k d o fuel p = .decl k d2) ∧
    (∃ d', push max h cells k d o fuel ((f + h) % max) = .decl k d') ∧
    seg (push max h cells k d o fuel) max h k o (f - o + 1) = d :: seg cells max h k o (f - o) := by
  induction fuel generalizing cells d o with
  | zero => omega
  | succ fuel ih =>
    rw [push]
    by_cases he : o = f
    · subst he
      rw [hn]
      simp only
      refine ⟨fun o' ho' => set_ne (fun e => ?_), fun p _ hp => .inl (set_ne hp), ⟨d, set_eq⟩, ?_⟩
      · have := slot_inj (by omega) hf e
        omega
      · rw [Nat.sub_self, seg_zero, Nat.zero_add, seg_one, val_some.mpr set_eq]
        rfl
    · have hlt : o < f := by omega
      have hsub : f - o = (f - (o + 1)) + 1 := by omega
      cases hx : cells ((o + h) % max) with
      | null => exact absurd hx (hb o hlt)
      | tomb => exact absurd hx (hnt _ (slot_lt _ (by omega)))
      | decl k' d' =>
        simp only
        by_cases hk : k = k'
        · subst hk
          rw [if_pos rfl]
          have hne : ∀ o', o' < max → o' ≠ o → (o' + h) % max ≠ (o + h) % max := fun o' h1 h2 e => h2 (slot_inj h1 (by omega) e)
          obtain ⟨i1, i2, i3, i4⟩ := ih (set cells ((o + h) % max) (.decl k d)) d' (o + 1) (append_noTomb hnt)
            (by rw [set_ne (hne f hf (by omega))]; exact hn)
            (fun o' ho' => by
              by_cases e : o' = o
              · subst e; rw [set_eq]; exact fun h => by cases h
              · rw [set_ne (hne o' (by omega) e)]; exact hb o' ho')
            (by omega) (by omega)
          refine ⟨fun o' ho' => ?_, fun p hp hpf => ?_, i3, ?_⟩
          · rw [i1 o' (by omega), set_ne (hne o' (by omega) (by omega))]
          · by_cases e : p = (o + h) % max
            · subst e
              refine .inr ⟨d', d, hx, ?_⟩
              rw [i1 o (by omega), set_eq]
            · rcases i2 p hp hpf with h1 | ⟨d1, d2, h1, h2⟩
              · rw [set_ne e] at h1; exact .inl h1
              · rw [set_ne e] at h1; exact .inr ⟨d1, d2, h1, h2⟩
          · have hval : val (push max h (set cells ((o + h) % max) (.decl k d)) k d' (o + 1) fuel) max h k o = some d := by
              rw [val_some, i1 o (by omega), set_eq]
            rw [seg_succ, hval, hsub, i4, seg_succ, val_some.mpr hx]
            rw [seg_congr (cells' := cells) (fun o' h1 h2 => by unfold val; rw [set_ne (hne o' (by omega) (by omega))])]
            rfl
        · rw [if_neg hk]
          obtain ⟨i1, i2, i3, i4⟩ := ih cells d (o + 1) hnt hn hb (by omega) (by omega)
          refine ⟨fun o' ho' => i1 o' (by omega), i2, i3, ?_⟩
          have hv : val cells max h k o = none := by
            unfold val; rw [hx]; simp only; rw [if_neg (fun e => hk e.symm)]
          have hv' : val (push max h cells k d (o + 1) fuel) max h k o = none := by
            unfold val; rw [i1 o (by omega), hx]; simp only; rw [if_neg (fun e => hk e.symm)]
          rw [seg_succ, hv', hsub, i4, seg_succ, hv]
          rfl

theorem ofName_cons (l : List (Nat × Nat)) (k d k' : Nat) : ofName ((k, d) :: l) k' = (if k' = k then [d] else []) ++ ofName l k' := by
  unfold ofName
  rw [List.filterMap_cons]
  by_cases hk : k' = k
  · subst hk; simp
  · rw [if_neg hk]; simp only; rw [if_neg (fun e => hk e.symm)]; rfl

theorem register_rep {hash : Nat → Nat} {s : Scope} {c : Verif.Spec.Scope.Scope} (hr : Rep hash s c) (heven : s.max % 2 = 0) (k d : Nat) :
    Rep hash (register hash s k d) { c with declared := (k, d) :: c.declared } := by
  have hroom := maybeGrow_room hr heven
  unfold register
  simp only
  generalize maybeGrow hash s = t at hroom
  have hload := hroom.load
  have hamount := hroom.amount
  have hcount := hroom.count
  have hlt : count t.cells t.max < t.max := by omega
  obtain ⟨f, hf, hn, hb⟩ := first_null hroom.noTomb hlt (hash k)
  obtain ⟨i1, i2, ⟨d', i3⟩, i4⟩ := push_spec (k := k) hf t.max t.cells d 0 hroom.noTomb hn hb (by omega) (by omega)
  have hsame : ∀ p, p < t.max → t.cells p ≠ .null → push t.max (hash k) t.cells k d 0 t.max p ≠ .null := by
    intro p hp hne
    rcases i2 p hp (fun e => hne (e ▸ hn)) with h | ⟨_, _, _, h⟩
    · rw [h]; exact hne
    · rw [h]; exact fun h => by cases h
  refine ⟨hroom.function.trans hr.function, ?_, hload, ?_, ?_, ?_, ?_⟩
  · simp only [List.length_cons]
    rw [hamount, hr.amount]
  · simp only
    have e : count (push t.max (hash k) t.cells k d 0 t.max) t.max = count (set t.cells ((f + hash k) % t.max) (.decl k d')) t.max := by
      unfold count occupied
      congr 1
      apply Finset.filter_congr
      intro p hp
      rw [Finset.mem_range] at hp
      beta_reduce
      by_cases hpe : p = (f + hash k) % t.max
      · subst hpe; rw [i3, set_eq]
      · rw [set_ne hpe]
        rcases i2 p hp hpe with h | ⟨d1, d2, h1, h2⟩
        · rw [h]
        · rw [h1, h2]; simp [live]
    rw [e, append_count (slot_lt _ hf) hn]
    omega
  · intro p hp
    by_cases hpe : p = (f + hash k) % t.max
    · simp only; subst hpe; rw [i3]; exact fun h => by cases h
    · simp only
      rcases i2 p hp hpe with h | ⟨_, _, _, h⟩
      · rw [h]; exact hroom.noTomb p hp
      · rw [h]; exact fun h => by cases h
  · intro p k' d1 hp hd
    simp only at hp hd ⊢
    by_cases hpe : p = (f + hash k) % t.max
    · subst hpe
      rw [i3] at hd
      cases hd
      exact ⟨f, hf, rfl, fun o ho => hsame _ (slot_lt _ (by omega)) (hb o ho)⟩
    · have : ∃ d2, t.cells p = .decl k' d2 := by
        rcases i2 p hp hpe with h | ⟨d2, d3, h1, h2⟩
        · rw [h] at hd; exact ⟨_, hd⟩
        · rw [h2] at hd; cases hd; exact ⟨_, h1⟩
      obtain ⟨d2, h2⟩ := this
      obtain ⟨o, h3, h4, h5⟩ := hroom.reach p k' d2 hp h2
      exact ⟨o, h3, h4, fun o' ho' => hsame _ (slot_lt _ (by omega)) (h5 o' ho')⟩
  · intro k'
    simp only
    rw [ofName_cons, ← hr.order k', ← hroom.order k']
    by_cases hk : k' = k
    · subst hk
      rw [if_pos rfl]
      have hafter : ∀ o, f + 1 ≤ o → o < f + 1 + (t.max - f - 1) → ∀ d, t.cells ((o + hash k') % t.max) ≠ .decl k' d := by
        intro o h1 h2 d' hd
        have := hroom.reach.before (by omega) hf hd hn
        omega
      have hs : ∀ c : Nat → Cell, seg c t.max (hash k') k' 0 t.max = seg c t.max (hash k') k' 0 (f + 1) ++ seg c t.max (hash k') k' (f + 1) (t.max - f - 1) := by
        intro c
        have := seg_append c t.max (hash k') k' 0 (f + 1) (t.max - f - 1)
        rw [show f + 1 + (t.max - f - 1) = t.max by omega, Nat.zero_add] at this
        exact this
      have hf1 : seg t.cells t.max (hash k') k' 0 (f + 1) = seg t.cells t.max (hash k') k' 0 f := by
        have := seg_append t.cells t.max (hash k') k' 0 f 1
        rw [this, seg_one]
        have hv : val t.cells t.max (hash k') k' (0 + f) = none := by unfold val; rw [Nat.zero_add, hn]
        rw [hv]; simp
      rw [hs, hs t.cells, seg_nil hafter, hf1]
      rw [show seg (push t.max (hash k') t.cells k' d 0 t.max) t.max (hash k') k' (f + 1) (t.max - f - 1) = [] from ?_]
      · rw [Nat.sub_zero] at i4
        rw [i4]; simp
      · apply seg_nil
        intro o h1 h2 d2 hd
        have hne : (o + hash k') % t.max ≠ (f + hash k') % t.max := fun e => by have := slot_inj (by omega) hf e; omega
        rcases i2 _ (slot_lt _ (by omega)) hne with h | ⟨d3, _, h3, _⟩
        · rw [h] at hd; exact hafter o h1 h2 d2 hd
        · exact hafter o h1 h2 d3 h3
    · rw [if_neg hk, List.nil_append]
      apply seg_congr
      intro o _ ho
      unfold val
      by_cases hpe : (o + hash k') % t.max = (f + hash k) % t.max
      · rw [hpe, i3, hn]; simp only; rw [if_neg (fun e => hk e.symm)]
      · rcases i2 _ (slot_lt (hash k') (show o < t.max by omega)) hpe with h | ⟨d1, d2, h1, h2⟩
        · rw [h]
        · rw [h1, h2]; simp only; rw [if_neg (fun e => hk e.symm), if_neg (fun e => hk e.symm)]

theorem register_even (hash : Nat → Nat) (s : Scope) (k d : Nat) (h : s.max % 2 = 0) : (register hash s k d).max % 2 = 0 := by
  unfold register maybeGrow
  simp only
  split
  · simp only
    have : Nat.max (2 * s.max) 8 = 2 * s.max ∨ Nat.max (2 * s.max) 8 = 8 := by
      rcases Nat.le_total (2 * s.max) 8 with h | h
      · exact .inr (Nat.max_eq_right h)
      · exact .inl (Nat.max_eq_left h)
    omega
  · exact h

/-! ## Lookup -/

theorem find_spec {hash : Nat → Nat} {cells : Nat → Cell} {max k : Nat} (hnt : NoTomb cells max) (hr : Reach hash cells max) (fuel o : Nat) (ho : o + fuel = max) :
    find max (hash k) cells k o fuel = (seg cells max (hash k) k o fuel).head? := by
  induction fuel generalizing o with
  | zero => rfl
  | succ fuel ih =>
    rw [find]
    have hlt : o < max := by omega
    cases hx : cells ((o + hash k) % max) with
    | null =>
      rw [seg_nil (fun o' h1 h2 d hd => ?_)]
      · rfl
      · have := hr.before (by omega) hlt hd hx
        omega
    | tomb => exact absurd hx (hnt _ (slot_lt _ hlt))
    | decl k' d =>
      simp only
      rw [seg_succ]
      by_cases hk : k = k'
      · subst hk
        rw [if_pos rfl, val_some.mpr hx]; rfl
      · rw [if_neg hk, ih (o + 1) (by omega)]
        have : val cells max (hash k) k o = none := by unfold val; rw [hx]; simp only; rw [if_neg (fun e => hk e.symm)]
        rw [this]; rfl

theorem head_latest {c : Verif.Spec.Scope.Scope} {k d : Nat} (h : (ofName c.declared k).head? = some d) : Latest c k d := by
  obtain ⟨b, l⟩ := c
  unfold Latest
  simp only at h ⊢
  induction l with
  | nil => cases h
  | cons e l ih =>
    obtain ⟨k', d'⟩ := e
    rw [ofName_cons] at h
    by_cases hk : k = k'
    · subst hk
      rw [if_pos rfl] at h
      cases h
      exact ⟨[], l, rfl, fun e he => by cases he⟩
    · rw [if_neg hk] at h
      obtain ⟨n, o, h1, h2⟩ := ih h
      refine ⟨(k', d') :: n, o, by rw [h1]; rfl, fun e he => ?_⟩
      rcases List.mem_cons.mp he with he | he
      · subst he; exact fun h => hk h.symm
      · exact h2 e he

theorem nil_silent {c : Verif.Spec.Scope.Scope} {k : Nat} (h : (ofName c.declared k).head? = none) : Silent c k := by
  rw [List.head?_eq_none_iff] at h
  unfold ofName at h
  rw [List.filterMap_eq_nil_iff] at h
  intro e he hk
  have := h e he
  rw [if_pos hk] at this
  cases this

/-- The model's scopes represent the open scopes. -/
def RepAll (hash : Nat → Nat) : List Scope → Open → Prop
  | [], [] => True
  | s :: ss, c :: cs => (Rep hash s c ∧ s.max % 2 = 0) ∧ RepAll hash ss cs
  | _, _ => False

theorem lookup_spec {hash : Nat → Nat} (global : Nat → Option Nat) (k : Nat) {ss : List Scope} {cs : Open} (h : RepAll hash ss cs) :
    Means global k cs (lookup hash global ss k) := by
  induction ss generalizing cs with
  | nil => cases cs with
    | nil => exact .top
    | cons => cases h
  | cons s ss ih => cases cs with
    | nil => cases h
    | cons c cs =>
      obtain ⟨⟨hr, _⟩, hrest⟩ := h
      rw [lookup]
      have hfind := find_spec (k := k) hr.noTomb hr.reach s.max 0 (by omega)
      rw [hr.order k] at hfind
      cases hx : find s.max (hash k) s.cells k 0 s.max with
      | some d =>
        rw [hx] at hfind
        exact .here (head_latest hfind.symm)
      | none =>
        rw [hx] at hfind
        have hs := nil_silent hfind.symm
        simp only
        cases hfn : s.function with
        | true =>
          rw [if_pos rfl]
          exact .global hs (hr.function ▸ hfn)
        | false =>
          rw [if_neg (by decide)]
          exact .outer hs (hr.function ▸ hfn) (ih hrest)

/-- The operation of the parser for an event. -/
def op : Event → Op
  | .openFunction => .enterFunction
  | .openBlock => .pushScope
  | .close => .popScope
  | .declare k d => .register k d

theorem op_spec {hash : Nat → Nat} (e : Event) {ss : List Scope} {cs : Open} (h : RepAll hash ss cs) :
    match e.effect cs with
    | none => (op e).run hash ss = none
    | some cs' => ∃ ss', (op e).run hash ss = some ss' ∧ RepAll hash ss' cs' := by
  cases ss with
  | nil => cases cs with
    | cons => cases h
    | nil => cases e with
      | openFunction => exact ⟨_, rfl, ⟨rep_new hash true, rfl⟩, h⟩
      | openBlock => rfl
      | close => rfl
      | declare k d => rfl
  | cons s ss => cases cs with
    | nil => cases h
    | cons c cs => cases e with
      | openFunction => exact ⟨_, rfl, ⟨rep_new hash true, rfl⟩, h⟩
      | openBlock => exact ⟨_, rfl, ⟨rep_new hash false, rfl⟩, h⟩
      | close => exact ⟨_, rfl, h.2⟩
      | declare k d => exact ⟨_, rfl, ⟨register_rep h.1.1 h.1.2 k d, register_even hash s k d h.1.2⟩, h.2⟩

theorem run_spec {hash : Nat → Nat} (es : List Event) {ss : List Scope} {cs : Open} (h : RepAll hash ss cs) :
    match after cs es with
    | none => run hash ss (es.map op) = none
    | some cs' => ∃ ss', run hash ss (es.map op) = some ss' ∧ RepAll hash ss' cs' := by
  induction es generalizing ss cs with
  | nil => exact ⟨ss, rfl, h⟩
  | cons e es ih =>
    rw [after, List.map_cons, run]
    have ho := op_spec e h
    cases he : e.effect cs with
    | none =>
      rw [he] at ho
      simp only at ho
      rw [ho]; rfl
    | some cs' =>
      rw [he] at ho
      obtain ⟨ss', h1, h2⟩ := ho
      rw [h1]
      exact ih h2

/-- **C26**: after every history of functions, blocks and declarations, lookup of every name gives the
latest declaration in the innermost scope that declares it, and the global declaration if there is
none. This holds for every hash function. -/
theorem C26_lookup (hash : Nat → Nat) (global : Nat → Option Nat) (history : List Event) (scopes : Open) (h : after [] history = some scopes) :
    ∃ ss, run hash [] (history.map op) = some ss ∧ ∀ k, Means global k scopes (lookup hash global ss k) := by
  have := run_spec (hash := hash) history (ss := []) (cs := []) trivial
  rw [h] at this
  obtain ⟨ss, h1, h2⟩ := this
  exact ⟨ss, h1, fun k => lookup_spec global k h2⟩

/-- What a name means is unique. -/
theorem C26_unique {global : Nat → Option Nat} {k : Nat} {s : Open} {a b : Option Nat} (ha : Means global k s a) (hb : Means global k s b) : a = b := by
  have notBoth : ∀ {c : Verif.Spec.Scope.Scope} {d : Nat}, Latest c k d → Silent c k → False := by
    rintro c d ⟨n, o, h1, _⟩ h2
    exact h2 (k, d) (by rw [h1]; simp) rfl
  have latest : ∀ {c : Verif.Spec.Scope.Scope} {d d' : Nat}, Latest c k d → Latest c k d' → d = d' := by
    rintro c d d' ⟨n, o, h1, h2⟩ ⟨n', o', h1', h2'⟩
    rw [h1] at h1'
    clear h1
    induction n generalizing n' with
    | nil => cases n' with
      | nil => cases h1'; rfl
      | cons e n' =>
        cases h1'
        exact absurd rfl (h2' (k, d) (List.mem_cons_self ..))
    | cons e n ih => cases n' with
      | nil =>
        cases h1'
        exact absurd rfl (h2 (k, d') (List.mem_cons_self ..))
      | cons e' n' =>
        injection h1' with _ h1'
        exact ih (fun x hx => h2 x (List.mem_cons_of_mem _ hx)) _ h1' (fun x hx => h2' x (List.mem_cons_of_mem _ hx))
  induction ha with
  | here hl => cases hb with
    | here hl' => rw [latest hl hl']
    | outer hs => exact (notBoth hl hs).elim
    | global hs => exact (notBoth hl hs).elim
  | outer hs hf _ ih => cases hb with
    | here hl => exact (notBoth hl hs).elim
    | outer _ _ h => exact ih h
    | global _ hf' => rw [hf] at hf'; cases hf'
  | global hs hf => cases hb with
    | here hl => exact (notBoth hl hs).elim
    | outer _ hf' => rw [hf] at hf'; cases hf'
    | global => rfl
  | top => cases hb; rfl

/-- A history in which the table of a scope grows and a name is declared again and shadowed; all names
have the same hash. -/
def sample : List Event :=
  [.openFunction, .declare 1 10, .declare 2 20, .declare 3 30, .declare 1 11, .declare 4 40, .declare 1 12, .openBlock, .declare 2 21, .openBlock, .close]

example : after [] sample = some [⟨false, [(2, 21)]⟩, ⟨true, [(1, 12), (4, 40), (1, 11), (3, 30), (2, 20), (1, 10)]⟩] := by decide

example : (run (fun _ => 5) [] (sample.map op)).map (fun ss => [1, 2, 3, 4, 5].map (lookup (fun _ => 5) (fun k => if k = 5 then some 50 else none) ss)) =
    some [some 12, some 21, some 30, some 40, some 50] := by decide +kernel

end Verif.Props.Scope
