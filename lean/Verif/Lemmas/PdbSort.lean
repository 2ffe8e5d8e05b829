import Verif.Model.PdbSymbols

/-!
# Lemmas: the sort by address
-/
namespace Verif.Lemmas.PdbSort
open Verif.Model.PdbSymbols

/-- The element at a position, and its address. -/
def at_ (a : List (Nat × Nat)) (i : Nat) : Nat × Nat := a.getD i (0, 0)
def key (a : List (Nat × Nat)) (i : Nat) : Nat := (at_ a i).1

theorem swap_length (a : List (Nat × Nat)) (i j : Nat) : (swap a i j).length = a.length := by simp [swap]

theorem swap_at {a : List (Nat × Nat)} {i j : Nat} (hi : i < a.length) (hj : j < a.length) (x : Nat) :
    at_ (swap a i j) x = if x = j then at_ a i else if x = i then at_ a j else at_ a x := by
  unfold swap at_
  simp only [List.getD_eq_getElem?_getD, List.getElem?_set, List.length_set]
  by_cases h1 : x = j
  · subst h1
    simp [hj]
  · rw [if_neg (fun h => h1 h.symm)]
    conv => rhs; rw [if_neg h1]
    by_cases h2 : x = i
    · subst h2
      simp [hi]
    · rw [if_neg (fun h => h2 h.symm)]
      conv => rhs; rw [if_neg h2]

theorem swap_perm {a : List (Nat × Nat)} {i j : Nat} (hi : i < a.length) (hj : j < a.length) : (swap a i j).Perm a := by
  unfold swap
  rw [List.getD_eq_getElem?_getD, List.getD_eq_getElem?_getD, List.getElem?_eq_getElem hi, List.getElem?_eq_getElem hj]
  exact List.set_set_perm hi hj

/-- Only elements of an interval were rearranged. -/
structure Within (left right : Nat) (a b : List (Nat × Nat)) : Prop where
  perm : b.Perm a
  out : ∀ x, x < left ∨ right < x → at_ b x = at_ a x
  inside : ∀ x, left ≤ x → x ≤ right → ∃ y, left ≤ y ∧ y ≤ right ∧ at_ b x = at_ a y

theorem Within.length {left right : Nat} {a b : List (Nat × Nat)} (h : Within left right a b) : b.length = a.length := h.perm.length_eq

theorem Within.refl (left right : Nat) (a : List (Nat × Nat)) : Within left right a a := ⟨List.Perm.refl _, fun _ _ => rfl, fun x h1 h2 => ⟨x, h1, h2, rfl⟩⟩

theorem Within.trans {left right : Nat} {a b c : List (Nat × Nat)} (h : Within left right a b) (k : Within left right b c) : Within left right a c :=
  ⟨k.perm.trans h.perm, fun x hx => (k.out x hx).trans (h.out x hx), fun x h1 h2 => by
    obtain ⟨y, y1, y2, e⟩ := k.inside x h1 h2
    obtain ⟨z, z1, z2, e2⟩ := h.inside y y1 y2
    exact ⟨z, z1, z2, e.trans e2⟩⟩

theorem within_swap {left right i j : Nat} {a : List (Nat × Nat)} (hr : right < a.length) (i1 : left ≤ i) (i2 : i ≤ right) (j1 : left ≤ j) (j2 : j ≤ right) :
    Within left right a (swap a i j) := by
  have hi : i < a.length := by omega
  have hj : j < a.length := by omega
  refine ⟨swap_perm hi hj, fun x hx => ?_, fun x h1 h2 => ?_⟩
  · rw [swap_at hi hj, if_neg (by omega), if_neg (by omega)]
  · rw [swap_at hi hj]
    by_cases h : x = j
    · rw [if_pos h]; exact ⟨i, i1, i2, rfl⟩
    · rw [if_neg h]
      by_cases h' : x = i
      · rw [if_pos h']; exact ⟨j, j1, j2, rfl⟩
      · rw [if_neg h']; exact ⟨x, h1, h2, rfl⟩

theorem scanLeft_spec (a : List (Nat × Nat)) (pivot r : Nat) : (fuel l : Nat) → l ≤ r → r - l ≤ fuel →
    l ≤ scanLeft a pivot r fuel l ∧ scanLeft a pivot r fuel l ≤ r ∧ (∀ i, l ≤ i → i < scanLeft a pivot r fuel l → key a i ≤ pivot) ∧
      (scanLeft a pivot r fuel l = r ∨ pivot < key a (scanLeft a pivot r fuel l))
  | 0, l, h1, h2 => by
    rw [scanLeft]
    exact ⟨Nat.le_refl _, h1, fun i _ _ => by omega, .inl (by omega)⟩
  | fuel + 1, l, h1, h2 => by
    rw [scanLeft]
    by_cases h : (a.getD l (0, 0)).1 ≤ pivot ∧ l < r
    · rw [if_pos h]
      obtain ⟨e1, e2, e3, e4⟩ := scanLeft_spec a pivot r fuel (l + 1) (by omega) (by omega)
      refine ⟨by omega, e2, fun i i1 i2 => ?_, e4⟩
      by_cases hi : i = l
      · rw [hi]; exact h.1
      · exact e3 i (by omega) i2
    · rw [if_neg h]
      refine ⟨Nat.le_refl _, h1, fun i _ _ => by omega, ?_⟩
      by_cases hl : l < r
      · right
        have : ¬ (a.getD l (0, 0)).1 ≤ pivot := fun hh => h ⟨hh, hl⟩
        exact Nat.lt_of_not_le this
      · left; omega

theorem scanRight_spec (a : List (Nat × Nat)) (pivot left : Nat) (hleft : key a left ≤ pivot) : (r : Nat) → left ≤ r →
    left ≤ scanRight a pivot r ∧ scanRight a pivot r ≤ r ∧ (∀ i, scanRight a pivot r < i → i ≤ r → pivot < key a i) ∧ key a (scanRight a pivot r) ≤ pivot
  | 0, h => by
    rw [scanRight]
    have : left = 0 := by omega
    subst this
    exact ⟨Nat.le_refl _, Nat.le_refl _, fun i _ _ => by omega, hleft⟩
  | r + 1, h => by
    rw [scanRight]
    by_cases hc : (a.getD (r + 1) (0, 0)).1 > pivot
    · rw [if_pos hc]
      have hne : left ≠ r + 1 := by
        rintro rfl
        exact absurd hc (Nat.not_lt.mpr hleft)
      obtain ⟨e1, e2, e3, e4⟩ := scanRight_spec a pivot left hleft r (by omega)
      refine ⟨e1, by omega, fun i i1 i2 => ?_, e4⟩
      by_cases hi : i = r + 1
      · rw [hi]; exact hc
      · exact e3 i i1 (by omega)
    · rw [if_neg hc]
      exact ⟨h, Nat.le_refl _, fun i _ _ => by omega, Nat.not_lt.mp hc⟩

/-- What the partition has reached. -/
structure Parted (pivot left right : Nat) (a : List (Nat × Nat)) (l r : Nat) : Prop where
  left_lt : left < l
  left_le : left ≤ r
  le_right : r ≤ right
  close : l = r ∨ l = r + 1
  low : ∀ i, left ≤ i → i ≤ r → key a i ≤ pivot
  high : ∀ i, r < i → i ≤ right → pivot < key a i
  first : key a left = pivot

theorem partition_spec (pivot left right : Nat) : (fuel : Nat) → (a : List (Nat × Nat)) → (l r : Nat) → right < a.length → left ≤ l → l < r → r ≤ right →
    r - l < fuel → (∀ i, left ≤ i → i ≤ l → key a i ≤ pivot) → (∀ i, r < i → i ≤ right → pivot < key a i) → key a left = pivot →
    Within left right a (partition pivot fuel a l r).1 ∧
      Parted pivot left right (partition pivot fuel a l r).1 (partition pivot fuel a l r).2.1 (partition pivot fuel a l r).2.2
  | 0, a, l, r, _, _, _, _, hf, _, _, _ => by omega
  | fuel + 1, a, l, r, hn, h1, h2, h3, hf, low, high, hfirst => by
    rw [partition]
    rw [if_pos h2]
    obtain ⟨a1, a2, a3, a4⟩ := scanLeft_spec a pivot r a.length l (by omega) (by omega)
    obtain ⟨b1, b2, b3, b4⟩ := scanRight_spec a pivot left (by omega) r (by omega)
    simp only []
    generalize scanLeft a pivot r a.length l = l' at *
    generalize scanRight a pivot r = r' at *
    have hl : l < l' := by
      rcases a4 with h | h
      · omega
      · have := low l h1 (Nat.le_refl _)
        have hne : l' ≠ l := by
          rintro rfl
          omega
        omega
    have hlow : ∀ i, left ≤ i → i < l' → key a i ≤ pivot := fun i i1 i2 => by
      by_cases hi : i ≤ l
      · exact low i i1 hi
      · exact a3 i (by omega) i2
    have hhigh : ∀ i, r' < i → i ≤ right → pivot < key a i := fun i i1 i2 => by
      by_cases hi : i ≤ r
      · exact b3 i i1 hi
      · exact high i (by omega) i2
    have hclose : l' ≤ r' + 1 := by
      have hk := hlow (l' - 1) (by omega) (by omega)
      by_cases hc : l' - 1 ≤ r'
      · omega
      · have := hhigh (l' - 1) (by omega) (by omega)
        omega
    by_cases hlt : l' < r'
    · rw [if_pos hlt]
      have hbig : pivot < key a l' := by
        rcases a4 with h | h
        · omega
        · exact h
      have hil : l' < a.length := by omega
      have hir : r' < a.length := by omega
      have hw := within_swap (left := left) (right := right) (i := l') (j := r') hn (by omega) (by omega) (by omega) (by omega)
      have hkey : ∀ x, key (swap a l' r') x = if x = r' then key a l' else if x = l' then key a r' else key a x := by
        intro x
        unfold key
        rw [swap_at hil hir]
        split
        · rfl
        · split <;> rfl
      have := partition_spec pivot left right fuel (swap a l' r') l' r' (by rw [swap_length]; exact hn) (by omega) hlt (by omega) (by omega)
        (fun i i1 i2 => by
          rw [hkey, if_neg (by omega)]
          by_cases hi : i = l'
          · rw [if_pos hi]; exact b4
          · rw [if_neg hi]; exact hlow i i1 (by omega))
        (fun i i1 i2 => by
          rw [hkey, if_neg (by omega), if_neg (by omega)]
          exact hhigh i i1 i2)
        (by rw [hkey, if_neg (by omega), if_neg (by omega)]; exact hfirst)
      exact ⟨hw.trans this.1, this.2⟩
    · rw [if_neg hlt]
      have he : partition pivot fuel a l' r' = (a, l', r') := by
        cases fuel with
        | zero => rfl
        | succ fuel => rw [partition, if_neg hlt]
      rw [he]
      show Within left right a a ∧ Parted pivot left right a l' r'
      refine ⟨Within.refl _ _ _, by omega, by omega, by omega, by omega, fun i i1 i2 => ?_, hhigh, hfirst⟩
      by_cases hi : i < l'
      · exact hlow i i1 hi
      · have : i = r' := by omega
        rw [this]; exact b4

/-! ## The loop -/

/-- Everything to the left of a boundary is at most everything to its right. -/
def Boundary (a : List (Nat × Nat)) (b : Nat) : Prop := ∀ i j, i ≤ b → b < j → j < a.length → key a i ≤ key a j

/-- An element that is at most all later ones. -/
def Done (a : List (Nat × Nat)) (i : Nat) : Prop := ∀ j, i < j → j < a.length → key a i ≤ key a j

/-- What holds whenever the loop has popped `right`. -/
structure Inv (a : List (Nat × Nat)) (left : Nat) (bounds : List Nat) : Prop where
  done : ∀ i, i < left → Done a i
  sorted : bounds.Pairwise (· < ·)
  small : ∀ b ∈ bounds, b < a.length
  boundary : ∀ b ∈ bounds, Boundary a b
  rest : ∀ i, (∀ b ∈ bounds, b < i) → left ≤ i → Done a i

/-- A strictly increasing list of numbers. -/
theorem sorted_length : (l : List Nat) → (lo n : Nat) → l.Pairwise (· < ·) → (∀ b ∈ l, lo ≤ b ∧ b < n) → l.length + lo ≤ max n lo
  | [], lo, n, _, _ => by simp; omega
  | x :: l, lo, n, hp, hb => by
    rw [List.pairwise_cons] at hp
    have hx := hb x (List.mem_cons_self ..)
    have := sorted_length l (x + 1) n hp.2 (fun b hm => ⟨hp.1 b hm, (hb b (List.mem_cons_of_mem _ hm)).2⟩)
    simp only [List.length_cons]
    omega

theorem Inv.length {a : List (Nat × Nat)} {left : Nat} {bounds : List Nat} (h : Inv a left bounds) : bounds.length ≤ a.length := by
  have := sorted_length bounds 0 a.length h.sorted (fun b hm => ⟨Nat.zero_le _, h.small b hm⟩)
  omega

theorem Inv.all {a : List (Nat × Nat)} {left : Nat} (h : Inv a left []) : a.Pairwise (fun x y => x.1 ≤ y.1) := by
  rw [List.pairwise_iff_getElem]
  intro i j hi hj hij
  have hd : Done a i := by
    by_cases hl : i < left
    · exact h.done i hl
    · exact h.rest i (fun b hm => by cases hm) (by omega)
  have := hd j hij hj
  unfold key at_ at this
  rw [List.getD_eq_getElem?_getD, List.getD_eq_getElem?_getD, List.getElem?_eq_getElem hi, List.getElem?_eq_getElem hj] at this
  exact this

/-- Nothing is left to do between `left` and the boundary. -/
theorem Inv.drop {a : List (Nat × Nat)} {left right : Nat} {stack : List Nat} (h : Inv a left (right :: stack)) (hl : ¬ left < right) : Inv a left stack := by
  refine ⟨h.done, (List.pairwise_cons.mp h.sorted).2, fun b hm => h.small b (List.mem_cons_of_mem _ hm), fun b hm => h.boundary b (List.mem_cons_of_mem _ hm),
    fun i hi hle => ?_⟩
  by_cases hr : right < i
  · refine h.rest i (fun b hm => ?_) hle
    rcases List.mem_cons.mp hm with rfl | hm
    · exact hr
    · exact hi b hm
  · have : i = right := by omega
    subst this
    intro j h1 h2
    exact h.boundary i (List.mem_cons_self ..) i j (Nat.le_refl _) h1 h2

/-- One step of the sort. -/
theorem step {a : List (Nat × Nat)} {left right : Nat} {stack : List Nat} (h : Inv a left (right :: stack)) (hl : left < right) {b : List (Nat × Nat)} {l r : Nat}
    (hp : partition (key a left) a.length a left right = (b, l, r)) :
    Within left right a (swap b left r) ∧
    (left + 1 < r → Inv (swap b left r) left ((r - 1) :: (if l < right then right :: stack else stack)) ∧ r - 1 < right) ∧
    (¬ left + 1 < r → Inv (swap b left r) (left + 1) (if l < right then right :: stack else stack)) := by
  have hn : right < a.length := h.small right (List.mem_cons_self ..)
  have hspec := partition_spec (key a left) left right a.length a left right hn (Nat.le_refl _) hl (Nat.le_refl _) (by omega)
    (fun i i1 i2 => by have : i = left := by omega
                       rw [this]; exact Nat.le_refl _)
    (fun i i1 i2 => by omega) rfl
  rw [hp] at hspec
  obtain ⟨hw, hq⟩ := hspec
  simp only [] at hw hq
  obtain ⟨q1, q2, q3, q4, q5, q6, q7⟩ := hq
  have hbl : b.length = a.length := hw.length
  have hil : left < b.length := by omega
  have hir : r < b.length := by omega
  have hW : Within left right a (swap b left r) := hw.trans (within_swap (by omega) (by omega) (by omega) (by omega) (by omega))
  generalize hc : swap b left r = c at *
  have hkey : ∀ x, key c x = if x = r then key b left else if x = left then key b r else key b x := by
    intro x
    rw [← hc]
    unfold key
    rw [swap_at hil hir]
    split
    · rfl
    · split <;> rfl
  have hcl : c.length = a.length := hW.length
  generalize hpiv : key a left = pivot at *
  have hlow : ∀ i, left ≤ i → i ≤ r → key c i ≤ pivot := by
    intro i i1 i2
    rw [hkey]
    split
    · omega
    · split
      · exact q5 r (by omega) (by omega)
      · exact q5 i i1 i2
  have hmid : key c r = pivot := by rw [hkey, if_pos rfl]; exact q7
  have hhigh : ∀ i, r < i → i ≤ right → pivot < key c i := by
    intro i i1 i2
    rw [hkey, if_neg (by omega), if_neg (by omega)]
    exact q6 i i1 i2
  have hout : ∀ x, x < left ∨ right < x → key c x = key a x := fun x hx => by unfold key; rw [hW.out x hx]
  have hin : ∀ x, left ≤ x → x ≤ right → ∃ y, left ≤ y ∧ y ≤ right ∧ key c x = key a y := fun x h1 h2 => by
    obtain ⟨y, y1, y2, e⟩ := hW.inside x h1 h2
    exact ⟨y, y1, y2, by unfold key; rw [e]⟩
  have hright : ∀ b' ∈ right :: stack, right ≤ b' := by
    intro b' hm
    rcases List.mem_cons.mp hm with rfl | hm
    · exact Nat.le_refl _
    · exact Nat.le_of_lt ((List.pairwise_cons.mp h.sorted).1 b' hm)
  -- the prefix
  have hdone : ∀ i, i < left → Done c i := by
    intro i hi j h1 h2
    rw [hout i (.inl hi)]
    by_cases hj : left ≤ j ∧ j ≤ right
    · obtain ⟨y, y1, y2, e⟩ := hin j hj.1 hj.2
      rw [e]
      exact h.done i hi y (by omega) (by omega)
    · rw [hout j (by omega)]
      exact h.done i hi j h1 (by omega)
  -- the old boundaries
  have hbound : ∀ b' ∈ right :: stack, Boundary c b' := by
    intro b' hm i j h1 h2 h3
    have hb' := hright b' hm
    rw [hout j (.inr (by omega))]
    by_cases hi : left ≤ i ∧ i ≤ right
    · obtain ⟨y, y1, y2, e⟩ := hin i hi.1 hi.2
      rw [e]
      exact h.boundary b' hm y j (by omega) h2 (by omega)
    · rw [hout i (by omega)]
      exact h.boundary b' hm i j h1 h2 (by omega)
  have hR : Boundary c right := hbound right (List.mem_cons_self ..)
  -- elements after the last boundary
  have hrest : ∀ i, (∀ b' ∈ right :: stack, b' < i) → Done c i := by
    intro i hi j h1 h2
    have := hi right (List.mem_cons_self ..)
    rw [hout i (.inr this), hout j (.inr (by omega))]
    exact h.rest i hi (by omega) j h1 (by omega)
  -- the pivot, and what is at most one element to its right
  have hpivot : Done c r := by
    intro j h1 h2
    by_cases hj : j ≤ right
    · have := hhigh j h1 hj
      omega
    · exact hR r j q3 (by omega) h2
  have hlast : Done c right := fun j h1 h2 => hR right j (Nat.le_refl _) h1 h2
  have hfirst : ¬ left + 1 < r → Done c left := by
    intro hr j h1 h2
    by_cases hj : j ≤ right
    · have h3 := hlow left (Nat.le_refl _) q2
      by_cases hjr : j = r
      · rw [hjr, hmid]; exact h3
      · have := hhigh j (by omega) hj
        omega
    · exact hR left j (by omega) (by omega) h2
  -- the rest, if the right part is not pushed
  have hrest' : ∀ i, r ≤ i → (∀ b' ∈ (if l < right then right :: stack else stack), b' < i) → Done c i := by
    intro i hi hb
    by_cases hlr : l < right
    · rw [if_pos hlr] at hb
      exact hrest i hb
    · rw [if_neg hlr] at hb
      by_cases h1 : i = r
      · rw [h1]; exact hpivot
      · by_cases h2 : i = right
        · rw [h2]; exact hlast
        · refine hrest i (fun b' hm => ?_)
          rcases List.mem_cons.mp hm with rfl | hm
          · omega
          · exact hb b' hm
  have hsub : ∀ b' ∈ (if l < right then right :: stack else stack), b' ∈ right :: stack := by
    intro b' hm
    by_cases hlr : l < right
    · rw [if_pos hlr] at hm; exact hm
    · rw [if_neg hlr] at hm; exact List.mem_cons_of_mem _ hm
  have hsorted : (if l < right then right :: stack else stack).Pairwise (· < ·) := by
    by_cases hlr : l < right
    · rw [if_pos hlr]; exact h.sorted
    · rw [if_neg hlr]; exact (List.pairwise_cons.mp h.sorted).2
  refine ⟨hW, fun hr => ⟨⟨hdone, ?_, ?_, ?_, ?_⟩, by omega⟩, fun hr => ⟨?_, hsorted, ?_, fun b' hm => hbound b' (hsub b' hm), ?_⟩⟩
  · refine List.pairwise_cons.mpr ⟨fun b' hm => ?_, hsorted⟩
    have := hright b' (hsub b' hm)
    omega
  · intro b' hm
    rcases List.mem_cons.mp hm with rfl | hm
    · omega
    · rw [hcl]; exact h.small b' (hsub b' hm)
  · intro b' hm
    rcases List.mem_cons.mp hm with rfl | hm
    · intro i j h1 h2 h3
      by_cases hi : i < left
      · exact hdone i hi j (by omega) h3
      · have e1 := hlow i (by omega) (by omega)
        by_cases hj : j ≤ right
        · by_cases hjr : j = r
          · rw [hjr, hmid]; exact e1
          · have := hhigh j (by omega) hj
            omega
        · exact hR i j (by omega) (by omega) h3
    · exact hbound b' (hsub b' hm)
  · intro i hi hle
    exact hrest' i (by have := hi (r - 1) (List.mem_cons_self ..); omega) (fun b' hm => hi b' (List.mem_cons_of_mem _ hm))
  · intro i hi
    by_cases hil' : i < left
    · exact hdone i hil'
    · have : i = left := by omega
      rw [this]; exact hfirst hr
  · intro b' hm
    rw [hcl]; exact h.small b' (hsub b' hm)
  · intro i hi hle
    exact hrest' i (by omega) hi

/-- What the loop still has to do at most. -/
def measure (n left right : Nat) (stack : List Nat) : Nat := (n - left) * (2 * n + 2) + (if left < right then right else n + stack.length)

theorem loop_spec : (fuel : Nat) → (a : List (Nat × Nat)) → (left right : Nat) → (stack : List Nat) → Inv a left (right :: stack) →
    measure a.length left right stack < fuel →
    ∃ b, sortLoop a.length fuel a left right stack = some b ∧ b.Perm a ∧ b.Pairwise (fun x y => x.1 ≤ y.1)
  | 0, _, _, _, _, _, hm => by omega
  | fuel + 1, a, left, right, stack, h, hm => by
    have hlen := h.length
    simp only [List.length_cons] at hlen
    rw [sortLoop]
    rw [if_neg (by omega)]
    have hn : right < a.length := h.small right (List.mem_cons_self ..)
    simp only []
    by_cases hl : left < right
    · rw [if_pos hl]
      have hfin := step h hl (b := (partition (key a left) a.length a left right).1) (l := (partition (key a left) a.length a left right).2.1)
        (r := (partition (key a left) a.length a left right).2.2) rfl
      rw [show (a.getD left (0, 0)).1 = key a left from rfl]
      generalize (partition (key a left) a.length a left right) = res at *
      obtain ⟨b, l, r⟩ := res
      simp only [] at hfin ⊢
      obtain ⟨hW, hbig, hsmall⟩ := hfin
      have hcl := hW.length
      have hmeasure : measure a.length left right stack = (a.length - left) * (2 * a.length + 2) + right := by
        unfold measure; rw [if_pos hl]
      by_cases hr : left + 1 < r
      · rw [if_pos hr]
        obtain ⟨hI, hlt⟩ := hbig hr
        have hIl := hI.length
        simp only [List.length_cons] at hIl
        rw [if_neg (by omega)]
        have := loop_spec fuel (swap b left r) left (r - 1) (if l < right then right :: stack else stack) hI (by
          rw [hcl]
          have : measure a.length left (r - 1) (if l < right then right :: stack else stack) = (a.length - left) * (2 * a.length + 2) + (r - 1) := by
            unfold measure; rw [if_pos (by omega)]
          omega)
        obtain ⟨d, d1, d2, d3⟩ := this
        rw [hcl] at d1
        exact ⟨d, d1, d2.trans hW.perm, d3⟩
      · rw [if_neg hr]
        have hI := hsmall hr
        have hIl := hI.length
        rw [if_neg (by omega)]
        generalize (if l < right then right :: stack else stack) = stack' at *
        cases stack' with
        | nil => exact ⟨_, rfl, hW.perm, hI.all⟩
        | cons s stack' =>
          simp only []
          have := loop_spec fuel (swap b left r) (left + 1) s stack' hI (by
            rw [hcl]
            have hs : s < a.length := by rw [← hcl]; exact hI.small s (List.mem_cons_self ..)
            simp only [List.length_cons] at hIl
            have h2 : measure a.length (left + 1) s stack' < (a.length - (left + 1)) * (2 * a.length + 2) + (2 * a.length + 2) := by
              unfold measure
              split <;> omega
            have h3 : (a.length - left) * (2 * a.length + 2) = (a.length - (left + 1)) * (2 * a.length + 2) + (2 * a.length + 2) := by
              rw [← Nat.succ_mul]
              congr 1
              omega
            omega)
          obtain ⟨d, d1, d2, d3⟩ := this
          rw [hcl] at d1
          exact ⟨d, d1, d2.trans hW.perm, d3⟩
    · rw [if_neg hl]
      have hI := h.drop hl
      have hmeasure : measure a.length left right stack = (a.length - left) * (2 * a.length + 2) + (a.length + stack.length) := by
        unfold measure; rw [if_neg hl]
      cases stack with
      | nil => exact ⟨_, rfl, List.Perm.refl _, hI.all⟩
      | cons s stack =>
        simp only []
        refine loop_spec fuel a left s stack hI ?_
        have hs : s < a.length := hI.small s (List.mem_cons_self ..)
        have : measure a.length left s stack < (a.length - left) * (2 * a.length + 2) + (a.length + (s :: stack).length) := by
          unfold measure
          simp only [List.length_cons]
          split <;> omega
        omega

/-- The sort ends, its stack is large enough, and the result is sorted. -/
theorem sort_spec (a : List (Nat × Nat)) : ∃ b, sortByAddress a = some b ∧ b.Perm a ∧ b.Pairwise (fun x y => x.1 ≤ y.1) := by
  unfold sortByAddress
  by_cases h : a.length > 1
  · rw [if_pos h]
    refine loop_spec _ a 0 (a.length - 1) [] ⟨fun i hi => by omega, by simp, ?_, ?_, ?_⟩ ?_
    · intro b hm
      simp only [List.mem_singleton] at hm
      omega
    · intro b hm i j h1 h2 h3
      simp only [List.mem_singleton] at hm
      omega
    · intro i hi _ j h1 h2
      have := hi (a.length - 1) (List.mem_singleton.mpr rfl)
      omega
    · unfold measure
      rw [if_pos (by omega), Nat.sub_zero, Nat.add_mul, Nat.one_mul]
      omega
  · rw [if_neg h]
    refine ⟨a, rfl, List.Perm.refl _, ?_⟩
    match a, h with
    | [], _ => exact List.Pairwise.nil
    | [x], _ => exact List.pairwise_singleton _ _
    | _ :: _ :: _, h => exact absurd (by simp) h

end Verif.Lemmas.PdbSort
