import Verif.Model.Path
import Verif.Spec.Path

/-!
# C52: path handling
-/
namespace Verif.Props.Path
open Verif.Path Verif.Spec.Path

/-! ## components -/

theorem components_nil : components [] = [] := by rw [components]

theorem components_slash (s : List Nat) : components (47 :: s) = components s := by rw [components]; simp

theorem components_cons {c : Nat} (s : List Nat) (h : c ≠ 47) :
    components (c :: s) = (c :: s.takeWhile (· ≠ 47)) :: components (s.dropWhile (· ≠ 47)) := by
  rw [components]; simp [h]

theorem while_append (a b : List Nat) :
    (a ++ 47 :: b).takeWhile (fun c => decide (c ≠ 47)) = a.takeWhile (fun c => decide (c ≠ 47)) ∧
    (a ++ 47 :: b).dropWhile (fun c => decide (c ≠ 47)) = a.dropWhile (fun c => decide (c ≠ 47)) ++ 47 :: b := by
  induction a with
  | nil => simp
  | cons c a ih =>
    by_cases h : c = 47
    · simp [h]
    · simp only [List.cons_append, List.takeWhile_cons, List.dropWhile_cons, ne_eq, h, not_false_eq_true, decide_true, if_true]
      exact ⟨by rw [ih.1], ih.2⟩

theorem components_append (a b : List Nat) : components (a ++ 47 :: b) = components a ++ components b := by
  have key : ∀ (N : Nat) (a : List Nat), a.length ≤ N → components (a ++ 47 :: b) = components a ++ components b := by
    intro N
    induction N with
    | zero =>
      intro a ha
      rw [List.length_eq_zero_iff.1 (Nat.le_zero.1 ha)]
      simp [components_nil, components_slash]
    | succ N ih =>
      intro a ha
      cases a with
      | nil => simp [components_nil, components_slash]
      | cons c a =>
        simp only [List.length_cons, Nat.succ_le_succ_iff] at ha
        by_cases h : c = 47
        · subst h
          rw [List.cons_append, components_slash, components_slash]
          exact ih a ha
        · obtain ⟨w1, w2⟩ := while_append a b
          rw [List.cons_append, components_cons _ h, components_cons _ h, w1, w2,
            ih _ (Nat.le_trans (dropWhile_length _ a) ha)]
          rfl
  exact key _ a (Nat.le_refl _)

theorem components_snoc (a : List Nat) : components (a ++ [47]) = components a := by
  rw [components_append, components_nil, List.append_nil]

theorem components_word (w : List Nat) (hw : w ≠ []) (h : ∀ c ∈ w, c ≠ 47) : components w = [w] := by
  cases w with
  | nil => exact absurd rfl hw
  | cons c w =>
    have hw' : ∀ x ∈ w, decide (x ≠ 47) = true := fun x hx => by simpa using h x (by simp [hx])
    have h1 : w.takeWhile (fun c => decide (c ≠ 47)) = w := by
      have := List.takeWhile_append_of_pos (l₂ := []) hw'
      simpa using this
    have h2 : w.dropWhile (fun c => decide (c ≠ 47)) = [] := by
      have := List.dropWhile_append_of_pos (l₂ := []) hw'
      simpa using this
    rw [components_cons _ (h c (by simp)), h1, h2, components_nil]

/-! ## scanning -/

theorem scanBack_some {p : Nat → Bool} {s : List Nat} {n i : Nat} (h : scanBack p s n = some i) :
    i < n ∧ p (s.getD i 0) = true ∧ ∀ j, i < j → j < n → p (s.getD j 0) = false := by
  induction n with
  | zero => simp [scanBack] at h
  | succ n ih =>
    rw [scanBack] at h
    split at h
    · rename_i hp
      injection h with h
      subst h
      exact ⟨by omega, hp, fun j h1 h2 => by omega⟩
    · rename_i hp
      obtain ⟨h1, h2, h3⟩ := ih h
      refine ⟨by omega, h2, fun j h4 h5 => ?_⟩
      by_cases e : j = n
      · subst e; simpa using hp
      · exact h3 j h4 (by omega)

theorem scanBack_none {p : Nat → Bool} {s : List Nat} {n : Nat} (h : scanBack p s n = none) :
    ∀ j, j < n → p (s.getD j 0) = false := by
  induction n with
  | zero => intro j hj; omega
  | succ n ih =>
    rw [scanBack] at h
    split at h
    · cases h
    · rename_i hp
      intro j hj
      by_cases e : j = n
      · subst e; simpa using hp
      · exact ih h j (by omega)

theorem getD_eq (s : List Nat) (i : Nat) (h : i < s.length) : s.getD i 0 = s[i] := by
  rw [List.getD_eq_getElem?_getD, List.getElem?_eq_getElem h]; rfl

theorem take_drop_at (s : List Nat) (i : Nat) (h : i < s.length) : s = s.take i ++ s[i] :: s.drop (i + 1) := by
  rw [List.getElem_cons_drop h, List.take_append_drop]

/-! ## stripping and popping -/

/-- Starts with a letter and a colon. -/
def Drive (s : List Nat) : Prop := ∃ x t, s = x :: 58 :: t ∧ x ≠ 47

theorem drive_of_absolute {s : List Nat} (h : isAbsolute s = true) : Drive s := by
  unfold isAbsolute at h
  split at h
  · cases h
  · cases s with
    | nil => simp at *
    | cons x s =>
      cases s with
      | nil => simp at *
      | cons y t =>
        simp only [Bool.and_eq_true, beq_iff_eq] at h
        have hy : y = 58 := h.2
        refine ⟨x, t, by rw [hy], fun e => ?_⟩
        rw [e] at h
        exact absurd h.1 (by simp [isAlpha])

theorem Drive.length {s : List Nat} (h : Drive s) : 2 ≤ s.length := by
  obtain ⟨x, t, rfl, _⟩ := h
  simp

theorem stripSlashes_ok (s : List Nat) (hd : Drive s) :
    Drive (stripSlashes s) ∧ components (stripSlashes s) = components s ∧ (stripSlashes s).getLast? ≠ some 47 := by
  fun_induction stripSlashes s with
  | case1 s h ih =>
    have e : s = s.dropLast ++ [47] := by
      have hne : s ≠ [] := fun e => by simp [e] at h
      have := List.dropLast_concat_getLast hne
      rw [List.getLast?_eq_some_getLast hne] at h
      have hh := h.2
      injection hh with hh
      rw [hh] at this
      exact this.symm
    have hd' : Drive s.dropLast := by
      obtain ⟨x, t, rfl, hx⟩ := hd
      cases t with
      | nil => simp at h
      | cons y t => exact ⟨x, (y :: t).dropLast, by simp, hx⟩
    obtain ⟨i1, i2, i3⟩ := ih hd'
    refine ⟨i1, ?_, i3⟩
    rw [i2]
    conv => rhs; rw [e]
    rw [components_snoc]
  | case2 s h =>
    refine ⟨hd, rfl, fun hl => h ⟨?_, hl⟩⟩
    obtain ⟨x, t, rfl, hx⟩ := hd
    cases t with
    | nil => simp at hl
    | cons y t => simp

/-- Going up one component unless at the root. -/
def up (cs : List (List Nat)) : List (List Nat) := if cs.length ≤ 1 then cs else cs.dropLast

theorem components_drive {s : List Nat} (h : Drive s) : components s ≠ [] := by
  obtain ⟨x, t, rfl, hx⟩ := h
  rw [components_cons _ hx]
  simp

theorem popDirectory_ok (s : List Nat) (hd : Drive s) :
    Drive (popDirectory s) ∧ components (popDirectory s) = up (components s) := by
  obtain ⟨h1, h2, h3⟩ := stripSlashes_ok s hd
  rw [← h2]
  simp only [popDirectory]
  generalize stripSlashes s = a at h1 h3
  have hlen := h1.length
  cases hs : scanBack (fun x => x == 47) a (a.length - 1) with
  | none =>
    have hn := scanBack_none hs
    refine ⟨h1, ?_⟩
    have : components a = [a] := by
      refine components_word a (fun e => by rw [e] at hlen; simp at hlen) ?_
      intro c hc e
      obtain ⟨i, hi, hc⟩ := List.getElem_of_mem hc
      by_cases hl : i = a.length - 1
      · apply h3
        rw [List.getLast?_eq_getElem?, ← hl, List.getElem?_eq_getElem hi, hc, e]
      · have := hn i (by omega)
        rw [getD_eq a i hi, hc, e] at this
        simp at this
    simp [this, up]
  | some i =>
    obtain ⟨k1, k2, k3⟩ := scanBack_some hs
    have hi : i < a.length := by omega
    rw [getD_eq a i hi, beq_iff_eq] at k2
    have e := take_drop_at a i hi
    rw [k2] at e
    have hx : 2 ≤ i := by
      obtain ⟨x, t, rfl, hx⟩ := h1
      rcases i with _ | _ | i
      · exact absurd k2 hx
      · simp at k2
      · omega
    have hnew : a.take (i + 1) = a.take i ++ [47] := by rw [List.take_succ_eq_append_getElem hi, k2]
    have hdt : Drive (a.take i) := by
      obtain ⟨x, t, rfl, hx'⟩ := h1
      obtain ⟨m, rfl⟩ : ∃ m, i = m + 2 := ⟨i - 2, by omega⟩
      exact ⟨x, t.take m, by simp, hx'⟩
    have hdrop : components (a.drop (i + 1)) = [a.drop (i + 1)] := by
      refine components_word _ (fun e => ?_) ?_
      · have := congrArg List.length e
        simp at this
        omega
      · intro c hc e
        obtain ⟨j, hj, hc⟩ := List.getElem_of_mem hc
        rw [List.getElem_drop] at hc
        rw [List.length_drop] at hj
        by_cases hl : i + 1 + j = a.length - 1
        · apply h3
          rw [List.getLast?_eq_getElem?, ← hl, List.getElem?_eq_getElem (by omega), hc, e]
        · have := k3 (i + 1 + j) (by omega) (by omega)
          rw [getD_eq a _ (by omega), hc, e] at this
          simp at this
    refine ⟨?_, ?_⟩
    · simp only
      rw [hnew]
      obtain ⟨x, t, he, hx'⟩ := hdt
      exact ⟨x, t ++ [47], by rw [he]; simp, hx'⟩
    · simp only
      rw [hnew, components_snoc]
      conv => rhs; rw [e]
      rw [components_append, hdrop]
      have hne := components_drive hdt
      cases hc : components (a.take i) with
      | nil => exact absurd hc hne
      | cons y ys =>
        have hlen2 : ¬ ((y :: ys ++ [List.drop (i + 1) a]).length ≤ 1) := by simp
        rw [up, if_neg hlen2, List.dropLast_concat]

/-- Going up several times. -/
def ups : Nat → List (List Nat) → List (List Nat)
  | 0, cs => cs
  | n + 1, cs => ups n (up cs)

theorem popDirectories_ok (n : Nat) : ∀ (s : List Nat), Drive s →
    Drive (popDirectories n s) ∧ components (popDirectories n s) = ups n (components s) := by
  induction n with
  | zero => intro s h; exact ⟨h, rfl⟩
  | succ n ih =>
    intro s h
    obtain ⟨h1, h2⟩ := popDirectory_ok s h
    rw [popDirectories, if_neg (by have := h.length; omega), ups, ← h2]
    exact ih _ h1

/-! ## the relative path -/

def dotdots (cs : List (List Nat)) : Nat := cs.countP (· == dotdot)

theorem components_dot (s : List Nat) : components (46 :: 47 :: s) = dot :: components s := by
  have := components_append [46] s
  rw [components_word [46] (by simp) (by simp)] at this
  exact this

theorem components_dotdot (s : List Nat) : components (46 :: 46 :: 47 :: s) = dotdot :: components s := by
  have := components_append [46, 46] s
  rw [components_word [46, 46] (by simp) (by simp)] at this
  exact this

/-- What the relative path starts with when the first loop ends. -/
def Stuck (s : List Nat) : Prop :=
  (∀ t, s ≠ 47 :: t) ∧ (∀ t, s ≠ 46 :: 47 :: t) ∧ (∀ t, s ≠ 46 :: 46 :: 47 :: t)

theorem eatFront_ok (k : Nat) (s : List Nat) :
    ∃ l, components s = l ++ components (eatFront k s).1 ∧ l.all isDots = true ∧ (eatFront k s).2 = k + dotdots l ∧
      Stuck (eatFront k s).1 := by
  fun_induction eatFront k s with
  | case1 k s ih =>
    obtain ⟨l, h1, h2, h3, h4⟩ := ih
    exact ⟨l, by rw [components_slash]; exact h1, h2, h3, h4⟩
  | case2 k s ih =>
    obtain ⟨l, h1, h2, h3, h4⟩ := ih
    refine ⟨dot :: l, by rw [components_dot, h1]; rfl, ?_, ?_, h4⟩
    · rw [List.all_cons, h2]; rfl
    · rw [h3]
      have : dotdots (dot :: l) = dotdots l := by simp [dotdots, dot, dotdot]
      rw [this]
  | case3 k s ih =>
    obtain ⟨l, h1, h2, h3, h4⟩ := ih
    refine ⟨dotdot :: l, by rw [components_dotdot, h1]; rfl, ?_, ?_, h4⟩
    · rw [List.all_cons, h2]; rfl
    · rw [h3]
      have : dotdots (dotdot :: l) = dotdots l + 1 := by simp [dotdots]
      omega
  | case4 k s h1 h2 h3 =>
    exact ⟨[], rfl, rfl, rfl, ⟨fun t e => h1 t e, fun t e => h2 t e, fun t e => h3 t e⟩⟩

theorem takeWhile_nil {t : List Nat} (h : t.takeWhile (fun c => decide (c ≠ 47)) = []) : t = [] ∨ ∃ u, t = 47 :: u := by
  cases t with
  | nil => exact Or.inl rfl
  | cons c t =>
    by_cases e : c = 47
    · exact Or.inr ⟨t, by rw [e]⟩
    · simp [e] at h

theorem stuck_head {s : List Nat} (h : Stuck s) (h1 : s ≠ [46]) (h2 : s ≠ [46, 46]) :
    ∀ c cs, components s = c :: cs → isDots c = false := by
  intro c cs hc
  cases s with
  | nil => rw [components_nil] at hc; cases hc
  | cons x t =>
    have hx : x ≠ 47 := fun e => h.1 t (by rw [e])
    rw [components_cons _ hx] at hc
    injection hc with hc _
    subst hc
    cases hd : isDots (x :: List.takeWhile (fun c => decide (c ≠ 47)) t) with
    | false => rfl
    | true =>
      exfalso
      simp only [isDots, Bool.or_eq_true, beq_iff_eq, dot, dotdot, List.cons.injEq] at hd
      rcases hd with ⟨rfl, hd⟩ | ⟨rfl, hd⟩
      · rcases takeWhile_nil hd with rfl | ⟨u, rfl⟩
        · exact h1 rfl
        · exact h.2.1 u rfl
      · cases t with
        | nil => simp at hd
        | cons y t =>
          by_cases hy : y = 47
          · rw [hy] at hd; simp at hd
          · simp only [List.takeWhile_cons, ne_eq, hy, not_false_eq_true, decide_true, if_true, List.cons.injEq] at hd
            obtain ⟨rfl, hd⟩ := hd
            rcases takeWhile_nil hd with rfl | ⟨u, rfl⟩
            · exact h2 rfl
            · exact h.2.2 u rfl

theorem eat_ok (s : List Nat) :
    ∃ l, components s = l ++ components (eatWhole (eatFront 0 s)).1 ∧ l.all isDots = true ∧
      (eatWhole (eatFront 0 s)).2 = dotdots l ∧
      ∀ c cs, components (eatWhole (eatFront 0 s)).1 = c :: cs → isDots c = false := by
  obtain ⟨l, h1, h2, h3, h4⟩ := eatFront_ok 0 s
  generalize eatFront 0 s = r at h1 h3 h4
  unfold eatWhole
  split
  · rename_i e
    refine ⟨l ++ [dot], ?_, ?_, ?_, ?_⟩
    · rw [h1, e, components_word [46] (by simp) (by simp)]; simp [components_nil, dot]
    · rw [List.all_append, h2]; rfl
    · rw [h3]; simp [dotdots, dot, dotdot]
    · intro c cs hc; rw [components_nil] at hc; cases hc
  · rename_i e1
    split
    · rename_i e
      refine ⟨l ++ [dotdot], ?_, ?_, ?_, ?_⟩
      · rw [h1, e, components_word [46, 46] (by simp) (by simp)]; simp [components_nil, dotdot]
      · rw [List.all_append, h2]; rfl
      · simp only; rw [h3]; simp [dotdots]
      · intro c cs hc; rw [components_nil] at hc; cases hc
    · rename_i e2
      exact ⟨l, h1, h2, by rw [h3, Nat.zero_add], stuck_head h4 e1 e2⟩

theorem foldl_dots (l : List (List Nat)) (h : l.all isDots = true) : ∀ st, l.foldl follow st = ups (dotdots l) st := by
  induction l with
  | nil => intro st; rfl
  | cons c l ih =>
    intro st
    rw [List.all_cons, Bool.and_eq_true] at h
    rw [List.foldl_cons]
    have hc := h.1
    simp only [isDots, Bool.or_eq_true, beq_iff_eq] at hc
    rcases hc with rfl | rfl
    · have : dotdots (dot :: l) = dotdots l := by simp [dotdots, dot, dotdot]
      rw [this, ← ih h.2]
      rfl
    · have : dotdots (dotdot :: l) = dotdots l + 1 := by simp [dotdots]
      rw [this, ups, ← ih h.2]
      rfl

theorem foldl_plain (l : List (List Nat)) (h : ∀ c ∈ l, isDots c = false) : ∀ st, l.foldl follow st = st ++ l := by
  induction l with
  | nil => intro st; simp
  | cons c l ih =>
    intro st
    have hc := h c (by simp)
    simp only [isDots, Bool.or_eq_false_iff, beq_eq_false_iff_ne] at hc
    rw [List.foldl_cons, ih (fun d hd => h d (by simp [hd]))]
    simp only [follow, if_neg hc.1, if_neg hc.2, List.append_assoc, List.cons_append, List.nil_append]

theorem takeWhile_split (l m : List (List Nat)) (h : l.all isDots = true) (hm : ∀ c cs, m = c :: cs → isDots c = false) :
    (l ++ m).takeWhile isDots = l ∧ (l ++ m).dropWhile isDots = m := by
  have h' : ∀ c ∈ l, isDots c = true := by simpa using h
  rw [List.takeWhile_append_of_pos h', List.dropWhile_append_of_pos h']
  cases m with
  | nil => simp
  | cons c cs => have := hm c cs rfl; simp [this]

/-- C52 (components): for every absolute directory without `.` and `..` components and every relative path, the
components of the concatenation are those of the directory that the leading `.` and `..` components of the relative
path lead to, followed by all its other components. -/
theorem C52_concatenate (a r : List Nat) (ha : isAbsolute a = true) (hn : ∀ c ∈ components a, isDots c = false) :
    components (concatenate a r) =
      resolve (components a ++ (components r).takeWhile isDots) ++ (components r).dropWhile isDots := by
  obtain ⟨l, h1, h2, h3, h4⟩ := eat_ok r
  obtain ⟨p1, p2⟩ := popDirectories_ok (eatWhole (eatFront 0 r)).2 a (drive_of_absolute ha)
  obtain ⟨q1, q2, q3⟩ := stripSlashes_ok _ p1
  obtain ⟨t1, t2⟩ := takeWhile_split l _ h2 h4
  rw [h1, t1, t2, resolve, List.foldl_append, foldl_plain _ hn, List.nil_append, foldl_dots l h2, ← h3, ← p2, ← q2]
  simp only [concatenate]
  split
  · rename_i e
    rw [List.length_eq_zero_iff.1 e, components_nil, List.append_nil]
  · rw [components_append]

/-- C52 (meaning): the concatenation leads to the same file as following the components of the directory and then those
of the relative path. -/
theorem C52_same_file (a r : List Nat) (ha : isAbsolute a = true) (hn : ∀ c ∈ components a, isDots c = false) :
    resolve (components (concatenate a r)) = resolve (components a ++ components r) := by
  rw [C52_concatenate a r ha hn]
  have hr : components r = (components r).takeWhile isDots ++ (components r).dropWhile isDots :=
    List.takeWhile_append_dropWhile.symm
  conv => rhs; rw [hr, ← List.append_assoc, resolve, List.foldl_append]
  conv => lhs; rw [resolve, List.foldl_append]
  congr 1
  have hd : ((components r).takeWhile isDots).all isDots = true := by
    exact List.all_takeWhile
  have e : List.foldl follow [] (components a ++ List.takeWhile isDots (components r))
      = ups (dotdots ((components r).takeWhile isDots)) (components a) := by
    rw [List.foldl_append, foldl_plain _ hn, List.nil_append, foldl_dots _ hd]
  rw [resolve, e, foldl_plain, List.nil_append]
  have : ∀ n cs, (∀ c ∈ cs, isDots c = false) → ∀ c ∈ ups n cs, isDots c = false := by
    intro n
    induction n with
    | zero => intro cs h; exact h
    | succ n ih =>
      intro cs h
      refine ih _ ?_
      intro c hc
      unfold up at hc
      split at hc
      · exact h c hc
      · exact h c ((List.dropLast_sublist _).subset hc)
  exact this _ _ hn

/-- C52 (slashes): after canonicalization there is no backslash, and every byte that was not a backslash is unchanged. -/
theorem C52_canonical (s : List Nat) :
    92 ∉ canonicalizeSlashes s ∧ (canonicalizeSlashes s).length = s.length ∧
    ∀ (i : Nat) (c : Nat), s[i]? = some c → (canonicalizeSlashes s)[i]? = some (if c = 92 then 47 else c) := by
  refine ⟨fun h => ?_, by simp [canonicalizeSlashes], fun i c h => ?_⟩
  · obtain ⟨c, _, hc⟩ := List.mem_map.1 h
    split at hc <;> omega
  · simp [canonicalizeSlashes, h]

/-- C52 (directory and file name): they rejoin to the path, the file name contains no slash, the directory is empty or
ends with one. -/
theorem C52_split (s : List Nat) :
    stripFileName s ++ stripFilePath s = s ∧ (∀ c ∈ stripFilePath s, c ≠ 47 ∧ c ≠ 92) ∧
    (stripFileName s = [] ∨ ∃ d x, stripFileName s = d ++ [x] ∧ (x = 47 ∨ x = 92)) := by
  refine ⟨List.take_append_drop _ _, ?_, ?_⟩
  · intro c hc
    obtain ⟨j, hj, hc⟩ := List.getElem_of_mem hc
    simp only [stripFilePath, List.length_drop, List.getElem_drop] at hj hc
    have hp : isSlash c = false := by
      rw [← hc, ← getD_eq s _ (by omega)]
      unfold onePastLastSlash at *
      split
      · rename_i i hi
        simp only [hi] at hj
        exact (scanBack_some hi).2.2 _ (by omega) (by omega)
      · rename_i hi
        simp only [hi] at hj
        exact scanBack_none hi _ (by omega)
    simpa [isSlash] using hp
  · unfold stripFileName onePastLastSlash
    split
    · rename_i i hi
      obtain ⟨h1, h2, _⟩ := scanBack_some hi
      rw [getD_eq s i h1] at h2
      refine Or.inr ⟨s.take i, s[i], List.take_succ_eq_append_getElem h1, ?_⟩
      simpa [isSlash] using h2
    · exact Or.inl rfl

theorem findDot_some {s : List Nat} {n i : Nat} (h : findDot s n = some i) :
    i < n ∧ s.getD i 0 = 46 ∧ ∀ j, i < j → j < n → isSlash (s.getD j 0) = false ∧ s.getD j 0 ≠ 46 := by
  induction n with
  | zero => simp [findDot] at h
  | succ n ih =>
    rw [findDot] at h
    split at h
    · cases h
    · rename_i h0
      split at h
      · rename_i hp
        injection h with h
        subst h
        exact ⟨by omega, hp, fun j h1 h2 => by omega⟩
      · rename_i hp
        obtain ⟨h1, h2, h3⟩ := ih h
        refine ⟨by omega, h2, fun j h4 h5 => ?_⟩
        by_cases e : j = n
        · subst e; exact ⟨by simpa using h0, hp⟩
        · exact h3 j h4 (by omega)

theorem findDot_none {s : List Nat} {n : Nat} (h : findDot s n = none) :
    ∀ j, j < n → s.getD j 0 = 46 → ∃ k, j < k ∧ k < n ∧ isSlash (s.getD k 0) = true := by
  induction n with
  | zero => intro j hj; omega
  | succ n ih =>
    rw [findDot] at h
    intro j hj hd
    split at h
    · rename_i h0
      by_cases e : j = n
      · subst e; rw [hd] at h0; simp [isSlash] at h0
      · exact ⟨n, by omega, by omega, h0⟩
    · split at h
      · cases h
      · rename_i hp
        by_cases e : j = n
        · subst e; exact absurd hd hp
        · obtain ⟨k, h1, h2, h3⟩ := ih h j (by omega) hd
          exact ⟨k, h1, by omega, h3⟩

/-- C52 (extension): the path without its extension and the extension rejoin to the path; an extension starts with a
dot and contains no other dot and no slash; if there is none, every dot is in a directory name. -/
theorem C52_extension (s : List Nat) :
    stripExtension s ++ extension s = s ∧
    ((∃ e, extension s = 46 :: e ∧ ∀ c ∈ e, c ≠ 46 ∧ c ≠ 47 ∧ c ≠ 92) ∨
     (extension s = [] ∧ ∀ j : Nat, s[j]? = some 46 → ∃ k : Nat, j < k ∧ (s[k]? = some 47 ∨ s[k]? = some 92))) := by
  unfold stripExtension extension
  cases hf : findDot s s.length with
  | some i =>
    obtain ⟨h1, h2, h3⟩ := findDot_some hf
    refine ⟨List.take_append_drop _ _, Or.inl ⟨s.drop (i + 1), ?_, ?_⟩⟩
    · simp only
      rw [getD_eq s i h1] at h2
      rw [← List.getElem_cons_drop h1, h2]
    · intro c hc
      obtain ⟨j, hj, hc⟩ := List.getElem_of_mem hc
      rw [List.getElem_drop] at hc
      rw [List.length_drop] at hj
      obtain ⟨g1, g2⟩ := h3 (i + 1 + j) (by omega) (by omega)
      rw [getD_eq s _ (by omega), hc] at g1 g2
      simp only [isSlash, Bool.or_eq_false_iff, beq_eq_false_iff_ne] at g1
      exact ⟨g2, g1⟩
  | none =>
    refine ⟨List.append_nil _, Or.inr ⟨rfl, fun j hj => ?_⟩⟩
    obtain ⟨hj', hj⟩ := List.getElem?_eq_some_iff.1 hj
    obtain ⟨k, k1, k2, k3⟩ := findDot_none hf j hj' (by rw [getD_eq s j hj', hj])
    rw [getD_eq s k k2] at k3
    simp only [isSlash, Bool.or_eq_true, beq_iff_eq] at k3
    refine ⟨k, k1, ?_⟩
    rw [List.getElem?_eq_getElem k2]
    rcases k3 with k3 | k3
    · exact Or.inl (by rw [k3])
    · exact Or.inr (by rw [k3])

/-- `C:/ab/c/` and `.././d/../e.h` -/
example : isAbsolute [67, 58, 47, 97, 98, 47, 99, 47] = true ∧
    (∀ c ∈ components [67, 58, 47, 97, 98, 47, 99, 47], isDots c = false) ∧
    components (concatenate [67, 58, 47, 97, 98, 47, 99, 47] [46, 46, 47, 46, 47, 100, 47, 46, 46, 47, 101, 46, 104]) =
      [[67, 58], [97, 98], [100], [46, 46], [101, 46, 104]] := by
  have h1 : isAbsolute [67, 58, 47, 97, 98, 47, 99, 47] = true := by decide
  have h2 : components [67, 58, 47, 97, 98, 47, 99, 47] = [[67, 58], [97, 98], [99]] := by
    simp [components_cons, components_slash, components_nil]
  have h3 : ∀ c ∈ components [67, 58, 47, 97, 98, 47, 99, 47], isDots c = false := by rw [h2]; decide
  refine ⟨h1, h3, ?_⟩
  rw [C52_concatenate _ _ h1 h3, h2]
  have h4 : components [46, 46, 47, 46, 47, 100, 47, 46, 46, 47, 101, 46, 104] = [[46, 46], [46], [100], [46, 46], [101, 46, 104]] := by
    simp [components_cons, components_slash, components_nil]
  rw [h4]
  decide

/-- `C:/..` stays at the drive, `a.b/c` has no extension. -/
example : popDirectories 1 [67, 58] = [67, 58] ∧ extension [97, 46, 98, 47, 99] = [] ∧
    stripFileName [97, 46, 98, 47, 99] = [97, 46, 98, 47] := by
  refine ⟨?_, by decide, by decide⟩
  simp [popDirectories, popDirectory, stripSlashes, scanBack]

end Verif.Props.Path
