import Verif.Model.DefineTable

/-!
# C10: the table of macros is a map
-/
namespace Verif.DefineTable
open Verif.Spec.DefineTable

variable {D : Type} {hash : Nat → Nat} {same : D → D → Bool}

/-- The invariant: every node is in the list of its hash, and no name is in the table twice. -/
structure Inv (hash : Nat → Nat) (t : Table D) : Prop where
  place : ∀ i e, e ∈ t.lists i → hash e.1 % t.capacity = i
  once : ∀ i, ((t.lists i).map Prod.fst).Nodup

/-- What the table says about a name. -/
def get (hash : Nat → Nat) (t : Table D) (n : Nat) : Option D := (lookup hash t n).map Prod.snd

theorem find_iff {l : List (Nat × D)} (h : (l.map Prod.fst).Nodup) (n : Nat) (e : Nat × D) :
    l.find? (fun e => e.1 == n) = some e ↔ e ∈ l ∧ e.1 = n := by
  induction l with
  | nil => simp
  | cons a l ih =>
    simp only [List.map_cons, List.nodup_cons] at h
    by_cases ha : a.1 = n
    · rw [List.find?_cons_of_pos (by simpa using ha)]
      constructor
      · intro he
        cases he
        exact ⟨List.mem_cons_self, ha⟩
      · rintro ⟨hm, hn⟩
        rcases List.mem_cons.1 hm with rfl | hm
        · rfl
        · exact absurd (List.mem_map.2 ⟨e, hm, hn.trans ha.symm⟩) h.1
    · rw [List.find?_cons_of_neg (by simpa using ha), ih h.2]
      constructor
      · rintro ⟨hm, hn⟩
        exact ⟨List.mem_cons_of_mem _ hm, hn⟩
      · rintro ⟨hm, hn⟩
        rcases List.mem_cons.1 hm with rfl | hm
        · exact absurd hn ha
        · exact ⟨hm, hn⟩

theorem get_iff {t : Table D} (h : Inv hash t) (n : Nat) (d : D) : get hash t n = some d ↔ ∃ i, (n, d) ∈ t.lists i := by
  unfold get lookup
  constructor
  · intro hg
    cases hf : (t.lists (hash n % t.capacity)).find? (fun e => e.1 == n) with
    | none => rw [hf] at hg; cases hg
    | some e =>
      rw [hf] at hg
      obtain ⟨hm, hn⟩ := (find_iff (h.once _) n e).1 hf
      cases hg
      refine ⟨hash n % t.capacity, ?_⟩
      rw [show ((n, e.2) : Nat × D) = e by rw [← hn]]
      exact hm
  · rintro ⟨i, hm⟩
    have := h.place i _ hm
    simp only at this
    rw [this, (find_iff (h.once i) n (n, d)).2 ⟨hm, rfl⟩]
    rfl

/-- Two tables with the same nodes say the same. -/
theorem get_congr {t u : Table D} (ht : Inv hash t) (hu : Inv hash u) (h : ∀ e, (∃ i, e ∈ t.lists i) ↔ ∃ i, e ∈ u.lists i) (n : Nat) :
    get hash t n = get hash u n := by
  apply Option.ext
  intro d
  rw [get_iff ht, get_iff hu, h]

/-! ## Growth -/

theorem fold_pushBack (new : Nat) (l : List (Nat × D)) (acc : Nat → List (Nat × D)) (j : Nat) :
    (l.foldl (fun acc e => pushBack acc (hash e.1 % new) e) acc) j = acc j ++ l.filter (fun e => hash e.1 % new == j) := by
  induction l generalizing acc with
  | nil => simp
  | cons e l ih =>
    simp only [List.foldl_cons]
    rw [ih]
    simp only [pushBack]
    by_cases h : j = hash e.1 % new
    · subst h
      rw [if_pos rfl, List.filter_cons_of_pos (by simp)]
      simp
    · rw [if_neg h, List.filter_cons_of_neg (by simpa using fun e => h e.symm)]

theorem fold_lists (new : Nat) (lists : Nat → List (Nat × D)) (is : List Nat) (acc : Nat → List (Nat × D)) (j : Nat) :
    (is.foldl (fun acc i => (lists i).foldl (fun acc e => pushBack acc (hash e.1 % new) e) acc) acc) j =
      acc j ++ (is.flatMap lists).filter (fun e => hash e.1 % new == j) := by
  induction is generalizing acc with
  | nil => simp
  | cons i is ih =>
    simp only [List.foldl_cons]
    rw [ih, fold_pushBack]
    simp

theorem rehash_eq (t : Table D) (new j : Nat) :
    rehash hash t new j = ((List.range t.capacity).flatMap t.lists).filter (fun e => hash e.1 % new == j) := by
  unfold rehash
  rw [fold_lists]
  simp

theorem all_nodup {t : Table D} (h : Inv hash t) : ∀ (is : List Nat), is.Nodup → ((is.flatMap t.lists).map Prod.fst).Nodup
  | [], _ => by simp
  | i :: is, hn => by
    obtain ⟨h1, h2⟩ := List.nodup_cons.1 hn
    rw [List.flatMap_cons, List.map_append, List.nodup_append]
    refine ⟨h.once i, all_nodup h is h2, ?_⟩
    intro a ha b hb hab
    subst hab
    obtain ⟨e, he, hea⟩ := List.mem_map.1 ha
    obtain ⟨f, hf, hfa⟩ := List.mem_map.1 hb
    obtain ⟨k, hk, hfk⟩ := List.mem_flatMap.1 hf
    have p1 := h.place i e he
    have p2 := h.place k f hfk
    rw [hea] at p1
    rw [hfa] at p2
    rw [p1] at p2
    rw [p2] at h1
    exact h1 hk

theorem grow_mem {t : Table D} (h : Inv hash t) (hc : t.capacity = 0 → ∀ i, t.lists i = []) (e : Nat × D) :
    (∃ i, e ∈ (grow hash t).lists i) ↔ ∃ i, e ∈ t.lists i := by
  unfold grow
  split
  · simp only [rehash_eq, List.mem_filter, List.mem_flatMap, List.mem_range, beq_iff_eq]
    constructor
    · rintro ⟨i, ⟨k, hk, hm⟩, _⟩
      exact ⟨k, hm⟩
    · rintro ⟨i, hm⟩
      refine ⟨_, ⟨i, ?_, hm⟩, rfl⟩
      have hp := h.place i e hm
      rcases Nat.eq_zero_or_pos t.capacity with h0 | h0
      · rw [hc h0 i] at hm
        cases hm
      · rw [← hp]
        exact Nat.mod_lt _ h0
  · exact Iff.rfl

theorem grow_inv {t : Table D} (h : Inv hash t) : Inv hash (grow hash t) := by
  unfold grow
  split
  · refine ⟨?_, ?_⟩
    · intro i e hm
      simp only [rehash_eq, List.mem_filter, beq_iff_eq] at hm
      exact hm.2
    · intro i
      simp only [rehash_eq]
      exact ((List.filter_sublist).map _).nodup (all_nodup h _ List.nodup_range)
  · exact h

theorem grow_capacity (t : Table D) : 0 < (grow hash t).capacity := by
  unfold grow
  split
  · show 0 < 2 * max t.capacity 256
    omega
  · omega

/-! ## The operations -/

theorem get_none {t : Table D} {n : Nat} : get hash t n = none ↔ lookup hash t n = none := by
  unfold get
  cases lookup hash t n <;> simp

theorem register_inv {t : Table D} (h : Inv hash t) (hc : t.capacity = 0 → ∀ i, t.lists i = []) {n : Nat} {d : D} (hn : get hash t n = none) :
    Inv hash (register hash t n d) := by
  have hg := grow_inv h
  have hn' : get hash (grow hash t) n = none := by
    rw [get_congr hg h (grow_mem h hc)]
    exact hn
  refine ⟨?_, ?_⟩
  · intro i e hm
    simp only [register] at hm ⊢
    split at hm
    · rename_i hi
      rcases List.mem_cons.1 hm with rfl | hm
      · exact hi.symm
      · exact hg.place i e hm
    · exact hg.place i e hm
  · intro i
    simp only [register]
    split
    · simp only [List.map_cons, List.nodup_cons]
      refine ⟨?_, hg.once i⟩
      intro hm
      obtain ⟨e, he, hne⟩ := List.mem_map.1 hm
      have : get hash (grow hash t) n = some e.2 := (get_iff hg n e.2).2 ⟨i, by rw [← hne]; exact he⟩
      rw [hn'] at this
      cases this
    · exact hg.once i

theorem get_register {t : Table D} (h : Inv hash t) (hc : t.capacity = 0 → ∀ i, t.lists i = []) {n : Nat} {d : D} (hn : get hash t n = none)
    (m : Nat) : get hash (register hash t n d) m = if m = n then some d else get hash t m := by
  have hg := grow_inv h
  have hi := register_inv (d := d) h hc hn
  rw [← get_congr hg h (grow_mem h hc) m]
  by_cases hm : m = n
  · rw [if_pos hm]
    subst hm
    exact (get_iff hi m d).2 ⟨hash m % (grow hash t).capacity, by simp [register]⟩
  · rw [if_neg hm]
    apply Option.ext
    intro c
    rw [get_iff hi, get_iff hg]
    simp only [register]
    constructor
    · rintro ⟨i, hmem⟩
      split at hmem
      · rcases List.mem_cons.1 hmem with e | hmem
        · cases e
          exact absurd rfl hm
        · exact ⟨i, hmem⟩
      · exact ⟨i, hmem⟩
    · rintro ⟨i, hmem⟩
      refine ⟨i, ?_⟩
      split
      · exact List.mem_cons_of_mem _ hmem
      · exact hmem

theorem map_setFirst (n : Nat) (d : D) (l : List (Nat × D)) : (setFirst n d l).map Prod.fst = l.map Prod.fst := by
  induction l with
  | nil => rfl
  | cons e l ih =>
    simp only [setFirst]
    split
    · rename_i h
      simp only [List.map_cons, (beq_iff_eq.1 h)]
    · simp only [List.map_cons, ih]

theorem mem_setFirst {n : Nat} {d : D} {l : List (Nat × D)} (h : (l.map Prod.fst).Nodup) (hn : n ∈ l.map Prod.fst) (e : Nat × D) :
    e ∈ setFirst n d l ↔ e = (n, d) ∨ (e ∈ l ∧ e.1 ≠ n) := by
  induction l with
  | nil => simp at hn
  | cons a l ih =>
    simp only [List.map_cons, List.nodup_cons] at h
    simp only [setFirst]
    split
    · rename_i ha
      have ha := beq_iff_eq.1 ha
      simp only [List.mem_cons]
      constructor
      · rintro (he | he)
        · exact .inl he
        · exact .inr ⟨.inr he, fun hc => h.1 (List.mem_map.2 ⟨e, he, hc.trans ha.symm⟩)⟩
      · rintro (he | ⟨he | he, hc⟩)
        · exact .inl he
        · subst he
          exact absurd ha hc
        · exact .inr he
    · rename_i ha
      have ha : a.1 ≠ n := fun hc => ha (beq_iff_eq.2 hc)
      have hn' : n ∈ l.map Prod.fst := by
        rcases List.mem_cons.1 hn with hc | hc
        · exact absurd hc.symm ha
        · exact hc
      simp only [List.mem_cons, ih h.2 hn']
      constructor
      · rintro (he | he | ⟨he, hc⟩)
        · subst he
          exact .inr ⟨.inl rfl, ha⟩
        · exact .inl he
        · exact .inr ⟨.inr he, hc⟩
      · rintro (he | ⟨he | he, hc⟩)
        · exact .inr (.inl he)
        · exact .inl he
        · exact .inr (.inr ⟨he, hc⟩)

theorem removeFirst_sublist (n : Nat) (l : List (Nat × D)) : (removeFirst n l).Sublist l := by
  induction l with
  | nil => exact .slnil
  | cons e l ih =>
    simp only [removeFirst]
    split
    · exact List.sublist_cons_self _ _
    · exact ih.cons_cons _

theorem mem_removeFirst {n : Nat} {l : List (Nat × D)} (h : (l.map Prod.fst).Nodup) (e : Nat × D) :
    e ∈ removeFirst n l ↔ e ∈ l ∧ e.1 ≠ n := by
  induction l with
  | nil => simp [removeFirst]
  | cons a l ih =>
    simp only [List.map_cons, List.nodup_cons] at h
    simp only [removeFirst]
    split
    · rename_i ha
      have ha := beq_iff_eq.1 ha
      simp only [List.mem_cons]
      constructor
      · intro he
        exact ⟨.inr he, fun hc => h.1 (List.mem_map.2 ⟨e, he, hc.trans ha.symm⟩)⟩
      · rintro ⟨he | he, hc⟩
        · subst he
          exact absurd ha hc
        · exact he
    · rename_i ha
      have ha : a.1 ≠ n := fun hc => ha (beq_iff_eq.2 hc)
      simp only [List.mem_cons, ih h.2]
      constructor
      · rintro (he | ⟨he, hc⟩)
        · subst he
          exact ⟨.inl rfl, ha⟩
        · exact ⟨.inr he, hc⟩
      · rintro ⟨he | he, hc⟩
        · exact .inl he
        · exact .inr ⟨he, hc⟩

/-- The invariant of the tables that occur, and that the builtin macros have been put in. -/
def Good (hash : Nat → Nat) (t : Table D) : Prop := Inv hash t ∧ 0 < t.capacity

theorem define_good {t : Table D} (h : Good hash t) (n : Nat) (d : D) : Good hash (define hash same t n d) ∧
    ∀ m, get hash (define hash same t n d) m =
      if m = n then (match get hash t n with | some c => if same d c then some c else some d | none => some d) else get hash t m := by
  obtain ⟨hi, hc⟩ := h
  have hc' : t.capacity = 0 → ∀ i, t.lists i = [] := fun h0 => by omega
  unfold define
  cases hl : lookup hash t n with
  | none =>
    have hg : get hash t n = none := get_none.2 hl
    refine ⟨⟨register_inv hi hc' hg, grow_capacity t⟩, fun m => ?_⟩
    rw [get_register hi hc' hg, hg]
  | some e =>
    have hg : get hash t n = some e.2 := by unfold get; rw [hl]; rfl
    have hm := (find_iff (hi.once _) n e).1 hl
    simp only [hg]
    by_cases hs : same d e.2 = true
    · simp only [hs, if_true]
      refine ⟨⟨hi, hc⟩, fun m => ?_⟩
      split
      · rename_i h
        rw [h, hg]
      · rfl
    · simp only [hs, Bool.false_eq_true, if_false]
      have hn : n ∈ (t.lists (hash n % t.capacity)).map Prod.fst := List.mem_map.2 ⟨e, hm.1, hm.2⟩
      have hi' : Inv hash { t with lists := fun j => if j = hash n % t.capacity then setFirst n d (t.lists j) else t.lists j } := by
        refine ⟨?_, ?_⟩
        · intro i f hf
          simp only at hf
          split at hf
          · rename_i hj
            subst hj
            rcases (mem_setFirst (hi.once _) hn f).1 hf with rfl | ⟨hf, _⟩
            · rfl
            · exact hi.place _ f hf
          · exact hi.place _ f hf
        · intro i
          simp only
          split
          · rw [map_setFirst]
            exact hi.once i
          · exact hi.once i
      refine ⟨⟨hi', hc⟩, fun m => ?_⟩
      by_cases hmn : m = n
      · subst hmn
        rw [if_pos rfl]
        refine (get_iff hi' m d).2 ⟨hash m % t.capacity, ?_⟩
        simp only [if_true]
        exact (mem_setFirst (hi.once _) hn _).2 (.inl rfl)
      · rw [if_neg hmn]
        apply Option.ext
        intro c
        rw [get_iff hi', get_iff hi]
        simp only
        constructor
        · rintro ⟨i, hf⟩
          split at hf
          · rename_i hj
            subst hj
            rcases (mem_setFirst (hi.once _) hn _).1 hf with hf | ⟨hf, _⟩
            · cases hf
              exact absurd rfl hmn
            · exact ⟨_, hf⟩
          · exact ⟨i, hf⟩
        · rintro ⟨i, hf⟩
          refine ⟨i, ?_⟩
          split
          · rename_i hj
            subst hj
            exact (mem_setFirst (hi.once _) hn _).2 (.inr ⟨hf, hmn⟩)
          · exact hf

theorem undef_good {t : Table D} (h : Good hash t) (n : Nat) : Good hash (undef hash t n) ∧
    ∀ m, get hash (undef hash t n) m = if m = n then none else get hash t m := by
  obtain ⟨hi, hc⟩ := h
  unfold undef
  cases hl : lookup hash t n with
  | none =>
    refine ⟨⟨hi, hc⟩, fun m => ?_⟩
    simp only
    by_cases h : m = n
    · rw [if_pos h, h]
      exact get_none.2 hl
    · rw [if_neg h]
  | some e =>
    have hm := (find_iff (hi.once _) n e).1 hl
    simp only
    rw [hm.2]
    have hi' : Inv hash { t with lists := fun j => if j = hash n % t.capacity then removeFirst n (t.lists j) else t.lists j } := by
      refine ⟨?_, ?_⟩
      · intro i f hf
        simp only at hf
        split at hf
        · exact hi.place _ f ((removeFirst_sublist n _).mem hf)
        · exact hi.place _ f hf
      · intro i
        simp only
        split
        · exact ((removeFirst_sublist n _).map _).nodup (hi.once i)
        · exact hi.once i
    refine ⟨⟨hi', hc⟩, fun m => ?_⟩
    apply Option.ext
    intro c
    rw [get_iff hi']
    by_cases hmn : m = n
    · subst hmn
      rw [if_pos rfl]
      simp only
      constructor
      · rintro ⟨i, hf⟩
        split at hf
        · exact absurd rfl ((mem_removeFirst (hi.once _) _).1 hf).2
        · rename_i hj
          exact absurd (hi.place i _ hf).symm hj
      · intro hcon
        cases hcon
    · rw [if_neg hmn, get_iff hi]
      simp only
      constructor
      · rintro ⟨i, hf⟩
        split at hf
        · exact ⟨i, (removeFirst_sublist n _).mem hf⟩
        · exact ⟨i, hf⟩
      · rintro ⟨i, hf⟩
        refine ⟨i, ?_⟩
        split
        · exact (mem_removeFirst (hi.once _) _).2 ⟨hf, hmn⟩
        · exact hf

/-! ## Histories -/

theorem start_good : ∀ (bs : List (Nat × D)) (t : Table D), Inv hash t → (t.capacity = 0 → ∀ i, t.lists i = []) →
    (bs.map Prod.fst).Nodup → (∀ b ∈ bs, get hash t b.1 = none) →
    let u := bs.foldl (fun t e => register hash t e.1 e.2) t
    Inv hash u ∧ (bs ≠ [] → 0 < u.capacity) ∧ ∀ n, get hash u n = ((bs.find? (fun b => b.1 == n)).map Prod.snd).or (get hash t n)
  | [], t, hi, _, _, _ => ⟨hi, fun h => absurd rfl h, fun n => by simp⟩
  | b :: bs, t, hi, hc, hn, hb => by
    simp only [List.map_cons, List.nodup_cons] at hn
    have h0 := hb b List.mem_cons_self
    have hi' := register_inv (d := b.2) hi hc h0
    have hcap : 0 < (register hash t b.1 b.2).capacity := grow_capacity t
    obtain ⟨h1, h2, h3⟩ := start_good bs (register hash t b.1 b.2) hi' (fun h => by omega) hn.2 (by
      intro c hcm
      rw [get_register hi hc h0, if_neg]
      · exact hb c (List.mem_cons_of_mem _ hcm)
      · intro he
        exact hn.1 (List.mem_map.2 ⟨c, hcm, he⟩))
    refine ⟨h1, fun _ => ?_, ?_⟩
    · cases bs with
      | nil => exact hcap
      | cons c cs => exact h2 (by simp)
    · intro n
      have := h3 n
      simp only [List.foldl_cons]
      rw [this, get_register hi hc h0]
      by_cases hbn : b.1 = n
      · subst hbn
        rw [if_pos rfl, List.find?_cons_of_pos (by simp)]
        have : bs.find? (fun c => c.1 == b.1) = none := by
          rw [List.find?_eq_none]
          intro c hcm hce
          exact hn.1 (List.mem_map.2 ⟨c, hcm, beq_iff_eq.1 hce⟩)
        rw [this]
        rfl
      · rw [if_neg (fun h => hbn h.symm), List.find?_cons_of_neg (by simpa using hbn)]

theorem empty_inv : Inv hash (empty : Table D) := ⟨fun i e h => (by cases h), fun i => List.nodup_nil⟩

theorem start_ok (bs : List (Nat × D)) (hb : bs ≠ []) (hn : (bs.map Prod.fst).Nodup) : Good hash (start hash bs) ∧
    ∀ n, get hash (start hash bs) n = (bs.find? (fun b => b.1 == n)).map Prod.snd := by
  obtain ⟨h1, h2, h3⟩ := start_good (hash := hash) bs empty empty_inv (fun _ _ => rfl) hn (fun b _ => rfl)
  refine ⟨⟨h1, h2 hb⟩, fun n => ?_⟩
  have := h3 n
  rw [show get hash (empty : Table D) n = none from rfl, Option.or_none] at this
  exact this

/-- The effect of a directive on a map when equivalent redefinitions keep the old definition. -/
def effect (same : D → D → Bool) (m : Nat → Option D) : Directive D → Nat → Option D
  | .define n d, k => if k = n then (match m n with | some c => if same d c then some c else some d | none => some d) else m k
  | .undef n, k => if k = n then none else m k

theorem directive_good {t : Table D} (h : Good hash t) (d : Directive D) :
    Good hash (directive hash same t d) ∧ get hash (directive hash same t d) = effect same (get hash t) d := by
  cases d with
  | define n d =>
    obtain ⟨h1, h2⟩ := define_good (same := same) h n d
    exact ⟨h1, funext h2⟩
  | undef n =>
    obtain ⟨h1, h2⟩ := undef_good h n
    exact ⟨h1, funext h2⟩

theorem run_good (ds : List (Directive D)) (t : Table D) (h : Good hash t) :
    Good hash (run hash same t ds) ∧ get hash (run hash same t ds) = ds.foldl (effect same) (get hash t) := by
  induction ds generalizing t with
  | nil => exact ⟨h, rfl⟩
  | cons d ds ih =>
    obtain ⟨h1, h2⟩ := directive_good (same := same) h d
    obtain ⟨h3, h4⟩ := ih _ h1
    refine ⟨h3, ?_⟩
    simp only [run, List.foldl_cons] at h4 ⊢
    rw [h4, h2]

theorem fold_meaning (hs : ∀ a b, same a b = true → a = b) (ds : List (Directive D)) (m : Nat → Option D) (n : Nat) :
    ds.foldl (effect same) m n = meaning m ds n := by
  induction ds generalizing m with
  | nil => rfl
  | cons d ds ih =>
    simp only [List.foldl_cons]
    rw [ih]
    unfold meaning
    rw [List.reverse_cons, List.find?_append]
    cases ds.reverse.find? (fun d => d.name == n) with
    | some e => cases e <;> rfl
    | none =>
      simp only [Option.none_or]
      cases d with
      | define k c =>
        simp only [effect]
        by_cases hk : n = k
        · subst hk
          rw [if_pos rfl, List.find?_cons_of_pos (by simp [Directive.name])]
          cases hm : m n with
          | none => rfl
          | some b =>
            simp only
            split
            · rename_i hb
              rw [hs _ _ hb]
            · rfl
        · rw [if_neg hk, List.find?_cons_of_neg (by simpa [Directive.name] using fun e => hk e.symm)]
          rfl
      | undef k =>
        simp only [effect]
        by_cases hk : n = k
        · subst hk
          rw [if_pos rfl, List.find?_cons_of_pos (by simp [Directive.name])]
        · rw [if_neg hk, List.find?_cons_of_neg (by simpa [Directive.name] using fun e => hk e.symm)]
          rfl

/-- **C10**: after any sequence of `#define` and `#undef` directives, for any hash function, looking a name up gives
what the latest directive with that name says, and if there is none, the builtin macro of that name. `same` is any
comparison that only holds of definitions that mean the same. -/
theorem C10_latest_definition (hash : Nat → Nat) (same : D → D → Bool) (hs : ∀ a b, same a b = true → a = b)
    (builtins : List (Nat × D)) (hb : builtins ≠ []) (hn : (builtins.map Prod.fst).Nodup) (ds : List (Directive D)) (n : Nat) :
    (lookup hash (run hash same (start hash builtins) ds) n).map Prod.snd =
      meaning (fun n => (builtins.find? (fun b => b.1 == n)).map Prod.snd) ds n := by
  obtain ⟨h1, h2⟩ := start_ok (hash := hash) builtins hb hn
  obtain ⟨_, h4⟩ := run_good (same := same) ds _ h1
  show get hash _ n = _
  rw [h4, fold_meaning hs, funext h2]

/-- **C10**: what is looked up has the name that was asked for. -/
theorem C10_right_name (hash : Nat → Nat) (t : Table D) (n : Nat) (e : Nat × D) (h : lookup hash t n = some e) : e.1 = n := by
  have := List.find?_some h
  simpa using this

/-- **C10**: whatever the comparison of definitions is, a name is a macro exactly if the latest directive with that
name is a `#define`, or it is builtin and there is none. -/
theorem C10_defined_iff (hash : Nat → Nat) (same : D → D → Bool) (builtins : List (Nat × D)) (hb : builtins ≠ [])
    (hn : (builtins.map Prod.fst).Nodup) (ds : List (Directive D)) (n : Nat) :
    (lookup hash (run hash same (start hash builtins) ds) n).isSome =
      (meaning (fun n => (builtins.find? (fun b => b.1 == n)).map Prod.snd) ds n).isSome := by
  obtain ⟨h1, h2⟩ := start_ok (hash := hash) builtins hb hn
  obtain ⟨_, h4⟩ := run_good (same := same) ds _ h1
  have key : ∀ (ds : List (Directive D)) (m : Nat → Option D) , (ds.foldl (effect same) m n).isSome = (meaning m ds n).isSome := by
    intro ds
    induction ds with
    | nil => intro m; rfl
    | cons d ds ih =>
      intro m
      simp only [List.foldl_cons]
      rw [ih]
      unfold meaning
      rw [List.reverse_cons, List.find?_append]
      cases ds.reverse.find? (fun d => d.name == n) with
      | some e => cases e <;> rfl
      | none =>
        simp only [Option.none_or]
        cases d with
        | define k c =>
          simp only [effect]
          by_cases hk : n = k
          · subst hk
            rw [if_pos rfl, List.find?_cons_of_pos (by simp [Directive.name])]
            cases hm : m n with
            | none => rfl
            | some b =>
              simp only
              split <;> rfl
          · rw [if_neg hk, List.find?_cons_of_neg (by simpa [Directive.name] using fun e => hk e.symm)]
            rfl
        | undef k =>
          simp only [effect]
          by_cases hk : n = k
          · subst hk
            rw [if_pos rfl, List.find?_cons_of_pos (by simp [Directive.name])]
          · rw [if_neg hk, List.find?_cons_of_neg (by simpa [Directive.name] using fun e => hk e.symm)]
            rfl
  have : get hash (run hash same (start hash builtins) ds) n = ds.foldl (effect same) (get hash (start hash builtins)) n := by rw [h4]
  have h5 : (get hash (run hash same (start hash builtins) ds) n).isSome = (lookup hash (run hash same (start hash builtins) ds) n).isSome := by
    unfold get
    cases lookup hash (run hash same (start hash builtins) ds) n <;> rfl
  rw [← h5, this, key, funext h2]

/-- All names collide; a macro is redefined, undefined and defined again. -/
example : ([0, 1, 7, 8, 9].map fun n => (lookup (fun _ => 5) (run (fun _ => 5) (· == ·) (start (fun _ => 5) [(0, 100), (1, 101)])
      [.define 7 1, .define 8 2, .define 7 3, .undef 8, .define 9 4, .undef 0]) n).map Prod.snd) =
    [none, some 101, some 3, none, some 4] := by decide +kernel

/-- The hypotheses are met by the equality of natural numbers and two builtin macros. -/
example : (∀ a b : Nat, (a == b) = true → a = b) ∧ ([(0, 100), (1, 101)] : List (Nat × Nat)) ≠ [] ∧
    (([(0, 100), (1, 101)] : List (Nat × Nat)).map Prod.fst).Nodup := ⟨fun _ _ => beq_iff_eq.1, by simp, by decide⟩

end Verif.DefineTable
