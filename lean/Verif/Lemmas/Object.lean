import Verif.Lemmas.ImageStrings
import Verif.Lemmas.ImageMemory
import Verif.Model.Object
import Verif.Spec.Object

/-!
# Lemmas: the parts of an object file
-/
namespace Verif.Lemmas.Object
open Verif.Model.BaseReloc
open Verif.Model.Image (Push Placed padding alignUp zeros u64 s32 s64 lay place poke djb2 capacity)
open Verif.Model.Object
open Verif.Lemmas.Image (At at_of_append place_inside place_at place_ordered Ordered padding_mod holds_of_at holds_append number_u16 number_u32 number_u64 u16_length u32_length
  poke_get poke_length probe countP_set_le capacity_le)
open Verif.Spec.Image (byte number Holds)
open Verif.Spec.Object (untilZero)

/-- Parts follow each other, from `a` to `b`. -/
def Chain : Nat → List (Nat × List Nat) → Nat → Prop
  | a, [], b => a ≤ b
  | a, (pos, bytes) :: rest, b => a ≤ pos ∧ Chain (pos + bytes.length) rest b

theorem Chain.append : (l l' : List (Nat × List Nat)) → (a b c : Nat) → Chain a l b → Chain b l' c → Chain a (l ++ l') c
  | [], l', a, b, c, h, h' => by
    cases l' with
    | nil => exact Nat.le_trans h h'
    | cons x l' => exact ⟨Nat.le_trans h h'.1, h'.2⟩
  | (pos, bytes) :: l, l', a, b, c, h, h' => ⟨h.1, Chain.append l l' _ b c h.2 h'⟩

theorem assemble_at : (l : List (Nat × List Nat)) → (pre : List Nat) → (e : Nat) → Chain pre.length l e →
    ∀ x ∈ l, At (pre ++ assemble pre.length l) x.1 x.2
  | [], _, _, _, x, hx => by cases hx
  | (pos, bytes) :: l, pre, e, h, x, hx => by
    rw [assemble]
    have hl : (pre ++ zeros (pos - pre.length)).length = pos := by
      have := h.1
      rw [List.length_append]; unfold zeros; rw [List.length_replicate]; omega
    rcases List.mem_cons.1 hx with rfl | hx
    · have := at_of_append (pre ++ zeros (pos - pre.length)) bytes (assemble (pos + bytes.length) l)
      rw [hl] at this
      simpa only [List.append_assoc] using this
    · have hl' : (pre ++ zeros (pos - pre.length) ++ bytes).length = pos + bytes.length := by rw [List.length_append, hl]
      have := assemble_at l (pre ++ zeros (pos - pre.length) ++ bytes) e (by rw [hl']; exact h.2) x hx
      rw [hl'] at this
      simpa only [List.append_assoc] using this

/-- A list is at a position: the bytes from there on start with it. -/
theorem drop_of_at {f : List Nat} {n : Nat} {b : List Nat} (h : At f n b) : (f.drop n).take b.length = b := by
  apply List.ext_getElem?
  intro i
  rcases Nat.lt_or_ge i b.length with hi | hi
  · rw [List.getElem?_take_of_lt hi, List.getElem?_drop, h i hi]
  · rw [List.getElem?_eq_none (by rw [List.length_take]; omega), List.getElem?_eq_none hi]

theorem untilZero_append {name rest : List Nat} (h : ∀ b ∈ name, b ≠ 0) : untilZero (name ++ 0 :: rest) = name := by
  unfold untilZero
  rw [List.takeWhile_append_of_pos (by simpa using h)]
  simp

theorem untilZero_self {name : List Nat} (h : ∀ b ∈ name, b ≠ 0) : untilZero name = name := by
  unfold untilZero
  have := List.takeWhile_append_of_pos (p := fun b => decide (b ≠ 0)) (l₁ := name) (l₂ := []) (by simpa using h)
  simpa only [List.append_nil, List.takeWhile_nil] using this

/-- A name in a field of eight bytes. -/
theorem short_name {f : List Nat} {a : Nat} {name : List Nat} (h : At f a (name ++ zeros (8 - name.length))) (hl : name.length ≤ 8)
    (hn : ∀ b ∈ name, b ≠ 0) : untilZero ((f.drop a).take 8) = name := by
  have hlen : (name ++ zeros (8 - name.length)).length = 8 := by rw [List.length_append]; unfold zeros; rw [List.length_replicate]; omega
  have := drop_of_at h
  rw [hlen] at this
  rw [this]
  cases hk : 8 - name.length with
  | zero => unfold zeros; rw [List.replicate_zero, List.append_nil]; exact untilZero_self hn
  | succ k => unfold zeros; rw [List.replicate_succ]; exact untilZero_append hn

/-- A name with a terminator. -/
theorem long_name {f : List Nat} {a : Nat} {name : List Nat} (h : At f a (name ++ [0])) (hn : ∀ b ∈ name, b ≠ 0) : untilZero (f.drop a) = name := by
  have := drop_of_at h
  rw [← List.take_append_drop (name ++ [0]).length (f.drop a), this, List.append_assoc]
  exact untilZero_append hn

/-! ## Pushes -/

theorem offset_spec (ps : List Push) : ∀ (at_ va j : Nat) (q : Push), ps[j]? = some q →
    ∃ x, (place at_ va ps)[j]? = some x ∧ x.bytes = q.bytes ∧ (0 < q.align → x.ptr % q.align = 0) := by
  induction ps with
  | nil => intro _ _ _ _ h; cases h
  | cons p ps ih =>
    intro at_ va j q h
    rw [place]
    cases j with
    | zero => cases h; exact ⟨_, rfl, rfl, fun ha => padding_mod ha⟩
    | succ j => exact ih _ _ j q h

/-- What is known about push `j`. -/
theorem offsetAt_spec {ps : List Push} {at_ j : Nat} {q : Push} (h : ps[j]? = some q) :
    offsetAt at_ ps j + q.bytes.length ≤ (lay at_ ps).length ∧ At (lay at_ ps) (offsetAt at_ ps j) q.bytes ∧
      (0 < q.align → (at_ + offsetAt at_ ps j) % q.align = 0) := by
  obtain ⟨x, hx, hb, ha⟩ := offset_spec ps at_ 0 j q h
  have hm := List.mem_of_getElem? hx
  obtain ⟨h1, h2, h3⟩ := place_inside ps at_ 0 x hm
  have ho : offsetAt at_ ps j = x.rva := by unfold offsetAt; rw [hx]
  have hat := place_at ps (List.replicate at_ 0) [] 0 x (by rw [List.length_replicate]; exact hm)
  rw [List.length_replicate, List.append_nil] at hat
  refine ⟨by rw [ho, ← hb]; omega, ?_, fun hq => by rw [ho, h3, show at_ + (0 + (x.ptr - at_)) = x.ptr by omega]; exact ha hq⟩
  intro i hi
  rw [← hb] at hi ⊢
  have := hat i hi
  rw [List.getElem?_append_right (by rw [List.length_replicate]; omega), List.length_replicate] at this
  rw [ho, h3, ← this]
  congr 1; omega

theorem offsetAt_ordered {ps : List Push} {at_ j k : Nat} {q r : Push} (hj : ps[j]? = some q) (hk : ps[k]? = some r) (h : j < k) :
    offsetAt at_ ps j + q.bytes.length ≤ offsetAt at_ ps k := by
  obtain ⟨x, hx, hb, _⟩ := offset_spec ps at_ 0 j q hj
  obtain ⟨y, hy, _, _⟩ := offset_spec ps at_ 0 k r hk
  obtain ⟨h1, _, h3⟩ := place_inside ps at_ 0 x (List.mem_of_getElem? hx)
  obtain ⟨h4, _, h6⟩ := place_inside ps at_ 0 y (List.mem_of_getElem? hy)
  have e1 : offsetAt at_ ps j = x.rva := by unfold offsetAt; rw [hx]
  have e2 : offsetAt at_ ps k = y.rva := by unfold offsetAt; rw [hy]
  obtain ⟨hj', ej⟩ := List.getElem?_eq_some_iff.1 hx
  obtain ⟨hk', ek⟩ := List.getElem?_eq_some_iff.1 hy
  have := List.pairwise_iff_getElem.1 (place_ordered ps at_ 0) j k hj' hk' h
  rw [ej, ek] at this
  unfold Ordered at this
  rw [e1, e2, ← hb]; omega

/-- Two pushes for every element. -/
theorem flatMap_pair {α β : Type} (f g : α → β) : (l : List α) → (i : Nat) → (a : α) → l[i]? = some a → (l.flatMap (fun x => [f x, g x]))[2 * i]? = some (f a)
  | [], _, _, h => by cases h
  | x :: l, 0, a, h => by cases h; rfl
  | x :: l, i + 1, a, h => by
    rw [List.flatMap_cons, show 2 * (i + 1) = 2 * i + 1 + 1 by omega]
    exact flatMap_pair f g l i a h

/-- Element `j` of list `g` of lists that are joined. -/
theorem flatMap_range {α : Type} (f : Nat → List α) : (n g j : Nat) → g < n → j < (f g).length →
    ((List.range n).flatMap f)[((List.range g).flatMap f).length + j]? = (f g)[j]?
  | 0, _, _, h, _ => by omega
  | n + 1, g, j, h, hj => by
    rw [List.range_succ, List.flatMap_append, List.flatMap_singleton]
    rcases Nat.lt_or_ge g n with hg | hg
    · have := flatMap_range f n g j hg hj
      rw [List.getElem?_eq_getElem hj] at this
      obtain ⟨hlt, _⟩ := List.getElem?_eq_some_iff.1 this
      rw [List.getElem?_append_left hlt, this, List.getElem?_eq_getElem hj]
    · have : g = n := by omega
      subst this
      rw [List.getElem?_append_right (by omega)]
      congr 1; omega

/-! ## The table of literals -/

def usedCells (t : Table) : Nat := t.cells.countP (·.isSome)

def Fine (t : Table) : Prop := ∀ (i : Nat) e, t.cells[i]? = some (some e) → e < t.values.length

theorem intern_spec (hash : List Nat → Nat) (value : List Nat) (t : Table) (ht : Fine t) : (fuel k : Nat) → (t' : Table) → (e : Nat) →
    intern hash value t fuel k = (t', some e) →
    Fine t' ∧ t'.cells.length = t.cells.length ∧ usedCells t' ≤ usedCells t + 1 ∧ (∃ u, t'.values = t.values ++ u ∧ ∀ v ∈ u, v = value) ∧
      t'.values[e]? = some value
  | 0, _, _, _, h => by cases h
  | fuel + 1, k, t', e, h => by
    rw [intern] at h
    split at h
    · cases h
      refine ⟨fun i e hi => ?_, List.length_set, countP_set_le _ _ _ _, ⟨_, rfl, fun v hv => List.mem_singleton.1 hv⟩, by simp⟩
      simp only [List.length_append, List.length_singleton]
      rw [List.getElem?_set] at hi
      split at hi
      · split at hi
        · have := Option.some.inj (Option.some.inj hi); omega
        · cases hi
      · have := ht i e hi; omega
    · next c hc =>
      split at h
      · next hsame =>
        cases h
        have hget : t.cells[(hash value + k) % t.cells.length]? = some (some e) := by
          rw [List.getD_eq_getElem?_getD] at hc
          cases hq : t.cells[(hash value + k) % t.cells.length]? with
          | none => rw [hq] at hc; cases hc
          | some c => rw [hq] at hc; rw [show c = some e from hc]
        have hlt := ht _ _ hget
        refine ⟨ht, rfl, Nat.le_succ _, ⟨[], (List.append_nil _).symm, fun v hv => by cases hv⟩, ?_⟩
        rw [List.getD_eq_getElem?_getD, List.getElem?_eq_getElem hlt] at hsame
        rw [List.getElem?_eq_getElem hlt, ← hsame]
        rfl
      · exact intern_spec hash value t ht fuel (k + 1) t' e h

theorem intern_finds (hash : List Nat → Nat) (value : List Nat) (t : Table) : (fuel k k' : Nat) → k ≤ k' → k' < k + fuel →
    t.cells.getD ((hash value + k') % t.cells.length) none = none → ∃ t' e, intern hash value t fuel k = (t', some e)
  | 0, _, _, h1, h2, _ => by omega
  | fuel + 1, k, k', h1, h2, h => by
    rw [intern]
    split
    · exact ⟨_, _, rfl⟩
    · next c hc =>
      split
      · exact ⟨_, _, rfl⟩
      · refine intern_finds hash value t fuel (k + 1) k' ?_ (by omega) h
        rcases Nat.lt_or_ge k k' with h3 | h3
        · exact h3
        · have : k = k' := by omega
          subst this
          rw [h] at hc; cases hc

theorem intern_total (hash : List Nat → Nat) (value : List Nat) (t : Table) (h : usedCells t < t.cells.length) :
    ∃ t' e, intern hash value t t.cells.length 0 = (t', some e) := by
  obtain ⟨idx, hi, hn⟩ : ∃ idx, ∃ h : idx < t.cells.length, t.cells[idx] = none := by
    apply Classical.byContradiction
    intro hc
    have : usedCells t = t.cells.length := by
      unfold usedCells
      rw [List.countP_eq_length]
      intro a ha
      obtain ⟨i, hi, e⟩ := List.getElem_of_mem ha
      cases a with
      | none => exact absurd ⟨i, hi, e⟩ hc
      | some _ => rfl
    omega
  obtain ⟨k, hk, e⟩ := probe (hash value) _ idx hi
  refine intern_finds hash value t _ 0 k (Nat.zero_le _) (by omega) ?_
  rw [e, List.getD_eq_getElem?_getD, List.getElem?_eq_getElem hi, hn]
  rfl

theorem internAll_spec (hash : List Nat → Nat) : (l : List (List Nat)) → (t : Table) → Fine t → usedCells t + l.length ≤ t.cells.length →
    (∃ u, (internAll hash t l).1.values = t.values ++ u ∧ ∀ v ∈ u, v ∈ l) ∧
      ∀ (i : Nat) v, l[i]? = some v → ∃ e, (internAll hash t l).2[i]? = some (some e) ∧ (internAll hash t l).1.values[e]? = some v
  | [], t, _, _ => ⟨⟨[], (List.append_nil _).symm, fun v hv => hv⟩, fun i v h => by cases h⟩
  | value :: rest, t, ht, hl => by
    obtain ⟨t', e, h⟩ := intern_total hash value t (by rw [List.length_cons] at hl; omega)
    obtain ⟨f1, f2, f3, ⟨u, f4, f4'⟩, f5⟩ := intern_spec hash value t ht _ _ t' e h
    obtain ⟨⟨u', g2, g2'⟩, g3⟩ := internAll_spec hash rest t' f1 (by rw [List.length_cons] at hl; omega)
    rw [internAll]
    simp only [h]
    refine ⟨⟨u ++ u', by rw [g2, f4, List.append_assoc], fun v hv => ?_⟩, fun i v hi => ?_⟩
    · rcases List.mem_append.1 hv with hv | hv
      · rw [f4' v hv]; exact List.mem_cons_self
      · exact List.mem_cons_of_mem _ (g2' v hv)
    · cases i with
      | zero =>
        cases hi
        refine ⟨e, rfl, ?_⟩
        obtain ⟨hlt, _⟩ := List.getElem?_eq_some_iff.1 f5
        rw [g2, List.getElem?_append_left hlt]
        exact f5
      | succ i => exact g3 i v hi

/-- Every literal is in the table, and nothing else. -/
theorem interned_spec (hash : List Nat → Nat) (l : List (List Nat)) (h : l.length < 2 ^ 61) :
    (∀ v ∈ (interned hash l).1.values, v ∈ l) ∧
      ∀ (i : Nat) v, l[i]? = some v → ∃ e, (interned hash l).2[i]? = some (some e) ∧ (interned hash l).1.values[e]? = some v := by
  have hu : usedCells ⟨List.replicate (capacity l.length) none, []⟩ + l.length ≤ (List.replicate (capacity l.length) (none : Option Nat)).length := by
    unfold usedCells
    rw [List.countP_replicate, if_neg (by simp), List.length_replicate]
    cases hn : l.length with
    | zero => omega
    | succ n =>
      have := capacity_le (n := l.length) (by omega) h
      rw [hn] at this
      omega
  have hf : Fine ⟨List.replicate (capacity l.length) none, []⟩ := by
    intro i e hi
    rw [List.getElem?_replicate] at hi
    split at hi <;> cases hi
  obtain ⟨⟨u, h1, h2⟩, h3⟩ := internAll_spec hash l _ hf hu
  refine ⟨fun v hv => ?_, h3⟩
  unfold interned at hv
  rw [h1] at hv
  exact h2 v (by simpa using hv)

/-! ## The table of symbols -/

/-- Records can be written. -/
def Good : Record → Prop
  | .symbol name .. => name ≠ [] ∧ ∀ b ∈ name, b ≠ 0
  | .auxiliary b => b.length = 18

/-- The part of a record after the name. -/
def tail (value sec type cls aux : Nat) : List Nat := u32 value ++ u16 sec ++ u16 type ++ [cls, aux]

theorem writeRecords_length : (rs : List Record) → (at_ : Nat) → (∀ r ∈ rs, Good r) → (writeRecords at_ rs).1.length = 18 * rs.length
  | [], _, _ => rfl
  | .auxiliary b :: rs, at_, h => by
    have := writeRecords_length rs at_ (fun r hr => h r (List.mem_cons_of_mem _ hr))
    have hb : b.length = 18 := h _ List.mem_cons_self
    rw [writeRecords]
    simp only [List.length_append, List.length_cons]
    omega
  | .symbol name value sec type cls aux :: rs, at_, h => by
    rw [writeRecords]
    split
    · have := writeRecords_length rs at_ (fun r hr => h r (List.mem_cons_of_mem _ hr))
      unfold zeros
      simp only [List.length_append, List.length_cons, List.length_nil, List.length_replicate, u32_length, u16_length]
      omega
    · have := writeRecords_length rs (at_ + name.length + 1) (fun r hr => h r (List.mem_cons_of_mem _ hr))
      simp only [List.length_append, List.length_cons, List.length_nil, u32_length, u16_length]
      omega

theorem at_cons {a b c : List Nat} {n : Nat} (h : At b n c) : At (a ++ b) (a.length + n) c := by
  intro i hi
  rw [List.getElem?_append_right (by omega), ← h i hi]
  congr 1; omega

theorem at_left {a b c : List Nat} {n : Nat} (h : At a n c) (hl : n + c.length ≤ a.length) : At (a ++ b) n c := by
  intro i hi
  rw [List.getElem?_append_left (by omega), h i hi]

theorem at_trans {a b c : List Nat} {n m : Nat} (h : At a n b) (h' : At b m c) (hl : m + c.length ≤ b.length) : At a (n + m) c := by
  intro i hi
  rw [Nat.add_assoc, h (m + i) (by omega), h' i hi]

/-- A symbol in the table: its name is in the field, or it is in the table of names, at an offset that is in the field. -/
theorem record_at : (rs : List Record) → (at_ k : Nat) → (∀ r ∈ rs, Good r) → (name : List Nat) → (value sec type cls aux : Nat) →
    rs[k]? = some (.symbol name value sec type cls aux) →
    (name.length ≤ 8 ∧ At (writeRecords at_ rs).1 (18 * k) (name ++ zeros (8 - name.length) ++ tail value sec type cls aux)) ∨
    ∃ o, At (writeRecords at_ rs).1 (18 * k) (u32 0 ++ u32 (at_ + o) ++ tail value sec type cls aux) ∧
      At (writeRecords at_ rs).2 o (name ++ [0]) ∧ o + name.length + 1 ≤ (writeRecords at_ rs).2.length
  | [], _, _, _, _, _, _, _, _, _, h => by cases h
  | .auxiliary b :: rs, at_, k, hg, name, value, sec, type, cls, aux, h => by
    cases k with
    | zero => cases h
    | succ k =>
      have hb : b.length = 18 := hg _ List.mem_cons_self
      rw [writeRecords]
      simp only []
      rw [show 18 * (k + 1) = b.length + 18 * k by omega]
      rcases record_at rs at_ k (fun r hr => hg r (List.mem_cons_of_mem _ hr)) name value sec type cls aux h with h | ⟨o, h1, h2, h3⟩
      · exact .inl ⟨h.1, at_cons h.2⟩
      · exact .inr ⟨o, at_cons h1, h2, h3⟩
  | .symbol name' value' sec' type' cls' aux' :: rs, at_, k, hg, name, value, sec, type, cls, aux, h => by
    rw [writeRecords]
    split
    · next hs =>
      cases k with
      | zero =>
        cases h
        refine .inl ⟨hs, ?_⟩
        have := at_of_append [] (name' ++ zeros (8 - name'.length) ++ tail value' sec' type' cls' aux') (writeRecords at_ rs).1
        simpa only [tail, List.append_assoc, List.nil_append, List.length_nil, Nat.mul_zero] using this
      | succ k =>
        have hl : (name' ++ zeros (8 - name'.length) ++ u32 value' ++ u16 sec' ++ u16 type' ++ [cls', aux']).length = 18 := by
          unfold zeros
          simp only [List.length_append, List.length_cons, List.length_nil, List.length_replicate, u32_length, u16_length]
          omega
        simp only []
        rw [show 18 * (k + 1) = (name' ++ zeros (8 - name'.length) ++ u32 value' ++ u16 sec' ++ u16 type' ++ [cls', aux']).length + 18 * k by omega]
        rcases record_at rs at_ k (fun r hr => hg r (List.mem_cons_of_mem _ hr)) name value sec type cls aux h with h | ⟨o, h1, h2, h3⟩
        · exact .inl ⟨h.1, at_cons h.2⟩
        · exact .inr ⟨o, at_cons h1, h2, h3⟩
    · cases k with
      | zero =>
        cases h
        refine .inr ⟨0, ?_, ?_, ?_⟩
        · have := at_of_append [] (u32 0 ++ u32 at_ ++ tail value' sec' type' cls' aux') (writeRecords (at_ + name'.length + 1) rs).1
          simpa only [tail, List.append_assoc, List.nil_append, List.length_nil, Nat.mul_zero, Nat.add_zero] using this
        · have := at_of_append [] (name' ++ [0]) (writeRecords (at_ + name'.length + 1) rs).2
          simpa only [List.append_assoc, List.nil_append, List.length_nil] using this
        · simp only [List.length_append, List.length_singleton]; omega
      | succ k =>
        have hl : (u32 0 ++ u32 at_ ++ u32 value' ++ u16 sec' ++ u16 type' ++ [cls', aux']).length = 18 := by
          simp only [List.length_append, List.length_cons, List.length_nil, u32_length, u16_length]
        simp only []
        rw [show 18 * (k + 1) = (u32 0 ++ u32 at_ ++ u32 value' ++ u16 sec' ++ u16 type' ++ [cls', aux']).length + 18 * k by omega]
        rcases record_at rs (at_ + name'.length + 1) k (fun r hr => hg r (List.mem_cons_of_mem _ hr)) name value sec type cls aux h with h | ⟨o, h1, h2, h3⟩
        · exact .inl ⟨h.1, at_cons h.2⟩
        · refine .inr ⟨name'.length + 1 + o, ?_, ?_, ?_⟩
          · rw [show at_ + (name'.length + 1 + o) = at_ + name'.length + 1 + o by omega]; exact at_cons h1
          · have := at_cons (a := name' ++ [0]) h2
            rw [List.length_append, List.length_singleton] at this
            exact this
          · simp only [List.length_append, List.length_singleton]; omega

end Verif.Lemmas.Object
