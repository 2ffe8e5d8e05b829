import Verif.Lemmas.DebugLines
import Verif.Lemmas.ImageLoad
import Verif.Lemmas.Md5

/-!
# Lemmas: reading debug information
-/
namespace Verif.Lemmas.DebugRead
open Verif.Model.DebugLines Verif.Model.BaseReloc
open Verif.Spec.Image (byte number Holds)
open Verif.Spec.DebugLines (Subsection subsections untilZero Source source Record recordsOf recordFor lineIn objectLine pdbLine)
open Verif.Lemmas.Image (holds_append number_u32 number_u16 number_congr)

theorem holds_of_append (a b c : List Nat) : Holds (byte (a ++ (b ++ c))) a.length b := by
  intro i hi
  show (a ++ (b ++ c)).getD (a.length + i) 0 = _
  rw [List.getD_eq_getElem?_getD, List.getElem?_append_right (by omega), Nat.add_sub_cancel_left, List.getElem?_append_left hi, List.getElem?_eq_getElem hi]
  rfl

/-- Subsections: kinds and contents. -/
abbrev Subs := List (Nat × List Nat)

def flat (subs : Subs) : List Nat := subs.flatMap (fun s => subsection s.1 s.2)

/-- Where the contents are. -/
def placed : Nat → Subs → List (Nat × Nat × List Nat)
  | _, [] => []
  | p, (k, c) :: rest => (p + 8, k, c) :: placed (p + (subsection k c).length) rest

def view (x : Nat × Nat × List Nat) : Subsection := ⟨x.2.1, x.1, x.2.2.length⟩

theorem u32_length (v : Nat) : (u32 v).length = 4 := rfl
theorem u16_length (v : Nat) : (u16 v).length = 2 := rfl

theorem subsection_length (k : Nat) (c : List Nat) : (subsection k c).length = (8 + c.length + 3) / 4 * 4 := by
  unfold subsection
  simp only [List.length_append, u32_length, List.length_replicate]
  omega

theorem placed_append : ∀ (a b : Subs) (p : Nat), placed p (a ++ b) = placed p a ++ placed (p + (flat a).length) b
  | [], _, _ => rfl
  | (k, c) :: rest, b, p => by
    show (p + 8, k, c) :: placed _ (rest ++ b) = (p + 8, k, c) :: placed _ rest ++ _
    rw [placed_append rest b]
    show _ = _ ++ placed (p + (subsection k c ++ flat rest).length) b
    rw [List.length_append, Nat.add_assoc]
    rfl

theorem flat_append (a b : Subs) : flat (a ++ b) = flat a ++ flat b := List.flatMap_append ..

/-- Contents are where they were placed. -/
theorem placed_holds : ∀ (subs : Subs) (pre post : List Nat), ∀ x ∈ placed pre.length subs, Holds (byte (pre ++ (flat subs ++ post))) x.1 x.2.2
  | [], _, _, x, h => by cases h
  | (k, c) :: rest, pre, post, x, h => by
    have e : pre ++ (flat ((k, c) :: rest) ++ post) = pre ++ (subsection k c ++ (flat rest ++ post)) := by
      show pre ++ ((subsection k c ++ flat rest) ++ post) = _
      rw [List.append_assoc]
    rcases List.mem_cons.1 h with rfl | h
    · rw [e]
      have := holds_of_append (pre ++ (u32 k ++ u32 c.length)) c (List.replicate ((4 - c.length % 4) % 4) 0 ++ (flat rest ++ post))
      rw [List.length_append] at this
      show Holds (byte (pre ++ ((u32 k ++ u32 c.length ++ c ++ List.replicate ((4 - c.length % 4) % 4) 0) ++ (flat rest ++ post)))) (pre.length + 8) c
      simp only [List.append_assoc] at this ⊢
      exact this
    · rw [e, ← List.append_assoc]
      have h' : x ∈ placed (pre ++ subsection k c).length rest := by rw [List.length_append]; exact h
      exact placed_holds rest _ post x h'

theorem placed_ge : ∀ (subs : Subs) (p : Nat), ∀ x ∈ placed p subs, p + 8 ≤ x.1
  | [], _, x, h => by cases h
  | (k, c) :: rest, p, x, h => by
    rcases List.mem_cons.1 h with rfl | h
    · exact Nat.le_refl _
    · have := placed_ge rest _ x h
      omega

/-- Different contents do not overlap. -/
theorem placed_disjoint : ∀ (subs : Subs) (p : Nat), ∀ x ∈ placed p subs, ∀ y ∈ placed p subs, x.1 ≤ y.1 → (y.1 < x.1 + x.2.2.length ∨ x.1 = y.1) → x = y
  | [], _, x, h, _, _, _, _ => by cases h
  | (k, c) :: rest, p, x, hx, y, hy, h1, h2 => by
    have hl := subsection_length k c
    rcases List.mem_cons.1 hx with rfl | hx <;> rcases List.mem_cons.1 hy with rfl | hy
    · rfl
    · have := placed_ge rest _ y hy
      simp only at h1 h2
      omega
    · have := placed_ge rest _ x hx
      simp only at h1
      omega
    · exact placed_disjoint rest _ x hx y hy h1 h2

/-- The subsections that a reader finds. -/
theorem subsections_eq : ∀ (subs : Subs) (pre : List Nat) (fuel : Nat), subs.length ≤ fuel → pre.length % 4 = 0 →
    (∀ s ∈ subs, s.1 < 2 ^ 32 ∧ s.2.length < 2 ^ 32) → subsections (pre ++ flat subs) fuel pre.length = (placed pre.length subs).map view
  | [], pre, 0, _, _, _ => rfl
  | [], pre, fuel + 1, _, _, _ => by
    show (if _ then _ else _) = _
    rw [if_neg (by show ¬ pre.length + 8 ≤ (pre ++ []).length; rw [List.append_nil]; omega)]
    rfl
  | (k, c) :: rest, pre, 0, h, _, _ => by simp at h
  | (k, c) :: rest, pre, fuel + 1, h, hp, hs => by
    obtain ⟨hk, hc⟩ := hs (k, c) (List.mem_cons_self ..)
    simp only at hk hc
    have hl := subsection_length k c
    have e : pre ++ flat ((k, c) :: rest) = pre ++ (subsection k c ++ flat rest) := rfl
    have h8 : Holds (byte (pre ++ (subsection k c ++ flat rest))) pre.length (u32 k ++ u32 c.length) := by
      have := holds_of_append pre (u32 k ++ u32 c.length) (c ++ (List.replicate ((4 - c.length % 4) % 4) 0 ++ flat rest))
      show Holds (byte (pre ++ ((u32 k ++ u32 c.length ++ c ++ List.replicate ((4 - c.length % 4) % 4) 0) ++ flat rest))) _ _
      simp only [List.append_assoc] at this ⊢
      exact this
    obtain ⟨ha, hb⟩ := holds_append.1 h8
    have na := number_u32 ha hk
    have nb := number_u32 (a := pre.length + 4) hb hc
    rw [e]
    show (if pre.length + 8 ≤ (pre ++ (subsection k c ++ flat rest)).length then _ else _) = _
    rw [if_pos (by simp only [List.length_append]; omega), na, nb]
    show _ = (⟨k, pre.length + 8, c.length⟩ : Subsection) :: (placed (pre.length + (subsection k c).length) rest).map view
    congr 1
    have ih := subsections_eq rest (pre ++ subsection k c) fuel (by simp only [List.length_cons] at h; omega) (by rw [List.length_append]; omega)
      (fun s h => hs s (List.mem_cons_of_mem _ h))
    rw [List.append_assoc, List.length_append] at ih
    rw [← ih]
    congr 1
    omega

/-- If only one element has the property, it is found. -/
theorem find_unique {α : Type} {p : α → Bool} {l : List α} {x : α} (hx : x ∈ l) (hp : p x = true) (hu : ∀ y ∈ l, p y = true → y = x) : l.find? p = some x := by
  cases h : l.find? p with
  | none =>
    have := List.find?_eq_none.1 h x hx
    exact absurd hp this
  | some y => rw [hu y (List.mem_of_find?_eq_some h) (List.find?_some h)]

/-- Elements of the same size in a row. -/
theorem holds_flatMap {α : Type} {g : α → List Nat} {n : Nat} (hg : ∀ x, (g x).length = n) {m : Nat → Nat} : ∀ (l : List α) (a : Nat), Holds m a (l.flatMap g) →
    ∀ (i : Nat) (x : α), l[i]? = some x → Holds m (a + n * i) (g x)
  | [], _, _, _, _, h => by simp at h
  | y :: l, a, hh, 0, x, h => by
    rw [List.getElem?_cons_zero] at h
    cases h
    exact (holds_append.1 hh).1
  | y :: l, a, hh, i + 1, x, h => by
    rw [List.getElem?_cons_succ] at h
    have := holds_flatMap hg l (a + n) (by have := (holds_append.1 hh).2; rw [hg] at this; exact this) i x h
    rw [show a + n * (i + 1) = a + n + n * i by rw [Nat.mul_add, Nat.mul_one]; omega]
    exact this

def record (off : Nat) (e : Entry) : Record := ⟨e.offset, off, e.line⟩

theorem number3 {m : Nat → Nat} {a v : Nat} (h : Holds m a (u32 (v ||| 0x80000000))) (hv : v < 2 ^ 24) : number m 3 a = v := by
  have h4 := number_u32 h (by apply Nat.or_lt_two_pow <;> omega)
  have hb : m (a + 3) = (v ||| 0x80000000) / 16777216 % 256 := h 3 (by show 3 < 4; omega)
  have e : number m 4 a = number m 3 a + 256 ^ 3 * number m 1 (a + 3) := Verif.Lemmas.Image.number_add m 3 1 a
  have e1 : number m 1 (a + 3) = m (a + 3) := by simp only [number]; omega
  have hor : v ||| 0x80000000 = v + 0x80000000 := by
    rw [Nat.or_comm]
    have := (Nat.two_pow_add_eq_or_of_lt (i := 31) (b := v) (by omega) 1)
    rw [Nat.mul_one] at this
    rw [show (0x80000000 : Nat) = 2 ^ 31 by rfl, ← this, Nat.add_comm]
  rw [hor] at h4 hb
  rw [e, e1, hb] at h4
  omega

theorem u32_at {m : Nat → Nat} {a a' v : Nat} (h : Holds m a' (u32 v)) (e : a' = a) (hv : v < 2 ^ 32) : number m 4 a = v := by
  subst e
  exact number_u32 h hv

theorem u16_at {m : Nat → Nat} {a a' v : Nat} (h : Holds m a' (u16 v)) (e : a' = a) (hv : v < 2 ^ 16) : number m 2 a = v := by
  subst e
  exact number_u16 h hv

theorem records_length (l : Nat) (es : List Entry) : (records l es).length = 8 * (es.length + 1) := by
  have gen : (es.flatMap (fun e => u32 e.offset ++ u32 (e.line ||| 0x80000000))).length = 8 * es.length := by
    induction es with
    | nil => rfl
    | cons e l ih =>
      rw [List.flatMap_cons, List.length_append, List.length_append, u32_length, u32_length, List.length_cons, ih]
      omega
  unfold records
  simp only [List.length_append, u32_length]
  rw [gen]
  omega

/-- What the content of a subsection of kind 0xf2 says. -/
theorem lines_read {b : List Nat} {start : Nat} {f : Function} {es : List Entry} {off : Nat} {w : Nat × Nat} (h : Holds (byte b) start (lines f es off w))
    (hl : f.line < 2 ^ 24) (hes : ∀ e ∈ es, e.line < 2 ^ 24 ∧ e.offset < 2 ^ 32) (hoff : off < 2 ^ 32) (hlen : (lines f es off w).length < 2 ^ 32)
    (hsize : f.byteSize < 2 ^ 32) (hw : w.1 < 2 ^ 32 ∧ w.2 < 2 ^ 16) :
    recordsOf b ⟨0xf2, start, (lines f es off w).length⟩ = (⟨f.line, 0⟩ :: es).map (record off) ∧ number (byte b) 4 (start + 8) = f.byteSize ∧
    number (byte b) 4 start = w.1 ∧ number (byte b) 2 (start + 4) = w.2 := by
  have hrl := records_length f.line es
  have hll : (lines f es off w).length = 24 + 8 * (es.length + 1) := by
    unfold lines
    simp only [List.length_append, u32_length, u16_length, hrl]
  unfold lines at h
  simp only at h
  rw [hrl] at h
  obtain ⟨h, hr⟩ := holds_append.1 h
  obtain ⟨h, hblk⟩ := holds_append.1 h
  obtain ⟨h, h5⟩ := holds_append.1 h
  obtain ⟨h, h4⟩ := holds_append.1 h
  obtain ⟨h1, h2⟩ := holds_append.1 h
  obtain ⟨hblk, h8⟩ := holds_append.1 hblk
  obtain ⟨h6, h7⟩ := holds_append.1 hblk
  simp only [List.length_append, u32_length, u16_length] at h2 h4 h5 h6 h7 h8 hr
  have n1 : number (byte b) 4 start = w.1 := u32_at h1 rfl hw.1
  have n2 : number (byte b) 2 (start + 4) = w.2 := u16_at h2 (by omega) hw.2
  have n5 : number (byte b) 4 (start + 8) = f.byteSize := u32_at h5 (by omega) hsize
  have n6 : number (byte b) 4 (start + 12) = off := u32_at h6 (by omega) hoff
  have n7 : number (byte b) 4 (start + 12 + 4) = 8 * (es.length + 1) / 8 := u32_at h7 (by omega) (by omega)
  have n8 : number (byte b) 4 (start + 12 + 8) = 12 + 8 * (es.length + 1) := u32_at h8 (by omega) (by omega)
  have hr' : Holds (byte b) (start + 24) (((⟨f.line, 0⟩ : Entry) :: es).flatMap (fun e => u32 e.offset ++ u32 (e.line ||| 0x80000000))) := by
    rw [show start + 24 = start + (4 + 2 + 2 + 4 + (4 + 4 + 4)) by omega]
    exact hr
  refine ⟨?_, n5, n1, n2⟩
  unfold recordsOf
  rw [hll]
  simp only
  rw [show 24 + 8 * (es.length + 1) = 23 + 8 * (es.length + 1) + 1 by omega]
  rw [Verif.Spec.DebugLines.records, if_pos (by omega), n6, n7, n8, show 8 * (es.length + 1) / 8 = es.length + 1 by omega]
  have hend : Verif.Spec.DebugLines.records b (23 + 8 * (es.length + 1)) (start + 12 + (12 + 8 * (es.length + 1))) (start + (23 + 8 * (es.length + 1) + 1)) = [] := by
    rw [show 23 + 8 * (es.length + 1) = 22 + 8 * (es.length + 1) + 1 by omega, Verif.Spec.DebugLines.records, if_neg (by omega)]
  rw [hend, List.append_nil]
  apply List.ext_getElem?
  intro i
  rw [List.getElem?_map, List.getElem?_map]
  by_cases hi : i < es.length + 1
  · have hi' : i < ((⟨f.line, 0⟩ : Entry) :: es).length := hi
    rw [List.getElem?_range hi, List.getElem?_eq_getElem hi']
    have hx := holds_flatMap (n := 8) (fun _ => rfl) _ _ hr' i _ (List.getElem?_eq_getElem hi')
    have hmem : ((⟨f.line, 0⟩ : Entry) :: es)[i].line < 2 ^ 24 ∧ ((⟨f.line, 0⟩ : Entry) :: es)[i].offset < 2 ^ 32 := by
      rcases List.mem_cons.1 (List.getElem_mem hi') with hq | hq
      · rw [hq]; exact ⟨hl, by simp⟩
      · exact hes _ hq
    generalize ((⟨f.line, 0⟩ : Entry) :: es)[i] = x at *
    obtain ⟨hx1, hx2⟩ := holds_append.1 hx
    have a1 := number_u32 hx1 hmem.2
    have a2 := number3 hx2 hmem.1
    rw [u32_length] at a2
    show some (⟨number (byte b) 4 (start + 12 + 12 + 8 * i), off, number (byte b) 3 (start + 12 + 16 + 8 * i)⟩ : Record) = some ⟨x.offset, off, x.line⟩
    rw [show start + 12 + 12 + 8 * i = start + 24 + 8 * i by omega, show start + 12 + 16 + 8 * i = start + 24 + 8 * i + 4 by omega, a1, a2]
  · rw [List.getElem?_eq_none (by rw [List.length_range]; omega), List.getElem?_eq_none (by show es.length + 1 ≤ i; omega)]
    rfl

/-- The record for a byte has the line of the last entry before it. -/
theorem recordFor_eq (off : Nat) (c : Nat) : ∀ (es : List Entry) (d : Nat), ∃ o, recordFor ((⟨d, 0⟩ :: es).map (record off)) c = some ⟨o, off, DebugLines.lineAt d es c⟩ := by
  have gen : ∀ (es : List Entry) (x : Entry), x.offset ≤ c → ∃ o, recordFor ((x :: es).map (record off)) c = some ⟨o, off, DebugLines.lineAt x.line es c⟩ := by
    intro es
    induction es with
    | nil =>
      intro x hx
      refine ⟨x.offset, ?_⟩
      unfold recordFor
      rw [List.map_cons, List.filter_cons_of_pos (by exact decide_eq_true hx)]
      rfl
    | cons y l ih =>
      intro x hx
      by_cases hy : y.offset ≤ c
      · obtain ⟨o, ho⟩ := ih y hy
        refine ⟨o, ?_⟩
        have e : DebugLines.lineAt x.line (y :: l) c = DebugLines.lineAt y.line l c := by
          show (if y.offset ≤ c then _ else _) = _
          rw [if_pos hy]
        rw [e, ← ho]
        unfold recordFor
        rw [List.map_cons, List.map_cons, List.filter_cons_of_pos (by exact decide_eq_true hx), List.filter_cons_of_pos (by exact decide_eq_true hy),
          List.getLast?_cons_cons]
      · obtain ⟨o, ho⟩ := ih x hx
        refine ⟨o, ?_⟩
        have e : DebugLines.lineAt x.line (y :: l) c = DebugLines.lineAt x.line l c := by
          show (if y.offset ≤ c then _ else _) = _
          rw [if_neg hy]
        rw [e, ← ho]
        unfold recordFor
        rw [List.map_cons, List.map_cons, List.map_cons, List.filter_cons_of_pos (by exact decide_eq_true hx),
          List.filter_cons_of_neg (by simp only [decide_eq_true_eq]; exact hy), List.filter_cons_of_pos (by exact decide_eq_true hx)]
  intro es d
  exact gen es ⟨d, 0⟩ (Nat.zero_le _)

/-- The names of the files. -/
theorem strings_ok : ∀ (files : Files) (pre : List Nat) (i : Nat) (f : File), files[i]? = some (some f) → ∃ (o : Nat) (r : List Nat),
    (strings files pre.length).2[i]? = some o ∧ (pre ++ (strings files pre.length).1).drop o = backslashes f.path ++ 0 :: r ∧ o ≤ (pre ++ (strings files pre.length).1).length
  | [], _, _, _, h => by simp at h
  | none :: rest, pre, 0, f, h => by simp at h
  | none :: rest, pre, i + 1, f, h => strings_ok rest pre i f h
  | some g :: rest, pre, 0, f, h => by
    rw [List.getElem?_cons_zero] at h
    cases h
    refine ⟨pre.length, (strings rest (pre.length + (backslashes g.path ++ [0]).length)).1, rfl, ?_, ?_⟩
    · show (pre ++ (backslashes g.path ++ [0] ++ _)).drop _ = _
      rw [List.drop_left, List.append_assoc]
      rfl
    · rw [List.length_append]; omega
  | some g :: rest, pre, i + 1, f, h => by
    obtain ⟨o, r, h1, h2, h3⟩ := strings_ok rest (pre ++ (backslashes g.path ++ [0])) i f h
    rw [List.length_append] at h1
    rw [List.length_append, List.append_assoc] at h2
    have hl : (pre ++ (backslashes g.path ++ [0])).length = pre.length + (backslashes g.path ++ [0]).length := List.length_append
    rw [hl, List.append_assoc] at h3
    exact ⟨o, r, h1, h2, h3⟩

theorem untilZero_eq : ∀ (a r : List Nat), (∀ c ∈ a, c ≠ 0) → untilZero (a ++ 0 :: r) = a
  | [], _, _ => rfl
  | x :: a, r, h => by
    have hx := h x (List.mem_cons_self ..)
    unfold untilZero
    rw [List.cons_append, List.takeWhile_cons_of_pos (by exact decide_eq_true hx)]
    have := untilZero_eq a r (fun c hc => h c (List.mem_cons_of_mem _ hc))
    unfold untilZero at this
    rw [this]

theorem checksum_ok (f : File) (o : Nat) (hp : f.padding.length = 128) : ∃ h, h = Verif.Spec.Md5.digest f.content ∧ h.length = 16 ∧
    checksum f o = some (u32 o ++ u16 0x110 ++ h ++ [0, 0]) := by
  have hl := Md5.length_eq f.content.length
  obtain ⟨hash, h1, h2⟩ := Md5.hash_eq f.content f.padding (f.content.length + 128) (by omega) (by omega)
  refine ⟨_, rfl, ?_, ?_⟩
  · rw [← h2]
    unfold Verif.Model.Md5.Hash.bytes
    simp only [List.length_append, Md5.le_length]
  · unfold checksum
    rw [h1, ← h2]
    rfl

/-- The digests of the files. -/
theorem checksums_ok : ∀ (files : Files) (offs : List Nat) (pre : List Nat), offs.length = files.length → (∀ f, some f ∈ files → f.padding.length = 128) →
    ∃ r, checksums files offs pre.length = some r ∧ r.2.length = files.length ∧ ∀ (i : Nat) (f : File), files[i]? = some (some f) → ∃ o n post, r.2[i]? = some o ∧
      offs[i]? = some n ∧ (pre ++ r.1).drop o = u32 n ++ u16 0x110 ++ Verif.Spec.Md5.digest f.content ++ [0, 0] ++ post ∧ o ≤ (pre ++ r.1).length
  | [], _, _, _, _ => ⟨_, rfl, rfl, fun i f h => by simp at h⟩
  | none :: rest, [], _, h, _ => by simp at h
  | some _ :: rest, [], _, h, _ => by simp at h
  | none :: rest, x :: offs, pre, hl, hp => by
    obtain ⟨r, h1, h2, h3⟩ := checksums_ok rest offs pre (by simpa using hl) (fun f hf => hp f (List.mem_cons_of_mem _ hf))
    refine ⟨(r.1, 0 :: r.2), ?_, by rw [List.length_cons, List.length_cons, h2], ?_⟩
    · rw [checksums, List.tail_cons, h1]
      rfl
    · intro i f h
      cases i with
      | zero => simp at h
      | succ i => exact h3 i f h
  | some g :: rest, x :: offs, pre, hl, hp => by
    obtain ⟨hh, he, hlen, hc⟩ := checksum_ok g x (hp g (List.mem_cons_self ..))
    obtain ⟨r, h1, h2, h3⟩ := checksums_ok rest offs (pre ++ (u32 x ++ u16 0x110 ++ hh ++ [0, 0])) (by simpa using hl) (fun f hf => hp f (List.mem_cons_of_mem _ hf))
    refine ⟨(u32 x ++ u16 0x110 ++ hh ++ [0, 0] ++ r.1, pre.length :: r.2), ?_, by rw [List.length_cons, List.length_cons, h2], ?_⟩
    · rw [checksums, List.headD_cons, hc, Option.bind_eq_bind, Option.bind_some, List.tail_cons]
      rw [List.length_append] at h1
      rw [h1]
      rfl
    · intro i f h
      cases i with
      | zero =>
        rw [List.getElem?_cons_zero] at h
        cases h
        refine ⟨pre.length, x, r.1, rfl, rfl, ?_, ?_⟩
        · rw [List.drop_left, ← he]
        · rw [List.length_append]; omega
      | succ i =>
        obtain ⟨o, n, post, g1, g2, g3, g4⟩ := h3 i f h
        rw [List.append_assoc] at g3 g4
        exact ⟨o, n, post, g1, g2, g3, g4⟩

theorem strings_length : ∀ (files : Files) (p : Nat), (strings files p).2.length = files.length
  | [], _ => rfl
  | none :: rest, p => by
    show (strings rest p).2.length + 1 = _
    rw [strings_length rest]; rfl
  | some f :: rest, p => by
    show (strings rest _).2.length + 1 = _
    rw [strings_length rest]; rfl

end Verif.Lemmas.DebugRead
