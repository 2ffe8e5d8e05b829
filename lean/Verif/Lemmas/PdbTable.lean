import Verif.Lemmas.PdbHash
import Verif.Lemmas.Msf

/-!
# Lemmas: the hash tables of symbols
-/
namespace Verif.Lemmas.PdbTable
open Verif.Model.PdbSymbols
open Verif.Spec.PdbSymbols (present rank startsAt bitsAt tailSize startCount start reference bucket references recordsSize)
open Verif.Spec.Image (byte number)
open Verif.Model.BaseReloc (u16 u32)
open Verif.Lemmas.Image (number_u32)
open Verif.Lemmas.Msf (byte_left byte_right flat_u32_length)

/-! ## The chains -/

theorem insert_perm (s : Symbol) : (l : List Symbol) → (insert s l).Perm (s :: l)
  | [] => List.Perm.refl _
  | [b] => List.Perm.swap _ _ _
  | b :: c :: rest => by
    rw [Verif.Model.PdbSymbols.insert]
    split
    · exact List.Perm.refl _
    · exact ((insert_perm s (c :: rest)).cons b).trans (List.Perm.swap _ _ _)

/-- The bucket of a symbol. -/
def slot (s : Symbol) : Nat := stringHash s.name % 4096

/-- How many of the first buckets have symbols. -/
def used (t : Table) (n : Nat) : Nat := ((List.range n).filter (fun i => decide (t.chain i ≠ []))).length

/-- The table of a list of symbols. -/
structure Holds (t : Table) (l : List Symbol) : Prop where
  chains : ∀ i, (t.chain i).Perm (l.filter (fun s => decide (slot s = i)))
  count : t.symbols = l.length
  buckets : t.buckets = used t 4096

theorem holds_nil : Holds ⟨fun _ => [], 0, 0⟩ [] := ⟨fun _ => List.Perm.refl _, rfl, by
  unfold used
  rw [List.filter_eq_nil_iff.mpr]
  · rfl
  · intro i _; simp⟩

theorem filter_range_or (p q : Nat → Bool) (h : Nat) (hq : ∀ i, q i = (p i || decide (i = h))) : (n : Nat) →
    ((List.range n).filter q).length = ((List.range n).filter p).length + (if h < n ∧ p h = false then 1 else 0)
  | 0 => by simp
  | n + 1 => by
    rw [List.range_succ, List.filter_append, List.filter_append, List.length_append, List.length_append, filter_range_or p q h hq n]
    simp only [List.filter_cons, List.filter_nil, hq n]
    by_cases hn : n = h
    · subst hn
      cases hp : p n <;> simp
    · by_cases hlt : h < n
      · have : h < n + 1 := by omega
        cases hp : p n <;> cases hph : p h <;> simp [hn, hlt, this]
      · have : ¬ h < n + 1 := by omega
        cases hp : p n <;> simp [hn, hlt, this]

theorem holds_add {t : Table} {l : List Symbol} (h : Holds t l) (s : Symbol) : Holds (add t s) (l ++ [s]) := by
  obtain ⟨h1, h2, h3⟩ := h
  refine ⟨fun i => ?_, ?_, ?_⟩
  · show (if i = slot s then insert s (t.chain i) else t.chain i).Perm _
    rw [List.filter_append]
    by_cases hi : i = slot s
    · rw [if_pos hi]
      rw [show [s].filter (fun s => decide (slot s = i)) = [s] by simp [hi]]
      exact ((insert_perm s _).trans ((h1 i).cons s)).trans (List.perm_append_singleton s _).symm
    · rw [if_neg hi]
      rw [show [s].filter (fun s => decide (slot s = i)) = [] by simp [Ne.symm hi], List.append_nil]
      exact h1 i
  · show t.symbols + 1 = _
    rw [h2, List.length_append]; rfl
  · show t.buckets + (if t.chain (slot s) = [] then 1 else 0) = ((List.range 4096).filter (fun i => decide ((if i = slot s then insert s (t.chain i) else t.chain i) ≠ []))).length
    rw [h3, filter_range_or (fun i => decide (t.chain i ≠ [])) _ (slot s)]
    · have hs : slot s < 4096 := Nat.mod_lt _ (by omega)
      unfold used
      by_cases he : t.chain (slot s) = []
      · rw [if_pos he, if_pos ⟨hs, by simp [he]⟩]
      · rw [if_neg he, if_neg (by simp [he])]
    · intro i
      by_cases hi : i = slot s
      · rw [if_pos hi]
        have : insert s (t.chain i) ≠ [] := by
          intro he
          have := (insert_perm s (t.chain i)).length_eq
          rw [he] at this
          simp at this
        simp [hi]
        rw [hi] at this
        exact this
      · rw [if_neg hi]; simp [hi]

theorem holds_all : (l : List Symbol) → {t : Table} → {l₀ : List Symbol} → Holds t l₀ → Holds (l.foldl add t) (l₀ ++ l)
  | [], t, l₀, h => by rw [List.append_nil]; exact h
  | s :: l, t, l₀, h => by
    have := holds_all l (holds_add h s)
    rw [List.append_assoc] at this
    exact this

theorem chain_last {t : Table} {l : List Symbol} (h : Holds t l) {i : Nat} (hi : 4096 ≤ i) : t.chain i = [] := by
  have := h.chains i
  rw [List.filter_eq_nil_iff.mpr] at this
  · exact this.eq_nil
  · intro s _
    have : slot s < 4096 := Nat.mod_lt _ (by omega)
    simp; omega

/-! ## What is written -/

/-- The chains that are not empty. -/
def chains (t : Table) (n : Nat) : List (List Symbol) := ((List.range n).map t.chain).filter (fun c => decide (c ≠ []))

theorem chains_succ (t : Table) (n : Nat) : chains t (n + 1) = chains t n ++ (if t.chain n = [] then [] else [t.chain n]) := by
  unfold chains
  rw [List.range_succ, List.map_append, List.filter_append]
  congr 1
  by_cases h : t.chain n = [] <;> simp [h]

/-- What the loop has done after `n` buckets. -/
structure Written (t : Table) (n : Nat) (w : Writer) : Prop where
  records : w.records = (chains t n).flatten.map (fun s => s.offset + 1)
  offsets : w.offsets = (List.range (chains t n).length).map (fun k => 12 * ((chains t n).take k).flatten.length)
  offsetAt : w.offsetAt = 12 * (chains t n).flatten.length
  bitmap : w.bitmap.length = n / 32
  small : ∀ v ∈ w.bitmap, v < 2 ^ 32
  bitIndex : w.bitIndex = n % 32
  bit : w.bit < 2 ^ w.bitIndex
  full : ∀ (i : Nat), i < n / 32 * 32 → (w.bitmap.getD (i / 32) 0).testBit (i % 32) = decide (t.chain i ≠ [])
  last : ∀ (i : Nat), n / 32 * 32 ≤ i → i < n → w.bit.testBit (i % 32) = decide (t.chain i ≠ [])

theorem take_all (l : List (List Symbol)) (x : List Symbol) :
    (List.range (l ++ [x]).length).map (fun k => 12 * ((l ++ [x]).take k).flatten.length) =
      (List.range l.length).map (fun k => 12 * (l.take k).flatten.length) ++ [12 * l.flatten.length] := by
  rw [List.length_append, List.length_singleton, List.range_succ, List.map_append]
  congr 1
  · apply List.map_congr_left
    intro k hk
    rw [List.mem_range] at hk
    rw [List.take_append_of_le_length (by omega)]
  · simp

theorem writeBucket_written {t : Table} {n : Nat} {w : Writer} (h : Written t n w) : Written t (n + 1) (writeBucket w (t.chain n)) := by
  obtain ⟨r1, r2, r3, r4, r5, r6, r7, r8, r9⟩ := h
  -- the new bit
  generalize hb : (if t.chain n ≠ [] then w.bit ||| (1 <<< w.bitIndex) else w.bit) = bit
  have hbl : bit < 2 ^ (w.bitIndex + 1) := by
    have : w.bit < 2 ^ (w.bitIndex + 1) := Nat.lt_trans r7 (Nat.pow_lt_pow_right (by omega) (by omega))
    rw [← hb]
    split
    · refine Nat.or_lt_two_pow this ?_
      rw [Nat.shiftLeft_eq, Nat.one_mul]
      exact Nat.pow_lt_pow_right (by omega) (by omega)
    · exact this
  have hbt : ∀ j, j ≤ w.bitIndex → bit.testBit j = if j = w.bitIndex then decide (t.chain n ≠ []) else w.bit.testBit j := by
    intro j hj
    rw [← hb]
    by_cases hc : t.chain n ≠ []
    · rw [if_pos hc, Nat.testBit_or, Nat.shiftLeft_eq, Nat.one_mul, Nat.testBit_two_pow]
      by_cases hjw : j = w.bitIndex
      · rw [if_pos hjw]; simp [hjw, hc]
      · rw [if_neg hjw]; simp [Ne.symm hjw]
    · rw [if_neg hc]
      by_cases hjw : j = w.bitIndex
      · rw [if_pos hjw, decide_eq_false hc, hjw]; exact Nat.testBit_lt_two_pow r7
      · rw [if_neg hjw]
  -- the bits
  have key : ∃ bitmap' bit' idx', (if w.bitIndex + 1 = 32 then (w.bitmap ++ [bit], 0, 0) else (w.bitmap, bit, w.bitIndex + 1)) = (bitmap', bit', idx') ∧
      bitmap'.length = (n + 1) / 32 ∧ (∀ v ∈ bitmap', v < 2 ^ 32) ∧ idx' = (n + 1) % 32 ∧ bit' < 2 ^ idx' ∧
      (∀ (i : Nat), i < (n + 1) / 32 * 32 → (bitmap'.getD (i / 32) 0).testBit (i % 32) = decide (t.chain i ≠ [])) ∧
      (∀ (i : Nat), (n + 1) / 32 * 32 ≤ i → i < n + 1 → bit'.testBit (i % 32) = decide (t.chain i ≠ [])) := by
    have hnew : ∀ i, n / 32 * 32 ≤ i → i < n + 1 → bit.testBit (i % 32) = decide (t.chain i ≠ []) := by
      intro i h1 h2
      rw [hbt _ (by omega)]
      by_cases hi : i = n
      · rw [if_pos (by omega), hi]
      · rw [if_neg (by omega)]
        exact r9 i h1 (by omega)
    by_cases hw : w.bitIndex + 1 = 32
    · refine ⟨_, _, _, if_pos hw, ?_, ?_, by omega, by decide, ?_, ?_⟩
      · rw [List.length_append, List.length_singleton, r4]; omega
      · intro v hv
        rcases List.mem_append.mp hv with hv | hv
        · exact r5 v hv
        · rw [List.mem_singleton] at hv
          rw [hv, ← hw]; exact hbl
      · intro i hi
        rw [List.getD_eq_getElem?_getD]
        by_cases hlt : i < n / 32 * 32
        · rw [List.getElem?_append_left (by omega), ← List.getD_eq_getElem?_getD]
          exact r8 i hlt
        · rw [show i / 32 = w.bitmap.length by omega, List.getElem?_append_right (Nat.le_refl _), Nat.sub_self]
          exact hnew i (by omega) (by omega)
      · intro i h1 h2; omega
    · refine ⟨_, _, _, if_neg hw, by omega, r5, by omega, hbl, ?_, ?_⟩
      · intro i hi
        exact r8 i (by omega)
      · intro i h1 h2
        exact hnew i (by omega) h2
  obtain ⟨bitmap', bit', idx', he, k1, k2, k3, k4, k5, k6⟩ := key
  unfold writeBucket
  simp only [hb]
  rw [he]
  simp only []
  by_cases hc : t.chain n = []
  · rw [if_pos hc]
    have hcs : chains t (n + 1) = chains t n := by rw [chains_succ, if_pos hc, List.append_nil]
    exact ⟨by rw [hcs]; exact r1, by rw [hcs]; exact r2, by rw [hcs]; exact r3, k1, k2, k3, k4, k5, k6⟩
  · rw [if_neg hc]
    have hcs : chains t (n + 1) = chains t n ++ [t.chain n] := by rw [chains_succ, if_neg hc]
    refine ⟨?_, ?_, ?_, k1, k2, k3, k4, k5, k6⟩
    · rw [hcs]
      show w.records ++ _ = _
      rw [r1, List.flatten_append, List.map_append]
      simp
    · rw [hcs]
      show w.offsets ++ [w.offsetAt] = _
      rw [take_all, r2, r3]
    · rw [hcs]
      show w.offsetAt + _ = _
      rw [r3, List.flatten_append, List.length_append]
      simp
      omega

theorem written_all (t : Table) : (n : Nat) → Written t n ((List.range n).foldl (fun w i => writeBucket w (t.chain i)) ⟨[], [], [], 0, 0, 0⟩)
  | 0 => ⟨rfl, rfl, rfl, rfl, (fun v hv => by cases hv), rfl, (by show 0 < 2 ^ 0; omega), (fun i hi => by omega), (fun i _ hi => by omega)⟩
  | n + 1 => by
    rw [List.range_succ, List.foldl_append, List.foldl_cons, List.foldl_nil]
    exact writeBucket_written (written_all t n)

/-- The complete table of `N` buckets. -/
structure Complete (t : Table) (N : Nat) (w : Writer) : Prop where
  records : w.records = (chains t N).flatten.map (fun s => s.offset + 1)
  offsets : w.offsets = (List.range (chains t N).length).map (fun k => 12 * ((chains t N).take k).flatten.length)
  bitmap : w.bitmap.length = 129
  small : ∀ v ∈ w.bitmap, v < 2 ^ 32
  bits : ∀ (i : Nat), i < N → (w.bitmap.getD (i / 32) 0).testBit (i % 32) = decide (t.chain i ≠ [])

theorem complete_of {t : Table} {N : Nat} {w : Writer} (h : Written t N w) (hN : N = 4097) : Complete t N { w with bitmap := w.bitmap ++ [w.bit] } := by
  obtain ⟨r1, r2, r3, r4, r5, r6, r7, r8, r9⟩ := h
  refine ⟨r1, r2, ?_, ?_, ?_⟩
  · show (w.bitmap ++ [w.bit]).length = 129
    rw [List.length_append, r4, List.length_singleton]; omega
  · intro v hv
    rcases List.mem_append.mp hv with hv | hv
    · exact r5 v hv
    · rw [List.mem_singleton] at hv
      rw [hv]
      have : w.bitIndex < 32 := by omega
      exact Nat.lt_trans r7 (Nat.pow_lt_pow_right (by omega) this)
  · intro i hi
    show ((w.bitmap ++ [w.bit]).getD (i / 32) 0).testBit (i % 32) = _
    rw [List.getD_eq_getElem?_getD]
    by_cases hlt : i < 4096
    · rw [List.getElem?_append_left (by omega), ← List.getD_eq_getElem?_getD]
      exact r8 i (by omega)
    · rw [show i / 32 = w.bitmap.length by omega, List.getElem?_append_right (Nat.le_refl _), Nat.sub_self]
      exact r9 i (by omega) hi

theorem complete (t : Table) : Complete t (4096 + 1) (writeBuckets t) := complete_of (written_all t (4096 + 1)) rfl

end Verif.Lemmas.PdbTable
