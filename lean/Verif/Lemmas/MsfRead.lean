import Verif.Lemmas.Msf

/-!
# Lemmas: reading multistream files
-/
namespace Verif.Lemmas.Msf
open Verif.Model.Msf
open Verif.Model.BaseReloc (u32)
open Verif.Model.Image (zeros)
open Verif.Spec.Image (byte number Holds)
open Verif.Spec.Msf hiding tableSize table

/-- All the data, and the number of its pages. -/
def allData (ss : List (List Nat)) : List Nat := padded (pageList ss) ++ (padded (table ss) ++ ss.flatMap padded)
def total (ss : List (List Nat)) : Nat := pages (listSize ss) + pages (tableSize ss) + streamPages ss

theorem written {ss : List (List Nat)} {f : List Nat} (h : writeMsf ss = some f) : pages (listSize ss) ≤ 1011 ∧
    ∃ w : Writer, Inv (amountOfPages ss) (header ss) (allData ss) (total ss) w ∧ w.out = f := by
  unfold writeMsf at h
  by_cases hc : pages (listSize ss) > (0x1000 - 52) / 4
  · rw [if_pos hc] at h; cases h
  · rw [if_neg hc] at h
    have hp : pages (listSize ss) ≤ 1011 := by omega
    refine ⟨hp, _, ?_, Option.some.inj h⟩
    have := streams_written (pageList ss :: table ss :: ss) 0 [] _ (start_inv hp)
    have e : 0 + ((pageList ss :: table ss :: ss).map (fun s => pages s.length)).sum = total ss := by
      simp only [List.map_cons, List.sum_cons, pageList_length, table_length, total, streamPages]
      omega
    rw [e] at this
    simpa [allData] using this

section
variable {ss : List (List Nat)} {f : List Nat} (h : writeMsf ss = some f) (hs : f.length < 2 ^ 44)
include h

theorem file_length : f.length = 4096 * amountOfPages ss := by
  obtain ⟨_, w, hw, rfl⟩ := written h
  rw [hw.out, amount_eq]
  rfl

theorem header_byte {x : Nat} (hx : x < 4096) : byte f x = byte (header ss) x := by
  obtain ⟨_, w, hw, rfl⟩ := written h
  exact hw.head x hx

theorem front_holds : Holds (byte f) 0 (signature ++ u32 0x1000 ++ u32 1 ++ u32 (amountOfPages ss) ++ u32 (tableSize ss) ++ u32 0 ++
    (List.range (pages (listSize ss))).flatMap (fun i => u32 (3 + i))) := by
  intro i hi
  have hp := (written h).1
  have hl := header_length hp
  have hh : header ss = (signature ++ u32 0x1000 ++ u32 1 ++ u32 (amountOfPages ss) ++ u32 (tableSize ss) ++ u32 0 ++
    (List.range (pages (listSize ss))).flatMap (fun i => u32 (3 + i))) ++ zeros (0x1000 - (signature ++ u32 0x1000 ++ u32 1 ++ u32 (amountOfPages ss) ++ u32 (tableSize ss) ++ u32 0 ++
    (List.range (pages (listSize ss))).flatMap (fun i => u32 (3 + i))).length) := rfl
  generalize hfront : (signature ++ u32 0x1000 ++ u32 1 ++ u32 (amountOfPages ss) ++ u32 (tableSize ss) ++ u32 0 ++
    (List.range (pages (listSize ss))).flatMap (fun i => u32 (3 + i))) = front at *
  have hlt : i < 4096 := by
    rw [hh, List.length_append] at hl
    omega
  rw [header_byte h (by omega), hh, Nat.zero_add, byte_left hi]
  simp only [byte, List.getD_eq_getElem?_getD, List.getElem?_eq_getElem hi, Option.getD_some]

theorem pageSize_eq : pageSize f = 4096 := by
  have := front_holds h
  simp only [Verif.Lemmas.Image.holds_append] at this
  exact Verif.Lemmas.Image.number_u32 this.1.1.1.1.1.2 (by decide)

theorem activeMap_eq : activeMap f = 1 := by
  have := front_holds h
  simp only [Verif.Lemmas.Image.holds_append] at this
  exact Verif.Lemmas.Image.number_u32 this.1.1.1.1.2 (by decide)

include hs in
theorem amount_lt : amountOfPages ss < 2 ^ 32 := by
  have := file_length h
  omega

include hs in
theorem pageCount_eq : pageCount f = amountOfPages ss := by
  have := front_holds h
  simp only [Verif.Lemmas.Image.holds_append] at this
  exact Verif.Lemmas.Image.number_u32 this.1.1.1.2 (amount_lt h hs)

theorem tableSize_lt : tableSize ss < 2 ^ 32 := by
  have hp := (written h).1
  unfold pages listSize pages at hp
  omega

theorem tableSize_eq : Verif.Spec.Msf.tableSize f = tableSize ss := by
  have := front_holds h
  simp only [Verif.Lemmas.Image.holds_append] at this
  exact Verif.Lemmas.Image.number_u32 this.1.1.2 (tableSize_lt h)

theorem pagesFor_eq (n : Nat) : pagesFor f n = pages n := by
  unfold pagesFor pages
  rw [pageSize_eq h]
  rfl

theorem listPage_eq {i : Nat} (hi : i < pages (listSize ss)) : listPage f i = 3 + i := by
  have hp := (written h).1
  have := front_holds h
  rw [Verif.Lemmas.Image.holds_append] at this
  have h2 := this.2
  rw [show 0 + (signature ++ u32 0x1000 ++ u32 1 ++ u32 (amountOfPages ss) ++ u32 (tableSize ss) ++ u32 0).length = 52 from rfl] at h2
  rw [← List.flatMap_map (f := fun i => 3 + i) (g := u32)] at h2
  have h3 := number_flat (m := fun o => byte f (52 + o)) (l := (List.range (pages (listSize ss))).map (3 + ·)) (fun o ho => by
      rw [h2 o ho]
      simp only [byte, List.getD_eq_getElem?_getD, List.getElem?_eq_getElem ho, Option.getD_some]) (i := i) (v := 3 + i)
      (by rw [List.getElem?_map, List.getElem?_range hi]; rfl) (by omega)
  rw [← h3]
  exact Verif.Lemmas.Image.number_shift 4 _ _ (fun j _ => by rw [Nat.add_assoc])

/-- A part of the data that starts with a page. -/
theorem part {A L B : List Nat} (hd : allData ss = A ++ padded L ++ B) {a : Nat} (ha : A.length = 4096 * a) {page : Nat → Nat}
    (hp : ∀ i, i < pages L.length → page i = pageIndex (a + i)) {o : Nat} (ho : o < L.length) : inPages f page o = byte L o := by
  obtain ⟨_, w, hw, rfl⟩ := written h
  have hl := padded_length L
  have hlt : o / 4096 < pages L.length := by unfold pages; omega
  have hx := hw.data (A.length + o) (by rw [hd]; simp only [List.length_append]; unfold pages at hl; omega)
  unfold inPages
  rw [pageSize_eq h, hp _ hlt]
  rw [show (A.length + o) / 4096 = a + o / 4096 by omega, show (A.length + o) % 4096 = o % 4096 by omega, hd, List.append_assoc, byte_right (by omega),
    show A.length + o - A.length = o by omega, byte_left (by unfold pages at hl; omega)] at hx
  rw [show padded L = L ++ zeros (4096 * pages L.length - L.length) from rfl, byte_left ho] at hx
  rw [Nat.mul_comm, hx]

theorem list_read {o : Nat} (ho : o < (pageList ss).length) : inPages f (listPage f) o = byte (pageList ss) o := by
  have hp := (written h).1
  refine part h (A := []) (a := 0) (B := padded (table ss) ++ ss.flatMap padded) rfl rfl (fun i hi => ?_) ho
  rw [pageList_length] at hi
  rw [listPage_eq h hi]
  unfold pageIndex
  omega

theorem index_lt {n : Nat} (hn : n < total ss) : pageIndex n < amountOfPages ss := by
  rw [amount_eq]
  unfold total at hn
  unfold pageIndex endPage
  omega

include hs

theorem tablePage_eq {i : Nat} (hi : i < pages (tableSize ss)) : tablePage f i = pageIndex (pages (listSize ss) + i) := by
  have h1 := pageList_eq ss
  unfold tablePage
  refine number_flat (l := (List.range (pages (tableSize ss))).map (fun j => pageIndex (pages (listSize ss) + j))) (fun o ho => ?_) ?_ ?_
  · rw [← h1] at ho ⊢
    exact list_read h ho
  · rw [List.getElem?_map, List.getElem?_range hi]; rfl
  · exact Nat.lt_trans (index_lt h (by unfold total; omega)) (amount_lt h hs)

theorem table_read {o : Nat} (ho : o < (table ss).length) : Verif.Spec.Msf.table f o = byte (table ss) o := by
  refine part h (A := padded (pageList ss)) (a := pages (listSize ss)) (B := ss.flatMap padded) (by simp [allData]) ?_ (fun i hi => ?_) ho
  · rw [padded_length, pageList_length]
  · rw [table_length] at hi
    exact tablePage_eq h hs hi

theorem table_number {i v : Nat} (hi : ([ss.length + 1, 0] ++ ss.map (·.length) ++
    (List.range (streamPages ss)).map (fun j => pageIndex (pages (listSize ss) + pages (tableSize ss) + j)))[i]? = some v) (hv : v < 2 ^ 32) :
    number (Verif.Spec.Msf.table f) 4 (4 * i) = v := by
  refine number_flat (fun o ho => ?_) hi hv
  rw [← table_eq] at ho ⊢
  exact table_read h hs ho

theorem streamCount_eq : streamCount f = ss.length + 1 := by
  have := table_number h hs (i := 0) (v := ss.length + 1) rfl (by have := tableSize_lt h; unfold tableSize at this; omega)
  exact this

theorem streamSize_zero : streamSize f 0 = 0 := by
  have := table_number h hs (i := 1) (v := 0) rfl (by decide)
  exact this

/-- The sizes of the streams. -/
theorem streamSize_succ (hl : ∀ s ∈ ss, s.length < 2 ^ 32) {i : Nat} {s : List Nat} (hi : ss[i]? = some s) : streamSize f (i + 1) = s.length := by
  have hlt : i < ss.length := (List.getElem?_eq_some_iff.mp hi).1
  have := table_number h hs (i := i + 2) (v := s.length) (by
    rw [List.append_assoc, List.getElem?_append_right (by simp), List.getElem?_append_left (by simp; omega), List.getElem?_map]
    simp only [List.length_cons, List.length_nil]
    rw [show i + 2 - (0 + 1 + 1) = i by omega, hi]; rfl) (hl s (List.mem_of_getElem? hi))
  unfold streamSize
  rw [show 4 * (1 + (i + 1)) = 4 * (i + 2) by omega]
  exact this

theorem pagesBefore_eq (hl : ∀ s ∈ ss, s.length < 2 ^ 32) : (i : Nat) → i ≤ ss.length → pagesBefore f (i + 1) = streamPages (ss.take i)
  | 0, _ => by
    unfold pagesBefore
    simp only [List.range_succ, List.range_zero, List.nil_append, List.map_cons, List.map_nil, List.sum_cons, List.sum_nil, streamSize_zero h hs, pagesFor_eq h]
    rfl
  | i + 1, hi => by
    have ih := pagesBefore_eq hl i (by omega)
    unfold pagesBefore at ih ⊢
    have hg : ss[i]? = some ss[i] := List.getElem?_eq_getElem (by omega)
    rw [List.range_succ, List.map_append, List.sum_append, ih, List.take_succ, hg]
    simp only [streamPages, List.map_append, List.sum_append, Option.toList_some, List.map_cons, List.map_nil, streamSize_succ h hs hl hg, pagesFor_eq h]

omit h hs in
theorem take_pages {i : Nat} {s : List Nat} (hi : ss[i]? = some s) : streamPages (ss.take i) + pages s.length ≤ streamPages ss := by
  have e : ss = ss.take i ++ (s :: ss.drop (i + 1)) := by
    have hlt : i < ss.length := (List.getElem?_eq_some_iff.mp hi).1
    have hg : ss[i] = s := (List.getElem?_eq_some_iff.mp hi).2
    rw [← hg, ← List.drop_eq_getElem_cons hlt, List.take_append_drop]
  have e2 : streamPages ss = streamPages (ss.take i) + streamPages (s :: ss.drop (i + 1)) := by
    conv => lhs; rw [e]
    simp only [streamPages, List.map_append, List.sum_append]
  rw [e2]
  simp only [streamPages, List.map_cons, List.sum_cons]
  omega

theorem streamPage_eq (hl : ∀ s ∈ ss, s.length < 2 ^ 32) {i : Nat} {s : List Nat} (hi : ss[i]? = some s) {j : Nat} (hj : j < pages s.length) :
    streamPage f (i + 1) j = pageIndex (pages (listSize ss) + pages (tableSize ss) + (streamPages (ss.take i) + j)) := by
  have hlt : i < ss.length := (List.getElem?_eq_some_iff.mp hi).1
  have ht := take_pages hi
  unfold streamPage
  rw [streamCount_eq h hs, pagesBefore_eq h hs hl i (by omega)]
  refine table_number h hs ?_ ?_
  · rw [List.getElem?_append_right (by simp; omega), List.getElem?_map]
    simp only [List.length_append, List.length_cons, List.length_nil, List.length_map]
    rw [show 1 + (ss.length + 1) + streamPages (ss.take i) + j - (0 + 1 + 1 + ss.length) = streamPages (ss.take i) + j by omega,
      List.getElem?_range (by omega)]
    rfl
  · exact Nat.lt_trans (index_lt h (by unfold total; omega)) (amount_lt h hs)

omit h hs in
theorem flat_padded_length (l : List (List Nat)) : (l.flatMap padded).length = 4096 * streamPages l := by
  induction l with
  | nil => rfl
  | cons s l ih =>
    rw [List.flatMap_cons, List.length_append, ih, padded_length]
    simp only [streamPages, List.map_cons, List.sum_cons]
    omega

theorem stream_succ (hl : ∀ s ∈ ss, s.length < 2 ^ 32) {i : Nat} {s : List Nat} (hi : ss[i]? = some s) : stream f (i + 1) = s := by
  have hlt : i < ss.length := (List.getElem?_eq_some_iff.mp hi).1
  have hg : ss[i] = s := (List.getElem?_eq_some_iff.mp hi).2
  have e : ss = ss.take i ++ (s :: ss.drop (i + 1)) := by
    rw [← hg, ← List.drop_eq_getElem_cons hlt, List.take_append_drop]
  unfold stream
  rw [streamSize_succ h hs hl hi]
  refine List.ext_getElem (by simp) (fun o h1 h2 => ?_)
  rw [List.getElem_map, List.getElem_range]
  have := part h (A := padded (pageList ss) ++ padded (table ss) ++ (ss.take i).flatMap padded) (L := s) (B := (ss.drop (i + 1)).flatMap padded)
    (a := pages (listSize ss) + pages (tableSize ss) + streamPages (ss.take i)) (by
      unfold allData
      have : ss.flatMap padded = (ss.take i).flatMap padded ++ (padded s ++ (ss.drop (i + 1)).flatMap padded) := by
        conv => lhs; rw [e]
        rw [List.flatMap_append, List.flatMap_cons]
      rw [this]
      simp only [List.append_assoc]) (by
      simp only [List.length_append, padded_length, pageList_length, table_length, flat_padded_length]; omega) (page := streamPage f (i + 1)) (fun j hj => by
      rw [streamPage_eq h hs hl hi hj, Nat.add_assoc]; congr 1; omega) (o := o) h2
  rw [this]
  simp only [byte, List.getD_eq_getElem?_getD, List.getElem?_eq_getElem h2, Option.getD_some]

theorem stream_zero : stream f 0 = [] := by
  unfold stream
  rw [streamSize_zero h hs]
  rfl

end

/-! ## The map of free pages -/

theorem testBit_byte_set {b : List Nat} {i j : Nat} (hi : i / 8 < b.length) :
    (byte (setBit b i) (j / 8)).testBit (j % 8) = ((byte b (j / 8)).testBit (j % 8) || decide (i = j)) := by
  unfold setBit byte
  simp only [List.getD_eq_getElem?_getD]
  by_cases hd : i / 8 = j / 8
  · rw [hd, List.getElem?_set_self (by omega)]
    simp only [Option.getD_some, Nat.testBit_or, Nat.one_shiftLeft, Nat.testBit_two_pow]
    congr 1
    exact decide_eq_decide.mpr (by omega)
  · rw [List.getElem?_set_ne hd]
    rw [show decide (i = j) = false from decide_eq_false (by omega), Bool.or_false]

theorem fold_bits (s : Nat) : (m : Nat) → s + m ≤ 32768 → (j : Nat) →
    (byte ((List.range m).foldl (fun b i => setBit b (s + i)) (zeros 4096)) (j / 8)).testBit (j % 8) = decide (s ≤ j ∧ j < s + m)
  | 0, _, j => by
    have : byte (zeros 4096) (j / 8) = 0 := by
      unfold byte zeros
      rw [List.getD_eq_getElem?_getD, List.getElem?_replicate]
      split <;> rfl
    simp only [List.range_zero, List.foldl_nil, this, Nat.zero_testBit]
    exact (decide_eq_false (by omega)).symm
  | m + 1, h, j => by
    rw [List.range_succ, List.foldl_append, List.foldl_cons, List.foldl_nil, testBit_byte_set, fold_bits s m (by omega) j]
    · rw [← Bool.decide_or]
      exact decide_eq_decide.mpr (by omega)
    · rw [fold_length (fun i => s + i)]
      unfold zeros
      rw [List.length_replicate]
      omega

theorem fold_congr (s amount base : Nat) (hs : amount = base + s) (l : List Nat) (b : List Nat) :
    l.foldl (fun b i => setBit b (amount + i - base)) b = l.foldl (fun b i => setBit b (s + i)) b := by
  induction l generalizing b with
  | nil => rfl
  | cons x xs ih => rw [List.foldl_cons, List.foldl_cons, ih, show amount + x - base = s + x by omega]

theorem map_bit (amount k j : Nat) (hj : j < 32768) : (byte (freePageMap amount k) (j / 8)).testBit (j % 8) = decide (amount ≤ k * 32768 + j) := by
  unfold freePageMap
  by_cases h1 : (k + 1) * 0x8000 ≤ amount
  · rw [if_pos h1]
    have : byte (zeros 4096) (j / 8) = 0 := by
      unfold byte zeros
      rw [List.getD_eq_getElem?_getD, List.getElem?_replicate]
      split <;> rfl
    rw [this, Nat.zero_testBit]
    exact (decide_eq_false (by omega)).symm
  · rw [if_neg h1]
    by_cases h2 : amount < k * 0x8000
    · rw [if_pos h2]
      have : byte (List.replicate 4096 255) (j / 8) = 255 := by
        unfold byte
        rw [List.getD_eq_getElem?_getD, List.getElem?_replicate, if_pos (by omega)]
        rfl
      rw [this, decide_eq_true (by omega)]
      have : ∀ i, i < 8 → Nat.testBit 255 i = true := by decide
      exact this _ (by omega)
    · rw [if_neg h2, fold_congr (amount - k * 0x8000) amount (k * 0x8000) (by omega), fold_bits _ _ (by omega)]
      exact decide_eq_decide.mpr (by omega)

/-! ## All pages -/

theorem range_append (a b : Nat) : List.range (a + b) = List.range a ++ (List.range b).map (a + ·) := List.range_add

theorem flat_ranges (g : Nat → Nat) (c : List Nat) : (k : Nat) → k ≤ c.length →
    (List.range k).flatMap (fun s => (List.range (c.getD s 0)).map (fun j => g ((c.take s).sum + j))) = (List.range (c.take k).sum).map g
  | 0, _ => by simp
  | k + 1, h => by
    have hk : c[k]? = some c[k] := List.getElem?_eq_getElem (by omega)
    rw [List.range_succ, List.flatMap_append, flat_ranges g c k (by omega), List.take_succ, hk]
    simp only [List.flatMap_cons, List.flatMap_nil, List.append_nil, Option.toList_some, List.sum_append, List.sum_cons, List.sum_nil, Nat.add_zero]
    rw [range_append, List.map_append, List.map_map, List.getD_eq_getElem?_getD, hk]
    rfl

theorem index_mono {a b : Nat} (h : a < b) : pageIndex a < pageIndex b := by
  unfold pageIndex
  omega

/-- Every page is the header, a map, or a data page. -/
theorem all_pages (n : Nat) : ([0] ++ (List.range (endPage n)).filter (fun p => p % 4096 = 1 || p % 4096 = 2) ++ (List.range n).map pageIndex).Perm
    (List.range (endPage n)) := by
  have hmod : ∀ m, pageIndex m % 4096 ≠ 1 ∧ pageIndex m % 4096 ≠ 2 ∧ 0 < pageIndex m := by
    intro m
    unfold pageIndex
    omega
  refine (List.perm_ext_iff_of_nodup ?_ List.nodup_range).mpr (fun p => ?_)
  · rw [List.nodup_append, List.nodup_append]
    refine ⟨⟨by simp, List.Pairwise.filter _ List.nodup_range, ?_⟩, ?_, ?_⟩
    · intro a ha b hb
      rw [List.mem_filter] at hb
      simp only [List.mem_singleton] at ha
      have hb2 := hb.2
      simp only [Bool.or_eq_true, decide_eq_true_eq] at hb2
      omega
    · rw [List.Nodup, List.pairwise_map]
      exact List.pairwise_lt_range.imp (fun {a b} hab => Nat.ne_of_lt (index_mono hab))
    · intro a ha b hb
      rw [List.mem_map] at hb
      obtain ⟨m, _, rfl⟩ := hb
      rw [List.mem_append, List.mem_filter] at ha
      have := hmod m
      rcases ha with ha | ha
      · simp only [List.mem_singleton] at ha; omega
      · have ha2 := ha.2
        simp only [Bool.or_eq_true, decide_eq_true_eq] at ha2
        intro hh
        rw [hh] at ha2
        omega
  · simp only [List.mem_append, List.mem_singleton, List.mem_filter, List.mem_map, List.mem_range, Bool.or_eq_true, decide_eq_true_eq]
    constructor
    · rintro ((rfl | ⟨h1, _⟩) | ⟨m, hm, rfl⟩)
      · unfold endPage; omega
      · exact h1
      · unfold pageIndex endPage; omega
    · intro hp
      by_cases h0 : p = 0
      · exact .inl (.inl h0)
      · by_cases hm : p % 4096 = 1 ∨ p % 4096 = 2
        · exact .inl (.inr ⟨hp, hm⟩)
        · refine .inr ⟨p - 3 - 2 * ((p - 3) / 4096), ?_, ?_⟩
          · unfold endPage at hp; omega
          · unfold pageIndex; omega

end Verif.Lemmas.Msf
