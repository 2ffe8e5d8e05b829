import Verif.Model.Msf
import Verif.Spec.Msf
import Verif.Lemmas.ImageLoad

/-!
# Lemmas: multistream files
-/
namespace Verif.Lemmas.Msf
open Verif.Model.Msf
open Verif.Model.BaseReloc (u32)
open Verif.Model.Image (zeros)
open Verif.Spec.Image (byte number Holds)

/-- The page of data page `n`, and the number of pages for `n` data pages. -/
def pageIndex (n : Nat) : Nat := 3 + n + 2 * (n / 4094)
def endPage (n : Nat) : Nat := 1 + n + 2 * ((n + 4093) / 4094)

/-- Data that is filled to full pages. -/
def padded (l : List Nat) : List Nat := l ++ zeros (4096 * pages l.length - l.length)

theorem padded_length (l : List Nat) : (padded l).length = 4096 * pages l.length := by
  simp only [padded, zeros, List.length_append, List.length_replicate]
  unfold pages
  omega

theorem byte_left {a b : List Nat} {i : Nat} (h : i < a.length) : byte (a ++ b) i = byte a i := by
  simp only [byte, List.getD_eq_getElem?_getD, List.getElem?_append_left h]

theorem byte_right {a b : List Nat} {i : Nat} (h : a.length ≤ i) : byte (a ++ b) i = byte b (i - a.length) := by
  simp only [byte, List.getD_eq_getElem?_getD, List.getElem?_append_right h]

structure Inv (amount : Nat) (head D : List Nat) (n : Nat) (w : Writer) : Prop where
  size : D.length = 4096 * n
  out : w.out.length = 4096 * endPage n
  offset : w.offset = w.out.length
  next : w.next = 4096 * (1 + 4096 * ((n + 4093) / 4094))
  data : ∀ x, x < D.length → byte w.out (4096 * pageIndex (x / 4096) + x % 4096) = byte D x
  maps : ∀ k, k < (n + 4093) / 4094 → ∀ x, x < 4096 → byte w.out (4096 * (1 + 4096 * k) + x) = byte (freePageMap amount k) x
  head : ∀ x, x < 4096 → byte w.out x = byte head x

structure Ready (amount : Nat) (head D : List Nat) (n : Nat) (w : Writer) : Prop where
  size : D.length = 4096 * n
  out : w.out.length = 4096 * pageIndex n
  offset : w.offset = w.out.length
  next : w.next = 4096 * (1 + 4096 * (n / 4094 + 1))
  data : ∀ x, x < D.length → byte w.out (4096 * pageIndex (x / 4096) + x % 4096) = byte D x
  maps : ∀ k, k < n / 4094 + 1 → ∀ x, x < 4096 → byte w.out (4096 * (1 + 4096 * k) + x) = byte (freePageMap amount k) x
  head : ∀ x, x < 4096 → byte w.out x = byte head x

theorem setBit_length (b : List Nat) (i : Nat) : (setBit b i).length = b.length := by simp [setBit]

theorem fold_length (f : Nat → Nat) (l : List Nat) (b : List Nat) : (l.foldl (fun b i => setBit b (f i)) b).length = b.length := by
  induction l generalizing b with
  | nil => rfl
  | cons x xs ih => rw [List.foldl_cons, ih, setBit_length]

theorem map_length (amount k : Nat) : (freePageMap amount k).length = 4096 := by
  unfold freePageMap
  split
  · exact List.length_replicate
  · split
    · exact List.length_replicate
    · rw [fold_length (fun i => amount + i - k * 0x8000)]
      exact List.length_replicate

theorem ready {amount : Nat} {head D : List Nat} {n : Nat} {w : Writer} (h : Inv amount head D n w) : Ready amount head D n (writeMaps amount w) := by
  obtain ⟨h1, h2, h3, h4, h5, h6, h7⟩ := h
  have e1 : endPage n = 1 + n + 2 * ((n + 4093) / 4094) := rfl
  have e2 : pageIndex n = 3 + n + 2 * (n / 4094) := rfl
  unfold writeMaps
  by_cases hc : w.offset = w.next
  · rw [if_pos hc]
    have hn : n % 4094 = 0 := by omega
    have hk : w.next / 0x1000 / 0x1000 = n / 4094 := by omega
    have hl : w.out.length = 4096 * (1 + 4096 * (n / 4094)) := by omega
    have hm := map_length amount (n / 4094)
    rw [hk]
    refine ⟨h1, ?_, ?_, ?_, ?_, ?_, ?_⟩
    · simp only [List.length_append, hm, zeros, List.length_replicate]; omega
    · simp only [List.length_append, hm, zeros, List.length_replicate]; omega
    · simp only []; omega
    · intro x hx
      rw [List.append_assoc, byte_left ?_]
      · exact h5 x hx
      · have : pageIndex (x / 4096) = 3 + x / 4096 + 2 * (x / 4096 / 4094) := rfl
        omega
    · intro k hk' x hx
      by_cases hk2 : k < n / 4094
      · rw [List.append_assoc, byte_left (by omega)]
        exact h6 k (by omega) x hx
      · have : k = n / 4094 := by omega
        subst this
        rw [byte_left (by rw [List.length_append]; omega), byte_right (by omega)]
        congr 1
        omega
    · intro x hx
      rw [List.append_assoc, byte_left (by omega)]
      exact h7 x hx
  · rw [if_neg hc]
    have hn : n % 4094 ≠ 0 := by omega
    exact ⟨h1, by omega, h3, by omega, h5, fun k hk => h6 k (by omega), h7⟩

/-- Write some pages, up to the next maps. -/
theorem chunk {amount : Nat} {head D : List Nat} {n : Nat} {w : Writer} (h : Ready amount head D n w) {c : List Nat} {m : Nat} (hc : c.length = 4096 * m) (h0 : 0 < m)
    (hm : m ≤ 4094 - n % 4094) : Inv amount head (D ++ c) (n + m) ⟨w.out ++ c, w.offset + c.length, w.next⟩ := by
  obtain ⟨h1, h2, h3, h4, h5, h6, h7⟩ := h
  have e1 : endPage (n + m) = 1 + (n + m) + 2 * ((n + m + 4093) / 4094) := rfl
  have e2 : pageIndex n = 3 + n + 2 * (n / 4094) := rfl
  have e3 : (n + m + 4093) / 4094 = n / 4094 + 1 := by omega
  refine ⟨?_, ?_, ?_, ?_, ?_, ?_, ?_⟩
  · rw [List.length_append]; omega
  · simp only [List.length_append]; omega
  · simp only [List.length_append]; omega
  · simp only []; rw [e3]; exact h4
  · intro x hx
    rw [List.length_append] at hx
    have e : pageIndex (x / 4096) = 3 + x / 4096 + 2 * (x / 4096 / 4094) := rfl
    by_cases hd : x < D.length
    · rw [byte_left (by omega), byte_left hd]
      exact h5 x hd
    · have e4 : x / 4096 / 4094 = n / 4094 := by omega
      rw [byte_right (by omega), byte_right (by omega)]
      congr 1
      omega
  · intro k hk x hx
    rw [byte_left (by omega)]
    exact h6 k (by omega) x hx
  · intro x hx
    rw [byte_left (by omega)]
    exact h7 x hx

theorem stream_written {amount : Nat} {head : List Nat} (data : List Nat) : (fuel at_ n : Nat) → (D : List Nat) → (w : Writer) → data.length - at_ ≤ fuel →
    Inv amount head D n w →
    Inv amount head (D ++ padded (data.drop at_)) (n + pages (data.length - at_)) (writeStream amount data fuel at_ w)
  | 0, at_, n, D, w, hf, h => by
    have : data.drop at_ = [] := List.drop_eq_nil_of_le (by omega)
    rw [this]
    have e : pages (data.length - at_) = 0 := by unfold pages; omega
    rw [e, writeStream]
    simpa [padded, pages, zeros] using h
  | fuel + 1, at_, n, D, w, hf, h => by
    rw [writeStream]
    by_cases hc : at_ < data.length
    · rw [if_pos hc]
      have hr := ready h
      generalize writeMaps amount w = v at hr
      have ho : v.next - v.offset = 4096 * (4094 - n % 4094) := by
        rw [hr.next, hr.offset, hr.out]
        unfold pageIndex
        omega
      simp only []
      rw [ho]
      by_cases hs : data.length - at_ ≤ 4096 * (4094 - n % 4094)
      · rw [Nat.min_eq_left hs]
        have hl : (data.drop at_).length = data.length - at_ := List.length_drop
        have hx : (data.drop at_).take (data.length - at_) = data.drop at_ := by rw [← hl, List.take_length]
        rw [hx]
        have hfill : (if (data.length - at_) % 0x1000 = 0 then 0 else 0x1000 - (data.length - at_) % 0x1000) =
            4096 * pages (data.drop at_).length - (data.drop at_).length := by
          rw [hl]
          unfold pages
          split <;> omega
        rw [hfill]
        have hp := padded_length (data.drop at_)
        rw [show (data.drop at_) ++ zeros (4096 * pages (data.drop at_).length - (data.drop at_).length) = padded (data.drop at_) from rfl]
        have hk := chunk hr (c := padded (data.drop at_)) (m := pages (data.length - at_)) (by rw [hp, hl]) (by unfold pages; omega) (by unfold pages; omega)
        have he : data.length - at_ + (4096 * pages (data.drop at_).length - (data.drop at_).length) = (padded (data.drop at_)).length := by
          rw [hp, hl]; unfold pages; omega
        rw [he]
        have hend := stream_written (amount := amount) (head := head) data fuel (at_ + (padded (data.drop at_)).length) _ _ _ (by rw [hp, hl]; unfold pages; omega) hk
        have hnil : data.drop (at_ + (padded (data.drop at_)).length) = [] := List.drop_eq_nil_of_le (by rw [hp, hl]; unfold pages; omega)
        have hz : pages (data.length - (at_ + (padded (data.drop at_)).length)) = 0 := by rw [hp, hl]; unfold pages; omega
        rw [hnil, hz] at hend
        simpa [show padded [] = [] from rfl] using hend
      · rw [Nat.min_eq_right (by omega)]
        generalize hm : 4094 - n % 4094 = m at *
        have hfill : (if 4096 * m % 0x1000 = 0 then 0 else 0x1000 - 4096 * m % 0x1000) = 0 := by
          rw [if_pos (by omega)]
        rw [hfill]
        have hl : ((data.drop at_).take (4096 * m)).length = 4096 * m := by
          rw [List.length_take, List.length_drop]; omega
        have hz : zeros 0 = [] := rfl
        rw [hz, List.append_nil, Nat.add_zero]
        have hk := chunk hr (c := (data.drop at_).take (4096 * m)) (m := m) hl (by omega) (by omega)
        rw [hl] at hk
        have hend := stream_written (amount := amount) (head := head) data fuel (at_ + 4096 * m) _ _ _ (by omega) hk
        have e1 : n + m + pages (data.length - (at_ + 4096 * m)) = n + pages (data.length - at_) := by
          unfold pages; omega
        rw [e1] at hend
        have e2 : padded (data.drop at_) = (data.drop at_).take (4096 * m) ++ padded (data.drop (at_ + 4096 * m)) := by
          have e3 : data.drop (at_ + 4096 * m) = (data.drop at_).drop (4096 * m) := by rw [List.drop_drop]
          unfold padded
          rw [← List.append_assoc, e3, List.take_append_drop]
          congr 2
          simp only [List.length_drop]
          unfold pages; omega
        rw [e2, ← List.append_assoc]
        exact hend
    · rw [if_neg hc]
      have : data.drop at_ = [] := List.drop_eq_nil_of_le (by omega)
      rw [this]
      have e : pages (data.length - at_) = 0 := by unfold pages; omega
      rw [e]
      simpa [padded, pages, zeros] using h

theorem streams_written {amount : Nat} {head : List Nat} : (l : List (List Nat)) → (n : Nat) → (D : List Nat) → (w : Writer) → Inv amount head D n w →
    Inv amount head (D ++ l.flatMap padded) (n + (l.map (fun s => pages s.length)).sum) (l.foldl (fun w s => writeStream amount s s.length 0 w) w)
  | [], n, D, w, h => by simpa using h
  | s :: l, n, D, w, h => by
    have h1 := stream_written (amount := amount) (head := head) s s.length 0 n D w (by omega) h
    have h2 := streams_written l _ _ _ h1
    simp only [List.drop_zero, Nat.sub_zero] at h2
    simpa [List.flatMap_cons, List.append_assoc, Nat.add_assoc] using h2

theorem flat_u32_length (l : List Nat) : (l.flatMap u32).length = 4 * l.length := by
  induction l with
  | nil => rfl
  | cons x xs ih => rw [List.flatMap_cons, List.length_append, ih]; simp [u32]; omega

theorem header_length {ss : List (List Nat)} (h : pages (listSize ss) ≤ 1011) : (header ss).length = 4096 := by
  have e : ((List.range (pages (listSize ss))).flatMap (fun i => u32 (3 + i))).length = 4 * pages (listSize ss) := by
    rw [← List.flatMap_map (f := fun i => 3 + i) (g := u32), flat_u32_length, List.length_map, List.length_range]
  simp only [header, List.length_append, zeros, List.length_replicate, e]
  simp only [signature, u32, List.length_cons, List.length_nil]
  omega

theorem start_inv {ss : List (List Nat)} (h : pages (listSize ss) ≤ 1011) : Inv (amountOfPages ss) (header ss) [] 0 ⟨header ss, 0x1000, 0x1000⟩ := by
  have e := header_length h
  exact ⟨rfl, e, e.symm, rfl, fun x hx => absurd hx (by simp), fun k hk => by omega, fun x _ => rfl⟩

/-! ## The numbers of pages -/

theorem numbers_succ {a b : Nat} (h : a ≤ b) : pageNumbers a (b + 1) = pageNumbers a b ++ (if b % 4096 = 1 ∨ b % 4096 = 2 then [] else [b]) := by
  unfold pageNumbers
  rw [show b + 1 - a = (b - a) + 1 by omega, List.range_succ, List.map_append, List.filter_append]
  congr 1
  simp only [List.map_cons, List.map_nil, List.filter_cons, List.filter_nil]
  rw [show a + (b - a) = b by omega]
  by_cases h1 : b % 4096 = 1
  · simp [h1]
  · by_cases h2 : b % 4096 = 2
    · simp [h2]
    · simp [h1, h2]

theorem numbers_empty {a b : Nat} (h : b ≤ a) : pageNumbers a b = [] := by
  unfold pageNumbers
  rw [show b - a = 0 by omega]
  rfl

theorem numbers_page (a : Nat) : (m : Nat) → pageNumbers (pageIndex a) (pageIndex (a + m)) = (List.range m).map (fun j => pageIndex (a + j))
  | 0 => numbers_empty (Nat.le_refl _)
  | m + 1 => by
    have ih := numbers_page a m
    have e1 : pageIndex (a + m) = 3 + (a + m) + 2 * ((a + m) / 4094) := rfl
    have e0 : pageIndex a = 3 + a + 2 * (a / 4094) := rfl
    have e2 : pageIndex (a + (m + 1)) = 3 + (a + m + 1) + 2 * ((a + m + 1) / 4094) := rfl
    have hs := numbers_succ (a := pageIndex a) (b := pageIndex (a + m)) (by omega)
    rw [if_neg (by omega), ih] at hs
    rw [List.range_succ, List.map_append]
    by_cases h : (a + m + 1) % 4094 = 0
    · have e3 : pageIndex (a + (m + 1)) = pageIndex (a + m) + 1 + 1 + 1 := by omega
      rw [e3, numbers_succ (by omega), numbers_succ (by omega), if_pos (by omega), if_pos (by omega), List.append_nil, List.append_nil, hs]
      rfl
    · have e3 : pageIndex (a + (m + 1)) = pageIndex (a + m) + 1 := by omega
      rw [e3, hs]
      rfl

theorem numbers_end (a m : Nat) : pageNumbers (pageIndex a) (endPage (a + m)) = (List.range m).map (fun j => pageIndex (a + j)) := by
  have e1 : pageIndex (a + m) = 3 + (a + m) + 2 * ((a + m) / 4094) := rfl
  have e0 : pageIndex a = 3 + a + 2 * (a / 4094) := rfl
  have e2 : endPage (a + m) = 1 + (a + m) + 2 * ((a + m + 4093) / 4094) := rfl
  rw [← numbers_page]
  by_cases h : (a + m) % 4094 = 0
  · have e3 : pageIndex (a + m) = endPage (a + m) + 1 + 1 := by omega
    by_cases hm : m = 0
    · subst hm
      rw [numbers_empty (by omega), numbers_empty (by omega)]
    · rw [e3, numbers_succ (by omega), numbers_succ (by omega), if_pos (by omega), if_pos (by omega), List.append_nil, List.append_nil]
  · have e3 : pageIndex (a + m) = endPage (a + m) := by omega
    rw [e3]

/-! ## The parts of the file -/

theorem listEnd_eq (ss : List (List Nat)) : listEnd ss = pageIndex (pages (listSize ss)) := rfl
theorem tableEnd_eq (ss : List (List Nat)) : tableEnd ss = pageIndex (pages (listSize ss) + pages (tableSize ss)) := rfl
theorem amount_eq (ss : List (List Nat)) : amountOfPages ss = endPage (pages (listSize ss) + pages (tableSize ss) + streamPages ss) := by
  unfold amountOfPages endPage dataPages
  rw [show streamPages ss + pages (tableSize ss) + pages (listSize ss) = pages (listSize ss) + pages (tableSize ss) + streamPages ss by omega]
  omega

theorem pageList_eq (ss : List (List Nat)) :
    pageList ss = ((List.range (pages (tableSize ss))).map (fun j => pageIndex (pages (listSize ss) + j))).flatMap u32 := by
  unfold pageList
  rw [listEnd_eq, tableEnd_eq, numbers_page]

theorem table_eq (ss : List (List Nat)) : table ss = ([ss.length + 1, 0] ++ ss.map (·.length) ++
    (List.range (streamPages ss)).map (fun j => pageIndex (pages (listSize ss) + pages (tableSize ss) + j))).flatMap u32 := by
  unfold table
  rw [tableEnd_eq, amount_eq, numbers_end]
  simp only [List.flatMap_append, List.flatMap_map, List.flatMap_cons, List.flatMap_nil, List.append_nil, List.append_assoc]

theorem pageList_length (ss : List (List Nat)) : (pageList ss).length = listSize ss := by
  rw [pageList_eq, flat_u32_length]
  simp [listSize]

theorem table_length (ss : List (List Nat)) : (table ss).length = tableSize ss := by
  rw [table_eq, flat_u32_length]
  simp [tableSize]
  omega

/-- A number in a list of numbers. -/
theorem number_flat {m : Nat → Nat} {l : List Nat} (h : ∀ o, o < (l.flatMap u32).length → m o = byte (l.flatMap u32) o) {i v : Nat} (hi : l[i]? = some v)
    (hv : v < 2 ^ 32) : number m 4 (4 * i) = v := by
  have hlt : i < l.length := (List.getElem?_eq_some_iff.mp hi).1
  refine Verif.Lemmas.Image.number_u32 (fun j hj => ?_) hv
  have hj' : j < 4 := hj
  rw [h _ (by rw [flat_u32_length]; omega)]
  clear h
  induction l generalizing i with
  | nil => simp at hlt
  | cons x xs ih =>
    rw [List.flatMap_cons]
    cases i with
    | zero =>
      simp only [List.getElem?_cons_zero, Option.some.injEq] at hi
      subst hi
      rw [byte_left (by simpa [u32] using hj')]
      simp only [byte, Nat.mul_zero, Nat.zero_add, List.getD_eq_getElem?_getD, List.getElem?_eq_getElem hj, Option.getD_some]
    | succ i =>
      simp only [List.getElem?_cons_succ] at hi
      have hl : (u32 x).length = 4 := rfl
      rw [byte_right (by omega)]
      rw [show 4 * (i + 1) + j - (u32 x).length = 4 * i + j by omega]
      exact ih hi (by simpa using hlt)

end Verif.Lemmas.Msf
