import Verif.Lemmas.MsfRead

/-!
# C81: Streams are found in PDB files

For every list of streams, the file that is written is a well-formed multistream file; who reads it finds the streams.
-/
namespace Verif.Props.Msf
open Verif.Model.Msf (writeMsf)
open Verif.Lemmas.Msf
open Verif.Spec.Image (byte number Holds)
open Verif.Spec.Msf

/-- "Microsoft C/C++ MSF 7.00", carriage return, newline, 26, "DS", three zeros. -/
def magic : List Nat :=
  "Microsoft C/C++ MSF 7.00\r\n".toList.map (·.toNat) ++ [26] ++ "DS".toList.map (·.toNat) ++ [0, 0, 0]

/-- The file starts with the signature and consists of full pages. -/
theorem C81_header (ss : List (List Nat)) {f : List Nat} (h : writeMsf ss = some f) (hs : f.length < 2 ^ 44) :
    Holds (byte f) 0 magic ∧ pageSize f = 4096 ∧ f.length = pageSize f * pageCount f := by
  refine ⟨?_, pageSize_eq h, ?_⟩
  · have := front_holds h
    simp only [Verif.Lemmas.Image.holds_append] at this
    have e : magic = Verif.Model.Msf.signature := by decide
    rw [e]
    exact this.1.1.1.1.1.1
  · rw [pageSize_eq h, pageCount_eq h hs, file_length h]

/-- Stream 0 is empty, after that come the streams in their order, with all their bytes. -/
theorem C81_streams (ss : List (List Nat)) (hl : ∀ s ∈ ss, s.length ≤ 2 ^ 32 - 4096) {f : List Nat} (h : writeMsf ss = some f) (hs : f.length < 2 ^ 44) :
    (List.range (streamCount f)).map (stream f) = [] :: ss := by
  have hl' : ∀ s ∈ ss, s.length < 2 ^ 32 := fun s hm => by have := hl s hm; omega
  rw [streamCount_eq h hs]
  refine List.ext_getElem (by simp) (fun i h1 h2 => ?_)
  rw [List.getElem_map, List.getElem_range]
  cases i with
  | zero => exact stream_zero h hs
  | succ i =>
    rw [List.getElem_cons_succ]
    exact stream_succ h hs hl' (List.getElem?_eq_getElem (by simpa using h2))

/-- Every page of the file is used for exactly one purpose: it is the header, a map of free pages, or belongs to the list of pages, the table, or one stream. -/
theorem C81_pages (ss : List (List Nat)) (hl : ∀ s ∈ ss, s.length ≤ 2 ^ 32 - 4096) {f : List Nat} (h : writeMsf ss = some f) (hs : f.length < 2 ^ 44) :
    (usedPages f).Perm (List.range (pageCount f)) := by
  have hl' : ∀ s ∈ ss, s.length < 2 ^ 32 := fun s hm => by have := hl s hm; omega
  have hp := all_pages (total ss)
  have e0 : endPage (total ss) = pageCount f := by rw [pageCount_eq h hs, amount_eq]; rfl
  rw [e0] at hp
  refine List.Perm.trans (List.Perm.of_eq ?_) hp
  unfold usedPages
  have e1 : isMap f = fun p => (p % 4096 = 1 || p % 4096 = 2 : Bool) := by
    funext p
    unfold isMap
    rw [pageSize_eq h]
  rw [e1, pagesFor_eq h, pagesFor_eq h, tableSize_eq h, streamCount_eq h hs]
  have e2 : (List.range (Verif.Model.Msf.pages (4 * Verif.Model.Msf.pages (Verif.Model.Msf.tableSize ss)))).map (listPage f) =
      (List.range (Verif.Model.Msf.pages (Verif.Model.Msf.listSize ss))).map pageIndex := by
    refine List.map_congr_left (fun i hi => ?_)
    rw [List.mem_range] at hi
    rw [listPage_eq h hi]
    have := (written h).1
    have hi' : i < Verif.Model.Msf.pages (Verif.Model.Msf.listSize ss) := hi
    unfold pageIndex
    omega
  have e3 : (List.range (Verif.Model.Msf.pages (Verif.Model.Msf.tableSize ss))).map (tablePage f) =
      (List.range (Verif.Model.Msf.pages (Verif.Model.Msf.tableSize ss))).map (fun i => pageIndex (Verif.Model.Msf.pages (Verif.Model.Msf.listSize ss) + i)) := by
    refine List.map_congr_left (fun i hi => ?_)
    rw [List.mem_range] at hi
    exact tablePage_eq h hs hi
  have e4 : (List.range (ss.length + 1)).flatMap (fun s => (List.range (pagesFor f (streamSize f s))).map (streamPage f s)) =
      (List.range (Verif.Model.Msf.streamPages ss)).map
        (fun j => pageIndex (Verif.Model.Msf.pages (Verif.Model.Msf.listSize ss) + Verif.Model.Msf.pages (Verif.Model.Msf.tableSize ss) + j)) := by
    have hf := flat_ranges (fun j => pageIndex (Verif.Model.Msf.pages (Verif.Model.Msf.listSize ss) + Verif.Model.Msf.pages (Verif.Model.Msf.tableSize ss) + j))
      (ss.map (fun s => Verif.Model.Msf.pages s.length)) ss.length (by simp)
    rw [List.take_of_length_le (by simp)] at hf
    rw [List.range_succ_eq_map, List.flatMap_cons, streamSize_zero h hs, pagesFor_eq h]
    rw [show Verif.Model.Msf.pages 0 = 0 from rfl, List.range_zero, List.map_nil, List.nil_append, List.flatMap_map]
    refine Eq.trans ?_ hf
    rw [List.flatMap, List.flatMap]
    congr 1
    refine List.map_congr_left (fun i hi => ?_)
    rw [List.mem_range] at hi
    have hg : ss[i]? = some ss[i] := List.getElem?_eq_getElem hi
    rw [streamSize_succ h hs hl' hg, pagesFor_eq h]
    have hd : (ss.map (fun s => Verif.Model.Msf.pages s.length)).getD i 0 = Verif.Model.Msf.pages ss[i].length := by
      rw [List.getD_eq_getElem?_getD, List.getElem?_map, hg]; rfl
    rw [hd]
    refine List.map_congr_left (fun j hj => ?_)
    rw [List.mem_range] at hj
    rw [streamPage_eq h hs hl' hg hj, ← List.map_take]
    rfl
  rw [e2, e3, e4]
  unfold total
  rw [range_append, range_append, List.map_append, List.map_append, List.map_map, List.map_map]
  simp only [List.append_assoc]
  rfl

/-- The map of free pages says of all pages it is about that they are free if they are after the end of the file, and only then. -/
theorem C81_free (ss : List (List Nat)) {f : List Nat} (h : writeMsf ss = some f) (hs : f.length < 2 ^ 44) {p : Nat}
    (hp : 1 + p / 8 / 4096 * 4096 < pageCount f) : activeMap f = 1 ∧ (isFree f p ↔ pageCount f ≤ p) := by
  refine ⟨activeMap_eq h, ?_⟩
  unfold isFree
  rw [pageSize_eq h, activeMap_eq h]
  rw [pageCount_eq h hs] at hp ⊢
  have ha := amount_eq ss
  obtain ⟨_, w, hw, rfl⟩ := written h
  have e : total ss = Verif.Model.Msf.pages (Verif.Model.Msf.listSize ss) + Verif.Model.Msf.pages (Verif.Model.Msf.tableSize ss) + Verif.Model.Msf.streamPages ss := rfl
  have hm := hw.maps (p / 8 / 4096) (by rw [← e] at ha; unfold endPage at ha; omega) (p / 8 % 4096) (by omega)
  rw [show (1 + p / 8 / 4096 * 4096) * 4096 + p / 8 % 4096 = 4096 * (1 + 4096 * (p / 8 / 4096)) + p / 8 % 4096 by omega, hm]
  have hb := map_bit (Verif.Model.Msf.amountOfPages ss) (p / 8 / 4096) (p % 32768) (by omega)
  rw [show p % 32768 / 8 = p / 8 % 4096 by omega, show p % 32768 % 8 = p % 8 by omega] at hb
  rw [hb, decide_eq_true_eq]
  omega

theorem streamPages_le (ss : List (List Nat)) : 4096 * Verif.Model.Msf.streamPages ss ≤ (ss.map (·.length)).sum + 4095 * ss.length := by
  induction ss with
  | nil => decide
  | cons s ss ih =>
    simp only [Verif.Model.Msf.streamPages, List.map_cons, List.sum_cons, List.length_cons, Verif.Model.Msf.pages] at *
    omega

/-- A file is written if there are less than two terabytes. -/
theorem C81_written (ss : List (List Nat)) (hb : (ss.map (·.length)).sum + 8192 * ss.length ≤ 2 ^ 41) : ∃ f, writeMsf ss = some f ∧ f.length < 2 ^ 44 := by
  have h := streamPages_le ss
  have hle : Verif.Model.Msf.pages (Verif.Model.Msf.listSize ss) ≤ 1011 := by
    unfold Verif.Model.Msf.listSize Verif.Model.Msf.pages Verif.Model.Msf.tableSize
    omega
  have hw : ∃ f, writeMsf ss = some f := by
    unfold writeMsf
    rw [if_neg (by omega)]
    exact ⟨_, rfl⟩
  obtain ⟨f, hf⟩ := hw
  refine ⟨f, hf, ?_⟩
  rw [file_length hf]
  unfold Verif.Model.Msf.amountOfPages Verif.Model.Msf.dataPages
  unfold Verif.Model.Msf.listSize Verif.Model.Msf.pages Verif.Model.Msf.tableSize at *
  omega

/-- Three streams, the first with more pages than there are between two maps of free pages. -/
example (big : List Nat) (hb : big.length = 20000000) : ∃ f, writeMsf [big, [], [2, 3]] = some f ∧ stream f 1 = big ∧ stream f 3 = [2, 3] ∧
    (usedPages f).Perm (List.range (pageCount f)) := by
  obtain ⟨f, hf, hs⟩ := C81_written [big, [], [2, 3]] (by simp only [List.map_cons, List.map_nil, List.length_cons, List.length_nil, hb]; decide)
  have hl : ∀ s ∈ [big, [], [2, 3]], s.length ≤ 2 ^ 32 - 4096 := by
    intro s hm
    simp only [List.mem_cons, List.not_mem_nil, or_false] at hm
    rcases hm with rfl | rfl | rfl
    · rw [hb]; decide
    · decide
    · decide
  have h := C81_streams _ hl hf hs
  have hc : streamCount f = 4 := by
    have := congrArg List.length h
    simpa using this
  rw [hc] at h
  simp only [List.range_succ, List.range_zero, List.nil_append, List.cons_append, List.map_cons, List.map_nil, List.cons.injEq] at h
  exact ⟨f, hf, h.2.1, h.2.2.2.1, C81_pages _ hl hf hs⟩

example : ∃ f, writeMsf [[2, 3]] = some f ∧ pageCount f = 6 ∧ (isFree f 5 = false) ∧ isFree f 6 = true := by
  obtain ⟨f, hf, hs⟩ := C81_written [[2, 3]] (by decide)
  have hh := C81_header _ hf hs
  have hc : pageCount f = 6 := by rw [pageCount_eq hf hs]; decide
  refine ⟨f, hf, hc, ?_, (C81_free _ hf hs (p := 6) (by rw [hc]; decide)).2.mpr (by omega)⟩
  have := (C81_free _ hf hs (p := 5) (by rw [hc]; decide)).2
  rw [hc] at this
  cases h : isFree f 5 with
  | false => rfl
  | true => rw [h] at this; simp at this

end Verif.Props.Msf
