import Verif.Props.Object

/-!
# C80: the tables of an object file for exceptions and debuggers
-/
namespace Verif.Props.Object
open Verif.Model.BaseReloc hiding relocate
open Verif.Model.Image (zeros padding)
open Verif.Model.Object
open Verif.Lemmas.Object
open Verif.Lemmas.Image (At number_congr number_shift number_u32 holds_append u32_length)
open Verif.Spec.Image (byte number Holds signed)
open Verif.Spec.Object (Link relocate linked raw put address startOf indexOf content symbolAt symbolCount sectionAt sectionCount sectionOf machine Defined
  Undefined Tentative)

/-! ## The table of functions -/

theorem unpatched_section {p : Program} (hv : Valid p) {s : Section} (hs : ∀ d, writtenSection d ≠ s) : sectionBytes p s = pushedBytes p s := by
  apply List.ext_getElem?
  intro x
  exact (sectionBytes_get hv s).1 x (fun q _ h => absurd h (hs _))

theorem pdata_at {p : Program} {i : Nat} {f : Function} (h : p.functions[i]? = some f) : At (pdataBytes p) (12 * i) (u32 0 ++ u32 f.code.length ++ u32 0) :=
  flatMap_at (fun f : Function => u32 0 ++ u32 f.code.length ++ u32 0) 12 (fun _ => rfl) p.functions i f h

theorem pdata_length (p : Program) : (pdataBytes p).length = 12 * p.functions.length := by
  unfold pdataBytes
  generalize p.functions = l
  induction l with
  | nil => rfl
  | cons a l ih =>
    rw [List.flatMap_cons, List.length_append, ih, List.length_cons]
    simp only [List.length_append, u32_length]
    omega

theorem pdata_small {p : Program} (hv : Valid p) (hne : p.functions ≠ []) : 12 * p.functions.length < 2 ^ 31 := by
  have := section_le hv (mem_text hne).2.1 (fun h => by cases h)
  rw [show pushedBytes p .pdata = pdataBytes p from rfl, pdata_length] at this
  have := hv.small
  omega

theorem pdata_relocs_small {p : Program} (hv : Valid p) : ∀ r ∈ relocsOf p .pdata, r.offset < 2 ^ 32 ∧ r.symbol < 2 ^ 32 ∧ r.kind < 2 ^ 16 := by
  intro r hr
  obtain ⟨i, hi, hr⟩ := List.mem_flatMap.1 hr
  have hi := List.mem_range.1 hi
  have h1 := pdata_small hv (fun e => by rw [e] at hi; cases hi)
  have h2 := symbolOf_small hv (s := .func i) hi
  simp only [List.mem_cons, List.not_mem_nil, or_false] at hr
  rcases hr with rfl | rfl | rfl
  · exact ⟨by show 12 * i < _; omega, by show symbolOf p (.func i) < _; omega, by show (3 : Nat) < _; omega⟩
  · exact ⟨by show 12 * i + 4 < _; omega, by show symbolOf p (.func i) < _; omega, by show (3 : Nat) < _; omega⟩
  · exact ⟨by show 12 * i + 8 < _; omega, by show symbolOf p (.func i) + 1 < _; omega, by show (3 : Nat) < _; omega⟩

theorem pdata_relocs_apart (p : Program) : (relocsOf p .pdata).Pairwise Apart := by
  refine List.pairwise_flatMap.2 ⟨fun i _ => ?_, List.pairwise_lt_range.imp ?_⟩
  · simp [Apart, relocSize]
  · intro i j hij x hx y hy
    simp only [List.mem_cons, List.not_mem_nil, or_false] at hx hy
    have key : x.offset + relocSize x.kind ≤ y.offset := by
      rcases hx with rfl | rfl | rfl <;> rcases hy with rfl | rfl | rfl <;>
        simp only [relocSize, Nat.reduceEqDiff, if_false, true_or, if_true] <;> omega
    exact .inl key

theorem pdata_reloc {p : Program} (hv : Valid p) (l : Link) {i o k : Nat} (h : i < p.functions.length)
    (hr : (⟨12 * i + o, k, 3⟩ : Reloc) ∈ relocsOf p .pdata) :
    number (content (file p) l (symbolOf p (.func i) + 2)) 4 o =
      (((number (raw (file p) (sectionNumber p .pdata)) 4 (12 * i + o) : Int) + address (file p) l k - l.image) % 256 ^ 4).toNat := by
  have hne : p.functions ≠ [] := fun e => by rw [e] at h; cases h
  have hs := (mem_text hne).2.1
  have hsm := pdata_small hv hne
  have e := symbol_in hv hs (func_get (List.getElem?_eq_getElem h)).2.2 (by omega) (by omega)
  have hc : number (content (file p) l (symbolOf p (.func i) + 2)) 4 o =
      number (relocate (file p) l (sectionNumber p .pdata) (raw (file p) (sectionNumber p .pdata)) ⟨12 * i + o, k, 3⟩) 4 (12 * i + o) := by
    apply number_shift
    intro x hx
    unfold content
    rw [e.2]
    show linked (file p) l (sectionNumber p .pdata) (12 * i + (o + x)) = _
    rw [linked_eq hv l hs (pdata_relocs_small hv), ← Nat.add_assoc]
    exact (relocate_all _ _ (pdata_relocs_apart p)).2 _ hr _ (by show 12 * i + o ≤ _; omega) (by show _ < 12 * i + o + 4; omega)
  rw [hc, relocate_image, put_number]

/-- Every function has an entry in the table for exceptions: where it starts, where it ends, and where its unwind information is (that of the symbol
`$unwind$`), all relative to the image. -/
theorem C80_function_table (p : Program) (hv : Valid p) (l : Link) {i : Nat} {f : Function} (h : p.functions[i]? = some f)
    (h1 : l.image ≤ address (file p) l (symbolOf p (.func i))) (h2 : address (file p) l (symbolOf p (.func i)) + f.code.length < l.image + 2 ^ 32)
    (h3 : l.image ≤ address (file p) l (symbolOf p (.func i) + 1)) (h4 : address (file p) l (symbolOf p (.func i) + 1) < l.image + 2 ^ 32) :
    (sectionOf (file p) (symbolOf p (.func i) + 2)).name = [46, 112, 100, 97, 116, 97] ∧
    (symbolAt (file p) (symbolOf p (.func i) + 2)).value = 12 * i ∧
    l.image + number (content (file p) l (symbolOf p (.func i) + 2)) 4 0 = address (file p) l (symbolOf p (.func i)) ∧
    l.image + number (content (file p) l (symbolOf p (.func i) + 2)) 4 4 = address (file p) l (symbolOf p (.func i)) + f.code.length ∧
    l.image + number (content (file p) l (symbolOf p (.func i) + 2)) 4 8 = address (file p) l (symbolOf p (.func i) + 1) := by
  have hi := (List.getElem?_eq_some_iff.1 h).1
  have hne : p.functions ≠ [] := fun e => by rw [e] at h; cases h
  have hs := (mem_text hne).2.1
  have hsm := pdata_small hv hne
  have e := symbol_in hv hs (func_get h).2.2 (by omega) (by omega)
  have hm : ∀ r ∈ [(⟨12 * i, symbolOf p (.func i), 3⟩ : Reloc), ⟨12 * i + 4, symbolOf p (.func i), 3⟩, ⟨12 * i + 8, symbolOf p (.func i) + 1, 3⟩],
      r ∈ relocsOf p .pdata := fun r hr => List.mem_flatMap.2 ⟨i, List.mem_range.2 hi, hr⟩
  have hat : At (sectionBytes p .pdata) (12 * i) (u32 0 ++ u32 f.code.length ++ u32 0) := by
    rw [unpatched_section hv (fun d => by cases d <;> simp [writtenSection])]
    exact pdata_at h
  have hh := raw_holds hv hs (fun h => by cases h) hat
  simp only [holds_append, u32_length, List.length_append, Nat.reduceAdd] at hh
  have hlen : f.code.length < 2 ^ 32 := by
    have ht : target p (.func i) = some f.code := by rw [target, h]; rfl
    have h1 := (dest_at ht).1
    have h2 := section_le hv (target_section ht).1 (target_section ht).2
    have := hv.small
    omega
  have n0 := number_u32 hh.1.1 (by omega)
  have n1 := number_u32 hh.1.2 hlen
  have n2 := number_u32 hh.2 (by omega)
  have r0 := pdata_reloc hv l hi (o := 0) (hm ⟨12 * i, symbolOf p (.func i), 3⟩ (by simp))
  have r1 := pdata_reloc hv l hi (o := 4) (hm ⟨12 * i + 4, symbolOf p (.func i), 3⟩ (by simp))
  have r2 := pdata_reloc hv l hi (o := 8) (hm ⟨12 * i + 8, symbolOf p (.func i) + 1, 3⟩ (by simp))
  rw [Nat.add_zero (12 * i), n0] at r0
  rw [n1] at r1
  rw [n2] at r2
  refine ⟨by rw [sectionOf_eq hv hs (by rw [e.2])]; rfl, by rw [e.2], ?_, ?_, ?_⟩
  · rw [r0]; omega
  · rw [r1]; omega
  · rw [r2]; omega

/-! ## Unwind information -/

theorem xdata_at : (l : List Function) → (i : Nat) → (f : Function) → l[i]? = some f → At (l.flatMap (·.unwind)) ((l.take i).flatMap (·.unwind)).length f.unwind ∧
    ((l.take i).flatMap (·.unwind)).length + f.unwind.length ≤ (l.flatMap (·.unwind)).length
  | [], _, _, h => by cases h
  | a :: l, 0, f, h => by
    cases h
    refine ⟨fun x hx => ?_, ?_⟩
    · rw [List.take_zero, List.flatMap_nil, List.length_nil, Nat.zero_add, List.flatMap_cons, List.getElem?_append_left hx]
    · rw [List.take_zero, List.flatMap_nil, List.length_nil, List.flatMap_cons, List.length_append]; omega
  | a :: l, i + 1, f, h => by
    obtain ⟨h1, h2⟩ := xdata_at l i f h
    rw [List.take_succ_cons, List.flatMap_cons, List.flatMap_cons, List.length_append, List.length_append]
    refine ⟨fun x hx => ?_, by omega⟩
    rw [List.getElem?_append_right (by omega), show a.unwind.length + ((l.take i).flatMap (·.unwind)).length + x - a.unwind.length =
      ((l.take i).flatMap (·.unwind)).length + x by omega]
    exact h1 x hx

theorem same_length (n : Nat) : (l : List Function) → (i : Nat) → i ≤ l.length → (∀ j g, j < i → l[j]? = some g → g.unwind.length = n) →
    ((l.take i).flatMap (·.unwind)).length = n * i
  | _, 0, _, _ => rfl
  | [], i + 1, h, _ => by cases h
  | a :: l, i + 1, hi, h => by
    rw [List.take_succ_cons, List.flatMap_cons, List.length_append, h 0 a (by omega) rfl,
      same_length n l i (Nat.le_of_succ_le_succ hi) (fun j g hj hg => h (j + 1) g (by omega) hg), Nat.mul_succ, Nat.add_comm]

/-- The symbol `$unwind$` has the unwind information of the function, if the unwind information of all functions before it has the size of that of the first
function, `4 + 2 * codes`, rounded up to four. Missing: functions of different sizes, and exception handlers (`C80_unwind_wrong`). -/
theorem C80_unwind_partial (p : Program) (hv : Valid p) (l : Link) {i c : Nat} {f : Function} (h : p.functions[i]? = some f)
    (hc : ∀ g, p.functions[0]? = some g → g.unwind[2]? = some c) (hs : ∀ j g, j < i → p.functions[j]? = some g → g.unwind.length = 4 + 2 * (c + c % 2)) :
    Defined (file p) (symbolOf p (.func i) + 1) ([36, 117, 110, 119, 105, 110, 100, 36] ++ f.name) true ∧
    Holds (content (file p) l (symbolOf p (.func i) + 1)) 0 f.unwind := by
  have hi := (List.getElem?_eq_some_iff.1 h).1
  have hne : p.functions ≠ [] := fun e => by rw [e] at h; cases h
  have hm := (mem_text hne).2.2
  have hstep : unwindStep p = 4 + 2 * (c + c % 2) := by
    have h0 := List.getElem?_eq_getElem (show 0 < p.functions.length by omega)
    have h2 := hc _ h0
    have hx := (xdata_at p.functions 0 _ h0).1 2 (List.getElem?_eq_some_iff.1 h2).1
    rw [List.take_zero, List.flatMap_nil, List.length_nil, Nat.zero_add, h2] at hx
    have : (xdataBytes p).getD 2 0 = c := by
      unfold xdataBytes
      rw [List.getD_eq_getElem?_getD, hx]; rfl
    have e : unwindStep p = 4 + ((xdataBytes p).getD 2 0 + (xdataBytes p).getD 2 0 % 2) * 2 := rfl
    rw [e, this]
    omega
  have hl := same_length _ p.functions i (by omega) hs
  obtain ⟨h1, h2⟩ := xdata_at p.functions i f h
  have hle : (xdataBytes p).length ≤ (file p).length := section_le hv hm (fun h => by cases h)
  have hsmall := hv.small
  have hval : unwindStep p * i < 2 ^ 32 := by
    rw [hstep, ← hl]
    have h2 : ((p.functions.take i).flatMap (·.unwind)).length + f.unwind.length ≤ (xdataBytes p).length := h2
    omega
  have e := symbol_in hv hm (func_get h).2.1 hval (by omega)
  refine ⟨defined_of (static := true) hv hm (func_get h).2.1 hval (by omega), fun x hx => ?_⟩
  unfold content
  rw [e.2]
  show linked (file p) l (sectionNumber p .xdata) (unwindStep p * i + (0 + x)) = _
  rw [linked_eq hv l hm (fun r hr => by cases hr), Nat.zero_add, hstep, ← hl]
  refine raw_eq hv hm (fun h => by cases h) ?_
  rw [unpatched_section hv (fun d => by cases d <;> simp [writtenSection])]
  exact (h1 x hx).trans (List.getElem?_eq_getElem hx)

/-! ## Debug information -/

/-- The places for addresses in the debug information: six zeros each, apart from each other. -/
structure ValidDebug (p : Program) : Prop where
  sources : ∀ r ∈ p.debugRelocations, Exists p r.2
  zeros : ∀ r ∈ p.debugRelocations, ∀ x, x < 6 → p.debugSymbols[r.1 + x]? = some 0
  apart : p.debugRelocations.Pairwise (fun r s => r.1 + 6 ≤ s.1 ∨ s.1 + 6 ≤ r.1)

/-- In the section `.debug$S`, a place for an address is the offset of the symbol in its section, and the number of the section. -/
theorem C80_debug (p : Program) (hv : Valid p) (hd : ValidDebug p) (l : Link) : ∃ n, 1 ≤ n ∧ n ≤ sectionCount (file p) ∧
    (sectionAt (file p) n).name = [46, 100, 101, 98, 117, 103, 36, 83] ∧
    ∀ r ∈ p.debugRelocations, startOf (file p) l (symbolOf p r.2) ≤ address (file p) l (symbolOf p r.2) →
      address (file p) l (symbolOf p r.2) < startOf (file p) l (symbolOf p r.2) + 2 ^ 32 → indexOf (file p) l (symbolOf p r.2) < 2 ^ 16 →
      startOf (file p) l (symbolOf p r.2) + number (linked (file p) l n) 4 r.1 = address (file p) l (symbolOf p r.2) ∧
      number (linked (file p) l n) 2 (r.1 + 4) = indexOf (file p) l (symbolOf p r.2) := by
  have hs := mem_symbols p
  have hle : p.debugSymbols.length ≤ (file p).length := section_le hv hs (fun h => by cases h)
  have hsmall := hv.small
  have hb : ∀ r ∈ relocsOf p .symbols, r.offset < 2 ^ 32 ∧ r.symbol < 2 ^ 32 ∧ r.kind < 2 ^ 16 := by
    intro x hx
    obtain ⟨r, hr, hx⟩ := List.mem_flatMap.1 hx
    have h1 := (List.getElem?_eq_some_iff.1 (hd.zeros r hr 5 (by omega))).1
    have h2 := symbolOf_small hv (hd.sources r hr)
    simp only [List.mem_cons, List.not_mem_nil, or_false] at hx
    rcases hx with rfl | rfl
    · exact ⟨by show r.1 < _; omega, by show symbolOf p r.2 < _; omega, by show (0xb : Nat) < _; omega⟩
    · exact ⟨by show r.1 + 4 < _; omega, by show symbolOf p r.2 < _; omega, by show (0xa : Nat) < _; omega⟩
  have ha : (relocsOf p .symbols).Pairwise Apart := by
    refine List.pairwise_flatMap.2 ⟨fun i _ => ?_, hd.apart.imp ?_⟩
    · simp [Apart, relocSize]
    · intro r s hrs x hx y hy
      simp only [List.mem_cons, List.not_mem_nil, or_false] at hx hy
      rcases hx with rfl | rfl <;> rcases hy with rfl | rfl <;>
        simp only [Apart, relocSize, Nat.reduceEqDiff, if_false, or_false, or_true, if_true] <;> omega
  obtain ⟨i, e, hi, _⟩ := sectionNumber_get hs
  refine ⟨sectionNumber p .symbols, (sectionNumber_le hv hs).1, (sectionNumber_le hv hs).2.1, ?_, ?_⟩
  · rw [e, sectionAt_eq hv (records_good hv) hi]; rfl
  · intro r hr h1 h2 h3
    have hraw : ∀ x, x < 6 → raw (file p) (sectionNumber p .symbols) (r.1 + x) = 0 := by
      intro x hx
      refine raw_eq hv hs (fun h => by cases h) ?_
      rw [unpatched_section hv (fun d => by cases d <;> simp [writtenSection])]
      exact hd.zeros r hr x hx
    have key := (relocate_all (file := file p) (l := l) (n := sectionNumber p .symbols) (relocsOf p .symbols) (raw (file p) (sectionNumber p .symbols)) ha).2
    have m1 : (⟨r.1, symbolOf p r.2, 0xb⟩ : Reloc) ∈ relocsOf p .symbols := List.mem_flatMap.2 ⟨r, hr, by simp⟩
    have m2 : (⟨r.1 + 4, symbolOf p r.2, 0xa⟩ : Reloc) ∈ relocsOf p .symbols := List.mem_flatMap.2 ⟨r, hr, by simp⟩
    rw [linked_eq hv l hs hb]
    have n1 : number (((relocsOf p .symbols).map Lemmas.Object.read).foldl (relocate (file p) l (sectionNumber p .symbols)) (raw (file p) (sectionNumber p .symbols))) 4 r.1 =
        number (relocate (file p) l (sectionNumber p .symbols) (raw (file p) (sectionNumber p .symbols)) ⟨r.1, symbolOf p r.2, 0xb⟩) 4 r.1 :=
      number_congr _ _ (fun x hx => key _ m1 _ (by show r.1 ≤ _; omega) (by show _ < r.1 + 4; omega))
    have n2 : number (((relocsOf p .symbols).map Lemmas.Object.read).foldl (relocate (file p) l (sectionNumber p .symbols)) (raw (file p) (sectionNumber p .symbols))) 2 (r.1 + 4) =
        number (relocate (file p) l (sectionNumber p .symbols) (raw (file p) (sectionNumber p .symbols)) ⟨r.1 + 4, symbolOf p r.2, 0xa⟩) 2 (r.1 + 4) :=
      number_congr _ _ (fun x hx => key _ m2 _ (by show r.1 + 4 ≤ _; omega) (by show _ < r.1 + 4 + 2; omega))
    rw [n1, n2, relocate_offset, relocate_index, put_number, put_number, number_zero (fun x hx => hraw x (by omega)),
      number_zero (fun x hx => by rw [Nat.add_assoc]; exact hraw (4 + x) (by omega))]
    generalize address (file p) l (symbolOf p r.2) = A at *
    generalize startOf (file p) l (symbolOf p r.2) = B at *
    generalize indexOf (file p) l (symbolOf p r.2) = C at *
    refine ⟨?_, ?_⟩ <;> omega

end Verif.Props.Object
