import Verif.Lemmas.ImageStrings
import Verif.Props.BaseReloc

/-!
# C79: what is in memory when Windows has loaded an executable
-/
namespace Verif.Props.Image
open Verif.Model.Image Verif.Model.BaseReloc Verif.Spec.Image Verif.Lemmas.Image

/-- The memory of the loaded image. -/
abbrev memory (p : Program) : Nat → Nat := loaded (file p)

/-- The address of a function, an object, a variable of threads. -/
abbrev address (p : Program) (k : Key) : Nat := rvaIn (early p) k

/-! ## The file -/

theorem after_file_eq (c : Cursor) (b : List Nat) (name : List Nat) (f : Nat) (hc : Cursor.Good c) :
    ∀ h ∈ Model.Image.header name c b f, h.ptr = c.file ∧ h.ptr + h.raw = (c.after b.length).file ∧ h.raw % 0x200 = 0 ∧ h.ptr % 0x200 = 0 := by
  intro h hh
  obtain ⟨rfl, -⟩ := header_mem hh
  have h1 := le_alignUp (x := c.file + b.length) (a := 0x200) (by omega)
  have h2 : alignUp (c.file + b.length) 0x200 % 0x200 = 0 := alignUp_mod
  have h3 := hc.1
  refine ⟨rfl, ?_, ?_, h3⟩
  · show c.file + (alignUp (c.file + b.length) 0x200 - c.file) = alignUp (c.file + b.length) 0x200
    omega
  · show (alignUp (c.file + b.length) 0x200 - c.file) % 0x200 = 0
    omega

theorem file_mono (p : Program) : 1024 ≤ (textCursor.after (textBytes p).length).file ∧ (rdataCursor p).file ≤ (dataCursor p).file ∧
    (dataCursor p).file ≤ (relocCursor p).file ∧ (relocCursor p).file ≤ (pdataCursor p).file ∧ (pdataCursor p).file ≤ (endCursor p).file := by
  have h0 : textCursor.file = 1024 := by rw [textCursor_eq]
  have h1 := after_file textCursor (textBytes p).length
  have h2 := after_file (rdataCursor p) (rdataBytes p).length
  have h3 := after_file (dataCursor p) (dataBytes p).length
  have h4 := after_file (relocCursor p) (relocBytes p).length
  have h5 := after_file (pdataCursor p) (pdataBytes p).length
  have e2 : ((rdataCursor p).after (rdataBytes p).length).file = (dataCursor p).file := rfl
  have e3 : ((dataCursor p).after (dataBytes p).length).file = (relocCursor p).file := rfl
  have e4 : ((relocCursor p).after (relocBytes p).length).file = (pdataCursor p).file := rfl
  have e5 : ((pdataCursor p).after (pdataBytes p).length).file = (endCursor p).file := rfl
  refine ⟨by omega, by omega, by omega, by omega, by omega⟩

/-- **C79.** The loader accepts the executable: the headers are well formed, the sections follow each other in memory without gaps, each starts on a
page, and what they have in the file is in the file, aligned and not shared. -/
theorem C79_accepted (p : Program) (hv : Valid p) : Accepted (file p) := by
  obtain ⟨hd, hs, -⟩ := headers_parts (holds_headers hv)
  obtain ⟨n1, n2, n3⟩ := number_of_sections hv
  obtain ⟨o1, -, -, o4, o5, o6, o7⟩ := optional_fields hv
  have hh := header_at hv
  have hm := file_mono p
  have e1 : (textCursor.after (textBytes p).length).file = (rdataCursor p).file := rfl
  have e2 : ((rdataCursor p).after (rdataBytes p).length).file = (dataCursor p).file := rfl
  have e3 : ((dataCursor p).after (dataBytes p).length).file = (relocCursor p).file := rfl
  have e4 : ((relocCursor p).after (relocBytes p).length).file = (pdataCursor p).file := rfl
  have e5 : ((pdataCursor p).after (pdataBytes p).length).file = (endCursor p).file := rfl
  have k1 := after_file_eq textCursor (textBytes p) [46, 116, 101, 120, 116, 0, 0, 0] 0x60000020 textCursor_good
  have k2 := after_file_eq (rdataCursor p) (rdataBytes p) [46, 114, 100, 97, 116, 97, 0, 0] 0x40000040 (rdataCursor_good p)
  have k3 := after_file_eq (dataCursor p) (dataBytes p) [46, 100, 97, 116, 97, 0, 0, 0] 0xC0000040 (dataCursor_good p)
  have k4 := after_file_eq (relocCursor p) (relocBytes p) [46, 114, 101, 108, 111, 99, 0, 0] 0x42000040 (relocCursor_good p)
  have k5 := after_file_eq (pdataCursor p) (pdataBytes p) [46, 112, 100, 97, 116, 97, 0, 0] 0x40000040 (pdataCursor_good p)
  have kb : ∀ h ∈ bssHeader p, h.raw = 0 ∧ h.ptr = 0 := by
    intro h hh
    unfold bssHeader at hh
    split at hh
    · cases hh
    · rw [List.mem_singleton] at hh; subst hh; exact ⟨rfl, rfl⟩
  refine ⟨⟨hd 0 (by rw [dosStub_length]; omega), hd 1 (by rw [dosStub_length]; omega)⟩, ?_, ?_, o1, ⟨o4, o5⟩, o7, ?_, ?_, ?_, ?_⟩
  · rw [hh]; exact number_u32 (v := 0x4550) hs (by omega)
  · rw [hh]; exact n3
  · rw [sizeOfHeaders_at hv, file_length hv, hh, n2, sections_eq hv, List.length_map]
    have := sectionHeaders_le p
    omega
  · rw [sizeOfHeaders_at hv, sections_eq hv, o6]
    exact consecutive_sections p
  · intro s hs
    rw [sections_eq hv] at hs
    obtain ⟨h, hh, rfl⟩ := List.mem_map.1 hs
    rw [file_length hv]
    show h.raw % 0x200 = 0 ∧ h.ptr % 0x200 = 0 ∧ h.ptr + h.raw ≤ _
    unfold sectionHeaders at hh
    simp only [List.mem_append] at hh
    rcases hh with ((((hh | hh) | hh) | hh) | hh) | hh
    · have := k1 h hh; exact ⟨this.2.2.1, this.2.2.2, by omega⟩
    · have := kb h hh; exact ⟨by omega, by omega, by omega⟩
    · have := k2 h hh; exact ⟨this.2.2.1, this.2.2.2, by omega⟩
    · have := k3 h hh; exact ⟨this.2.2.1, this.2.2.2, by omega⟩
    · have := k4 h hh; exact ⟨this.2.2.1, this.2.2.2, by omega⟩
    · have := k5 h hh; exact ⟨this.2.2.1, this.2.2.2, by omega⟩
  · rw [sections_eq hv, List.pairwise_map]
    show (sectionHeaders p).Pairwise (fun s t => s.raw = 0 ∨ t.raw = 0 ∨ s.ptr + s.raw ≤ t.ptr)
    have single : ∀ (name : List Nat) (c : Cursor) (b : List Nat) (f : Nat),
        (Model.Image.header name c b f).Pairwise (fun s t => s.raw = 0 ∨ t.raw = 0 ∨ s.ptr + s.raw ≤ t.ptr) := by
      intro name c b f
      unfold Model.Image.header
      split
      · exact .nil
      · exact List.pairwise_singleton _ _
    have singleb : (bssHeader p).Pairwise (fun s t => s.raw = 0 ∨ t.raw = 0 ∨ s.ptr + s.raw ≤ t.ptr) := by
      unfold bssHeader
      split
      · exact .nil
      · exact List.pairwise_singleton _ _
    unfold sectionHeaders
    simp only [List.pairwise_append, List.mem_append]
    refine ⟨⟨⟨⟨⟨single _ _ _ _, singleb, ?_⟩, single _ _ _ _, ?_⟩, single _ _ _ _, ?_⟩, single _ _ _ _, ?_⟩, single _ _ _ _, ?_⟩
    · intro a ha b hb; have := kb b hb; omega
    · rintro a (ha | ha) b hb
      · have := k1 a ha; have := k2 b hb; omega
      · have := kb a ha; omega
    · rintro a ((ha | ha) | ha) b hb
      · have := k1 a ha; have := k3 b hb; omega
      · have := kb a ha; omega
      · have := k2 a ha; have := k3 b hb; omega
    · rintro a (((ha | ha) | ha) | ha) b hb
      · have := k1 a ha; have := k4 b hb; omega
      · have := kb a ha; omega
      · have := k2 a ha; have := k4 b hb; omega
      · have := k3 a ha; have := k4 b hb; omega
    · rintro a ((((ha | ha) | ha) | ha) | ha) b hb
      · have := k1 a ha; have := k5 b hb; omega
      · have := kb a ha; omega
      · have := k2 a ha; have := k5 b hb; omega
      · have := k3 a ha; have := k5 b hb; omega
      · have := k4 a ha; have := k5 b hb; omega

/-- **C79.** The program starts at the function at the entry point, and the image is to be loaded at the address that absolute addresses assume. -/
theorem C79_entry (p : Program) (hv : Valid p) : imageBase (file p) = p.imageBase ∧ ∀ i, p.entry = some i → entryPoint (file p) = address p (.func i) := by
  obtain ⟨-, o2, o3, -⟩ := optional_fields hv
  refine ⟨o3, fun i hi => ?_⟩
  rw [o2, entryRva, hi]

/-! ## Functions and objects -/

/-- **C79.** Functions, objects and variables of threads are in memory at their addresses, except for the bytes that patches write. -/
theorem C79_contents (p : Program) (hv : Valid p) (k : Key) (b : List Nat) (hb : bytesOf p k = some b) (i : Nat) (hi : i < b.length)
    (h : ∀ q ∈ p.patches, q.dest = k → i < q.at_ ∨ q.at_ + patchSize q.kind ≤ i) : memory p (address p k + i) = b[i] := by
  obtain ⟨r, hr, ha, hk, rfl⟩ := bytesOf_push hv hb
  have hf : Key.fixed k = false := by
    unfold bytesOf at hb
    split at hb <;> first | rfl | cases hb
  refine mem_pushed hv hr ha hk hi (fun w hw he => ?_)
  cases hw with
  | patch q hq => rw [patchBytes_length]; exact h q hq he
  | debug w hd hw hkw => rw [← he, hkw] at hf; cases hf
  | _ => rw [← he] at hf; cases hf

/-- **C79.** Floating point constants are in memory at their addresses. -/
theorem C79_floats (p : Program) (hv : Valid p) (i : Nat) (f : List Nat) (hf : p.floats[i]? = some f) : Holds (memory p) (address p (.float i)) f := by
  have hl := hv.floats f (List.mem_of_getElem? hf)
  refine holds_untouched hv (float_push hf) (by show 0 < f.length; omega) rfl (fun w hw he => ?_)
  cases hw with
  | patch q hq => have := patch_key hv hq; rw [show q.dest = _ from he] at this; cases this
  | debug w hd hw hkw => rw [hkw] at he; cases he
  | _ => cases he

/-- **C79.** Every string literal is in memory at its address, with its terminator. -/
theorem C79_strings (p : Program) (hv : Valid p) (i : Nat) (v : List Nat) (n : Nat) (h : p.strings[i]? = some (v, n)) :
    Holds (memory p) (sourceRva p (.string i)) (v ++ List.replicate n 0) := by
  obtain ⟨-, h2⟩ := interned_spec hv
  obtain ⟨e, a, ha, he, hs⟩ := h2 i v n h
  have hr : sourceRva p (.string i) = address p (.string e) := by
    show stringRva p i = _
    unfold stringRva
    rw [List.getD_eq_getElem?_getD, he]
    rfl
  rw [hr]
  refine holds_untouched hv (string_push hs) ha rfl (fun w hw he => ?_)
  cases hw with
  | patch q hq => have := patch_key hv hq; rw [show q.dest = _ from he] at this; cases this
  | debug w hd hw hkw => rw [hkw] at he; cases he
  | _ => cases he

/-! ## Uninitialized objects -/

theorem bssOffsets_spec : (l : List (Nat × Nat)) → (∀ d ∈ l, 0 < d.2) → (s : Nat) → (i : Nat) → (d : Nat × Nat) → l[i]? = some d →
    ∃ o, (bssOffsets s l).1[i]? = some o ∧ s ≤ o ∧ o % d.2 = 0 ∧ o + max 1 d.1 ≤ (bssOffsets s l).2 ∧
      ∀ j o', i < j → (bssOffsets s l).1[j]? = some o' → o + max 1 d.1 ≤ o'
  | [], _, _, _, _, h => by cases h
  | (n, a) :: l, hl, s, i, d, h => by
    have mono : ∀ (l : List (Nat × Nat)) (s : Nat), (∀ d ∈ l, 0 < d.2) → s ≤ (bssOffsets s l).2 ∧ ∀ (j : Nat) o', (bssOffsets s l).1[j]? = some o' → s ≤ o' := by
      intro l
      induction l with
      | nil => intro s _; exact ⟨Nat.le_refl _, fun j o' h => by cases h⟩
      | cons x l ih =>
        intro s hl
        have h1 := le_alignUp (x := s) (hl x List.mem_cons_self)
        obtain ⟨h2, h3⟩ := ih (alignUp s x.2 + (if x.1 = 0 then 1 else x.1)) (fun d hd => hl d (List.mem_cons_of_mem _ hd))
        refine ⟨?_, fun j o' hj => ?_⟩
        · show s ≤ (bssOffsets (alignUp s x.2 + (if x.1 = 0 then 1 else x.1)) l).2
          omega
        · cases j with
          | zero => have : alignUp s x.2 = o' := Option.some.inj hj; omega
          | succ j => have := h3 j o' hj; omega
    have hn : (if n = 0 then 1 else n) = max 1 n := by split <;> omega
    have h1 : s ≤ alignUp s a := le_alignUp (x := s) (hl (n, a) List.mem_cons_self)
    have hl' : ∀ d ∈ l, 0 < d.2 := fun d hd => hl d (List.mem_cons_of_mem _ hd)
    obtain ⟨m1, m2⟩ := mono l (alignUp s a + (if n = 0 then 1 else n)) hl'
    cases i with
    | zero =>
      cases h
      refine ⟨alignUp s a, rfl, h1, alignUp_mod, ?_, fun j o' hj ho => ?_⟩
      · show _ ≤ (bssOffsets (alignUp s a + (if n = 0 then 1 else n)) l).2
        rw [hn] at m1 ⊢; omega
      · cases j with
        | zero => omega
        | succ j => have := m2 j o' ho; rw [hn] at this; omega
    | succ i =>
      obtain ⟨o, e1, e2, e3, e4, e5⟩ := bssOffsets_spec l hl' (alignUp s a + (if n = 0 then 1 else n)) i d h
      refine ⟨o, e1, by omega, e3, e4, fun j o' hj ho => ?_⟩
      cases j with
      | zero => omega
      | succ j => exact e5 j o' (by omega) ho

/-- Where an uninitialized object is. -/
theorem bss_inside (p : Program) (hv : Valid p) (i : Nat) (d : Nat × Nat) (hd : p.bss[i]? = some d) :
    (bssCursor p).va ≤ bssRva p i ∧ bssRva p i + max 1 d.1 ≤ (bssCursor p).va + bssSize p := by
  obtain ⟨o, e1, e2, e3, e4, -⟩ := bssOffsets_spec p.bss hv.bssAligned 0 i d hd
  have e : bssRva p i = (bssCursor p).va + o := by
    unfold bssRva; rw [List.getD_eq_getElem?_getD, e1]; rfl
  have := le_alignUp (x := (bssOffsets 0 p.bss).2) (a := 0x1000) (by omega)
  unfold bssSize
  omega

/-- **C79.** Uninitialized objects are zero. -/
theorem C79_bss_zero (p : Program) (hv : Valid p) (i : Nat) (d : Nat × Nat) (hd : p.bss[i]? = some d) (j : Nat) (hj : j < d.1) :
    memory p (sourceRva p (.bss i) + j) = 0 := by
  obtain ⟨h1, h2⟩ := bss_inside p hv i d hd
  have hs : bssSize p ≠ 0 := by omega
  have hm : (⟨[46, 98, 115, 115, 0, 0, 0, 0], bssSize p, (bssCursor p).va, 0, 0, 0xC0000080⟩ : Header) ∈ sectionHeaders p := by
    unfold sectionHeaders
    simp only [List.mem_append]
    refine Or.inl (Or.inl (Or.inl (Or.inl (Or.inr ?_))))
    unfold bssHeader
    rw [if_neg hs]
    exact List.mem_singleton.2 rfl
  show loaded (file p) (bssRva p i + j) = 0
  unfold loaded
  rw [sections_eq hv, find_section (consecutive_sections p) _ (List.mem_map_of_mem hm) (bssRva p i + j)
    (by show (bssCursor p).va ≤ _; omega) (by show _ < (bssCursor p).va + bssSize p; omega)]
  exact if_neg (Nat.not_lt_zero _)

/-- **C79.** Different uninitialized objects do not overlap, and empty ones have an address of their own. -/
theorem C79_bss_disjoint (p : Program) (hv : Valid p) (i j : Nat) (d e : Nat × Nat) (hi : p.bss[i]? = some d) (hj : p.bss[j]? = some e) (h : i < j) :
    sourceRva p (.bss i) + max 1 d.1 ≤ sourceRva p (.bss j) := by
  obtain ⟨o, e1, -, -, -, e5⟩ := bssOffsets_spec p.bss hv.bssAligned 0 i d hi
  obtain ⟨o', e1', -⟩ := bssOffsets_spec p.bss hv.bssAligned 0 j e hj
  have := e5 j o' h e1'
  show bssRva p i + _ ≤ bssRva p j
  unfold bssRva
  rw [List.getD_eq_getElem?_getD, e1, List.getD_eq_getElem?_getD, e1']
  show (bssCursor p).va + o + _ ≤ (bssCursor p).va + o'
  omega

/-! ## Nothing overlaps -/

theorem regions_va (p : Program) : (regions p).Pairwise (fun r s => r.c.va + r.bytes.length ≤ s.c.va) := by
  have h1 := after_va textCursor (textBytes p).length
  have h2 := after_va (rdataCursor p) (rdataBytes p).length
  have h3 := after_va (dataCursor p) (dataBytes p).length
  have h4 := after_va (relocCursor p) (relocBytes p).length
  have e1 : (textCursor.after (textBytes p).length).va + bssSize p = (rdataCursor p).va := rfl
  have e2 : ((rdataCursor p).after (rdataBytes p).length).va = (dataCursor p).va := rfl
  have e3 : ((dataCursor p).after (dataBytes p).length).va = (relocCursor p).va := rfl
  have e4 : ((relocCursor p).after (relocBytes p).length).va = (pdataCursor p).va := rfl
  unfold regions Region.bytes
  unfold textBytes at h1 e1
  unfold rdataBytes at h2 e2
  unfold dataBytes at h3 e3
  unfold relocBytes at h4 e4
  simp only [List.pairwise_cons, List.mem_cons, List.not_mem_nil, or_false, forall_eq_or_imp, forall_eq]
  refine ⟨⟨?_, ?_, ?_, ?_⟩, ⟨?_, ?_, ?_⟩, ⟨?_, ?_⟩, ?_, ?_, ?_⟩ <;> first | omega | exact .nil | exact fun _ h => nomatch h

theorem placed_apart (p : Program) : (placed p).Pairwise (fun x y => x.rva + x.bytes.length ≤ y.rva) := by
  rw [placed_regions, List.pairwise_flatMap]
  refine ⟨fun r _ => ?_, (regions_va p).imp (fun {r s} h x hx y hy => ?_)⟩
  · refine (place_ordered _ _ _).imp_of_mem (fun {x y} hx hy h => ?_)
    have h1 := place_inside _ _ _ x hx
    have h2 := place_inside _ _ _ y hy
    unfold Ordered at h
    omega
  · have h1 := place_inside _ _ _ x hx
    have h2 := place_inside _ _ _ y hy
    unfold Region.bytes at h
    omega

theorem apart_or {l : List Placed} (ho : l.Pairwise (fun x y => x.rva + x.bytes.length ≤ y.rva)) {x y : Placed} (hx : x ∈ l) (hy : y ∈ l) :
    x = y ∨ x.rva + x.bytes.length ≤ y.rva ∨ y.rva + y.bytes.length ≤ x.rva := by
  induction l with
  | nil => cases hx
  | cons z l ih =>
    rw [List.pairwise_cons] at ho
    rcases List.mem_cons.1 hx with rfl | hx'
    · rcases List.mem_cons.1 hy with rfl | hy'
      · exact Or.inl rfl
      · exact Or.inr (Or.inl (ho.1 y hy'))
    · rcases List.mem_cons.1 hy with rfl | hy'
      · exact Or.inr (Or.inr (ho.1 x hx'))
      · exact ih ho.2 hx' hy'

/-- **C79.** Different functions, objects and variables of threads do not overlap. -/
theorem C79_disjoint (p : Program) (hv : Valid p) (k k' : Key) (b b' : List Nat) (hb : bytesOf p k = some b) (hb' : bytesOf p k' = some b') (h : k ≠ k') :
    address p k + b.length ≤ address p k' ∨ address p k' + b'.length ≤ address p k := by
  obtain ⟨r, hr, ha, hk, rfl⟩ := bytesOf_push hv hb
  obtain ⟨r', hr', ha', hk', rfl⟩ := bytesOf_push hv hb'
  obtain ⟨x, hx, e1, e2, e3, -⟩ := at_push hr ha hk
  obtain ⟨y, hy, f1, f2, f3, -⟩ := at_push hr' ha' hk'
  unfold address
  rw [← e2, ← f2, ← e3, ← f3]
  rcases apart_or (placed_apart p) hx hy with rfl | h'
  · rw [e1] at f1; exact absurd (Option.some.inj f1) h
  · exact h'

/-- **C79.** Uninitialized objects do not overlap functions, other objects and variables of threads. -/
theorem C79_bss_apart (p : Program) (hv : Valid p) (i : Nat) (d : Nat × Nat) (hd : p.bss[i]? = some d) (k : Key) (b : List Nat) (hb : bytesOf p k = some b) :
    sourceRva p (.bss i) + d.1 ≤ address p k ∨ address p k + b.length ≤ sourceRva p (.bss i) := by
  obtain ⟨h1, h2⟩ := bss_inside p hv i d hd
  obtain ⟨r, hr, ha, hk, rfl⟩ := bytesOf_push hv hb
  obtain ⟨x, hx, e1, e2, e3, -⟩ := at_push hr ha hk
  unfold address
  rw [← e2, ← e3]
  show bssRva p i + _ ≤ _ ∨ _ ≤ bssRva p i
  obtain ⟨t, ht, g1, g2, -⟩ := placed_rva p x hx
  rcases List.mem_cons.1 ht with rfl | ht'
  · right
    have := after_va textCursor (textBytes p).length
    have e : (textCursor.after (textBytes p).length).va = (bssCursor p).va := rfl
    have g1 : x.rva + x.bytes.length ≤ textCursor.va + (textBytes p).length := g1
    omega
  · left
    have e : (bssCursor p).va + bssSize p = (rdataCursor p).va := rfl
    have : (rdataCursor p).va ≤ t.c.va := by
      rcases List.mem_cons.1 ht' with rfl | ht''
      · exact Nat.le_refl _
      · have := (List.pairwise_cons.1 (List.pairwise_cons.1 (regions_va p)).2).1 t ht''
        have : (rdataCursor p).va + _ ≤ t.c.va := this
        omega
    omega

/-! ## References -/

/-- Later patches do not write over a patch. -/
def Last (q : Patch) (later : List Patch) : Prop :=
  ∀ r ∈ later, r.dest = q.dest → q.at_ + patchSize q.kind ≤ r.at_ ∨ r.at_ + patchSize r.kind ≤ q.at_

theorem holds_patch (p : Program) (hv : Valid p) {a b : List Patch} {q : Patch} (e : p.patches = a ++ q :: b) (hl : Last q b) :
    Holds (memory p) (address p q.dest + q.at_) (patchBytes p q) := by
  have hq : q ∈ p.patches := by rw [e]; exact List.mem_append_right _ List.mem_cons_self
  obtain ⟨c, hc, hcl⟩ := hv.patches q hq
  obtain ⟨r, hr, ha, hk, rfl⟩ := bytesOf_push hv hc
  obtain ⟨x, hx, e1, e2, e3, -⟩ := at_push hr ha hk
  show Holds (memory p) (rvaIn (early p) q.dest + q.at_) _
  rw [← e3]
  have hw : writes p = (p.dlls.zipIdx.flatMap (fun d => dllWrites p d.2 d.1) ++ stubWrites p ++ debugWrites p ++ exportWrites p ++ tlsWrites p ++
      a.map (fun q => ⟨q.dest, q.at_, patchBytes p q⟩)) ++ (⟨q.dest, q.at_, patchBytes p q⟩ : Write) ::
      (b.map (fun q => ⟨q.dest, q.at_, patchBytes p q⟩) ++ runtimeWrites p) := by
    unfold writes patchWrites
    rw [e, List.map_append, List.map_cons]
    simp only [List.append_assoc, List.cons_append]
  refine holds_written hv hx hw e1 (fun v hvm => ?_)
  rcases List.mem_append.1 hvm with hvm | hvm
  · obtain ⟨s, hs, rfl⟩ := List.mem_map.1 hvm
    intro he
    have := hl s hs he.symm
    show _ + (patchBytes p q).length ≤ _ ∨ _ + (patchBytes p s).length ≤ _
    rw [patchBytes_length, patchBytes_length]
    exact this
  · obtain ⟨⟨f, i⟩, -, rfl⟩ := List.mem_map.1 hvm
    intro he
    have := patch_key hv hq
    rw [show q.dest = _ from he] at this
    cases this

/-- The address of what a patch refers to. For addresses that are stored in memory, an imported function is its stub. -/
def target (p : Program) (q : Patch) : Int :=
  match q.kind, q.source with
  | .absolute, .imported d i => stubRva p d i + q.offset
  | _, s => sourceRva p s + q.offset

/-- **C79.** The displacement in an instruction leads from the end of the instruction to the target, for every target in the image. -/
theorem C79_rip_relative (p : Program) (hv : Valid p) (a b : List Patch) (q : Patch) (e : p.patches = a ++ q :: b) (hl : Last q b)
    (hk : q.kind = .ripRelative) (c : List Nat) (hc : bytesOf p q.dest = some c) (hr : q.ripAt ≤ c.length)
    (h0 : 0 ≤ target p q) (h1 : target p q < 2 ^ 31) (hf : ∀ i, q.source = .float i → q.offset = 0) :
    (address p q.dest + q.ripAt : Int) + signed (number (memory p) 4 (address p q.dest + q.at_)) = target p q := by
  have h := holds_patch p hv e hl
  have ht : target p q = sourceRva p q.source + q.offset := by unfold target; rw [hk]
  have hb : patchBytes p q = s32 (sourceRva p q.source + q.offset - (rvaIn (early p) q.dest + q.ripAt)) := by
    unfold patchBytes
    rw [hk]
    simp only []
    split
    · next i hi => rw [hf i hi]
    · rfl
  rw [hb] at h
  obtain ⟨r, hr', ha, hkr, rfl⟩ := bytesOf_push hv hc
  obtain ⟨x, hx, e1, e2, e3, -⟩ := at_push hr' ha hkr
  have hx' := (rva_bound hv hx).2
  rw [e2, e3] at hx'
  rw [ht] at h0 h1 ⊢
  rw [signed_s32 h (by omega) (by omega)]
  show ((rvaIn (early p) q.dest : Nat) : Int) + (q.ripAt : Int) + _ = _
  omega

/-- **C79.** An address in memory is the address of its target when the image is loaded where it wants to be, for every target in the image. It is missing
that the target is also right if it is inside of a string literal. -/
theorem C79_absolute_partial (p : Program) (hv : Valid p) (a b : List Patch) (q : Patch) (e : p.patches = a ++ q :: b) (hl : Last q b)
    (hk : q.kind = .absolute) (h0 : 0 ≤ target p q) (h1 : target p q < 2 ^ 31) (hs : ∀ i, q.source = .string i → q.offset = 0) :
    (number (memory p) 8 (address p q.dest + q.at_) : Int) = imageBase (file p) + target p q := by
  have h := holds_patch p hv e hl
  unfold patchBytes at h
  rw [hk] at h
  have ht : absoluteSource p q = p.imageBase + target p q := by
    unfold absoluteSource target
    rw [hk]
    cases hsrc : q.source with
    | string i =>
      simp only []
      rw [hs i hsrc]
      show ((stringRva p i : Nat) : Int) + _ = _ + (((stringRva p i : Nat) : Int) + 0)
      omega
    | _ => simp only []; omega
  have hb := hv.base
  rw [(C79_entry p hv).1]
  simp only [ht] at h
  unfold s64 at h
  rw [number_u64 h (by omega)]
  omega

/-- **C79.** The offset of a variable of threads is its distance from the start of the storage that is copied for every thread. -/
theorem C79_section_offset (p : Program) (hv : Valid p) (a b : List Patch) (q : Patch) (e : p.patches = a ++ q :: b) (hl : Last q b)
    (hk : q.kind = .sectionOffset) (i : Nat) (hs : q.source = .tls i) (hi : i < p.tls.length) :
    number (memory p) 4 (address p q.dest + q.at_) + address p .tlsStart = address p (.tls i) := by
  have h := holds_patch p hv e hl
  unfold patchBytes at h
  rw [hk, hs] at h
  have ht : p.tls ≠ [] := fun he => by rw [he] at hi; cases hi
  have hget := List.getElem?_eq_getElem hi
  obtain ⟨f, hf, -, et⟩ := tlsPushes_eq ht
  have hle : address p .tlsStart ≤ address p (.tls i) := by
    obtain ⟨x, hx, y, hy, x1, y1, -, -, hxy⟩ := split_order (a := importPushes p ++ debugPushes p ++ stringPushes p ++ floatPushes p ++ exportPushes p ++
        [⟨some .tlsStart, f.1, 0, []⟩]) (b := p.tls.zipIdx.map (fun d => ⟨some (.tls d.2), d.1.1, 0, nonempty d.1.2⟩) ++
        [⟨some .tlsEnd, 1, 0, []⟩, ⟨some .tlsCallbacks, 8, 0, zeros 8⟩, ⟨none, 0x40, 0, []⟩, ⟨some .tlsDirectory, 8, 0, zeros 40⟩])
      (q := ⟨some .tlsStart, f.1, 0, []⟩) (r := ⟨some (.tls i), p.tls[i].1, 0, nonempty p.tls[i].2⟩) (List.mem_append_right _ (List.mem_singleton.2 rfl))
      (List.mem_append_left _ (List.mem_map.2 ⟨(p.tls[i], i), mem_zipIdx hget, rfl⟩)) (hv.tlsAligned f hf) (hv.tlsAligned _ (List.getElem_mem hi))
      (rdataCursor p).file (rdataCursor p).va
    have er : rdataPushes p = (importPushes p ++ debugPushes p ++ stringPushes p ++ floatPushes p ++ exportPushes p ++
        [⟨some .tlsStart, f.1, 0, []⟩]) ++ (p.tls.zipIdx.map (fun d => ⟨some (.tls d.2), d.1.1, 0, nonempty d.1.2⟩) ++
        [⟨some .tlsEnd, 1, 0, []⟩, ⟨some .tlsCallbacks, 8, 0, zeros 8⟩, ⟨none, 0x40, 0, []⟩, ⟨some .tlsDirectory, 8, 0, zeros 40⟩]) := by
      unfold rdataPushes; rw [et]; simp only [List.append_assoc]
    rw [← er] at hx hy
    have m : ∀ z ∈ place (rdataCursor p).file (rdataCursor p).va (rdataPushes p), z ∈ early p :=
      fun z hz => List.mem_append_left _ (List.mem_append_right _ hz)
    show rvaIn (early p) .tlsStart ≤ rvaIn (early p) (.tls i)
    rw [rvaIn_eq (early_distinct p) (m x hx) x1, rvaIn_eq (early_distinct p) (m y hy) y1]
    omega
  have hlt := rvaIn_lt hv (.tls i)
  have e1 : sourceRva p (.tls i) = rvaIn (early p) (.tls i) := rfl
  have e2 : tlsStart p = rvaIn (early p) .tlsStart := rfl
  have hle : rvaIn (early p) .tlsStart ≤ rvaIn (early p) (.tls i) := hle
  unfold s32 at h
  rw [number_u32 h (by omega), e1, e2]
  show _ + rvaIn (early p) .tlsStart = rvaIn (early p) (.tls i)
  omega

end Verif.Props.Image
