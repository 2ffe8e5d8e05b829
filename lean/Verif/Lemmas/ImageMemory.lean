import Verif.Lemmas.ImageFile

/-!
# Lemmas: the headers in the file, and the bytes at addresses
-/
namespace Verif.Lemmas.Image
open Verif.Model.Image Verif.Model.BaseReloc Verif.Spec.Image

theorem holds_of_at {f : List Nat} {n : Nat} {b : List Nat} (h : At f n b) : Holds (byte f) n b := by
  intro i hi
  have := h i hi
  unfold byte
  rw [List.getD_eq_getElem?_getD, this, List.getElem?_eq_getElem hi]
  rfl

theorem holds_headers {p : Program} (hv : Valid p) : Holds (byte (file p)) 0 (headers p) := by
  apply holds_of_at
  intro i hi
  rw [Nat.zero_add]
  unfold file
  rw [headers_length] at hi
  rw [written_before (placed p) (placed_distinct p) 1024 (placed_after p) (writes p) (all_fit p hv) (pushed p) (placed_inside p) i hi]
  unfold pushed
  simp only [List.append_assoc]
  rw [List.getElem?_append_left (by rw [headers_length]; exact hi)]

theorem file_length {p : Program} (hv : Valid p) : (file p).length = (endCursor p).file := by
  unfold file
  rw [(written (placed p) (placed_distinct p) (placed_ordered p) (writes p) (all_fit p hv) (pushed p) (placed_inside p)).1, pushed_length]

theorem headers_parts {p : Program} {m : Nat → Nat} (h : Holds m 0 (headers p)) :
    Holds m 0 dosStub ∧ Holds m 208 [0x50, 0x45, 0, 0] ∧ Holds m 212 (fileHeader p) ∧ Holds m 232 (optionalHeader p) ∧
      Holds m 472 ((sectionHeaders p).flatMap headerBytes) := by
  rw [headers_eq, holds_append, holds_append, front_length] at h
  obtain ⟨h1, h2, -⟩ := h
  unfold front at h1
  rw [holds_append, holds_append, holds_append] at h1
  simp only [List.length_append, dosStub_length, fileHeader_length, List.length_cons, List.length_nil, Nat.reduceAdd] at h1
  exact ⟨h1.1.1.1, h1.1.1.2, h1.1.2, h1.2, h2⟩

theorem entryRva_lt {p : Program} (h : ∀ x ∈ placed p, x.rva < 2 ^ 32) : ∀ k, rvaIn (early p) k < 2 ^ 32 := by
  intro k
  unfold rvaIn
  split
  · next x hx => exact h x (early_placed (List.mem_of_find?_eq_some hx))
  · omega

/-- The address of something is inside of the image. -/
theorem placed_rva (p : Program) : ∀ x ∈ placed p, ∃ r ∈ regions p, x.rva + x.bytes.length ≤ r.c.va + r.bytes.length ∧ r.c.va ≤ x.rva ∧
    x.ptr = r.c.file + (x.rva - r.c.va) := by
  intro x hx
  rw [placed_regions] at hx
  obtain ⟨r, hr, hx⟩ := List.mem_flatMap.1 hx
  obtain ⟨h1, h2, h3⟩ := place_inside _ _ _ x hx
  refine ⟨r, hr, ?_, by omega, by omega⟩
  unfold Region.bytes
  omega

theorem after_va (c : Cursor) (n : Nat) : c.va + n ≤ (c.after n).va := le_alignUp (by omega)

theorem region_va (p : Program) : ∀ r ∈ regions p, 4096 ≤ r.c.va ∧ r.c.va + r.bytes.length ≤ (endCursor p).va ∧ Cursor.Good r.c := by
  have h0 : textCursor.va = 4096 := rfl
  have h1 := after_va textCursor (textBytes p).length
  have h2 := after_va (rdataCursor p) (rdataBytes p).length
  have h3 := after_va (dataCursor p) (dataBytes p).length
  have h4 := after_va (relocCursor p) (relocBytes p).length
  have h5 := after_va (pdataCursor p) (pdataBytes p).length
  have e1 : (textCursor.after (textBytes p).length).va + bssSize p = (rdataCursor p).va := rfl
  have e2 : ((rdataCursor p).after (rdataBytes p).length).va = (dataCursor p).va := rfl
  have e3 : ((dataCursor p).after (dataBytes p).length).va = (relocCursor p).va := rfl
  have e4 : ((relocCursor p).after (relocBytes p).length).va = (pdataCursor p).va := rfl
  have e5 : ((pdataCursor p).after (pdataBytes p).length).va = (endCursor p).va := rfl
  intro r hr
  unfold regions at hr
  simp only [List.mem_cons, List.not_mem_nil, or_false] at hr
  rcases hr with rfl | rfl | rfl | rfl | rfl
  · refine ⟨?_, ?_, textCursor_good⟩
    · show 4096 ≤ textCursor.va; omega
    · show textCursor.va + (textBytes p).length ≤ _; omega
  · refine ⟨?_, ?_, rdataCursor_good p⟩
    · show 4096 ≤ (rdataCursor p).va; omega
    · show (rdataCursor p).va + (rdataBytes p).length ≤ _; omega
  · refine ⟨?_, ?_, dataCursor_good p⟩
    · show 4096 ≤ (dataCursor p).va; omega
    · show (dataCursor p).va + (dataBytes p).length ≤ _; omega
  · refine ⟨?_, ?_, relocCursor_good p⟩
    · show 4096 ≤ (relocCursor p).va; omega
    · show (relocCursor p).va + (relocBytes p).length ≤ _; omega
  · refine ⟨?_, ?_, pdataCursor_good p⟩
    · show 4096 ≤ (pdataCursor p).va; omega
    · show (pdataCursor p).va + (pdataBytes p).length ≤ _; omega

theorem rva_bound {p : Program} (hv : Valid p) {x : Placed} (hx : x ∈ placed p) : 4096 ≤ x.rva ∧ x.rva + x.bytes.length < 2 ^ 31 := by
  obtain ⟨r, hr, h1, h2, -⟩ := placed_rva p x hx
  obtain ⟨h3, h4, -⟩ := region_va p r hr
  have := hv.small
  omega

theorem rvaIn_lt {p : Program} (hv : Valid p) (k : Key) : rvaIn (early p) k < 2 ^ 31 := by
  unfold rvaIn
  split
  · next x hx =>
    have := (rva_bound hv (early_placed (List.mem_of_find?_eq_some hx))).2
    omega
  · omega

theorem rva_aligned {p : Program} {x : Placed} (hx : x ∈ placed p) {a : Nat} (ha : a ∣ 512) (h : x.ptr % a = 0) : x.rva % a = 0 := by
  obtain ⟨r, hr, h1, h2, h3⟩ := placed_rva p x hx
  obtain ⟨-, -, g1, g2⟩ := region_va p r hr
  have d1 : a ∣ r.c.file := Nat.dvd_trans ha (Nat.dvd_of_mod_eq_zero g1)
  have d2 : a ∣ r.c.va := Nat.dvd_trans ha (Nat.dvd_trans (by decide) (Nat.dvd_of_mod_eq_zero g2))
  have d3 : a ∣ x.ptr := Nat.dvd_of_mod_eq_zero h
  rw [h3] at d3
  have d4 : a ∣ x.rva - r.c.va := (Nat.dvd_add_right d1).1 d3
  have d5 : a ∣ (x.rva - r.c.va) + r.c.va := Nat.dvd_add d4 d2
  rw [Nat.sub_add_cancel h2] at d5
  exact Nat.mod_eq_zero_of_dvd d5

section Fields
variable {p : Program}

theorem header_at (hv : Valid p) : Spec.Image.header (file p) = 208 := by
  have h := (headers_parts (holds_headers hv)).1
  unfold Spec.Image.header
  have h1 : Holds (byte (file p)) 60 (u32 208) := by
    intro i hi
    have := h (60 + i) (by rw [dosStub_length]; have : i < 4 := hi; omega)
    rw [Nat.zero_add] at this
    rw [this]
    match i, hi with
    | 0, _ => rfl
    | 1, _ => rfl
    | 2, _ => rfl
    | 3, _ => rfl
  exact number_u32 h1 (by omega)

theorem number_of_sections (hv : Valid p) : number (byte (file p)) 2 214 = (sectionHeaders p).length ∧ number (byte (file p)) 2 228 = 240 ∧
    number (byte (file p)) 2 212 = 0x8664 := by
  have h := (headers_parts (holds_headers hv)).2.2.1
  unfold fileHeader at h
  simp only [holds_append, u16_length, u32_length, List.length_append, Nat.reduceAdd] at h
  have := sectionHeaders_le p
  exact ⟨number_u16 h.1.1.1.1.1.2 (by omega), number_u16 h.1.2 (by omega), number_u16 h.1.1.1.1.1.1 (by omega)⟩

theorem section_bounds (hv : Valid p) : ∀ h ∈ sectionHeaders p, h.size < 2 ^ 32 ∧ h.va < 2 ^ 32 ∧ h.raw < 2 ^ 32 ∧ h.ptr < 2 ^ 32 := by
  intro h hh
  have hs := hv.small
  have hb := consecutive_bound (consecutive_sections p) (toSection h) (List.mem_map_of_mem hh)
  have hb : 4096 ≤ h.va ∧ h.va + h.size ≤ (endCursor p).va := hb
  rcases header_region p h hh with ⟨h1, h2⟩ | ⟨r, hr, -, e1, e2, e3, e4⟩
  · exact ⟨by omega, by omega, by omega, by omega⟩
  · have := file_le_va p r hr
    have := alignUp_lt (x := r.c.file + r.bytes.length) (a := 0x200) (by omega)
    exact ⟨by omega, by omega, by omega, by omega⟩
where
  file_le_va (p : Program) : ∀ r ∈ regions p, r.c.file ≤ r.c.va := by
    have key : ∀ c : Cursor, ∀ n, c.file ≤ c.va → Cursor.Good c → (c.after n).file ≤ (c.after n).va := by
      intro c n h g
      unfold Cursor.after alignUp
      simp only []
      omega
    have k1 : textCursor.file ≤ textCursor.va := by decide
    have k2 := key textCursor (textBytes p).length k1 textCursor_good
    have k3 : (rdataCursor p).file ≤ (rdataCursor p).va := by
      have e1 : (textCursor.after (textBytes p).length).va + bssSize p = (rdataCursor p).va := rfl
      have e2 : (textCursor.after (textBytes p).length).file = (rdataCursor p).file := rfl
      omega
    have k4 := key (rdataCursor p) (rdataBytes p).length k3 (rdataCursor_good p)
    have k5 := key (dataCursor p) (dataBytes p).length k4 (dataCursor_good p)
    have k6 := key (relocCursor p) (relocBytes p).length k5 (relocCursor_good p)
    intro r hr
    unfold regions at hr
    simp only [List.mem_cons, List.not_mem_nil, or_false] at hr
    rcases hr with rfl | rfl | rfl | rfl | rfl
    · exact k1
    · exact k3
    · exact k4
    · exact k5
    · exact k6

/-- The table of sections in the file. -/
theorem sections_eq (hv : Valid p) : sections (file p) = (sectionHeaders p).map toSection := by
  have h := (headers_parts (holds_headers hv)).2.2.2.2
  unfold sections
  rw [header_at hv, (number_of_sections hv).1]
  apply List.ext_getElem
  · simp
  · intro i hi _
    have hi : i < (sectionHeaders p).length := by simpa using hi
    rw [List.getElem_map, List.getElem_map, List.getElem_range]
    have hm := List.getElem_mem hi
    have hn := sectionHeaders_name p _ hm
    have hb := blocks_at (sectionHeaders p) headerBytes 40 (fun h hh => headerBytes_length h (sectionHeaders_name p h hh)) i hi
    have hl := blocks_length (sectionHeaders p) headerBytes 40 (fun h hh => headerBytes_length h (sectionHeaders_name p h hh))
    have hh : Holds (byte (file p)) (472 + 40 * i) (headerBytes (sectionHeaders p)[i]) := by
      intro j hj
      have hj' : j < 40 := by rwa [headerBytes_length _ hn] at hj
      have h1 := h (40 * i + j) (by rw [hl]; omega)
      rw [Nat.add_assoc, h1]
      have h2 := hb j hj
      rw [List.getElem?_eq_getElem (by rw [hl]; omega), List.getElem?_eq_getElem hj] at h2
      exact Option.some.inj h2
    unfold headerBytes at hh
    simp only [holds_append, u16_length, u32_length, List.length_append, hn, Nat.reduceAdd] at hh
    obtain ⟨b1, b2, b3, b4⟩ := section_bounds hv _ hm
    unfold sectionAt toSection
    rw [header_at hv]
    simp only []
    rw [(number_of_sections hv).2.1]
    have e : 208 + 24 + 240 + 40 * i = 472 + 40 * i := by omega
    rw [e, number_u32 hh.1.1.1.1.1.1.1.1.2 b1, number_u32 hh.1.1.1.1.1.1.1.2 b2, number_u32 hh.1.1.1.1.1.1.2 b3, number_u32 hh.1.1.1.1.1.2 b4]

theorem field_eq (hv : Valid p) (n o : Nat) : field (file p) n o = number (byte (file p)) n (232 + o) := by
  unfold field; rw [header_at hv]

theorem holds_optional (hv : Valid p) : Holds (byte (file p)) 232 (optionalHeader p) := (headers_parts (holds_headers hv)).2.2.2.1

theorem sizeOfHeaders_at (hv : Valid p) : Spec.Image.sizeOfHeaders (file p) = 1024 := by
  have h := holds_optional hv
  unfold optionalHeader at h
  simp only [holds_append, u16_length, u32_length, u64_length, List.length_append, List.length_cons, List.length_nil, Nat.reduceAdd] at h
  unfold Spec.Image.sizeOfHeaders
  rw [field_eq hv]
  exact number_u32 h.1.1.1.1.1.1.1.1.1.1.2 (by omega)

theorem optional_fields (hv : Valid p) : field (file p) 2 0 = 0x20b ∧ entryPoint (file p) = entryRva p ∧ imageBase (file p) = p.imageBase ∧
    field (file p) 4 32 = 0x1000 ∧ field (file p) 4 36 = 0x200 ∧ sizeOfImage (file p) = (endCursor p).va ∧ field (file p) 4 108 = 16 := by
  have h := holds_optional hv
  unfold optionalHeader at h
  simp only [List.append_assoc, holds_append, u16_length, u32_length, u64_length, List.length_cons, List.length_nil, Nat.reduceAdd] at h
  have he : entryRva p < 2 ^ 32 := by
    unfold entryRva
    split
    · have := rvaIn_lt hv (.func ‹_›); omega
    · omega
  have hs := hv.small
  have hb := hv.base
  obtain ⟨h0, -, -, -, -, h16, -, h24, h32, h36, -, -, -, -, -, -, -, h56, -, -, -, -, -, -, -, -, -, h108, -⟩ := h
  unfold entryPoint imageBase sizeOfImage
  simp only [field_eq hv]
  exact ⟨number_u16 h0 (by omega), number_u32 h16 he, number_u64 h24 (by omega), number_u32 h32 (by omega), number_u32 h36 (by omega),
    number_u32 h56 (by omega), number_u32 h108 (by omega)⟩

theorem directory_eq (hv : Valid p) (i : Nat) (hi : i < 16) (d : Nat × Nat) (hd : (directories p)[i]? = some d) (h1 : d.1 < 2 ^ 32) (h2 : d.2 < 2 ^ 32) :
    directory (file p) i = d := by
  have h := holds_optional hv
  unfold optionalHeader at h
  rw [holds_append] at h
  have h := h.2
  simp only [u16_length, u32_length, u64_length, List.length_append, List.length_cons, List.length_nil, Nat.reduceAdd] at h
  have hl : (directories p).length = 16 := rfl
  have hd' : (directories p)[i]'(by rw [hl]; exact hi) = d := by
    rw [List.getElem?_eq_getElem (by rw [hl]; exact hi)] at hd; exact Option.some.inj hd
  have hb := blocks_at (directories p) (fun d => u32 d.1 ++ u32 d.2) 8 (fun _ _ => rfl) i (by rw [hl]; exact hi)
  have hbl := blocks_length (directories p) (fun d => u32 d.1 ++ u32 d.2) 8 (fun _ _ => rfl)
  have hh : Holds (byte (file p)) (344 + 8 * i) (u32 d.1 ++ u32 d.2) := by
    intro j hj
    have hj' : j < 8 := hj
    have h1 := h (8 * i + j) (by rw [hbl, hl]; omega)
    rw [Nat.add_assoc, h1]
    have h2 := hb j hj
    rw [hd', List.getElem?_eq_getElem (by rw [hbl, hl]; omega), List.getElem?_eq_getElem hj] at h2
    exact Option.some.inj h2
  rw [holds_append, u32_length] at hh
  unfold directory
  simp only [field_eq hv]
  have e1 : 232 + (112 + 8 * i) = 344 + 8 * i := by omega
  have e2 : 232 + (116 + 8 * i) = 344 + 8 * i + 4 := by omega
  rw [e1, e2, number_u32 hh.1 h1, number_u32 hh.2 h2]

end Fields

/-- What is in memory at the address of something is what is in the file. -/
theorem loaded_region {p : Program} (hv : Valid p) {r : Region} (hr : r ∈ regions p) {o : Nat} (ho : o < r.bytes.length) :
    loaded (file p) (r.c.va + o) = byte (file p) (r.c.file + o) := by
  obtain ⟨name, f, hh⟩ := region_header p r hr (fun he => by rw [he] at ho; cases ho)
  have hc := consecutive_sections p
  have hm := List.mem_map_of_mem (f := toSection) hh
  unfold loaded
  rw [sections_eq hv, find_section hc _ hm (r.c.va + o) (by show r.c.va ≤ _; omega) (by show _ < r.c.va + r.bytes.length; omega)]
  show (if r.c.va + o - r.c.va < alignUp (r.c.file + r.bytes.length) 0x200 - r.c.file then byte (file p) (r.c.file + (r.c.va + o - r.c.va)) else 0) = _
  have := le_alignUp (x := r.c.file + r.bytes.length) (a := 0x200) (by omega)
  rw [if_pos (by omega), Nat.add_sub_cancel_left]

theorem loaded_placed {p : Program} (hv : Valid p) {x : Placed} (hx : x ∈ placed p) {i : Nat} (hi : i < x.bytes.length) :
    loaded (file p) (x.rva + i) = byte (file p) (x.ptr + i) := by
  obtain ⟨r, hr, h1, h2, h3⟩ := placed_rva p x hx
  have := loaded_region hv hr (o := x.rva - r.c.va + i) (by omega)
  rw [show r.c.va + (x.rva - r.c.va + i) = x.rva + i by omega, show r.c.file + (x.rva - r.c.va + i) = x.ptr + i by omega] at this
  exact this

theorem holds_content {p : Program} (hv : Valid p) {x : Placed} (hx : x ∈ placed p) {k : Key} (hk : x.key = some k) :
    Holds (loaded (file p)) x.rva (content (writes p) k x.bytes) := by
  have hl := content_length (placed p) (placed_distinct p) hx hk (writes p) (all_fit p hv) x.bytes rfl
  have h := (written (placed p) (placed_distinct p) (placed_ordered p) (writes p) (all_fit p hv) (pushed p) (placed_inside p)).2 x hx k hk x.bytes rfl
    (placed_at p x hx)
  have h := holds_of_at h
  intro i hi
  rw [loaded_placed hv hx (by omega)]
  exact h i hi

/-- What was pushed and not written is in memory. -/
theorem holds_pushed {p : Program} (hv : Valid p) {x : Placed} (hx : x ∈ placed p) {k : Key} (hk : x.key = some k) {i : Nat} (hi : i < x.bytes.length)
    (h : ∀ w ∈ writes p, w.key = k → i < w.offset ∨ w.offset + w.bytes.length ≤ i) : loaded (file p) (x.rva + i) = x.bytes[i] := by
  have hl := content_length (placed p) (placed_distinct p) hx hk (writes p) (all_fit p hv) x.bytes rfl
  rw [holds_content hv hx hk i (by omega)]
  have := content_keeps (placed p) (placed_distinct p) hx hk i (writes p) (all_fit p hv) h x.bytes rfl
  rw [List.getElem?_eq_getElem (by omega), List.getElem?_eq_getElem hi] at this
  exact Option.some.inj this

/-- What was written last is in memory. -/
theorem holds_written {p : Program} (hv : Valid p) {x : Placed} (hx : x ∈ placed p) {a b : List Write} {w : Write} (e : writes p = a ++ w :: b)
    (hk : x.key = some w.key) (h : ∀ v ∈ b, Apart w v) : Holds (loaded (file p)) (x.rva + w.offset) w.bytes := by
  have hf := all_fit p hv
  obtain ⟨y, hy, hky, hl⟩ := hf w (by rw [e]; exact List.mem_append_right _ List.mem_cons_self)
  rw [same_key (placed_distinct p) hy hx hky hk] at hl
  have hc := holds_content hv hx hk
  have hcl := content_length (placed p) (placed_distinct p) hx hk (writes p) (all_fit p hv) x.bytes rfl
  have := content_last (placed p) (placed_distinct p) hx hk a b (fun v hv => hf v (by rw [e]; exact List.mem_append_left _ hv)) hl
    (fun v hv => hf v (by rw [e]; exact List.mem_append_right _ (List.mem_cons_of_mem _ hv))) h
  rw [← e] at this
  intro i hi
  rw [Nat.add_assoc, hc (w.offset + i) (by omega)]
  have := this i hi
  rw [List.getElem?_eq_getElem (by omega), List.getElem?_eq_getElem hi] at this
  exact Option.some.inj this

end Verif.Lemmas.Image
