import Verif.Lemmas.ImageKeys

/-!
# Lemmas: the sections in the file and in the image
-/
namespace Verif.Lemmas.Image
open Verif.Model.Image Verif.Model.BaseReloc Verif.Spec.Image

theorem sizeOfHeaders_eq : Model.Image.sizeOfHeaders = 1024 := by decide

/-- Sections start at multiples of 512 bytes in the file and on pages in the image. -/
def Cursor.Good (c : Cursor) : Prop := c.file % 0x200 = 0 ∧ c.va % 0x1000 = 0

theorem good_after (c : Cursor) (n : Nat) : Cursor.Good (c.after n) := ⟨alignUp_mod, alignUp_mod⟩

theorem textCursor_eq : textCursor = ⟨1024, 4096⟩ := rfl

theorem textCursor_good : Cursor.Good textCursor := by rw [textCursor_eq]; exact ⟨by decide, by decide⟩
theorem bssCursor_good (p : Program) : Cursor.Good (bssCursor p) := good_after _ _
theorem rdataCursor_good (p : Program) : Cursor.Good (rdataCursor p) := by
  refine ⟨(bssCursor_good p).1, ?_⟩
  have h1 := (bssCursor_good p).2
  have h2 : bssSize p % 0x1000 = 0 := alignUp_mod
  show ((bssCursor p).va + bssSize p) % 0x1000 = 0
  omega
theorem dataCursor_good (p : Program) : Cursor.Good (dataCursor p) := good_after _ _
theorem relocCursor_good (p : Program) : Cursor.Good (relocCursor p) := good_after _ _
theorem pdataCursor_good (p : Program) : Cursor.Good (pdataCursor p) := good_after _ _

theorem filled_length (c : Cursor) (b : List Nat) : c.file + (filled c b).length = (c.after b.length).file := by
  unfold filled Cursor.after zeros
  rw [List.length_append, List.length_replicate]
  have := le_alignUp (x := c.file + b.length) (a := 0x200) (by omega)
  show _ = alignUp (c.file + b.length) 0x200
  omega

theorem headerBytes_length (h : Header) (hn : h.name.length = 8) : (headerBytes h).length = 40 := by
  unfold headerBytes
  simp only [List.length_append, hn]
  rfl

theorem header_le (name : List Nat) (c : Cursor) (b : List Nat) (f : Nat) : (Model.Image.header name c b f).length ≤ 1 := by
  unfold Model.Image.header; split <;> simp

theorem sectionHeaders_le (p : Program) : (sectionHeaders p).length ≤ 6 := by
  unfold sectionHeaders
  simp only [List.length_append]
  have h1 := header_le [46, 116, 101, 120, 116, 0, 0, 0] textCursor (textBytes p) 0x60000020
  have h2 := header_le [46, 114, 100, 97, 116, 97, 0, 0] (rdataCursor p) (rdataBytes p) 0x40000040
  have h3 := header_le [46, 100, 97, 116, 97, 0, 0, 0] (dataCursor p) (dataBytes p) 0xC0000040
  have h4 := header_le [46, 114, 101, 108, 111, 99, 0, 0] (relocCursor p) (relocBytes p) 0x42000040
  have h5 := header_le [46, 112, 100, 97, 116, 97, 0, 0] (pdataCursor p) (pdataBytes p) 0x40000040
  have h6 : (bssHeader p).length ≤ 1 := by unfold bssHeader; split <;> simp
  omega

theorem header_name {name : List Nat} {c : Cursor} {b : List Nat} {f : Nat} {h : Header} (hh : h ∈ Model.Image.header name c b f) : h.name = name := by
  unfold Model.Image.header at hh
  split at hh
  · cases hh
  · rw [List.mem_singleton] at hh; rw [hh]

theorem sectionHeaders_name (p : Program) : ∀ h ∈ sectionHeaders p, h.name.length = 8 := by
  intro h hh
  unfold sectionHeaders at hh
  simp only [List.mem_append] at hh
  rcases hh with ((((hh | hh) | hh) | hh) | hh) | hh
  · rw [header_name hh]; rfl
  · unfold bssHeader at hh
    split at hh
    · cases hh
    · rw [List.mem_singleton] at hh; rw [hh]; rfl
  · rw [header_name hh]; rfl
  · rw [header_name hh]; rfl
  · rw [header_name hh]; rfl
  · rw [header_name hh]; rfl

theorem blocks_length {α : Type} (l : List α) (f : α → List Nat) (n : Nat) (h : ∀ x ∈ l, (f x).length = n) : (l.flatMap f).length = n * l.length := by
  induction l with
  | nil => simp
  | cons x l ih =>
    rw [List.flatMap_cons, List.length_append, ih (fun y hy => h y (List.mem_cons_of_mem _ hy)), h x List.mem_cons_self, List.length_cons,
      Nat.mul_add, Nat.mul_one, Nat.add_comm]

theorem blocks_at {α : Type} (l : List α) (f : α → List Nat) (n : Nat) (h : ∀ x ∈ l, (f x).length = n) (i : Nat) (hi : i < l.length) :
    At (l.flatMap f) (n * i) (f l[i]) := by
  induction l generalizing i with
  | nil => exact absurd hi (by simp)
  | cons x l ih =>
    have hx := h x List.mem_cons_self
    intro j hj
    cases i with
    | zero =>
      rw [List.flatMap_cons, Nat.mul_zero, Nat.zero_add]
      exact List.getElem?_append_left hj
    | succ i =>
      have := ih (fun y hy => h y (List.mem_cons_of_mem _ hy)) i (by rw [List.length_cons] at hi; omega) j hj
      rw [List.flatMap_cons, List.getElem?_append_right (by rw [hx, Nat.mul_add]; omega)]
      have e : n * (i + 1) + j - (f x).length = n * i + j := by rw [hx, Nat.mul_add]; omega
      rw [e]; exact this

/-- The headers before the table of sections. -/
def front (p : Program) : List Nat := dosStub ++ [0x50, 0x45, 0, 0] ++ fileHeader p ++ optionalHeader p

theorem u16_length (v : Nat) : (u16 v).length = 2 := rfl
theorem u32_length (v : Nat) : (u32 v).length = 4 := rfl
theorem u64_length (v : Nat) : (u64 v).length = 8 := rfl

set_option maxRecDepth 4000 in
theorem dosStub_length : dosStub.length = 208 := by decide

theorem fileHeader_length (p : Program) : (fileHeader p).length = 20 := rfl

theorem optionalHeader_length (p : Program) : (optionalHeader p).length = 240 := by
  unfold optionalHeader
  rw [List.length_append, blocks_length _ _ 8 (fun _ _ => rfl)]
  simp only [List.length_append, u16_length, u32_length, u64_length, List.length_cons, List.length_nil, directories]

theorem front_length (p : Program) : (front p).length = 472 := by
  unfold front
  rw [List.length_append, List.length_append, List.length_append, dosStub_length, fileHeader_length, optionalHeader_length]
  rfl

theorem headers_eq (p : Program) : headers p = front p ++ ((sectionHeaders p).flatMap headerBytes ++ zeros (552 - 40 * (sectionHeaders p).length)) := by
  have e : headers p = front p ++ (sectionHeaders p).flatMap headerBytes ++
      zeros (Model.Image.sizeOfHeaders - (front p ++ (sectionHeaders p).flatMap headerBytes).length) := rfl
  rw [e, List.append_assoc, List.length_append, front_length,
    blocks_length _ _ 40 (fun h hh => headerBytes_length h (sectionHeaders_name p h hh)), sizeOfHeaders_eq]
  have : 1024 - (472 + 40 * (sectionHeaders p).length) = 552 - 40 * (sectionHeaders p).length := by omega
  rw [this]

theorem headers_length (p : Program) : (headers p).length = 1024 := by
  rw [headers_eq, List.length_append, List.length_append, front_length,
    blocks_length _ _ 40 (fun h hh => headerBytes_length h (sectionHeaders_name p h hh))]
  unfold zeros
  rw [List.length_replicate]
  have := sectionHeaders_le p
  omega

/-- The start of a section in the file. -/
theorem text_start (p : Program) : (headers p).length = textCursor.file := by rw [headers_length, textCursor_eq]

theorem rdata_start (p : Program) : (headers p ++ filled textCursor (textBytes p)).length = (rdataCursor p).file := by
  rw [List.length_append, text_start, filled_length]; rfl

theorem data_start (p : Program) : (headers p ++ filled textCursor (textBytes p) ++ filled (rdataCursor p) (rdataBytes p)).length = (dataCursor p).file := by
  rw [List.length_append, rdata_start, filled_length]; rfl

theorem reloc_start (p : Program) : (headers p ++ filled textCursor (textBytes p) ++ filled (rdataCursor p) (rdataBytes p) ++
    filled (dataCursor p) (dataBytes p)).length = (relocCursor p).file := by
  rw [List.length_append, data_start, filled_length]; rfl

theorem pdata_start (p : Program) : (headers p ++ filled textCursor (textBytes p) ++ filled (rdataCursor p) (rdataBytes p) ++
    filled (dataCursor p) (dataBytes p) ++ filled (relocCursor p) (relocBytes p)).length = (pdataCursor p).file := by
  rw [List.length_append, reloc_start, filled_length]; rfl

theorem pushed_length (p : Program) : (pushed p).length = (endCursor p).file := by
  unfold pushed
  rw [List.length_append, pdata_start, filled_length]; rfl

theorem filled_append (c : Cursor) (b l : List Nat) : ∃ z, filled c b ++ l = b ++ z := ⟨_, List.append_assoc _ _ _⟩

/-- A section as a part of the image: where it starts and ends. -/
structure Region where
  c : Cursor
  pushes : List Push

/-- The regions with bytes. -/
def regions (p : Program) : List Region :=
  [⟨textCursor, textPushes p⟩, ⟨rdataCursor p, rdataPushes p⟩, ⟨dataCursor p, dataPushes p⟩, ⟨relocCursor p, relocPushes p⟩, ⟨pdataCursor p, pdataPushes p⟩]

def Region.places (r : Region) : List Placed := place r.c.file r.c.va r.pushes
def Region.bytes (r : Region) : List Nat := lay r.c.file r.pushes

theorem placed_regions (p : Program) : placed p = (regions p).flatMap Region.places := by
  unfold placed early regions Region.places
  simp only [List.flatMap_cons, List.flatMap_nil, List.append_nil, List.append_assoc]

/-- The bytes of a region are in the file at its start. -/
theorem region_split (p : Program) : ∀ r ∈ regions p, ∃ pre post, pushed p = pre ++ (r.bytes ++ post) ∧ pre.length = r.c.file := by
  intro r hr
  unfold regions at hr
  simp only [List.mem_cons, List.not_mem_nil, or_false] at hr
  rcases hr with rfl | rfl | rfl | rfl | rfl
  · refine ⟨_, zeros (alignUp (textCursor.file + (textBytes p).length) 0x200 - (textCursor.file + (textBytes p).length)) ++
        (filled (rdataCursor p) (rdataBytes p) ++ (filled (dataCursor p) (dataBytes p) ++
        (filled (relocCursor p) (relocBytes p) ++ filled (pdataCursor p) (pdataBytes p)))), ?_, text_start p⟩
    · unfold pushed
      rw [filled]
      simp only [List.append_assoc]
      rfl
  · refine ⟨_, zeros (alignUp ((rdataCursor p).file + (rdataBytes p).length) 0x200 - ((rdataCursor p).file + (rdataBytes p).length)) ++
        (filled (dataCursor p) (dataBytes p) ++ (filled (relocCursor p) (relocBytes p) ++ filled (pdataCursor p) (pdataBytes p))), ?_, rdata_start p⟩
    · unfold pushed
      rw [filled.eq_def (rdataCursor p)]
      simp only [List.append_assoc]
      rfl
  · refine ⟨_, zeros (alignUp ((dataCursor p).file + (dataBytes p).length) 0x200 - ((dataCursor p).file + (dataBytes p).length)) ++
        (filled (relocCursor p) (relocBytes p) ++ filled (pdataCursor p) (pdataBytes p)), ?_, data_start p⟩
    · unfold pushed
      rw [filled.eq_def (dataCursor p)]
      simp only [List.append_assoc]
      rfl
  · refine ⟨_, zeros (alignUp ((relocCursor p).file + (relocBytes p).length) 0x200 - ((relocCursor p).file + (relocBytes p).length)) ++
        filled (pdataCursor p) (pdataBytes p), ?_, reloc_start p⟩
    · unfold pushed
      rw [filled.eq_def (relocCursor p)]
      simp only [List.append_assoc]
      rfl
  · refine ⟨_, zeros (alignUp ((pdataCursor p).file + (pdataBytes p).length) 0x200 - ((pdataCursor p).file + (pdataBytes p).length)), ?_, pdata_start p⟩
    · unfold pushed
      rw [filled.eq_def (pdataCursor p)]
      simp only [List.append_assoc]
      rfl

theorem after_file (c : Cursor) (n : Nat) : c.file + n ≤ (c.after n).file := le_alignUp (by omega)

theorem regions_ordered (p : Program) : (regions p).Pairwise (fun r s => r.c.file + r.bytes.length ≤ s.c.file) := by
  have h1 := after_file textCursor (textBytes p).length
  have h2 := after_file (rdataCursor p) (rdataBytes p).length
  have h3 := after_file (dataCursor p) (dataBytes p).length
  have h4 := after_file (relocCursor p) (relocBytes p).length
  have e1 : (textCursor.after (textBytes p).length).file = (rdataCursor p).file := rfl
  have e2 : ((rdataCursor p).after (rdataBytes p).length).file = (dataCursor p).file := rfl
  have e3 : ((dataCursor p).after (dataBytes p).length).file = (relocCursor p).file := rfl
  have e4 : ((relocCursor p).after (relocBytes p).length).file = (pdataCursor p).file := rfl
  unfold regions Region.bytes
  unfold textBytes at h1 e1
  unfold rdataBytes at h2 e2
  unfold dataBytes at h3 e3
  unfold relocBytes at h4 e4
  simp only [List.pairwise_cons, List.mem_cons, List.not_mem_nil, or_false, forall_eq_or_imp, forall_eq]
  refine ⟨⟨?_, ?_, ?_, ?_⟩, ⟨?_, ?_, ?_⟩, ⟨?_, ?_⟩, ?_, ?_⟩ <;> first | omega | simp

theorem placed_ordered (p : Program) : (placed p).Pairwise Ordered := by
  rw [placed_regions, List.pairwise_flatMap]
  refine ⟨fun r _ => place_ordered _ _ _, (regions_ordered p).imp (fun {r s} h x hx y hy => ?_)⟩
  have h1 := (place_inside _ _ _ x hx).2.1
  have h2 := (place_inside _ _ _ y hy).1
  unfold Ordered
  unfold Region.bytes at h
  omega

theorem placed_at (p : Program) : ∀ x ∈ placed p, At (pushed p) x.ptr x.bytes := by
  intro x hx
  rw [placed_regions] at hx
  obtain ⟨r, hr, hx⟩ := List.mem_flatMap.1 hx
  obtain ⟨pre, post, e, hl⟩ := region_split p r hr
  rw [e]
  unfold Region.places at hx
  unfold Region.bytes
  rw [← hl] at hx ⊢
  exact place_at _ pre post _ x hx

theorem placed_inside (p : Program) : ∀ x ∈ placed p, x.ptr + x.bytes.length ≤ (pushed p).length := by
  intro x hx
  rw [placed_regions] at hx
  obtain ⟨r, hr, hx⟩ := List.mem_flatMap.1 hx
  obtain ⟨pre, post, e, hl⟩ := region_split p r hr
  have := (place_inside _ _ _ x hx).2.1
  rw [e, List.length_append, List.length_append, hl]
  unfold Region.bytes
  omega

theorem region_file (p : Program) : ∀ r ∈ regions p, 1024 ≤ r.c.file := by
  intro r hr
  have h0 : textCursor.file = 1024 := by rw [textCursor_eq]
  have h := List.pairwise_cons.1 (regions_ordered p)
  rcases List.mem_cons.1 hr with rfl | hr
  · exact Nat.le_of_eq h0.symm
  · have := h.1 r hr
    simp only [h0] at this
    omega

theorem placed_after (p : Program) : ∀ x ∈ placed p, 1024 ≤ x.ptr := by
  intro x hx
  rw [placed_regions] at hx
  obtain ⟨r, hr, hx⟩ := List.mem_flatMap.1 hx
  have := (place_inside _ _ _ x hx).1
  have := region_file p r hr
  omega

end Verif.Lemmas.Image
