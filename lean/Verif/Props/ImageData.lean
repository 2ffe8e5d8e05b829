import Verif.Props.ImageTables

/-!
# C79: thread local storage, relocations, debug information and alignment
-/
namespace Verif.Props.Image
open Verif.Model.Image Verif.Model.BaseReloc Verif.Spec.Image Verif.Lemmas.Image

/-! ## Thread local storage -/

theorem rdata_early {p : Program} {z : Placed} (hz : z ∈ place (rdataCursor p).file (rdataCursor p).va (rdataPushes p)) : z ∈ early p :=
  List.mem_append_left _ (List.mem_append_right _ hz)

theorem bss_lt (p : Program) (hv : Valid p) (i : Nat) (d : Nat × Nat) (hd : p.bss[i]? = some d) : bssRva p i + max 1 d.1 < 2 ^ 31 := by
  obtain ⟨-, h2⟩ := bss_inside p hv i d hd
  have e : (bssCursor p).va + bssSize p = (rdataCursor p).va := rfl
  have := (region_va p ⟨rdataCursor p, rdataPushes p⟩ (List.mem_cons_of_mem _ List.mem_cons_self)).2.1
  have this : (rdataCursor p).va + _ ≤ _ := this
  have := hv.small
  omega

/-- The directory of thread local storage is at a multiple of 64. -/
theorem tlsDirectory_aligned (p : Program) (ht : p.tls ≠ []) : rvaIn (early p) .tlsDirectory % 64 = 0 := by
  obtain ⟨f, -, -, et⟩ := tlsPushes_eq ht
  obtain ⟨A, e⟩ : ∃ A, rdataPushes p = A ++ [(⟨none, 0x40, 0, []⟩ : Push), ⟨some .tlsDirectory, 8, 0, zeros 40⟩] := by
    refine ⟨importPushes p ++ (debugPushes p ++ (stringPushes p ++ (floatPushes p ++ (exportPushes p ++ ([⟨some .tlsStart, f.1, 0, []⟩] ++
      (p.tls.zipIdx.map (fun d => ⟨some (.tls d.2), d.1.1, 0, nonempty d.1.2⟩) ++ [⟨some .tlsEnd, 1, 0, []⟩, ⟨some .tlsCallbacks, 8, 0, zeros 8⟩])))))), ?_⟩
    unfold rdataPushes
    rw [et]
    simp only [List.append_assoc, List.cons_append, List.nil_append]
  have m : ∀ z ∈ place (rdataCursor p).file (rdataCursor p).va (rdataPushes p), z ∈ early p := fun z hz => rdata_early hz
  rw [e, place_append] at m
  obtain ⟨at_, hat⟩ : ∃ at_, at_ = (rdataCursor p).file + (lay (rdataCursor p).file A).length := ⟨_, rfl⟩
  rw [← hat] at m
  rw [place, place] at m
  have hx := m _ (List.mem_append_right _ (List.mem_cons_of_mem _ List.mem_cons_self))
  rw [rvaIn_eq (early_distinct p) hx rfl]
  refine rva_aligned (early_placed hx) (show 64 ∣ 512 by decide) ?_
  have h64 : (at_ + padding at_ 64) % 64 = 0 := padding_mod (by omega)
  simp only [List.length_nil, Nat.add_zero]
  have : padding (at_ + padding at_ 64) 8 = 0 := by
    unfold padding at h64 ⊢; omega
  rw [this]
  exact h64

/-- **C79.** The loader finds the storage that it has to copy for every thread, which has all variables of threads, the object for its index, and a list
of callbacks that is empty. -/
theorem C79_tls (p : Program) (hv : Valid p) (ht : p.tls ≠ []) :
    directory (file p) 9 = (address p .tlsDirectory, 40) ∧
    number (memory p) 8 (address p .tlsDirectory) = imageBase (file p) + address p .tlsStart ∧
    number (memory p) 8 (address p .tlsDirectory + 8) = imageBase (file p) + address p .tlsEnd ∧
    number (memory p) 8 (address p .tlsDirectory + 16) = imageBase (file p) + sourceRva p (.bss p.tlsIndex) ∧
    number (memory p) 8 (number (memory p) 8 (address p .tlsDirectory + 24) - imageBase (file p)) = 0 ∧
    ∀ i d, p.tls[i]? = some d → address p .tlsStart ≤ address p (.tls i) ∧ address p (.tls i) + d.2.length ≤ address p .tlsEnd := by
  obtain ⟨f, hf, -, et⟩ := tlsPushes_eq ht
  have hw := mem_written hv (tlsDirectory_push ht) (by simp) rfl (.tls ht) (fun v hvw => by
    cases hvw with
    | tls => exact Or.inl rfl
    | patch q hq => exact Or.inr (fun he => absurd he.symm (not_patched hv hq rfl))
    | debug w hd hw hkw => exact Or.inr (fun he => by rw [hkw] at he; cases he)
    | _ => exact Or.inr (fun he => by cases he))
  simp only [holds_append, u32_length, u64_length, List.length_append, Nat.reduceAdd, Nat.add_zero] at hw
  obtain ⟨⟨⟨⟨⟨w0, w8⟩, w16⟩, w24⟩, -⟩, -⟩ := hw
  have l0 := rvaIn_lt hv .tlsStart
  have l1 := rvaIn_lt hv .tlsEnd
  have l2 := rvaIn_lt hv .tlsCallbacks
  have l3 := rvaIn_lt hv .tlsDirectory
  have hx := List.getElem?_eq_getElem (hv.tlsIndex ht)
  have l4 := bss_lt p hv _ _ hx
  have hb := hv.base
  have e4 : sourceRva p (.bss p.tlsIndex) = bssRva p p.tlsIndex := rfl
  rw [(C79_entry p hv).1]
  refine ⟨?_, number_u64 w0 (by show _ + rvaIn (early p) .tlsStart < _; omega), number_u64 w8 (by show _ + rvaIn (early p) .tlsEnd < _; omega), ?_, ?_, fun i d hd => ?_⟩
  · refine directory_eq hv 9 (by omega) _ ?_ (by show rvaIn (early p) .tlsDirectory < _; omega) (by show 40 < _; omega)
    show some (if p.tls = [] then (0, 0) else (rvaIn (early p) .tlsDirectory, 40)) = _
    rw [if_neg ht]
  · rw [e4]; exact number_u64 w16 (by omega)
  · rw [number_u64 w24 (by omega), Nat.add_sub_cancel_left]
    have hp : (⟨some .tlsCallbacks, 8, 0, zeros 8⟩ : Push) ∈ earlyPushes p := by
      apply tls_push
      rw [et]
      exact List.mem_append_right _ (by simp)
    have h := holds_untouched hv hp (by simp) rfl (fun w hw he => by
      cases hw with
      | patch q hq => exact not_patched hv hq rfl he
      | debug w hd hw hkw => rw [hkw] at he; cases he
      | _ => cases he)
    exact number_u64 (v := 0) h (by omega)
  · have hi := get_lt hd
    have hda := hv.tlsAligned d (List.mem_of_getElem? hd)
    let v : List Push := p.tls.zipIdx.map (fun d => ⟨some (.tls d.2), d.1.1, 0, nonempty d.1.2⟩)
    let c : List Push := [⟨some .tlsEnd, 1, 0, []⟩, ⟨some .tlsCallbacks, 8, 0, zeros 8⟩, ⟨none, 0x40, 0, []⟩, ⟨some .tlsDirectory, 8, 0, zeros 40⟩]
    let a : List Push := importPushes p ++ debugPushes p ++ stringPushes p ++ floatPushes p ++ exportPushes p ++ [⟨some .tlsStart, f.1, 0, []⟩]
    have mv : (⟨some (.tls i), d.1, 0, nonempty d.2⟩ : Push) ∈ v := List.mem_map.2 ⟨(d, i), mem_zipIdx hd, rfl⟩
    have e1 : rdataPushes p = a ++ (v ++ c) := by
      show importPushes p ++ debugPushes p ++ stringPushes p ++ floatPushes p ++ exportPushes p ++ tlsPushes p = _
      rw [et]
      show importPushes p ++ debugPushes p ++ stringPushes p ++ floatPushes p ++ exportPushes p ++ ([(⟨some .tlsStart, f.1, 0, []⟩ : Push)] ++ v ++ c) =
        (importPushes p ++ debugPushes p ++ stringPushes p ++ floatPushes p ++ exportPushes p ++ [⟨some .tlsStart, f.1, 0, []⟩]) ++ (v ++ c)
      simp only [List.append_assoc]
    have e2 : rdataPushes p = (a ++ v) ++ c := e1.trans (List.append_assoc a v c).symm
    refine ⟨?_, ?_⟩
    · obtain ⟨x, hx, y, hy, x1, y1, -, -, hxy⟩ := split_order (a := a) (b := v ++ c) (q := ⟨some .tlsStart, f.1, 0, []⟩) (r := ⟨some (.tls i), d.1, 0, nonempty d.2⟩)
        (List.mem_append_right _ (List.mem_singleton.2 rfl)) (List.mem_append_left _ mv) (hv.tlsAligned f hf) hda (rdataCursor p).file (rdataCursor p).va
      rw [← e1] at hx hy
      show rvaIn (early p) .tlsStart ≤ rvaIn (early p) (.tls i)
      rw [rvaIn_eq (early_distinct p) (rdata_early hx) x1, rvaIn_eq (early_distinct p) (rdata_early hy) y1]
      omega
    · obtain ⟨x, hx, y, hy, x1, y1, x2, -, hxy⟩ := split_order (a := a ++ v) (b := c) (q := ⟨some (.tls i), d.1, 0, nonempty d.2⟩) (r := ⟨some .tlsEnd, 1, 0, []⟩)
        (List.mem_append_right _ mv) List.mem_cons_self hda (by simp) (rdataCursor p).file (rdataCursor p).va
      rw [← e2] at hx hy
      show rvaIn (early p) (.tls i) + d.2.length ≤ rvaIn (early p) .tlsEnd
      rw [rvaIn_eq (early_distinct p) (rdata_early hx) x1, rvaIn_eq (early_distinct p) (rdata_early hy) y1]
      rw [x2] at hxy
      have : d.2.length ≤ (nonempty d.2).length := by
        unfold nonempty
        split
        · next h => rw [h]; exact Nat.zero_le _
        · exact Nat.le_refl _
      have hxy : x.rva + (nonempty d.2).length ≤ y.rva := hxy
      omega

/-! ## Relocations -/

/-- **C79.** If the image is loaded somewhere else, the loader corrects exactly the absolute addresses, unless the image says that it cannot be moved, and the
addresses in the directory of thread local storage. -/
theorem C79_relocations (p : Program) (hv : Valid p) : ∃ bytes l, Holds (memory p) (directory (file p) 5).1 bytes ∧
    bytes.length = (directory (file p) 5).2 ∧ Verif.Spec.BaseReloc.table bytes = some l ∧
    l.Perm ((if p.tls = [] then [] else [0, 8, 16, 24].map (address p .tlsDirectory + ·)) ++
      (if p.noDynamicBase then [] else (p.patches.filter (·.kind = .absolute)).map (fun q => address p q.dest + q.at_))) := by
  obtain ⟨bytes, hbytes⟩ : ∃ b, b = write (blocks (if p.tls = [] then none else some (rvaIn (early p) .tlsDirectory)) (relocated p)) := ⟨_, rfl⟩
  have hpad : padding (relocCursor p).file 1 = 0 := by simp [padding, Nat.mod_one]
  have hx : (⟨some .reloc, (relocCursor p).file, (relocCursor p).va, bytes⟩ : Placed) ∈ placed p := by
    refine List.mem_append_left _ (List.mem_append_right _ ?_)
    unfold relocPushes
    rw [place]
    simp only [hpad, Nat.add_zero, ← hbytes]
    exact List.mem_cons_self
  have hb : 4096 ≤ (relocCursor p).va ∧ (relocCursor p).va + bytes.length < 2 ^ 31 := rva_bound hv hx
  have hrb : relocBytes p = bytes := by
    unfold relocBytes relocPushes
    rw [lay, ← hbytes]
    simp only [hpad, lay, List.replicate_zero, List.nil_append, List.append_nil]
  obtain ⟨l, h1, h2⟩ := Verif.Props.BaseReloc.C75_relocations (if p.tls = [] then none else some (rvaIn (early p) .tlsDirectory)) (relocated p)
    (fun r hr => by
      split at hr
      · cases hr
      · next ht =>
        cases hr
        exact ⟨tlsDirectory_aligned p ht, by have := rvaIn_lt hv .tlsDirectory; omega⟩)
    (fun r hr => by
      unfold relocated at hr
      split at hr
      · cases hr
      · obtain ⟨q, hq, rfl⟩ := List.mem_map.1 hr
        obtain ⟨c, hc, hcl⟩ := hv.patches q (List.mem_filter.1 hq).1
        obtain ⟨s, hs, ha, hk, rfl⟩ := bytesOf_push hv hc
        obtain ⟨y, hy, -, e2, e3, -⟩ := at_push hs ha hk
        have := (rva_bound hv hy).2
        rw [e2, e3] at this
        omega)
    (by
      unfold relocated
      split
      · exact Nat.two_pow_pos 30
      · rw [List.length_map]
        exact Nat.lt_of_le_of_lt (List.length_filter_le _ _) hv.manyPatches)
  rw [← hbytes] at h1
  have hperm : l.Perm ((if p.tls = [] then [] else [0, 8, 16, 24].map (address p .tlsDirectory + ·)) ++
      (if p.noDynamicBase then [] else (p.patches.filter (·.kind = .absolute)).map (fun q => address p q.dest + q.at_))) := by
    refine h2.trans (List.Perm.of_eq ?_)
    congr 1
    split
    · rfl
    · rfl
  by_cases hne : bytes = []
  · refine ⟨[], l, fun i hi => (by cases hi), ?_, by rw [← hne]; exact h1, hperm⟩
    have : directory (file p) 5 = (0, 0) := by
      refine directory_eq hv 5 (by omega) _ ?_ (by show 0 < _; omega) (by show 0 < _; omega)
      show some (if relocBytes p = [] then (0, 0) else ((relocCursor p).va, (relocBytes p).length)) = _
      rw [hrb, if_pos hne]
    rw [this]
    rfl
  · have : directory (file p) 5 = ((relocCursor p).va, bytes.length) := by
      refine directory_eq hv 5 (by omega) _ ?_ (by show (relocCursor p).va < _; omega) (by show bytes.length < _; omega)
      show some (if relocBytes p = [] then (0, 0) else ((relocCursor p).va, (relocBytes p).length)) = _
      rw [hrb, if_neg hne]
    rw [this]
    refine ⟨bytes, l, fun i hi => ?_, rfl, h1, hperm⟩
    exact holds_pushed hv hx rfl hi (fun w hw he => by
      cases isWrite hw with
      | patch q hq => exact absurd he (not_patched hv hq rfl)
      | debug w hd hw hkw => rw [hkw] at he; cases he
      | _ => cases he)

/-! ## Debug information -/

/-- **C79.** A debugger finds the GUID and the path of the debug information, in memory and in the file. -/
theorem C79_debug (p : Program) (hv : Valid p) (guid path : List Nat) (hd : p.debug = some (guid, path)) :
    let a := (directory (file p) 6).1
    let record := [0x52, 0x53, 0x44, 0x53] ++ guid ++ [1, 0, 0, 0] ++ path ++ [0]
    (directory (file p) 6).2 = 28 ∧ number (memory p) 4 (a + 12) = 2 ∧ number (memory p) 4 (a + 16) = record.length ∧
      Holds (memory p) (number (memory p) 4 (a + 20)) record ∧ Holds (byte (file p)) (number (memory p) 4 (a + 24)) record := by
  have hne : p.debug ≠ none := by rw [hd]; exact nofun
  have hp : ∀ q ∈ [(⟨none, 8, 0, []⟩ : Push), ⟨none, 4, 0, zeros 4⟩, ⟨some .debugInfo, 1, 0, debugRecord guid path⟩, ⟨none, 4, 0, []⟩,
      ⟨some .debugDirectory, 4, 0, zeros 28⟩], q ∈ earlyPushes p := by
    intro q hq
    apply debug_push
    unfold debugPushes
    rw [hd]
    exact hq
  have l1 := rvaIn_lt hv .debugDirectory
  have hdir : directory (file p) 6 = (rvaIn (early p) .debugDirectory, 28) := by
    refine directory_eq hv 6 (by omega) _ ?_ (by show rvaIn (early p) .debugDirectory < _; omega) (by show 28 < _; omega)
    show some (if p.debug = none then (0, 0) else (rvaIn (early p) .debugDirectory, 28)) = _
    rw [if_neg hne]
  have hwm : debugWrites p = [⟨.debugDirectory, 0, u32 0 ++ u32 0 ++ u16 0 ++ u16 0 ++ u32 2 ++ u32 (debugRecord guid path).length ++
      u32 (rvaIn (early p) .debugInfo) ++ u32 (ptrIn (early p) .debugInfo)⟩] := by
    unfold debugWrites; rw [hd]
  have hw := mem_written hv (hp ⟨some .debugDirectory, 4, 0, zeros 28⟩ (by simp)) (by simp) rfl (.debug _ hne (by rw [hwm]; exact List.mem_singleton.2 rfl) rfl)
    (fun v hvw => by
      cases hvw with
      | patch q hq => exact Or.inr (fun he => absurd he.symm (not_patched hv hq rfl))
      | debug w hd hw hkw => rw [hwm] at hw; exact Or.inl (List.mem_singleton.1 hw)
      | _ => exact Or.inr (fun he => by cases he))
  simp only [holds_append, u32_length, u16_length, List.length_append, Nat.reduceAdd, Nat.add_zero] at hw
  obtain ⟨⟨⟨⟨-, w12⟩, w16⟩, w20⟩, w24⟩ := hw
  obtain ⟨x, hx, e1, e2, e3, -⟩ := at_push (hp ⟨some .debugInfo, 1, 0, debugRecord guid path⟩ (by simp)) (by simp) rfl
  obtain ⟨y, hy, f1, f2, -⟩ := early_of_push (hp ⟨some .debugInfo, 1, 0, debugRecord guid path⟩ (by simp)) (by simp)
  have hxy := same_key (placed_distinct p) hx (early_placed hy) e1 f1
  subst hxy
  have e4 : ptrIn (early p) .debugInfo = x.ptr := ptrIn_eq (early_distinct p) hy f1
  have e2 : x.bytes = debugRecord guid path := e2
  have hb := (rva_bound hv hx).2
  have hb2 : x.ptr < 2 ^ 32 := by
    obtain ⟨r, hr, g1, g2, g3⟩ := placed_rva p x hx
    have := section_bounds.file_le_va p r hr
    omega
  have hm : Holds (memory p) x.rva (debugRecord guid path) := by
    rw [e3]
    exact holds_untouched hv (hp ⟨some .debugInfo, 1, 0, debugRecord guid path⟩ (by simp)) (by simp) rfl (fun w hw he => by
      cases hw with
      | patch q hq => exact not_patched hv hq rfl he
      | debug w hd hw hkw => rw [hkw] at he; cases he
      | _ => cases he)
  simp only [hdir]
  rw [e2] at hb
  rw [number_u32 w12 (by omega), number_u32 w16 (by omega), number_u32 w20 (by rw [← e3]; omega), number_u32 w24 (by rw [e4]; omega), ← e3, e4]
  refine ⟨trivial, rfl, rfl, hm, fun i hi => ?_⟩
  have hi' : i < x.bytes.length := by rw [e2]; exact hi
  rw [← loaded_placed hv hx hi']
  exact hm i hi

/-! ## Alignment -/

/-- **C79.** Initialized objects are aligned, if their alignment is at most 512. -/
theorem C79_data_aligned_partial (p : Program) (hv : Valid p) (i : Nat) (d : Nat × List Nat) (hd : p.data[i]? = some d) (h : d.1 ∣ 512) :
    address p (.data i) % d.1 = 0 :=
  aligned_push (data_push hd) (hv.dataAligned d (List.mem_of_getElem? hd)) rfl h

/-- **C79.** Uninitialized objects are aligned, if their alignment is at most 4096. -/
theorem C79_bss_aligned_partial (p : Program) (hv : Valid p) (i : Nat) (d : Nat × Nat) (hd : p.bss[i]? = some d) (h : d.2 ∣ 4096) :
    sourceRva p (.bss i) % d.2 = 0 := by
  obtain ⟨o, e1, -, e3, -⟩ := bssOffsets_spec p.bss hv.bssAligned 0 i d hd
  have e : sourceRva p (.bss i) = (bssCursor p).va + o := by
    show bssRva p i = _
    unfold bssRva; rw [List.getD_eq_getElem?_getD, e1]; rfl
  have hva : (bssCursor p).va % 4096 = 0 := alignUp_mod
  rw [e]
  exact Nat.mod_eq_zero_of_dvd (Nat.dvd_add (Nat.dvd_trans h (Nat.dvd_of_mod_eq_zero hva)) (Nat.dvd_of_mod_eq_zero e3))

/-- **C79.** Floating point constants are aligned to their size. -/
theorem C79_floats_aligned (p : Program) (hv : Valid p) (i : Nat) (f : List Nat) (hf : p.floats[i]? = some f) : address p (.float i) % f.length = 0 := by
  have hl := hv.floats f (List.mem_of_getElem? hf)
  refine aligned_push (float_push hf) (by show 0 < f.length; omega) rfl ?_
  show f.length ∣ 512
  rcases hl with h | h <;> rw [h] <;> decide

/-- **C79.** The copies of the variables of threads are aligned, if their alignment divides the one of the first variable, which is at most 512. The
loader aligns the start of the copies to 4096 bytes. -/
theorem C79_tls_aligned_partial (p : Program) (hv : Valid p) (f : Nat × List Nat) (hf : p.tls[0]? = some f) (h : f.1 ∣ 512) (i : Nat) (d : Nat × List Nat)
    (hd : p.tls[i]? = some d) (hdf : d.1 ∣ f.1) : (address p (.tls i) - address p .tlsStart) % d.1 = 0 := by
  have ht : p.tls ≠ [] := fun he => by rw [he] at hf; cases hf
  obtain ⟨f', hf', e0, et⟩ := tlsPushes_eq ht
  rw [hf] at e0
  cases e0
  have hp : (⟨some .tlsStart, f.1, 0, []⟩ : Push) ∈ earlyPushes p := by
    apply tls_push
    rw [et]
    exact List.mem_append_left _ (List.mem_append_left _ (List.mem_singleton.2 rfl))
  have h1 := aligned_push hp (hv.tlsAligned f hf') rfl h
  have h2 := aligned_push (tlsVar_push hd) (hv.tlsAligned d (List.mem_of_getElem? hd)) rfl (Nat.dvd_trans hdf h)
  have h1 : rvaIn (early p) .tlsStart % f.1 = 0 := h1
  have h2 : rvaIn (early p) (.tls i) % d.1 = 0 := h2
  exact Nat.mod_eq_zero_of_dvd (Nat.dvd_sub (Nat.dvd_of_mod_eq_zero h2) (Nat.dvd_trans hdf (Nat.dvd_of_mod_eq_zero h1)))

end Verif.Props.Image
