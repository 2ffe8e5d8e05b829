import Verif.Lemmas.ImageLoad
import Verif.Props.Sort
import Verif.Props.ErrorOrder

/-!
# Lemmas: the file and its writes
-/
namespace Verif.Lemmas.Image
open Verif.Model.Image Verif.Model.BaseReloc Verif.Spec.Image Verif.Sort Verif.ErrorOrder

/-- How many bytes a patch writes. -/
def patchSize : Kind → Nat
  | .ripRelative => 4
  | .absolute => 8
  | .sectionOffset => 4

/-- The bytes of a function, of an object or of a variable of threads. -/
def bytesOf (p : Program) : Key → Option (List Nat)
  | .func i => p.functions[i]?
  | .data i => p.data[i]?.map (fun d => nonempty d.2)
  | .tls i => p.tls[i]?.map (fun d => nonempty d.2)
  | _ => none

/-- What the earlier stages guarantee. -/
structure Valid (p : Program) : Prop where
  /-- The image is smaller than 2 GB. -/
  small : (endCursor p).va < 2 ^ 31
  bssAligned : ∀ d ∈ p.bss, 0 < d.2
  tlsAligned : ∀ d ∈ p.tls, 0 < d.1
  dataAligned : ∀ d ∈ p.data, 0 < d.1
  elements : ∀ s ∈ p.strings, s.2 = 1 ∨ s.2 = 2 ∨ s.2 = 4
  manyStrings : p.strings.length < 2 ^ 61
  floats : ∀ f ∈ p.floats, f.length = 4 ∨ f.length = 8
  /-- There are stubs only for imports, and one for each. -/
  stubs : ∀ s ∈ p.stubs, ∃ d, p.dlls[s.1]? = some d ∧ s.2 < d.imports.length
  stubsOnce : p.stubs.Nodup
  ordinals : ∀ d ∈ p.dlls, ∀ i ∈ d.imports, i.ordinal < 2 ^ 16
  exports : ∀ e ∈ p.exports, e.2 < p.functions.length
  exportsOnce : (p.exports.map (·.1)).Nodup
  manyExports : p.exports.length < 2 ^ 16
  unwind : p.unwind.length = p.functions.length
  unwindAligned : ∀ u ∈ p.unwind, u.length % 4 = 0
  /-- Patches are inside of functions and objects. -/
  patches : ∀ q ∈ p.patches, ∃ b, bytesOf p q.dest = some b ∧ q.at_ + patchSize q.kind ≤ b.length
  manyPatches : p.patches.length < 2 ^ 30
  base : p.imageBase + 2 ^ 31 ≤ 2 ^ 64
  entry : ∀ i, p.entry = some i → i < p.functions.length
  tlsIndex : p.tls ≠ [] → p.tlsIndex < p.bss.length

theorem mem_zipIdx {α : Type} {l : List α} {i : Nat} {a : α} (h : l[i]? = some a) : (a, i) ∈ l.zipIdx := by
  rw [List.mem_zipIdx_iff_getElem?]; exact h

theorem zipIdx_get {α : Type} {l : List α} {x : α × Nat} (h : x ∈ l.zipIdx) : l[x.2]? = some x.1 := by
  rwa [List.mem_zipIdx_iff_getElem?] at h

theorem func_push {p : Program} {i : Nat} {b : List Nat} (h : p.functions[i]? = some b) : (⟨some (.func i), 1, 0, b⟩ : Push) ∈ earlyPushes p := by
  refine List.mem_append_left _ (List.mem_append_left _ (List.mem_append_left _ ?_))
  exact List.mem_flatMap.2 ⟨(b, i), mem_zipIdx h, by simp⟩

theorem stub_push {p : Program} {i : Nat} {s : Nat × Nat} (h : p.stubs[i]? = some s) :
    (⟨some (.stub i), 1, 0, [0xff, 0x25, 0, 0, 0, 0]⟩ : Push) ∈ earlyPushes p := by
  refine List.mem_append_left _ (List.mem_append_left _ (List.mem_append_right _ ?_))
  exact List.mem_map.2 ⟨(s, i), mem_zipIdx h, rfl⟩

theorem rdata_push {p : Program} {q : Push} (h : q ∈ rdataPushes p) : q ∈ earlyPushes p :=
  List.mem_append_left _ (List.mem_append_right _ h)

theorem import_push {p : Program} {q : Push} (h : q ∈ importPushes p) : q ∈ earlyPushes p :=
  rdata_push (List.mem_append_left _ (List.mem_append_left _ (List.mem_append_left _ (List.mem_append_left _ (List.mem_append_left _ h)))))

theorem descriptors_push {p : Program} (h : p.dlls ≠ []) : (⟨some .descriptors, 4, 0, zeros (20 * (p.dlls.length + 1))⟩ : Push) ∈ earlyPushes p := by
  apply import_push
  unfold importPushes
  rw [if_neg h]
  exact List.mem_cons_self

theorem dll_push {p : Program} {k : Nat} {d : Dll} (h : p.dlls[k]? = some d) {q : Push} (hq : q ∈ dllPushes k d) : q ∈ earlyPushes p := by
  apply import_push
  unfold importPushes
  rw [if_neg (fun he => by rw [he] at h; cases h)]
  exact List.mem_cons_of_mem _ (List.mem_flatMap.2 ⟨(d, k), mem_zipIdx h, hq⟩)

theorem dllName_push {p : Program} {k : Nat} {d : Dll} (h : p.dlls[k]? = some d) : (⟨some (.dllName k), 1, 0, d.name ++ [0]⟩ : Push) ∈ earlyPushes p :=
  dll_push h (by simp [dllPushes])

theorem slots_push {p : Program} {k : Nat} {d : Dll} (h : p.dlls[k]? = some d) :
    (⟨some (.slots k), 8, 0, zeros (8 * (d.imports.length + 1))⟩ : Push) ∈ earlyPushes p :=
  dll_push h (by simp [dllPushes])

theorem lookup_push {p : Program} {k : Nat} {d : Dll} (h : p.dlls[k]? = some d) :
    (⟨some (.lookup k), 8, 0, zeros (8 * (8 * (d.imports.length + 1)))⟩ : Push) ∈ earlyPushes p :=
  dll_push h (by simp [dllPushes])

theorem hint_push {p : Program} {k j : Nat} {d : Dll} {im : Import} (h : p.dlls[k]? = some d) (hi : d.imports[j]? = some im) (ho : im.byOrdinal = false) :
    (⟨some (.hint k j), 2, 0, u16 im.ordinal⟩ : Push) ∈ earlyPushes p :=
  dll_push h (List.mem_append_left _ (List.mem_append_right _ (List.mem_flatMap.2 ⟨(im, j), mem_zipIdx hi, by simp [ho]⟩)))

theorem importName_push {p : Program} {k j : Nat} {d : Dll} {im : Import} (h : p.dlls[k]? = some d) (hi : d.imports[j]? = some im)
    (ho : im.byOrdinal = false) : (⟨some (.importName k j), 1, 0, im.name ++ [0]⟩ : Push) ∈ earlyPushes p :=
  dll_push h (List.mem_append_left _ (List.mem_append_right _ (List.mem_flatMap.2 ⟨(im, j), mem_zipIdx hi, by simp [ho]⟩)))

theorem debug_push {p : Program} {q : Push} (h : q ∈ debugPushes p) : q ∈ earlyPushes p :=
  rdata_push (List.mem_append_left _ (List.mem_append_left _ (List.mem_append_left _ (List.mem_append_left _ (List.mem_append_right _ h)))))

theorem string_push {p : Program} {i : Nat} {s : List Nat × Nat} (h : (interned p).1.emitted[i]? = some s) :
    (⟨some (.string i), s.2, 0, s.1⟩ : Push) ∈ earlyPushes p :=
  rdata_push (List.mem_append_left _ (List.mem_append_left _ (List.mem_append_left _ (List.mem_append_right _
    (List.mem_map.2 ⟨(s, i), mem_zipIdx h, rfl⟩)))))

theorem float_push {p : Program} {i : Nat} {f : List Nat} (h : p.floats[i]? = some f) : (⟨some (.float i), f.length, 0, f⟩ : Push) ∈ earlyPushes p :=
  rdata_push (List.mem_append_left _ (List.mem_append_left _ (List.mem_append_right _ (List.mem_map.2 ⟨(f, i), mem_zipIdx h, rfl⟩))))

theorem export_push {p : Program} {q : Push} (h : q ∈ exportPushes p) : q ∈ earlyPushes p :=
  rdata_push (List.mem_append_left _ (List.mem_append_right _ h))

theorem tls_push {p : Program} {q : Push} (h : q ∈ tlsPushes p) : q ∈ earlyPushes p := rdata_push (List.mem_append_right _ h)

theorem tlsPushes_eq {p : Program} (h : p.tls ≠ []) : ∃ a, a ∈ p.tls ∧ p.tls[0]? = some a ∧
    tlsPushes p = [⟨some .tlsStart, a.1, 0, []⟩] ++ p.tls.zipIdx.map (fun d => ⟨some (.tls d.2), d.1.1, 0, nonempty d.1.2⟩) ++
      [⟨some .tlsEnd, 1, 0, []⟩, ⟨some .tlsCallbacks, 8, 0, zeros 8⟩, ⟨none, 0x40, 0, []⟩, ⟨some .tlsDirectory, 8, 0, zeros 40⟩] := by
  unfold tlsPushes
  cases ht : p.tls with
  | nil => exact absurd ht h
  | cons a l => exact ⟨a, List.mem_cons_self, rfl, rfl⟩

theorem tlsVar_push {p : Program} {i : Nat} {d : Nat × List Nat} (h : p.tls[i]? = some d) :
    (⟨some (.tls i), d.1, 0, nonempty d.2⟩ : Push) ∈ earlyPushes p := by
  obtain ⟨a, -, -, e⟩ := tlsPushes_eq (p := p) (fun he => by rw [he] at h; cases h)
  apply tls_push
  rw [e]
  exact List.mem_append_left _ (List.mem_append_right _ (List.mem_map.2 ⟨(d, i), mem_zipIdx h, rfl⟩))

theorem tlsDirectory_push {p : Program} (h : p.tls ≠ []) : (⟨some .tlsDirectory, 8, 0, zeros 40⟩ : Push) ∈ earlyPushes p := by
  obtain ⟨a, -, -, e⟩ := tlsPushes_eq h
  apply tls_push
  rw [e]
  exact List.mem_append_right _ (by simp)

theorem data_push {p : Program} {i : Nat} {d : Nat × List Nat} (h : p.data[i]? = some d) :
    (⟨some (.data i), d.1, 0, nonempty d.2⟩ : Push) ∈ earlyPushes p :=
  List.mem_append_right _ (List.mem_map.2 ⟨(d, i), mem_zipIdx h, rfl⟩)

theorem runtime_push (p : Program) : (⟨some .runtime, 4, 0, zeros (12 * p.functions.length)⟩ : Push) ∈ allPushes p :=
  List.mem_append_right _ List.mem_cons_self

theorem unwind_push {p : Program} {i : Nat} {u : List Nat} (h : p.unwind[i]? = some u) : (⟨some (.unwind i), 1, 0, u⟩ : Push) ∈ allPushes p :=
  List.mem_append_right _ (List.mem_cons_of_mem _ (List.mem_map.2 ⟨(u, i), mem_zipIdx h, rfl⟩))

/-- Where something is that was pushed before the patches. -/
theorem early_of_push {p : Program} {q : Push} (h : q ∈ earlyPushes p) (ha : 0 < q.align) :
    ∃ x ∈ early p, x.key = q.key ∧ x.bytes = q.bytes ∧ x.ptr % q.align = 0 := by
  unfold earlyPushes at h
  unfold early
  rcases List.mem_append.1 h with h | h
  · rcases List.mem_append.1 h with h | h
    · obtain ⟨x, hx, e⟩ := place_of_push _ textCursor.file textCursor.va q h ha
      exact ⟨x, List.mem_append_left _ (List.mem_append_left _ hx), e⟩
    · obtain ⟨x, hx, e⟩ := place_of_push _ (rdataCursor p).file (rdataCursor p).va q h ha
      exact ⟨x, List.mem_append_left _ (List.mem_append_right _ hx), e⟩
  · obtain ⟨x, hx, e⟩ := place_of_push _ (dataCursor p).file (dataCursor p).va q h ha
    exact ⟨x, List.mem_append_right _ hx, e⟩

theorem early_placed {p : Program} {x : Placed} (h : x ∈ early p) : x ∈ placed p := List.mem_append_left _ (List.mem_append_left _ h)

theorem placed_of_push {p : Program} {q : Push} (h : q ∈ allPushes p) (ha : 0 < q.align) :
    ∃ x ∈ placed p, x.key = q.key ∧ x.bytes = q.bytes ∧ x.ptr % q.align = 0 := by
  unfold allPushes at h
  rcases List.mem_append.1 h with h | h
  · rcases List.mem_append.1 h with h | h
    · obtain ⟨x, hx, e⟩ := early_of_push h ha
      exact ⟨x, early_placed hx, e⟩
    · obtain ⟨x, hx, e⟩ := place_of_push _ (relocCursor p).file (relocCursor p).va q h ha
      exact ⟨x, List.mem_append_left _ (List.mem_append_right _ hx), e⟩
  · obtain ⟨x, hx, e⟩ := place_of_push _ (pdataCursor p).file (pdataCursor p).va q h ha
    exact ⟨x, List.mem_append_right _ hx, e⟩

theorem early_all {p : Program} {q : Push} (h : q ∈ earlyPushes p) : q ∈ allPushes p := List.mem_append_left _ (List.mem_append_left _ h)

theorem fits_of_push {p : Program} {q : Push} (h : q ∈ allPushes p) (ha : 0 < q.align) {w : Write} (hk : q.key = some w.key)
    (hl : w.offset + w.bytes.length ≤ q.bytes.length) : Fits (placed p) w := by
  obtain ⟨x, hx, e1, e2, -⟩ := placed_of_push h ha
  exact ⟨x, hx, e1.trans hk, by rw [e2]; exact hl⟩

theorem exportSmaller_weak : Verif.Props.Sort.StrictWeak exportSmaller :=
  Verif.Props.ErrorOrder.strictWeak_of_key _ (·.1) (fun a b => Verif.Props.ErrorOrder.C40_lex_order a.1 b.1)

theorem sorted_spec (p : Program) : (sorted p).Perm p.exports ∧ (sorted p).Pairwise (fun a b => exportSmaller b a = false) := by
  obtain ⟨r, h1, h2, h3⟩ := Verif.Props.Sort.C40_sort exportSmaller_weak p.exports (6 * p.exports.length + 1) (by omega)
  unfold sorted
  rw [h1]
  exact ⟨h2, h3⟩

theorem bytesOf_push {p : Program} (hv : Valid p) {k : Key} {b : List Nat} (h : bytesOf p k = some b) :
    ∃ q ∈ earlyPushes p, 0 < q.align ∧ q.key = some k ∧ q.bytes = b := by
  unfold bytesOf at h
  split at h
  · exact ⟨_, func_push h, Nat.one_pos, rfl, rfl⟩
  · obtain ⟨d, hd, e⟩ := Option.map_eq_some_iff.1 h
    exact ⟨_, data_push hd, hv.dataAligned d (List.mem_of_getElem? hd), rfl, e⟩
  · obtain ⟨d, hd, e⟩ := Option.map_eq_some_iff.1 h
    exact ⟨_, tlsVar_push hd, hv.tlsAligned d (List.mem_of_getElem? hd), rfl, e⟩
  · cases h

theorem patchBytes_length (p : Program) (q : Patch) : (patchBytes p q).length = patchSize q.kind := by
  unfold patchBytes patchSize
  cases q.kind <;> rfl

theorem lookup_length (p : Program) (k : Nat) (d : Dll) :
    (d.imports.zipIdx.flatMap (fun im => u64 (importEntry p k im.2 im.1)) ++ u64 0).length = 8 * d.imports.length + 8 := by
  rw [List.length_append, blocks_length _ _ 8 (fun _ _ => rfl), List.length_zipIdx]
  rfl

/-- All writes are inside of what they write to. -/
theorem all_fit (p : Program) (hv : Valid p) : ∀ w ∈ writes p, Fits (placed p) w := by
  intro w hw
  unfold writes at hw
  simp only [List.mem_append] at hw
  rcases hw with (((((hw | hw) | hw) | hw) | hw) | hw) | hw
  · obtain ⟨⟨d, k⟩, hd, hw⟩ := List.mem_flatMap.1 hw
    have hd := zipIdx_get hd
    unfold dllWrites at hw
    rcases List.mem_append.1 hw with hw | hw
    · obtain ⟨⟨im, j⟩, hi, rfl⟩ := List.mem_map.1 hw
      have hi := zipIdx_get hi
      have hj : j < d.imports.length := by
        rcases Nat.lt_or_ge j d.imports.length with h | h
        · exact h
        · rw [List.getElem?_eq_none h] at hi; cases hi
      refine fits_of_push (early_all (slots_push hd)) (by simp) rfl ?_
      simp only [zeros, List.length_replicate, u64_length]
      omega
    · simp only [List.mem_cons, List.not_mem_nil, or_false] at hw
      rcases hw with rfl | rfl
      · refine fits_of_push (early_all (lookup_push hd)) (by simp) rfl ?_
        simp only [lookup_length, zeros, List.length_replicate]
        omega
      · have hk : k < p.dlls.length := by
          rcases Nat.lt_or_ge k p.dlls.length with h | h
          · exact h
          · rw [List.getElem?_eq_none h] at hd; cases hd
        refine fits_of_push (early_all (descriptors_push (fun he => by rw [he] at hd; cases hd))) (by simp) rfl ?_
        simp only [zeros, List.length_replicate, List.length_append, u32_length]
        omega
  · obtain ⟨⟨s, i⟩, hs, rfl⟩ := List.mem_map.1 hw
    exact fits_of_push (early_all (stub_push (zipIdx_get hs))) (by simp) rfl (by show 2 + 4 ≤ 6; omega)
  · unfold debugWrites at hw
    split at hw
    · cases hw
    · next guid path hd =>
      rw [List.mem_singleton] at hw
      subst hw
      refine fits_of_push (q := ⟨some .debugDirectory, 4, 0, zeros 28⟩) (early_all (debug_push ?_)) (by simp) rfl ?_
      · unfold debugPushes; rw [hd]; simp
      · show 0 + 28 ≤ 28; omega
  · unfold exportWrites at hw
    split at hw
    · cases hw
    · next he =>
      have hp : ∀ q : Push, q ∈ [(⟨some .exportAddresses, 4, 0, zeros (4 * p.exports.length)⟩ : Push), ⟨some .exportNames, 4, 0, zeros (4 * p.exports.length)⟩,
          ⟨some .exportOrdinals, 2, 0, zeros (2 * p.exports.length)⟩, ⟨some .exportDllName, 1, 0, p.exePath ++ [0]⟩, ⟨none, 4, 0, []⟩,
          ⟨some .exportDirectory, 4, 0, zeros 40⟩] → q ∈ allPushes p := by
        intro q hq
        refine early_all (export_push ?_)
        unfold exportPushes
        rw [if_neg he]
        exact List.mem_append_left _ hq
      rcases List.mem_cons.1 hw with rfl | hw
      · exact fits_of_push (q := ⟨some .exportDirectory, 4, 0, zeros 40⟩) (hp _ (by simp)) (by simp) rfl (by show 0 + 40 ≤ 40; omega)
      · obtain ⟨⟨e, i⟩, hi, hw⟩ := List.mem_flatMap.1 hw
        have hi := zipIdx_get hi
        have hj : i < p.exports.length := by
          rw [← (sorted_spec p).1.length_eq]
          rcases Nat.lt_or_ge i (sorted p).length with h | h
          · exact h
          · rw [List.getElem?_eq_none h] at hi; cases hi
        simp only [List.mem_cons, List.not_mem_nil, or_false] at hw
        rcases hw with rfl | rfl | rfl
        · refine fits_of_push (q := ⟨some .exportNames, 4, 0, zeros (4 * p.exports.length)⟩) (hp _ (by simp)) (by simp) rfl ?_
          simp only [zeros, List.length_replicate, u32_length]; omega
        · refine fits_of_push (q := ⟨some .exportAddresses, 4, 0, zeros (4 * p.exports.length)⟩) (hp _ (by simp)) (by simp) rfl ?_
          simp only [zeros, List.length_replicate, u32_length]; omega
        · refine fits_of_push (q := ⟨some .exportOrdinals, 2, 0, zeros (2 * p.exports.length)⟩) (hp _ (by simp)) (by simp) rfl ?_
          simp only [zeros, List.length_replicate, u16_length]; omega
  · unfold tlsWrites at hw
    split at hw
    · cases hw
    · next he =>
      rw [List.mem_singleton] at hw
      subst hw
      exact fits_of_push (early_all (tlsDirectory_push he)) (by simp) rfl (by show 0 + 40 ≤ 40; omega)
  · obtain ⟨q, hq, rfl⟩ := List.mem_map.1 hw
    obtain ⟨b, hb, hl⟩ := hv.patches q hq
    obtain ⟨r, hr, ha, hk, e⟩ := bytesOf_push hv hb
    exact fits_of_push (early_all hr) ha hk (by rw [e, patchBytes_length]; exact hl)
  · obtain ⟨⟨f, i⟩, hf, rfl⟩ := List.mem_map.1 hw
    have hf := zipIdx_get hf
    have hj : i < p.functions.length := by
      rcases Nat.lt_or_ge i p.functions.length with h | h
      · exact h
      · rw [List.getElem?_eq_none h] at hf; cases hf
    refine fits_of_push (runtime_push p) (by simp) rfl ?_
    simp only [zeros, List.length_replicate, List.length_append, u32_length]
    omega

end Verif.Lemmas.Image
