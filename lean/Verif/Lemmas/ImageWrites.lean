import Verif.Lemmas.ImageMemory

/-!
# Lemmas: what writes leave in memory
-/
namespace Verif.Lemmas.Image
open Verif.Model.Image Verif.Model.BaseReloc Verif.Spec.Image

/-- All kinds of writes. -/
inductive IsWrite (p : Program) : Write → Prop where
  | slot (k j : Nat) (d : Dll) (im : Import) (hd : p.dlls[k]? = some d) (hi : d.imports[j]? = some im) :
    IsWrite p ⟨.slots k, 8 * j, u64 (importEntry p k j im)⟩
  | lookup (k : Nat) (d : Dll) (hd : p.dlls[k]? = some d) :
    IsWrite p ⟨.lookup k, 0, d.imports.zipIdx.flatMap (fun im => u64 (importEntry p k im.2 im.1)) ++ u64 0⟩
  | descriptor (k : Nat) (d : Dll) (hd : p.dlls[k]? = some d) :
    IsWrite p ⟨.descriptors, 20 * k,
      u32 (rvaIn (early p) (.lookup k)) ++ u32 0 ++ u32 0 ++ u32 (rvaIn (early p) (.dllName k)) ++ u32 (rvaIn (early p) (.slots k))⟩
  | stub (i : Nat) (s : Nat × Nat) (hs : p.stubs[i]? = some s) :
    IsWrite p ⟨.stub i, 2, s32 ((slotRva p s.1 s.2 : Int) - (rvaIn (early p) (.stub i) + 6))⟩
  | debug (w : Write) (hd : p.debug ≠ none) (hw : w ∈ debugWrites p) (hk : w.key = .debugDirectory) : IsWrite p w
  | exportDirectory (he : p.exports ≠ []) : IsWrite p
    ⟨.exportDirectory, 0, u32 0 ++ u32 0xffffffff ++ u16 0 ++ u16 0 ++ u32 (rvaIn (early p) .exportDllName) ++ u32 1 ++ u32 p.exports.length ++
      u32 p.exports.length ++ u32 (rvaIn (early p) .exportAddresses) ++ u32 (rvaIn (early p) .exportNames) ++ u32 (rvaIn (early p) .exportOrdinals)⟩
  | exportName (he : p.exports ≠ []) (i : Nat) (e : List Nat × Nat) (h : (sorted p)[i]? = some e) :
    IsWrite p ⟨.exportNames, 4 * i, u32 (rvaIn (early p) (.exportName i))⟩
  | exportAddress (he : p.exports ≠ []) (i : Nat) (e : List Nat × Nat) (h : (sorted p)[i]? = some e) :
    IsWrite p ⟨.exportAddresses, 4 * i, u32 (rvaIn (early p) (.func e.2))⟩
  | exportOrdinal (he : p.exports ≠ []) (i : Nat) (e : List Nat × Nat) (h : (sorted p)[i]? = some e) :
    IsWrite p ⟨.exportOrdinals, 2 * i, u16 i⟩
  | tls (ht : p.tls ≠ []) : IsWrite p ⟨.tlsDirectory, 0, u64 (p.imageBase + rvaIn (early p) .tlsStart) ++ u64 (p.imageBase + rvaIn (early p) .tlsEnd) ++
    u64 (p.imageBase + bssRva p p.tlsIndex) ++ u64 (p.imageBase + rvaIn (early p) .tlsCallbacks) ++ u32 0 ++ u32 0x00D00000⟩
  | patch (q : Patch) (hq : q ∈ p.patches) : IsWrite p ⟨q.dest, q.at_, patchBytes p q⟩
  | runtime (i : Nat) (f : List Nat) (hf : p.functions[i]? = some f) :
    IsWrite p ⟨.runtime, 12 * i, u32 (rvaIn (early p) (.func i)) ++ u32 (rvaIn (early p) (.func i) + f.length) ++ u32 (rvaIn (placed p) (.unwind i))⟩

theorem isWrite {p : Program} {w : Write} (hw : w ∈ writes p) : IsWrite p w := by
  unfold writes at hw
  simp only [List.mem_append] at hw
  rcases hw with (((((hw | hw) | hw) | hw) | hw) | hw) | hw
  · obtain ⟨⟨d, k⟩, hd, hw⟩ := List.mem_flatMap.1 hw
    have hd := zipIdx_get hd
    unfold dllWrites at hw
    rcases List.mem_append.1 hw with hw | hw
    · obtain ⟨⟨im, j⟩, hi, rfl⟩ := List.mem_map.1 hw
      exact .slot k j d im hd (zipIdx_get hi)
    · simp only [List.mem_cons, List.not_mem_nil, or_false] at hw
      rcases hw with rfl | rfl
      · exact .lookup k d hd
      · exact .descriptor k d hd
  · obtain ⟨⟨s, i⟩, hs, rfl⟩ := List.mem_map.1 hw
    exact .stub i s (zipIdx_get hs)
  · have hw' := hw
    unfold debugWrites at hw
    split at hw
    · cases hw
    · next guid path hd =>
      rw [List.mem_singleton] at hw
      subst hw
      exact .debug _ (by rw [hd]; exact nofun) hw' rfl
  · unfold exportWrites at hw
    split at hw
    · cases hw
    · next he =>
      rcases List.mem_cons.1 hw with rfl | hw
      · exact .exportDirectory he
      · obtain ⟨⟨e, i⟩, hi, hw⟩ := List.mem_flatMap.1 hw
        have hi := zipIdx_get hi
        simp only [List.mem_cons, List.not_mem_nil, or_false] at hw
        rcases hw with rfl | rfl | rfl
        · exact .exportName he i e hi
        · exact .exportAddress he i e hi
        · exact .exportOrdinal he i e hi
  · unfold tlsWrites at hw
    split at hw
    · cases hw
    · next he =>
      rw [List.mem_singleton] at hw
      subst hw
      exact .tls he
  · obtain ⟨q, hq, rfl⟩ := List.mem_map.1 hw
    exact .patch q hq
  · obtain ⟨⟨f, i⟩, hf, rfl⟩ := List.mem_map.1 hw
    exact .runtime i f (zipIdx_get hf)

theorem mem_writes {p : Program} {w : Write} (h : IsWrite p w) : w ∈ writes p := by
  unfold writes
  simp only [List.mem_append]
  cases h with
  | slot k j d im hd hi =>
    refine Or.inl (Or.inl (Or.inl (Or.inl (Or.inl (Or.inl ?_)))))
    exact List.mem_flatMap.2 ⟨(d, k), mem_zipIdx hd, List.mem_append_left _ (List.mem_map.2 ⟨(im, j), mem_zipIdx hi, rfl⟩)⟩
  | lookup k d hd =>
    refine Or.inl (Or.inl (Or.inl (Or.inl (Or.inl (Or.inl ?_)))))
    exact List.mem_flatMap.2 ⟨(d, k), mem_zipIdx hd, List.mem_append_right _ List.mem_cons_self⟩
  | descriptor k d hd =>
    refine Or.inl (Or.inl (Or.inl (Or.inl (Or.inl (Or.inl ?_)))))
    exact List.mem_flatMap.2 ⟨(d, k), mem_zipIdx hd, List.mem_append_right _ (List.mem_cons_of_mem _ List.mem_cons_self)⟩
  | stub i s hs => exact Or.inl (Or.inl (Or.inl (Or.inl (Or.inl (Or.inr (List.mem_map.2 ⟨(s, i), mem_zipIdx hs, rfl⟩))))))
  | debug w hd hw hk => exact Or.inl (Or.inl (Or.inl (Or.inl (Or.inr hw))))
  | exportDirectory he =>
    refine Or.inl (Or.inl (Or.inl (Or.inr ?_)))
    unfold exportWrites; rw [if_neg he]; exact List.mem_cons_self
  | exportName he i e h =>
    refine Or.inl (Or.inl (Or.inl (Or.inr ?_)))
    unfold exportWrites; rw [if_neg he]
    exact List.mem_cons_of_mem _ (List.mem_flatMap.2 ⟨(e, i), mem_zipIdx h, by simp⟩)
  | exportAddress he i e h =>
    refine Or.inl (Or.inl (Or.inl (Or.inr ?_)))
    unfold exportWrites; rw [if_neg he]
    exact List.mem_cons_of_mem _ (List.mem_flatMap.2 ⟨(e, i), mem_zipIdx h, by simp⟩)
  | exportOrdinal he i e h =>
    refine Or.inl (Or.inl (Or.inl (Or.inr ?_)))
    unfold exportWrites; rw [if_neg he]
    exact List.mem_cons_of_mem _ (List.mem_flatMap.2 ⟨(e, i), mem_zipIdx h, by simp⟩)
  | tls ht =>
    refine Or.inl (Or.inl (Or.inr ?_))
    unfold tlsWrites; rw [if_neg ht]; exact List.mem_singleton.2 rfl
  | patch q hq => exact Or.inl (Or.inr (List.mem_map.2 ⟨q, hq, rfl⟩))
  | runtime i f hf => exact Or.inr (List.mem_map.2 ⟨(f, i), mem_zipIdx hf, rfl⟩)

/-- Names of things that patches never change. -/
def Key.fixed : Key → Bool
  | .func _ | .data _ | .tls _ => false
  | _ => true

theorem patch_key {p : Program} (hv : Valid p) {q : Patch} (hq : q ∈ p.patches) : Key.fixed q.dest = false := by
  obtain ⟨b, hb, -⟩ := hv.patches q hq
  unfold bytesOf at hb
  split at hb
  · next e => rw [e]; rfl
  · next e => rw [e]; rfl
  · next e => rw [e]; rfl
  · cases hb

theorem at_push {p : Program} {q : Push} (h : q ∈ earlyPushes p) (ha : 0 < q.align) {k : Key} (hk : q.key = some k) :
    ∃ x ∈ placed p, x.key = some k ∧ x.bytes = q.bytes ∧ x.rva = rvaIn (early p) k ∧ x.ptr % q.align = 0 := by
  obtain ⟨x, hx, e1, e2, e3⟩ := early_of_push h ha
  exact ⟨x, early_placed hx, e1.trans hk, e2, (rvaIn_eq (early_distinct p) hx (e1.trans hk)).symm, e3⟩

theorem at_push_late {p : Program} {q : Push} (h : q ∈ allPushes p) (ha : 0 < q.align) {k : Key} (hk : q.key = some k) :
    ∃ x ∈ placed p, x.key = some k ∧ x.bytes = q.bytes ∧ x.rva = rvaIn (placed p) k ∧ x.ptr % q.align = 0 := by
  obtain ⟨x, hx, e1, e2, e3⟩ := placed_of_push h ha
  exact ⟨x, hx, e1.trans hk, e2, (rvaIn_eq (placed_distinct p) hx (e1.trans hk)).symm, e3⟩

theorem aligned_push {p : Program} {q : Push} (h : q ∈ earlyPushes p) (ha : 0 < q.align) {k : Key} (hk : q.key = some k) (hd : q.align ∣ 512) :
    rvaIn (early p) k % q.align = 0 := by
  obtain ⟨x, hx, -, -, e, hm⟩ := at_push h ha hk
  rw [← e]
  exact rva_aligned hx hd hm

/-- What was written is in memory, if nothing else was written over it. -/
theorem holds_once {p : Program} (hv : Valid p) {x : Placed} (hx : x ∈ placed p) {w : Write} (hw : w ∈ writes p) (hk : x.key = some w.key)
    (h : ∀ v, IsWrite p v → v = w ∨ Apart w v) : Holds (loaded (file p)) (x.rva + w.offset) w.bytes := by
  obtain ⟨a, b, e, hb⟩ := List.eq_append_cons_of_mem (List.mem_reverse.2 hw)
  have e : writes p = b.reverse ++ w :: a.reverse := by
    rw [← List.reverse_reverse (writes p), e]; simp
  refine holds_written hv hx e hk (fun v hva => ?_)
  have hva := List.mem_reverse.1 hva
  rcases h v (isWrite (by rw [e]; exact List.mem_append_right _ (List.mem_cons_of_mem _ (List.mem_reverse.2 hva)))) with rfl | h
  · exact absurd hva hb
  · exact h

theorem mem_written {p : Program} (hv : Valid p) {q : Push} (hq : q ∈ earlyPushes p) (ha : 0 < q.align) {w : Write} (hk : q.key = some w.key)
    (hw : IsWrite p w) (h : ∀ v, IsWrite p v → v = w ∨ Apart w v) : Holds (loaded (file p)) (rvaIn (early p) w.key + w.offset) w.bytes := by
  obtain ⟨x, hx, hkx, -, e, -⟩ := at_push hq ha hk
  rw [← e]
  exact holds_once hv hx (mem_writes hw) hkx h

/-- What was pushed and not written is in memory. -/
theorem mem_pushed {p : Program} (hv : Valid p) {q : Push} (hq : q ∈ earlyPushes p) (ha : 0 < q.align) {k : Key} (hk : q.key = some k) {i : Nat}
    (hi : i < q.bytes.length) (h : ∀ w, IsWrite p w → w.key = k → i < w.offset ∨ w.offset + w.bytes.length ≤ i) :
    loaded (file p) (rvaIn (early p) k + i) = q.bytes[i] := by
  obtain ⟨x, hx, hkx, eb, e, -⟩ := at_push hq ha hk
  rw [← e, holds_pushed hv hx hkx (i := i) (by rw [eb]; exact hi) (fun w hw => h w (isWrite hw))]
  simp only [eb]

theorem holds_untouched {p : Program} (hv : Valid p) {q : Push} (hq : q ∈ earlyPushes p) (ha : 0 < q.align) {k : Key} (hk : q.key = some k)
    (h : ∀ w, IsWrite p w → w.key ≠ k) : Holds (loaded (file p)) (rvaIn (early p) k) q.bytes :=
  fun _ hi => mem_pushed hv hq ha hk hi (fun w hw he => absurd he (h w hw))

theorem place_append (a b : List Push) : ∀ at_ va,
    place at_ va (a ++ b) = place at_ va a ++ place (at_ + (lay at_ a).length) (va + (lay at_ a).length) b := by
  induction a with
  | nil => intro at_ va; rfl
  | cons q a ih =>
    intro at_ va
    rw [List.cons_append, place, place, ih, List.cons_append, lay]
    simp only [List.length_append, List.length_replicate]
    congr 3 <;> omega

/-- What is pushed later is behind what was pushed earlier. -/
theorem split_order {a b : List Push} {q r : Push} (hq : q ∈ a) (hr : r ∈ b) (hqa : 0 < q.align) (hra : 0 < r.align) (at_ va : Nat) :
    ∃ x ∈ place at_ va (a ++ b), ∃ y ∈ place at_ va (a ++ b), x.key = q.key ∧ y.key = r.key ∧ x.bytes = q.bytes ∧ y.bytes = r.bytes ∧
      x.rva + x.bytes.length ≤ y.rva := by
  obtain ⟨x, hx, e1, e2, -⟩ := place_of_push a at_ va q hq hqa
  obtain ⟨y, hy, e3, e4, -⟩ := place_of_push b (at_ + (lay at_ a).length) (va + (lay at_ a).length) r hr hra
  rw [place_append]
  refine ⟨x, List.mem_append_left _ hx, y, List.mem_append_right _ hy, e1, e3, e2, e4, ?_⟩
  obtain ⟨h1, h2, h3⟩ := place_inside _ _ _ x hx
  obtain ⟨h4, h5, h6⟩ := place_inside _ _ _ y hy
  omega

theorem s32_length (v : Int) : (s32 v).length = 4 := rfl
theorem s64_length (v : Int) : (s64 v).length = 8 := rfl

theorem signed_s32 {m : Nat → Nat} {a : Nat} {v : Int} (h : Holds m a (s32 v)) (h1 : -2 ^ 31 ≤ v) (h2 : v < 2 ^ 31) : signed (number m 4 a) = v := by
  unfold s32 at h
  rw [number_u32 h (by omega)]
  unfold signed
  split <;> omega

end Verif.Lemmas.Image
