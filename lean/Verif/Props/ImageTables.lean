import Verif.Props.Image

/-!
# C79: the tables of an executable
-/
namespace Verif.Props.Image
open Verif.Model.Image Verif.Model.BaseReloc Verif.Spec.Image Verif.Lemmas.Image

theorem get_lt {α : Type} {l : List α} {i : Nat} {a : α} (h : l[i]? = some a) : i < l.length := by
  rcases Nat.lt_or_ge i l.length with h' | h'
  · exact h'
  · rw [List.getElem?_eq_none h'] at h; cases h

theorem get_eq {α : Type} {l : List α} {i : Nat} {a : α} (h : l[i]? = some a) (hi : i < l.length) : l[i] = a := by
  rw [List.getElem?_eq_getElem hi] at h; exact Option.some.inj h

/-- Nothing that has a fixed name is patched. -/
theorem not_patched {p : Program} (hv : Valid p) {q : Patch} (hq : q ∈ p.patches) {k : Key} (hk : Key.fixed k = true) : q.dest ≠ k := by
  intro e
  have := patch_key hv hq
  rw [e, hk] at this
  cases this

theorem holds_block {m : Nat → Nat} {a : Nat} {α : Type} {l : List α} {f : α → List Nat} {n : Nat} (h : Holds m a (l.flatMap f))
    (hf : ∀ x ∈ l, (f x).length = n) {i : Nat} {x : α} (hi : l[i]? = some x) : Holds m (a + n * i) (f x) := by
  have hlt := get_lt hi
  have hb := blocks_at l f n hf i hlt
  have hl := blocks_length l f n hf
  rw [get_eq hi hlt] at hb
  have hx := hf x (List.mem_of_getElem? hi)
  intro j hj
  have hle : n * i + n ≤ n * l.length := by
    have : n * (i + 1) ≤ n * l.length := Nat.mul_le_mul_left n hlt
    rw [Nat.mul_succ] at this
    exact this
  have h1 := h (n * i + j) (by rw [hl]; omega)
  rw [Nat.add_assoc, h1]
  have h2 := hb j hj
  rw [List.getElem?_eq_getElem (by rw [hl]; omega), List.getElem?_eq_getElem hj] at h2
  exact Option.some.inj h2

/-! ## Imports -/

/-- What an import asks for. -/
def wanted (im : Import) : Wanted := if im.byOrdinal then .ordinal im.ordinal else .name im.ordinal im.name

theorem entry_of_import (p : Program) (hv : Valid p) {k j : Nat} {d : Dll} {im : Import} (hd : p.dlls[k]? = some d) (hi : d.imports[j]? = some im) :
    importEntry p k j im < 2 ^ 64 ∧ Entry (memory p) (importEntry p k j im) (wanted im) := by
  have ho := hv.ordinals d (List.mem_of_getElem? hd) im (List.mem_of_getElem? hi)
  unfold importEntry wanted
  cases hb : im.byOrdinal with
  | true =>
    have e : 0x8000000000000000 ||| im.ordinal = 2 ^ 63 + im.ordinal := by
      have := Nat.two_pow_add_eq_or_of_lt (i := 63) (b := im.ordinal) (by omega) 1
      rw [Nat.mul_one] at this
      exact this.symm
    rw [if_pos rfl, if_pos rfl, e]
    exact ⟨by omega, rfl⟩
  | false =>
    rw [if_neg (by decide), if_neg (by decide)]
    have hlt := rvaIn_lt hv (.hint k j)
    have h1 := holds_untouched hv (hint_push hd hi hb) (by simp) rfl (fun w hw he => by
      cases hw with
      | patch q hq => exact not_patched hv hq rfl he
      | debug w hd hw hkw => rw [hkw] at he; cases he
      | _ => cases he)
    have h2 := holds_untouched hv (importName_push hd hi hb) (by simp) rfl (fun w hw he => by
      cases hw with
      | patch q hq => exact not_patched hv hq rfl he
      | debug w hd hw hkw => rw [hkw] at he; cases he
      | _ => cases he)
    refine ⟨by omega, hlt, number_u16 h1 ho, ?_⟩
    -- the name follows the hint
    have hadj : rvaIn (early p) (.importName k j) = rvaIn (early p) (.hint k j) + 2 := by
      have hj := get_lt hi
      obtain ⟨A, B, e⟩ : ∃ A B, rdataPushes p = A ++ ([(⟨some (.hint k j), 2, 0, u16 im.ordinal⟩ : Push), ⟨some (.importName k j), 1, 0, im.name ++ [0]⟩] ++ B) := by
        have hm : [(⟨some (.hint k j), 2, 0, u16 im.ordinal⟩ : Push), ⟨some (.importName k j), 1, 0, im.name ++ [0]⟩] <:+: rdataPushes p := by
          have s1 : [(⟨some (.hint k j), 2, 0, u16 im.ordinal⟩ : Push), ⟨some (.importName k j), 1, 0, im.name ++ [0]⟩] <:+: dllPushes k d := by
            have : [(⟨some (.hint k j), 2, 0, u16 im.ordinal⟩ : Push), ⟨some (.importName k j), 1, 0, im.name ++ [0]⟩] <:+:
                d.imports.zipIdx.flatMap (fun im =>
                  if im.1.byOrdinal then []
                  else [(⟨some (.hint k im.2), 2, 0, u16 im.1.ordinal⟩ : Push), ⟨some (.importName k im.2), 1, 0, im.1.name ++ [0]⟩]) := by
              have := infix_flatMap (fun im : Import × Nat => if im.1.byOrdinal then []
                  else [(⟨some (.hint k im.2), 2, 0, u16 im.1.ordinal⟩ : Push), ⟨some (.importName k im.2), 1, 0, im.1.name ++ [0]⟩]) (mem_zipIdx hi)
              simpa only [hb, Bool.false_eq_true, if_false] using this
            obtain ⟨u, v, e⟩ := this
            exact ⟨[⟨some (.dllName k), 1, 0, d.name ++ [0]⟩, ⟨some (.slots k), 8, 0, zeros (8 * (d.imports.length + 1))⟩] ++ u,
              v ++ [⟨some (.lookup k), 8, 0, zeros (8 * (8 * (d.imports.length + 1)))⟩], by unfold dllPushes; rw [← e]; simp only [List.append_assoc]⟩
          have s2 : dllPushes k d <:+: importPushes p := by
            unfold importPushes
            rw [if_neg (fun he => by rw [he] at hd; cases hd)]
            obtain ⟨u, v, e⟩ := infix_flatMap (fun d : Dll × Nat => dllPushes d.2 d.1) (mem_zipIdx hd)
            exact ⟨⟨some .descriptors, 4, 0, zeros (20 * (p.dlls.length + 1))⟩ :: u, v, by rw [← e]; rfl⟩
          have s3 : importPushes p <:+: rdataPushes p :=
            ⟨[], debugPushes p ++ (stringPushes p ++ (floatPushes p ++ (exportPushes p ++ tlsPushes p))), by
              unfold rdataPushes; simp only [List.append_assoc, List.nil_append]⟩
          exact (s1.trans s2).trans s3
        obtain ⟨A, B, e⟩ := hm
        exact ⟨A, B, by rw [← e, List.append_assoc]⟩
      have m : ∀ z ∈ place (rdataCursor p).file (rdataCursor p).va (rdataPushes p), z ∈ early p :=
        fun z hz => List.mem_append_left _ (List.mem_append_right _ hz)
      rw [e, place_append] at m
      generalize hat : (rdataCursor p).file + (lay (rdataCursor p).file A).length = at_ at m
      generalize hva : (rdataCursor p).va + (lay (rdataCursor p).file A).length = va at m
      rw [List.cons_append, List.cons_append, place, place] at m
      rw [rvaIn_eq (early_distinct p) (m _ (List.mem_append_right _ List.mem_cons_self)) rfl,
        rvaIn_eq (early_distinct p) (m _ (List.mem_append_right _ (List.mem_cons_of_mem _ List.mem_cons_self))) rfl]
      simp only [padding, Nat.mod_one, u16_length, Nat.add_zero]
    rw [← hadj]
    exact h2
where
  infix_flatMap {α β : Type} (f : α → List β) {l : List α} {x : α} (h : x ∈ l) : f x <:+: l.flatMap f := by
    obtain ⟨a, b, e⟩ := List.append_of_mem h
    rw [e, List.flatMap_append, List.flatMap_cons]
    exact ⟨a.flatMap f, b.flatMap f, by simp only [List.append_assoc]⟩

/-- **C79.** The loader finds every library and every import of it, by number or by name, in both tables. -/
theorem C79_imports (p : Program) (hv : Valid p) (h : p.dlls ≠ []) :
    Imports (memory p) (directory (file p) 1).1 (p.dlls.zipIdx.map (fun d => (d.1.name, d.1.imports.map wanted, slotRva p d.2 0))) := by
  have hlt := rvaIn_lt hv .descriptors
  have hsz : 20 * (p.dlls.length + 1) < 2 ^ 32 := by
    obtain ⟨x, hx, -, e, -⟩ := at_push (descriptors_push h) (by simp) rfl
    have := (rva_bound hv hx).2
    rw [e] at this
    simp only [zeros, List.length_replicate] at this
    omega
  have hdir : directory (file p) 1 = (rvaIn (early p) .descriptors, 20 * (p.dlls.length + 1)) := by
    refine directory_eq hv 1 (by omega) _ ?_ (by show rvaIn (early p) .descriptors < _; omega) hsz
    show some (if p.dlls = [] then (0, 0) else (rvaIn (early p) .descriptors, 20 * (p.dlls.length + 1))) = _
    rw [if_neg h]
  rw [hdir]
  refine ⟨fun i hi => ?_, fun i hi => ?_⟩
  · have hi' : i < p.dlls.length := by simpa using hi
    obtain ⟨d, hd⟩ : ∃ d, p.dlls[i]? = some d := ⟨_, List.getElem?_eq_getElem hi'⟩
    have eg : p.dlls[i] = d := get_eq hd hi'
    simp only [List.getElem_map, List.getElem_zipIdx, Nat.zero_add, eg]
    have hw := mem_written hv (descriptors_push h) (by simp) rfl (.descriptor i d hd) (fun v hvw => by
      cases hvw with
      | descriptor k d' hd' =>
        rcases Nat.lt_trichotomy i k with hlt | rfl | hlt
        · right; intro _; left; show 20 * i + 20 ≤ 20 * k; omega
        · rw [hd] at hd'; cases hd'; exact Or.inl rfl
        · right; intro _; right; show 20 * k + 20 ≤ 20 * i; omega
      | patch q hq => exact Or.inr (fun he => absurd he.symm (not_patched hv hq rfl))
      | debug w hd hw hkw => exact Or.inr (fun he => by rw [hkw] at he; cases he)
      | _ => exact Or.inr (fun he => by cases he))
    simp only [holds_append, u32_length, List.length_append, Nat.reduceAdd] at hw
    obtain ⟨⟨⟨⟨w0, -⟩, -⟩, w12⟩, w16⟩ := hw
    have l1 := rvaIn_lt hv (.lookup i)
    have l2 := rvaIn_lt hv (.dllName i)
    have l3 := rvaIn_lt hv (.slots i)
    have es : slotRva p i 0 = rvaIn (early p) (.slots i) := rfl
    unfold Descriptor
    rw [number_u32 w0 (by omega), number_u32 w12 (by omega), number_u32 w16 (by omega), es]
    refine ⟨?_, rfl, aligned_push (slots_push hd) (by simp) rfl (show 8 ∣ 512 by decide), ?_, ?_⟩
    · exact holds_untouched hv (dllName_push hd) (by simp) rfl (fun w hw he => by
        cases hw with
        | patch q hq => exact not_patched hv hq rfl he
        | debug w hd hw hkw => rw [hkw] at he; cases he
        | _ => cases he)
    · have hl := mem_written hv (lookup_push hd) (by simp) rfl (.lookup i d hd) (fun v hvw => by
        cases hvw with
        | lookup k d' hd' =>
          by_cases hik : i = k
          · subst hik; rw [hd] at hd'; cases hd'; exact Or.inl rfl
          · exact Or.inr (fun he => by cases he; exact absurd rfl hik)
        | patch q hq => exact Or.inr (fun he => absurd he.symm (not_patched hv hq rfl))
        | debug w hd hw hkw => exact Or.inr (fun he => by rw [hkw] at he; cases he)
        | _ => exact Or.inr (fun he => by cases he))
      rw [Nat.add_zero, holds_append, blocks_length _ _ 8 (fun _ _ => rfl), List.length_zipIdx] at hl
      refine ⟨fun j hj => ?_, ?_⟩
      · have hj' : j < d.imports.length := by simpa using hj
        have hget := List.getElem?_eq_getElem hj'
        have hz : d.imports.zipIdx[j]? = some (d.imports[j], j) := by
          rw [List.getElem?_zipIdx, hget]; simp
        obtain ⟨b1, b2⟩ := entry_of_import p hv hd hget
        rw [number_u64 (holds_block hl.1 (fun _ _ => rfl) hz) b1, List.getElem_map]
        exact b2
      · rw [List.length_map]
        exact number_u64 hl.2 (by omega)
    · refine ⟨fun j hj => ?_, ?_⟩
      · have hj' : j < d.imports.length := by simpa using hj
        have hget := List.getElem?_eq_getElem hj'
        obtain ⟨b1, b2⟩ := entry_of_import p hv hd hget
        have hl := mem_written hv (slots_push hd) (by simp) rfl (.slot i j d _ hd hget) (fun v hvw => by
          cases hvw with
          | slot k j' d' im' hd' hi' =>
            by_cases hik : i = k
            · subst hik; rw [hd] at hd'; cases hd'
              rcases Nat.lt_trichotomy j j' with hlt | rfl | hlt
              · right; intro _; left; show 8 * j + 8 ≤ 8 * j'; omega
              · rw [hget] at hi'; cases hi'; exact Or.inl rfl
              · right; intro _; right; show 8 * j' + 8 ≤ 8 * j; omega
            · exact Or.inr (fun he => by cases he; exact absurd rfl hik)
          | patch q hq => exact Or.inr (fun he => absurd he.symm (not_patched hv hq rfl))
          | debug w hd hw hkw => exact Or.inr (fun he => by rw [hkw] at he; cases he)
          | _ => exact Or.inr (fun he => by cases he))
        rw [number_u64 hl b1, List.getElem_map]
        exact b2
      · rw [List.length_map]
        refine number_u64 (v := 0) (fun j hj => ?_) (by omega)
        have hj : j < 8 := hj
        unfold memory
        rw [Nat.add_assoc, mem_pushed hv (slots_push hd) (by simp) rfl (i := 8 * d.imports.length + j)
          (by simp only [zeros, List.length_replicate]; omega) (fun w hw he => ?_)]
        · simp only [zeros, List.getElem_replicate]
          match j, hj with
          | 0, _ | 1, _ | 2, _ | 3, _ | 4, _ | 5, _ | 6, _ | 7, _ => rfl
        · cases hw with
          | slot k j' d' im' hd' hi' =>
            cases he
            rw [hd] at hd'; cases hd'
            have := get_lt hi'
            right
            show 8 * j' + 8 ≤ _
            omega
          | patch q hq => exact absurd he (not_patched hv hq rfl)
          | debug w hd hw hkw => rw [hkw] at he; cases he
          | _ => cases he
  · have hi' : i < 20 := by simpa using hi
    simp only [List.length_map, List.length_zipIdx, List.getElem_replicate]
    unfold memory
    rw [Nat.add_assoc, mem_pushed hv (descriptors_push h) (by simp) rfl (i := 20 * p.dlls.length + i)
      (by simp only [zeros, List.length_replicate]; omega) (fun w hw he => ?_)]
    · simp only [zeros, List.getElem_replicate]
    · cases hw with
      | descriptor k d' hd' =>
        have := get_lt hd'
        right
        show 20 * k + 20 ≤ _
        omega
      | patch q hq => exact absurd he (not_patched hv hq rfl)
      | debug w hd hw hkw => rw [hkw] at he; cases he
      | _ => cases he

/-- **C79.** The stub of an imported function jumps to where the loader puts the address of this function. -/
theorem C79_stubs (p : Program) (hv : Valid p) (d i : Nat) (h : (d, i) ∈ p.stubs) : JumpsThrough (memory p) (stubRva p d i) (slotRva p d i) := by
  obtain ⟨k, hk⟩ : ∃ k, p.stubs.idxOf? (d, i) = some k := by
    cases hk : p.stubs.idxOf? (d, i) with
    | none => rw [List.idxOf?_eq_none_iff] at hk; exact absurd h hk
    | some k => exact ⟨k, rfl⟩
  have hget : p.stubs[k]? = some (d, i) := by
    obtain ⟨hlt, e, -⟩ := List.findIdx?_eq_some_iff_getElem.1 hk
    rw [List.getElem?_eq_getElem hlt]
    exact congrArg some (by simpa using e)
  have es : stubRva p d i = rvaIn (early p) (.stub k) := by unfold stubRva; rw [hk]
  have hother : ∀ j : Nat, j < 2 → ∀ w, IsWrite p w → w.key = .stub k → j < w.offset ∨ w.offset + w.bytes.length ≤ j := by
    intro j hj w hw he
    cases hw with
    | stub i s hs => left; show j < 2; omega
    | patch q hq => exact absurd he (not_patched hv hq rfl)
    | debug w hd hw hkw => rw [hkw] at he; cases he
    | _ => cases he
  have h0 := mem_pushed hv (stub_push hget) (by simp) rfl (i := 0) (by simp) (hother 0 (by omega))
  have h1 := mem_pushed hv (stub_push hget) (by simp) rfl (i := 1) (by simp) (hother 1 (by omega))
  have h2 := mem_written hv (stub_push hget) (by simp) rfl (.stub k (d, i) hget) (fun v hvw => by
    cases hvw with
    | stub k' s hs =>
      by_cases hik : k = k'
      · subst hik; rw [hget] at hs; cases hs; exact Or.inl rfl
      · exact Or.inr (fun he => by cases he; exact absurd rfl hik)
    | patch q hq => exact Or.inr (fun he => absurd he.symm (not_patched hv hq rfl))
    | debug w hd hw hkw => exact Or.inr (fun he => by rw [hkw] at he; cases he)
    | _ => exact Or.inr (fun he => by cases he))
  have l1 := rvaIn_lt hv (.stub k)
  have l2 : slotRva p d i < 2 ^ 31 := by
    obtain ⟨dl, hd, hi⟩ := hv.stubs (d, i) h
    obtain ⟨x, hx, -, eb, er, -⟩ := at_push (slots_push hd) (by simp) rfl
    have := (rva_bound hv hx).2
    rw [eb, er] at this
    simp only [zeros, List.length_replicate] at this
    unfold slotRva
    have hi : i < dl.imports.length := hi
    show rvaIn (early p) (.slots d) + 8 * i < _
    have this : rvaIn (early p) (.slots d) + 8 * (dl.imports.length + 1) < 2 ^ 31 := this
    omega
  obtain ⟨y, hy, -, eb, er, -⟩ := at_push (stub_push hget) (by simp) rfl
  have l3 := (rva_bound hv hy).2
  rw [eb, er] at l3
  have l3 : rvaIn (early p) (.stub k) + 6 < 2 ^ 31 := l3
  rw [es]
  refine ⟨h0, h1, ?_⟩
  have h2 : Holds (memory p) (rvaIn (early p) (.stub k) + 2) (s32 ((slotRva p d i : Int) - (rvaIn (early p) (.stub k) + 6))) := h2
  rw [signed_s32 h2 (by omega) (by omega)]
  omega

/-! ## Exports -/

theorem before_iff : (a b : List Nat) → Before a b ↔ Verif.ErrorOrder.lexSmaller a b = true
  | [], [] => by simp [Before, Verif.ErrorOrder.lexSmaller]
  | [], _ :: _ => by simp [Before, Verif.ErrorOrder.lexSmaller]
  | _ :: _, [] => by simp [Before, Verif.ErrorOrder.lexSmaller]
  | a :: as, b :: bs => by
    simp only [Before, Verif.ErrorOrder.lexSmaller]
    rcases Nat.lt_trichotomy a b with h | rfl | h
    · simp [h]
    · simp [before_iff as bs]
    · simp [show ¬ a < b by omega, h, show a ≠ b by omega]

theorem before_total : (a b : List Nat) → a ≠ b → ¬ Before b a → Before a b
  | [], [], h, _ => absurd rfl h
  | [], _ :: _, _, _ => trivial
  | _ :: _, [], _, h => absurd trivial h
  | a :: as, b :: bs, h, hb => by
    rcases Nat.lt_trichotomy a b with hl | rfl | hl
    · exact Or.inl hl
    · exact Or.inr ⟨rfl, before_total as bs (fun e => h (by rw [e])) (fun hb' => hb (Or.inr ⟨rfl, hb'⟩))⟩
    · exact absurd (Or.inl hl) hb

theorem export_table {p : Program} (he : p.exports ≠ []) {q : Push} (hq : q ∈ [(⟨some .exportAddresses, 4, 0, zeros (4 * p.exports.length)⟩ : Push),
    ⟨some .exportNames, 4, 0, zeros (4 * p.exports.length)⟩, ⟨some .exportOrdinals, 2, 0, zeros (2 * p.exports.length)⟩,
    ⟨some .exportDllName, 1, 0, p.exePath ++ [0]⟩, ⟨none, 4, 0, []⟩, ⟨some .exportDirectory, 4, 0, zeros 40⟩]) : q ∈ earlyPushes p := by
  apply export_push
  unfold exportPushes
  rw [if_neg he]
  exact List.mem_append_left _ hq

theorem exportName_push {p : Program} (he : p.exports ≠ []) {i : Nat} {e : List Nat × Nat} (h : (sorted p)[i]? = some e) :
    (⟨some (.exportName i), 1, 0, e.1 ++ [0]⟩ : Push) ∈ earlyPushes p := by
  apply export_push
  unfold exportPushes
  rw [if_neg he]
  exact List.mem_append_right _ (List.mem_map.2 ⟨(e, i), mem_zipIdx h, rfl⟩)

/-- **C79.** Who asks for an exported function by its name gets its address. -/
theorem C79_exports (p : Program) (hv : Valid p) (he : p.exports ≠ []) :
    ∃ l : List (List Nat × Nat), l.Perm p.exports ∧ Exports (memory p) (directory (file p) 0).1 (l.map (fun e => (e.1, address p (.func e.2)))) := by
  obtain ⟨hperm, hsort⟩ := sorted_spec p
  have hlen := hperm.length_eq
  have hmany := hv.manyExports
  have hdir : directory (file p) 0 = (rvaIn (early p) .exportDirectory, 40) := by
    refine directory_eq hv 0 (by omega) _ ?_ (by have := rvaIn_lt hv .exportDirectory; show rvaIn (early p) .exportDirectory < _; omega) (by show 40 < _; omega)
    show some (if p.exports = [] then (0, 0) else (rvaIn (early p) .exportDirectory, 40)) = _
    rw [if_neg he]
  have hw := mem_written hv (q := ⟨some .exportDirectory, 4, 0, zeros 40⟩) (export_table he (by simp)) (by simp) rfl (.exportDirectory he) (fun v hvw => by
    cases hvw with
    | exportDirectory => exact Or.inl rfl
    | patch q hq => exact Or.inr (fun he => absurd he.symm (not_patched hv hq rfl))
    | debug w hd hw hkw => exact Or.inr (fun he => by rw [hkw] at he; cases he)
    | _ => exact Or.inr (fun he => by cases he))
  simp only [holds_append, u32_length, u16_length, List.length_append, Nat.reduceAdd, Nat.add_zero] at hw
  obtain ⟨⟨⟨⟨⟨-, w20⟩, w24⟩, w28⟩, w32⟩, w36⟩ := hw
  have l1 := rvaIn_lt hv .exportAddresses
  have l2 := rvaIn_lt hv .exportNames
  have l3 := rvaIn_lt hv .exportOrdinals
  refine ⟨sorted p, hperm, ?_⟩
  rw [hdir]
  unfold Exports
  simp only []
  rw [number_u32 w20 (by omega), number_u32 w24 (by omega), number_u32 w28 (by omega), number_u32 w32 (by omega), number_u32 w36 (by omega)]
  refine ⟨by rw [List.length_map, hlen], by rw [List.length_map, hlen], fun i hi => ?_, ?_⟩
  · have hi' : i < (sorted p).length := by simpa using hi
    have hget := List.getElem?_eq_getElem hi'
    have hn := mem_written hv (q := ⟨some .exportNames, 4, 0, zeros (4 * p.exports.length)⟩) (export_table he (by simp)) (by simp) rfl
      (.exportName he i _ hget) (fun v hvw => by
      cases hvw with
      | exportName _ j e hj =>
        rcases Nat.lt_trichotomy i j with hlt | rfl | hlt
        · right; intro _; left; show 4 * i + 4 ≤ 4 * j; omega
        · exact Or.inl rfl
        · right; intro _; right; show 4 * j + 4 ≤ 4 * i; omega
      | patch q hq => exact Or.inr (fun he => absurd he.symm (not_patched hv hq rfl))
      | debug w hd hw hkw => exact Or.inr (fun he => by rw [hkw] at he; cases he)
      | _ => exact Or.inr (fun he => by cases he))
    have ha := mem_written hv (q := ⟨some .exportAddresses, 4, 0, zeros (4 * p.exports.length)⟩) (export_table he (by simp)) (by simp) rfl
      (.exportAddress he i _ hget) (fun v hvw => by
      cases hvw with
      | exportAddress _ j e hj =>
        rcases Nat.lt_trichotomy i j with hlt | rfl | hlt
        · right; intro _; left; show 4 * i + 4 ≤ 4 * j; omega
        · rw [hget] at hj; cases hj; exact Or.inl rfl
        · right; intro _; right; show 4 * j + 4 ≤ 4 * i; omega
      | patch q hq => exact Or.inr (fun he => absurd he.symm (not_patched hv hq rfl))
      | debug w hd hw hkw => exact Or.inr (fun he => by rw [hkw] at he; cases he)
      | _ => exact Or.inr (fun he => by cases he))
    have ho := mem_written hv (q := ⟨some .exportOrdinals, 2, 0, zeros (2 * p.exports.length)⟩) (export_table he (by simp)) (by simp) rfl
      (.exportOrdinal he i _ hget) (fun v hvw => by
      cases hvw with
      | exportOrdinal _ j e hj =>
        rcases Nat.lt_trichotomy i j with hlt | rfl | hlt
        · right; intro _; left; show 2 * i + 2 ≤ 2 * j; omega
        · exact Or.inl rfl
        · right; intro _; right; show 2 * j + 2 ≤ 2 * i; omega
      | patch q hq => exact Or.inr (fun he => absurd he.symm (not_patched hv hq rfl))
      | debug w hd hw hkw => exact Or.inr (fun he => by rw [hkw] at he; cases he)
      | _ => exact Or.inr (fun he => by cases he))
    have l4 := rvaIn_lt hv (.exportName i)
    have l5 := rvaIn_lt hv (.func (sorted p)[i].2)
    rw [number_u32 hn (by omega), number_u16 ho (by omega), number_u32 ha (by omega), List.getElem_map]
    refine ⟨?_, by rw [List.length_map]; exact hi', rfl⟩
    exact holds_untouched hv (exportName_push he hget) (by simp) rfl (fun w hw he => by
      cases hw with
      | patch q hq => exact not_patched hv hq rfl he
      | debug w hd hw hkw => rw [hkw] at he; cases he
      | _ => cases he)
  · rw [List.pairwise_map]
    have hnd : ((sorted p).map (·.1)).Nodup := (hperm.map _).nodup_iff.2 hv.exportsOnce
    rw [List.Nodup, List.pairwise_map] at hnd
    refine (hsort.and hnd).imp (fun {a b} h => ?_)
    refine before_total _ _ h.2 (fun hb => ?_)
    have := (before_iff _ _).1 hb
    have h1 : Verif.ErrorOrder.lexSmaller b.1 a.1 = false := h.1
    rw [h1] at this
    cases this

/-! ## Unwind information -/

theorem place_mod4 : (ps : List Push) → (∀ q ∈ ps, q.align = 1 ∧ q.bytes.length % 4 = 0) → (at_ va : Nat) → at_ % 4 = 0 → ∀ x ∈ place at_ va ps, x.ptr % 4 = 0
  | [], _, _, _, _ => fun x hx => by cases hx
  | q :: ps, h, at_, va, ha => by
    obtain ⟨h1, h2⟩ := h q List.mem_cons_self
    have e : padding at_ q.align = 0 := by rw [h1]; simp [padding, Nat.mod_one]
    intro x hx
    rw [place] at hx
    simp only [e, Nat.add_zero] at hx
    rcases List.mem_cons.1 hx with rfl | hx
    · exact ha
    · exact place_mod4 ps (fun q hq => h q (List.mem_cons_of_mem _ hq)) _ _ (by omega) x hx

/-- **C79.** The unwinder of Windows finds every function by its address, and its unwind information. -/
theorem C79_unwind (p : Program) (hv : Valid p) : (directory (file p) 3).2 = 12 * p.functions.length ∧
    Functions (memory p) (directory (file p) 3).1
      (p.functions.zipIdx.map (fun f => (address p (.func f.2), address p (.func f.2) + f.1.length, p.unwind.getD f.2 []))) := by
  obtain ⟨hg1, hg2⟩ := pdataCursor_good p
  have hpad : padding (pdataCursor p).file 4 = 0 := by unfold padding; omega
  have hrt : (⟨some .runtime, (pdataCursor p).file, (pdataCursor p).va, zeros (12 * p.functions.length)⟩ : Placed) ∈ placed p := by
    refine List.mem_append_right _ ?_
    unfold pdataPushes
    rw [place]
    simp only [hpad, Nat.add_zero]
    exact List.mem_cons_self
  have hb := rva_bound hv hrt
  simp only [zeros, List.length_replicate] at hb
  have hdir : directory (file p) 3 = ((pdataCursor p).va, 12 * p.functions.length) :=
    directory_eq hv 3 (by omega) _ rfl (by show (pdataCursor p).va < _; omega) (by show 12 * p.functions.length < _; omega)
  have hfun : ∀ i f, p.functions[i]? = some f → address p (.func i) + f.length < 2 ^ 31 := by
    intro i f hf
    obtain ⟨x, hx, -, e2, e3, -⟩ := at_push (func_push hf) (by simp) rfl
    have := (rva_bound hv hx).2
    rw [e2, e3] at this
    exact this
  rw [hdir]
  refine ⟨rfl, fun i hi => ?_, ?_⟩
  · have hi' : i < p.functions.length := by simpa using hi
    have hget := List.getElem?_eq_getElem hi'
    have hu : i < p.unwind.length := by rw [hv.unwind]; exact hi'
    have hugt := List.getElem?_eq_getElem hu
    have hf := hfun i _ hget
    have hf : rvaIn (early p) (.func i) + p.functions[i].length < 2 ^ 31 := hf
    have hw := holds_once hv hrt (mem_writes (.runtime i _ hget)) rfl (fun v hvw => by
      cases hvw with
      | runtime j f hj =>
        rcases Nat.lt_trichotomy i j with hlt | rfl | hlt
        · right; intro _; left; show 12 * i + 12 ≤ 12 * j; omega
        · rw [hget] at hj; cases hj; exact Or.inl rfl
        · right; intro _; right; show 12 * j + 12 ≤ 12 * i; omega
      | patch q hq => exact Or.inr (fun he => absurd he.symm (not_patched hv hq rfl))
      | debug w hd hw hkw => exact Or.inr (fun he => by rw [hkw] at he; cases he)
      | _ => exact Or.inr (fun he => by cases he))
    simp only [holds_append, u32_length, List.length_append, Nat.reduceAdd] at hw
    obtain ⟨⟨w0, w4⟩, w8⟩ := hw
    obtain ⟨x, hx, e1, e2, e3, -⟩ := at_push_late (unwind_push hugt) (by simp) rfl
    have e2 : x.bytes = p.unwind[i] := e2
    have hxb := (rva_bound hv hx).2
    simp only [List.getElem_map, List.getElem_zipIdx, Nat.zero_add]
    rw [number_u32 w0 (by omega), number_u32 w4 (by omega), number_u32 w8 (by rw [← e3]; omega), ← e3]
    refine ⟨rfl, rfl, ?_, ?_⟩
    · refine rva_aligned hx (show 4 ∣ 512 by decide) ?_
      obtain ⟨y, hy, f1, -⟩ := place_of_push (p.unwind.zipIdx.map (fun u => (⟨some (.unwind u.2), 1, 0, u.1⟩ : Push)))
        ((pdataCursor p).file + (12 * p.functions.length)) ((pdataCursor p).va + (12 * p.functions.length)) ⟨some (.unwind i), 1, 0, p.unwind[i]⟩
        (List.mem_map.2 ⟨(p.unwind[i], i), mem_zipIdx hugt, rfl⟩) (by simp)
      have hyp : y ∈ placed p := by
        refine List.mem_append_right _ ?_
        unfold pdataPushes
        rw [place]
        simp only [hpad, Nat.add_zero, zeros, List.length_replicate]
        exact List.mem_cons_of_mem _ hy
      rw [same_key (placed_distinct p) hx hyp e1 f1]
      refine place_mod4 _ (fun q hq => ?_) _ _ (by omega) y hy
      obtain ⟨⟨u, j⟩, hu, rfl⟩ := List.mem_map.1 hq
      exact ⟨rfl, hv.unwindAligned u (List.mem_of_getElem? (zipIdx_get hu))⟩
    · intro j hj
      have hd : p.unwind.getD i [] = p.unwind[i] := by rw [List.getD_eq_getElem?_getD, hugt]; rfl
      simp only [hd] at hj ⊢
      unfold memory
      rw [holds_pushed hv hx e1 (i := j) (by rw [e2]; exact hj) (fun w hw he => by
        cases isWrite hw with
        | patch q hq => exact absurd he (not_patched hv hq rfl)
        | debug w hd hw hkw => rw [hkw] at he; cases he
        | _ => cases he)]
      simp only [e2]
  · rw [List.pairwise_map, List.pairwise_iff_getElem]
    intro i j hi hj hij
    have hi' : i < p.functions.length := by simpa using hi
    have hj' : j < p.functions.length := by simpa using hj
    simp only [List.getElem_zipIdx, Nat.zero_add]
    have hgi := List.getElem?_eq_getElem hi'
    have hgj := List.getElem?_eq_getElem hj'
    let g : List Nat × Nat → List Push := fun f => [⟨some (.func f.2), 1, 0, f.1⟩, ⟨none, 16, 0xcc, []⟩]
    let stubs : List Push := p.stubs.zipIdx.map (fun s => ⟨some (.stub s.2), 1, 0, [0xff, 0x25, 0, 0, 0, 0]⟩)
    have e : textPushes p = (p.functions.zipIdx.take j).flatMap g ++ ((p.functions.zipIdx.drop j).flatMap g ++ stubs) := by
      rw [← List.append_assoc, ← List.flatMap_append, List.take_append_drop]
      rfl
    have mi : (p.functions[i], i) ∈ p.functions.zipIdx.take j := by
      rw [List.mem_iff_getElem]
      refine ⟨i, by rw [List.length_take, List.length_zipIdx]; omega, ?_⟩
      rw [List.getElem_take, List.getElem_zipIdx, Nat.zero_add]
    have mj : (p.functions[j], j) ∈ p.functions.zipIdx.drop j := by
      rw [List.mem_iff_getElem]
      refine ⟨0, by rw [List.length_drop, List.length_zipIdx]; omega, ?_⟩
      simp only [List.getElem_drop, List.getElem_zipIdx, Nat.zero_add, Nat.add_zero]
    obtain ⟨x, hx, y, hy, x1, y1, x2, -, hxy⟩ := split_order (a := (p.functions.zipIdx.take j).flatMap g)
      (b := (p.functions.zipIdx.drop j).flatMap g ++ stubs) (q := ⟨some (.func i), 1, 0, p.functions[i]⟩) (r := ⟨some (.func j), 1, 0, p.functions[j]⟩)
      (List.mem_flatMap.2 ⟨_, mi, List.mem_cons_self⟩) (List.mem_append_left stubs (List.mem_flatMap.2 ⟨_, mj, List.mem_cons_self⟩)) (by simp) (by simp)
      textCursor.file textCursor.va
    rw [← e] at hx hy
    have m : ∀ z ∈ place textCursor.file textCursor.va (textPushes p), z ∈ early p := fun z hz => List.mem_append_left _ (List.mem_append_left _ hz)
    show rvaIn (early p) (.func i) + p.functions[i].length ≤ rvaIn (early p) (.func j)
    rw [rvaIn_eq (early_distinct p) (m x hx) x1, rvaIn_eq (early_distinct p) (m y hy) y1]
    rw [x2] at hxy
    exact hxy

end Verif.Props.Image
