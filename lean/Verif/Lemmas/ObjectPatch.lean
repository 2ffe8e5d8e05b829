import Verif.Lemmas.ObjectLink

/-!
# Lemmas: what the linker makes of the patches of an object file
-/
namespace Verif.Lemmas.Object
open Verif.Model.BaseReloc hiding relocate
open Verif.Model.Image (Push Placed padding alignUp zeros u64 s32 s64 lay place poke djb2 capacity)
open Verif.Model.Object
open Verif.Lemmas.Image (At number_congr number_shift number_u32 number_u64 number_u16 u32_length holds_append)
open Verif.Spec.Image (byte number Holds)
open Verif.Spec.Object (Link relocate linked raw put address startOf content symbolAt symbolCount)

/-- The symbol of what is patched. -/
def destSource : Dest → Source
  | .func i => .func i
  | .data i => .data i
  | .literal i => .literal i
  | .tls i => .tls i
  | .selectany i => .selectany i

theorem symbol_in {p : Program} (hv : Valid p) {k : Nat} {name : List Nat} {value type cls aux : Nat} {s : Section} (hs : s ∈ sectionIds p)
    (h : (records p)[k]? = some (.symbol name value (sectionNumber p s) type cls aux)) (h1 : value < 2 ^ 32) (h2 : type < 2 ^ 16) :
    k < symbolCount (file p) ∧ symbolAt (file p) k = ⟨name, value, sectionNumber p s, type, cls, aux⟩ :=
  symbol_eq hv (records_good hv) h h1 (sectionNumber_le hv hs).2.2 h2

theorem offset_small {p : Program} (hv : Valid p) {d : Dest} {b : List Nat} (h : target p d = some b) : destOffset p d < 2 ^ 32 := by
  have h1 := (dest_at h).1
  have h2 := section_le hv (target_section h).1 (target_section h).2
  have := hv.small
  omega

theorem dest_symbol {p : Program} (hv : Valid p) {d : Dest} {b : List Nat} (h : target p d = some b) :
    (symbolAt (file p) (symbolOf p (destSource d))).section_ = sectionNumber p (writtenSection d) ∧
    (symbolAt (file p) (symbolOf p (destSource d))).value = destOffset p d := by
  have hs := (target_section h).1
  have ho := offset_small hv h
  cases d with
  | func i =>
    obtain ⟨f, hf, rfl⟩ := Option.map_eq_some_iff.1 h
    rw [destSource, (symbol_in hv hs (func_get hf).1 ho (by omega)).2]; exact ⟨rfl, rfl⟩
  | data i =>
    obtain ⟨f, hf, rfl⟩ := Option.map_eq_some_iff.1 h
    rw [destSource, (symbol_in hv hs (data_get hf) ho (by omega)).2]; exact ⟨rfl, rfl⟩
  | literal i =>
    obtain ⟨f, hf, rfl⟩ := Option.map_eq_some_iff.1 h
    obtain ⟨_, hl⟩ := literal_get hf
    rw [destSource, (symbol_in hv hs hl ho (by omega)).2]; exact ⟨rfl, rfl⟩
  | tls i =>
    obtain ⟨f, hf, rfl⟩ := Option.map_eq_some_iff.1 h
    rw [destSource, (symbol_in hv hs (tls_get hf) ho (by omega)).2]; exact ⟨rfl, rfl⟩
  | selectany i =>
    obtain ⟨f, hf, rfl⟩ := Option.map_eq_some_iff.1 h
    rw [destSource, (symbol_in hv hs (selectany_get hf) (by omega) (by omega)).2]; exact ⟨rfl, rfl⟩

theorem content_eq {p : Program} (hv : Valid p) (l : Link) {d : Dest} {b : List Nat} (h : target p d = some b) (x : Nat) :
    content (file p) l (symbolOf p (destSource d)) x = linked (file p) l (sectionNumber p (writtenSection d)) (destOffset p d + x) := by
  unfold content
  rw [(dest_symbol hv h).1, (dest_symbol hv h).2]

theorem address_of {f : List Nat} {l : Link} {k n v : Nat} (h1 : (symbolAt f k).section_ = n + 1) (h2 : (symbolAt f k).value = v) :
    address f l k = l.base (n + 1) + v := by
  unfold address
  simp only [h1, h2]
  rw [if_neg (by omega)]

theorem dest_address {p : Program} (hv : Valid p) (l : Link) {d : Dest} {b : List Nat} (h : target p d = some b) :
    address (file p) l (symbolOf p (destSource d)) = l.base (sectionNumber p (writtenSection d)) + destOffset p d := by
  obtain ⟨i, e, _⟩ := sectionNumber_get (target_section h).1
  have := address_of (l := l) ((dest_symbol hv h).1.trans e) (dest_symbol hv h).2
  rw [this, e]

/-! ## Bytes outside of patches -/

/-- Sections whose relocations are those of patches. -/
def Patched (s : Section) : Prop := s = .text ∨ s = .data ∨ s = .tls

theorem patched_relocs {p : Program} {s : Section} (h : Patched s) : relocsOf p s = (patchesOf p s).map (relocOf p) := by
  rcases h with rfl | rfl | rfl <;> rfl

theorem raw_holds {p : Program} (hv : Valid p) {s : Section} (h : s ∈ sectionIds p) (hb : s ≠ .bss) {a : Nat} {bs : List Nat} (hx : At (sectionBytes p s) a bs) :
    Holds (raw (file p) (sectionNumber p s)) a bs := by
  intro i hi
  refine raw_eq hv h hb ?_
  rw [hx i hi, List.getElem?_eq_getElem hi]

/-- A byte of an object that no patch changes. -/
theorem unpatched {p : Program} (hv : Valid p) {d : Dest} {b : List Nat} (h : target p d = some b) {x : Nat} (hx : x < b.length)
    (hq : ∀ q ∈ p.patches, q.dest = d → x < q.at_ ∨ q.at_ + width q.kind ≤ x) : ∀ q ∈ p.patches, writtenSection q.dest = writtenSection d →
    destOffset p d + x < destOffset p q.dest + q.at_ ∨ destOffset p q.dest + q.at_ + width q.kind ≤ destOffset p d + x := by
  intro q hm hs
  obtain ⟨c, hc, hl, _⟩ := hv.patchFits q hm
  by_cases e : q.dest = d
  · rw [e]
    have := hq q hm e
    omega
  · have := dest_apart hc h hs e
    omega

theorem raw_unpatched {p : Program} (hv : Valid p) {d : Dest} {b : List Nat} (h : target p d = some b) {x v : Nat} (hx : b[x]? = some v)
    (hq : ∀ q ∈ p.patches, q.dest = d → x < q.at_ ∨ q.at_ + (addend q).length ≤ x) :
    raw (file p) (sectionNumber p (writtenSection d)) (destOffset p d + x) = v := by
  have hlt := (List.getElem?_eq_some_iff.1 hx).1
  refine raw_eq hv (target_section h).1 (target_section h).2 ?_
  rw [(sectionBytes_get hv _).1 _ ?_, (dest_at h).2 x hlt, hx]
  intro q hm hs
  obtain ⟨c, hc, hl, _⟩ := hv.patchFits q hm
  have ha := addend_length q
  by_cases e : q.dest = d
  · rw [e]
    have := hq q hm e
    omega
  · have := dest_apart hc h hs e
    omega

theorem linked_unpatched {p : Program} (hv : Valid p) (l : Link) {d : Dest} {b : List Nat} (h : target p d = some b) (hd : Patched (writtenSection d))
    (ho : Own p (writtenSection d)) {x v : Nat} (hx : b[x]? = some v) (hq : ∀ q ∈ p.patches, q.dest = d → x < q.at_ ∨ q.at_ + width q.kind ≤ x) :
    content (file p) l (symbolOf p (destSource d)) x = v := by
  have hr := patched_relocs (p := p) hd
  rw [content_eq hv l h, linked_eq hv l (target_section h).1 (by rw [hr]; exact patch_relocs_small hv _), hr,
    (relocate_all _ _ (patch_relocs_apart hv ho)).1 _ ?_]
  · refine raw_unpatched hv h hx (fun q hm e => ?_)
    have := hq q hm e
    have := addend_length q
    omega
  · intro r hm
    obtain ⟨q, hq', rfl⟩ := List.mem_map.1 hm
    obtain ⟨h1, h2⟩ := List.mem_filter.1 (List.mem_reverse.1 hq')
    have := unpatched hv h (List.getElem?_eq_some_iff.1 hx).1 hq q h1 ((ho q h1).1 (of_decide_eq_true h2))
    rw [(relocOf_offset p q).1, (relocOf_offset p q).2.1]
    exact this

/-! ## Patches -/

theorem relocate_absolute (f : List Nat) (l : Link) (n : Nat) (m : Nat → Nat) (o k : Nat) :
    relocate f l n m ⟨o, k, 1⟩ = put m o 8 (number m 8 o + address f l k) := rfl

theorem relocate_image (f : List Nat) (l : Link) (n : Nat) (m : Nat → Nat) (o k : Nat) :
    relocate f l n m ⟨o, k, 3⟩ = put m o 4 (number m 4 o + address f l k - l.image) := rfl

theorem relocate_relative (f : List Nat) (l : Link) (n : Nat) (m : Nat → Nat) (o k : Nat) :
    relocate f l n m ⟨o, k, 4⟩ = put m o 4 (number m 4 o + address f l k - (l.base n + o + 4)) := rfl

theorem relocate_index (f : List Nat) (l : Link) (n : Nat) (m : Nat → Nat) (o k : Nat) :
    relocate f l n m ⟨o, k, 0xa⟩ = put m o 2 (number m 2 o + Spec.Object.indexOf f l k) := rfl

theorem relocate_offset (f : List Nat) (l : Link) (n : Nat) (m : Nat → Nat) (o k : Nat) :
    relocate f l n m ⟨o, k, 0xb⟩ = put m o 4 (number m 4 o + address f l k - startOf f l k) := rfl

theorem linked_patch {p : Program} (hv : Valid p) (l : Link) {q : Patch} (hq : q ∈ p.patches) (hd : Patched (writtenSection q.dest))
    (ho : Own p (writtenSection q.dest)) {n : Nat} (hn : n = width q.kind) :
    number (content (file p) l (symbolOf p (destSource q.dest))) n q.at_ =
      number (relocate (file p) l (sectionNumber p (writtenSection q.dest)) (raw (file p) (sectionNumber p (writtenSection q.dest))) (read (relocOf p q))) n
        (destOffset p q.dest + q.at_) := by
  obtain ⟨b, h, _⟩ := hv.patchFits q hq
  have hr := patched_relocs (p := p) hd
  apply number_shift
  intro i hi
  rw [content_eq hv l h, linked_eq hv l (target_section h).1 (by rw [hr]; exact patch_relocs_small hv _), hr, ← Nat.add_assoc]
  refine (relocate_all _ _ (patch_relocs_apart hv ho)).2 (relocOf p q) ?_ _ ?_ ?_
  · exact List.mem_map_of_mem (List.mem_reverse.2 (List.mem_filter.2 ⟨hq, decide_eq_true ((ho q hq).2 rfl)⟩))
  · rw [(relocOf_offset p q).1]; omega
  · rw [(relocOf_offset p q).1, (relocOf_offset p q).2.1]; omega

theorem number_zero {m : Nat → Nat} {n a : Nat} (h : ∀ i, i < n → m (a + i) = 0) : number m n a = 0 := by
  rw [number_stored 0 n a m (fun i hi => by rw [h i hi, Nat.zero_div, Nat.zero_mod]), Nat.zero_mod]

/-- The place of a patch without addend has zeros. -/
theorem raw_zero {p : Program} (hv : Valid p) {q : Patch} (hq : q ∈ p.patches) (hk : q.kind ≠ .absolute) (ha : addend q = []) :
    number (raw (file p) (sectionNumber p (writtenSection q.dest))) 4 (destOffset p q.dest + q.at_) = 0 := by
  obtain ⟨b, h, hl, hz⟩ := hv.patchFits q hq
  apply number_zero
  intro i hi
  rw [Nat.add_assoc]
  refine raw_unpatched hv h (hz hk i hi) (fun r hr e => ?_)
  have hp := List.pairwise_iff_getElem.1 hv.patchApart
  obtain ⟨a, ha', ea⟩ := List.getElem_of_mem hq
  obtain ⟨c, hc', ec⟩ := List.getElem_of_mem hr
  have hw : width q.kind = 4 := by
    unfold width; split
    · next e => exact absurd e hk
    · rfl
  have hrl := addend_length r
  rcases Nat.lt_trichotomy a c with hac | hac | hac
  · have := hp a c ha' hc' hac
    rw [ea, ec] at this
    have := this e.symm
    omega
  · subst hac
    rw [ea] at ec
    rw [← ec, ha, List.length_nil]
    omega
  · have := hp c a hc' ha' hac
    rw [ea, ec] at this
    have := this e
    omega

theorem number_s32 {m : Nat → Nat} {a : Nat} {v : Int} (h : Holds m a (s32 v)) : (number m 4 a : Int) = v % 2 ^ 32 := by
  have h1 := Int.emod_lt_of_pos v (show (0 : Int) < 2 ^ 32 by decide)
  have h2 := Int.emod_nonneg v (show (2 ^ 32 : Int) ≠ 0 by decide)
  have := number_u32 (v := (v % 2 ^ 32).toNat) h (by omega)
  omega

theorem number_s64 {m : Nat → Nat} {a : Nat} {v : Int} (h : Holds m a (s64 v)) : (number m 8 a : Int) = v % 2 ^ 64 := by
  have h1 := Int.emod_lt_of_pos v (show (0 : Int) < 2 ^ 64 by decide)
  have h2 := Int.emod_nonneg v (show (2 ^ 64 : Int) ≠ 0 by decide)
  have := number_u64 (v := (v % 2 ^ 64).toNat) h (by omega)
  omega

theorem raw_rip {p : Program} (hv : Valid p) {q : Patch} (hq : q ∈ p.patches) (hk : q.kind = .ripRelative) :
    (number (raw (file p) (sectionNumber p (writtenSection q.dest))) 4 (destOffset p q.dest + q.at_) : Int) = (q.at_ + 4 - q.ripAt + q.offset) % 2 ^ 32 := by
  obtain ⟨b, h, hl, hz⟩ := hv.patchFits q hq
  have hat := (sectionBytes_get hv _).2 q hq rfl
  have e : addend q = if ((q.at_ : Int) + 4 - q.ripAt + q.offset) % 2 ^ 32 = 0 then [] else s32 (q.at_ + 4 - q.ripAt + q.offset) := by
    unfold addend; rw [hk]
  by_cases hc : ((q.at_ : Int) + 4 - q.ripAt + q.offset) % 2 ^ 32 = 0
  · rw [if_pos hc] at e
    rw [raw_zero hv hq (by rw [hk]; decide) e, hc]; rfl
  · rw [if_neg hc] at e
    rw [e] at hat
    exact number_s32 (raw_holds hv (target_section h).1 (target_section h).2 hat)

theorem raw_absolute {p : Program} (hv : Valid p) {q : Patch} (hq : q ∈ p.patches) (hk : q.kind = .absolute) :
    (number (raw (file p) (sectionNumber p (writtenSection q.dest))) 8 (destOffset p q.dest + q.at_) : Int) = q.offset % 2 ^ 64 := by
  obtain ⟨b, h, hl, hz⟩ := hv.patchFits q hq
  have hat := (sectionBytes_get hv _).2 q hq rfl
  have e : addend q = s64 q.offset := by unfold addend; rw [hk]
  rw [e] at hat
  exact number_s64 (raw_holds hv (target_section h).1 (target_section h).2 hat)

end Verif.Lemmas.Object
