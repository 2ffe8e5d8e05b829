import Verif.Props.ObjectTables

/-!
# C80: every section has a symbol, that says its size and whether one of several is taken
-/
namespace Verif.Props.Object
open Verif.Model.BaseReloc hiding relocate
open Verif.Model.Image (zeros padding)
open Verif.Model.Object
open Verif.Lemmas.Object
open Verif.Lemmas.Image (At number_congr number_shift number_u32 holds_append holds_of_at u16_length u32_length)
open Verif.Spec.Image (byte number Holds signed)
open Verif.Spec.Object (symbolAt symbolCount sectionAt sectionCount symbolTable SectionSymbol)

/-- A record after a symbol is in the table as it is. -/
theorem aux_at : (rs : List Record) → (at_ k : Nat) → (∀ r ∈ rs, Good r) → (b : List Nat) → rs[k]? = some (.auxiliary b) → At (writeRecords at_ rs).1 (18 * k) b
  | [], _, _, _, _, h => by cases h
  | .auxiliary b' :: rs, at_, k, hg, b, h => by
    have hb : b'.length = 18 := hg _ List.mem_cons_self
    rw [writeRecords]
    cases k with
    | zero =>
      cases h
      intro i hi
      simp only []
      rw [List.getElem?_append_left (by omega)]
      congr 1; omega
    | succ k =>
      have := at_cons (a := b') (aux_at rs at_ k (fun r hr => hg r (List.mem_cons_of_mem _ hr)) b h)
      rw [hb] at this
      rw [show 18 * (k + 1) = 18 + 18 * k by omega]
      exact this
  | .symbol name value sec type cls aux :: rs, at_, k, hg, b, h => by
    cases k with
    | zero => cases h
    | succ k =>
      rw [writeRecords]
      split
      · have hl : (name ++ zeros (8 - name.length) ++ u32 value ++ u16 sec ++ u16 type ++ [cls, aux]).length = 18 := by
          unfold zeros
          simp only [List.length_append, List.length_cons, List.length_nil, List.length_replicate, u32_length, u16_length]
          omega
        have := at_cons (a := name ++ zeros (8 - name.length) ++ u32 value ++ u16 sec ++ u16 type ++ [cls, aux])
          (aux_at rs at_ k (fun r hr => hg r (List.mem_cons_of_mem _ hr)) b h)
        rw [hl] at this
        rw [show 18 * (k + 1) = 18 + 18 * k by omega]
        exact this
      · have := at_cons (a := u32 0 ++ u32 at_ ++ u32 value ++ u16 sec ++ u16 type ++ [cls, aux])
          (aux_at rs (at_ + name.length + 1) k (fun r hr => hg r (List.mem_cons_of_mem _ hr)) b h)
        rw [show 18 * (k + 1) = 18 + 18 * k by omega]
        exact this

theorem flatMap_pair {α β : Type} (f : α → List β) (hf : ∀ x, (f x).length = 2) : (l : List α) → (i j : Nat) → (x : α) → (y : β) → l[i]? = some x →
    (f x)[j]? = some y → (l.flatMap f)[2 * i + j]? = some y
  | [], _, _, _, _, h, _ => by cases h
  | a :: l, 0, j, x, y, h, hy => by
    cases h
    rw [List.flatMap_cons, Nat.mul_zero, Nat.zero_add]
    exact pre hy
  | a :: l, i + 1, j, x, y, h, hy => by
    rw [List.flatMap_cons, show 2 * (i + 1) + j = (f a).length + (2 * i + j) by rw [hf]; omega]
    exact suf (flatMap_pair f hf l i j x y h hy)

/-- What is selected. -/
def selected : Section → Nat
  | .selectany _ => 2
  | _ => 0

theorem selected_eq (s : Section) : selected s = if decide (otherFlags s / 0x1000 % 2 = 1) then 2 else 0 := by
  cases s with
  | selectany i =>
    have h : otherFlags (.selectany i) = 0xC0001040 := rfl
    rw [h]; show 2 = _
    decide
  | _ => decide

/-- The record after the symbol of a section. -/
def sizeRecord (p : Program) (s : Section) : List Nat :=
  u32 (sectionSize p s) ++ u16 0 ++ u16 0 ++ u32 0 ++ u16 0 ++ [selected s] ++ [0, 0, 0]

theorem section_get {p : Program} {i : Nat} {s : Section} (hs : (sectionIds p)[i]? = some s) :
    (records p)[2 * i]? = some (.symbol (sectionName s) 0 (i + 1) 0 3 1) ∧ (records p)[2 * i + 1]? = some (.auxiliary (sizeRecord p s)) := by
  have key : ∀ (j : Nat) (y : Record), ([.symbol (sectionName s) 0 (i + 1) 0 3 1, .auxiliary (sizeRecord p s)] : List Record)[j]? = some y →
      (records p)[2 * i + j]? = some y := by
    intro j y hy
    refine head_get (pre (pre (pre (pre (pre (pre ?_))))))
    exact flatMap_pair _ (fun _ => rfl) _ i j _ y (zipIdx_some hs) hy
  exact ⟨key 0 _ rfl, key 1 _ rfl⟩

/-- Every section has a symbol, that comes before the others. Its size is the size of the section, and if the linker has to take one of several it may take any. -/
theorem C80_sections (p : Program) (hv : Valid p) {n : Nat} (h1 : 1 ≤ n) (h2 : n ≤ sectionCount (file p)) : SectionSymbol (file p) (2 * (n - 1)) n := by
  have hg := records_good hv
  obtain ⟨-, hc, e1, e2, -⟩ := header_spec hv hg
  obtain ⟨i, rfl⟩ : ∃ i, n = i + 1 := ⟨n - 1, by omega⟩
  rw [hc] at h2
  obtain ⟨s, hs⟩ : ∃ s, (sectionIds p)[i]? = some s := ⟨_, List.getElem?_eq_getElem (by omega)⟩
  have hm := List.mem_of_getElem? hs
  have few := hv.fewSections
  have hids := ids_length p
  have hsize : sectionSize p s < 2 ^ 32 := by
    by_cases hb : s = .bss
    · subst hb
      have := hv.bssSize
      show (bssOffsets 0 p.bss).2 < _
      omega
    · have := section_le hv hm hb
      have := hv.small
      have e : sectionSize p s = (pushedBytes p s).length := by cases s <;> first | rfl | exact absurd rfl hb
      omega
  obtain ⟨hfirst, haux⟩ := section_get hs
  have hsym := symbol_eq hv hg hfirst (by omega) (by omega) (by omega)
  have hk := (List.getElem?_eq_some_iff.1 haux).1
  have hat := aux_at (records p) 4 _ hg _ haux
  have hr := rest_at hv
  unfold rest at hr
  have hlen := writeRecords_length (records p) 4 hg
  have hb := hg _ (List.mem_of_getElem? haux)
  have hat := at_trans (Verif.Lemmas.Image.At.append (Verif.Lemmas.Image.At.append hr).1).1 hat (by
    have hb : List.length _ = 18 := hb
    have hlen : (symbolBytes p).length = 18 * (records p).length := hlen
    rw [hlen, hb]; omega)
  have hh := holds_of_at hat
  unfold sizeRecord at hh
  simp only [holds_append, u16_length, u32_length, List.length_append, List.length_singleton, Nat.add_assoc, Nat.reduceAdd] at hh
  obtain ⟨⟨⟨⟨⟨⟨t1, -⟩, -⟩, -⟩, -⟩, t2⟩, -⟩ := hh
  have hsec := sectionAt_eq hv hg hs
  have hsel := t2 0 (by show 0 < 1; omega)
  refine ⟨by rw [e2]; exact hk, ?_, ?_, ?_⟩
  · rw [hsec]; exact hsym.2
  · rw [hsec, e1]; exact number_u32 t1 hsize
  · rw [hsec, e1]
    show byte (file p) (tableAt p + 18 * (2 * i + 1) + 14) = if decide (allFlags p s / 0x1000 % 2 = 1) then 2 else 0
    rw [(allFlags_spec hv s).2.2.2.2.1]
    rw [← selected_eq]
    rw [← Nat.add_assoc] at hsel
    exact hsel

end Verif.Props.Object
