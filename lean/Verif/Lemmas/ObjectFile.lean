import Verif.Lemmas.Object

/-!
# Lemmas: where the parts of an object file are
-/
namespace Verif.Lemmas.Object
open Verif.Model.BaseReloc
open Verif.Model.Image (Push Placed padding alignUp zeros u64 s32 s64 lay place poke djb2 capacity)
open Verif.Model.Object
open Verif.Lemmas.Image (At at_of_append le_alignUp poke_get poke_length u16_length u32_length s32_length s64_length)

/-- A name that can be written. -/
def Name (n : List Nat) : Prop := n ≠ [] ∧ ∀ b ∈ n, b ≠ 0

/-- Alignments that the format has. -/
def PowerOfTwo (a : Nat) : Prop := ∃ k, k ≤ 13 ∧ a = 2 ^ k

/-- The bytes of what is patched. -/
def target (p : Program) : Dest → Option (List Nat)
  | .func i => p.functions[i]?.map (·.code)
  | .data i => p.data[i]?.map (·.bytes)
  | .literal i => p.literals[i]?.map (·.2)
  | .tls i => p.tls[i]?.map (·.bytes)
  | .selectany i => p.selectany[i]?.map (·.bytes)

/-- How many bytes are patched. -/
def width : Kind → Nat
  | .absolute => 8
  | _ => 4

/-- The source of a patch exists. -/
def Exists (p : Program) : Source → Prop
  | .func i => i < p.functions.length
  | .externFunc i => i < p.externFunctions.length
  | .externVar i => i < p.externVars.length
  | .auto i => i < p.autos.length
  | .bss i => i < p.bss.length
  | .data i => i < p.data.length
  | .literal i => i < p.literals.length
  | .tls i => i < p.tls.length
  | .selectany i => i < p.selectany.length
  | .string element i => (element = 1 ∧ i < p.strings1.length) ∨ (element = 2 ∧ i < p.strings2.length) ∨ (element = 4 ∧ i < p.strings4.length)
  | .float i => i < p.floats.length
  | .double i => i < p.doubles.length

/-- What the earlier stages guarantee: names, alignments, patches inside of objects that do not overlap, over zeros in code; and sizes that the format has. -/
structure Valid (p : Program) : Prop where
  functionNames : ∀ f ∈ p.functions, Name f.name
  externNames : ∀ f ∈ p.externFunctions, Name f.name
  externVarNames : ∀ v ∈ p.externVars, Name v.1
  autoNames : ∀ v ∈ p.autos, Name v.1
  bssNames : ∀ v ∈ p.bss, Name v.1
  dataNames : ∀ v ∈ p.data, Name v.name
  tlsNames : ∀ v ∈ p.tls, Name v.name
  selectanyNames : ∀ v ∈ p.selectany, Name v.name
  bssAligns : ∀ v ∈ p.bss, PowerOfTwo v.2.2
  dataAligns : ∀ v ∈ p.data, PowerOfTwo v.align
  literalAligns : ∀ v ∈ p.literals, PowerOfTwo v.1
  tlsAligns : ∀ v ∈ p.tls, PowerOfTwo v.align
  selectanyAligns : ∀ v ∈ p.selectany, PowerOfTwo v.align
  floats : ∀ v ∈ p.floats, v.length = 4
  doubles : ∀ v ∈ p.doubles, v.length = 8
  manyStrings1 : p.strings1.length < 2 ^ 61
  manyStrings2 : p.strings2.length < 2 ^ 61
  manyStrings4 : p.strings4.length < 2 ^ 61
  manyFloats : p.floats.length < 2 ^ 61
  manyDoubles : p.doubles.length < 2 ^ 61
  patchKinds : ∀ q ∈ p.patches, (patchSection q.dest = .text ↔ q.kind ≠ .absolute)
  patchFits : ∀ q ∈ p.patches, ∃ b, target p q.dest = some b ∧ q.at_ + width q.kind ≤ b.length ∧
    (q.kind ≠ .absolute → ∀ i, i < 4 → b[q.at_ + i]? = some 0)
  patchApart : p.patches.Pairwise (fun q r => q.dest = r.dest → q.at_ + width q.kind ≤ r.at_ ∨ r.at_ + width r.kind ≤ q.at_)
  patchSources : ∀ q ∈ p.patches, Exists p q.source
  autoSizes : ∀ v ∈ p.autos, v.2.2 < 2 ^ 32
  bssSize : (bssOffsets 0 p.bss).2 < 2 ^ 31
  fewSections : p.selectany.length + 10 < 2 ^ 15
  small : (file p).length < 2 ^ 31

theorem PowerOfTwo.pos {a : Nat} (h : PowerOfTwo a) : 0 < a := by
  obtain ⟨k, _, rfl⟩ := h; exact Nat.two_pow_pos k

/-! ## Where the objects are in their sections -/

theorem text_push {p : Program} {i : Nat} {f : Function} (h : p.functions[i]? = some f) : (textPushes p)[2 * i]? = some ⟨none, 1, 0, f.code⟩ :=
  flatMap_pair (fun f : Function => (⟨none, 1, 0, f.code⟩ : Push)) (fun _ => ⟨none, 16, 0xcc, []⟩) p.functions i f h

theorem data_push {p : Program} {i : Nat} {d : Var} (h : p.data[i]? = some d) : (dataPushes p)[i]? = some ⟨none, d.align, 0, d.bytes⟩ := by
  obtain ⟨hi, e⟩ := List.getElem?_eq_some_iff.1 h
  unfold dataPushes
  rw [List.getElem?_append_left (by rw [List.length_map]; exact hi), List.getElem?_map, h]
  rfl

theorem literal_push {p : Program} {i : Nat} {d : Nat × List Nat} (h : p.literals[i]? = some d) :
    (dataPushes p)[p.data.length + i]? = some ⟨none, d.1, 0, d.2⟩ := by
  unfold dataPushes
  rw [List.getElem?_append_right (by rw [List.length_map]; omega), List.length_map, Nat.add_sub_cancel_left, List.getElem?_map, h]
  rfl

theorem tls_push {p : Program} {i : Nat} {d : Var} (h : p.tls[i]? = some d) : (tlsPushes p)[i]? = some ⟨none, d.align, 0, d.bytes⟩ := by
  unfold tlsPushes
  rw [List.getElem?_map, h]
  rfl

theorem selectany_push {p : Program} {i : Nat} {d : Var} (h : p.selectany[i]? = some d) : (selectanyPushes p)[i]? = some ⟨none, 1, 0, d.bytes⟩ := by
  unfold selectanyPushes
  rw [List.getElem?_map, h]
  rfl

/-- An object is in its section. -/
theorem dest_at {p : Program} {d : Dest} {b : List Nat} (h : target p d = some b) :
    destOffset p d + b.length ≤ (pushedBytes p (writtenSection d)).length ∧ At (pushedBytes p (writtenSection d)) (destOffset p d) b := by
  cases d with
  | func i =>
    obtain ⟨f, hf, rfl⟩ := Option.map_eq_some_iff.1 h
    exact ⟨(offsetAt_spec (text_push hf)).1, (offsetAt_spec (text_push hf)).2.1⟩
  | data i =>
    obtain ⟨f, hf, rfl⟩ := Option.map_eq_some_iff.1 h
    exact ⟨(offsetAt_spec (data_push hf)).1, (offsetAt_spec (data_push hf)).2.1⟩
  | literal i =>
    obtain ⟨f, hf, rfl⟩ := Option.map_eq_some_iff.1 h
    exact ⟨(offsetAt_spec (literal_push hf)).1, (offsetAt_spec (literal_push hf)).2.1⟩
  | tls i =>
    obtain ⟨f, hf, rfl⟩ := Option.map_eq_some_iff.1 h
    exact ⟨(offsetAt_spec (tls_push hf)).1, (offsetAt_spec (tls_push hf)).2.1⟩
  | selectany i =>
    obtain ⟨f, hf, rfl⟩ := Option.map_eq_some_iff.1 h
    show 0 + f.bytes.length ≤ (match p.selectany[i]? with | some d => d.bytes | none => []).length ∧
      At (match p.selectany[i]? with | some d => d.bytes | none => []) 0 f.bytes
    rw [hf]
    exact ⟨Nat.le_of_eq (Nat.zero_add _), fun i _ => by rw [Nat.zero_add]⟩

/-- Different objects of a section do not overlap. -/
theorem dest_apart {p : Program} {d e : Dest} {b c : List Nat} (hd : target p d = some b) (he : target p e = some c) (hs : writtenSection d = writtenSection e)
    (hne : d ≠ e) : destOffset p d + b.length ≤ destOffset p e ∨ destOffset p e + c.length ≤ destOffset p d := by
  cases d <;> cases e <;> simp only [writtenSection, Section.selectany.injEq, reduceCtorEq] at hs <;>
    obtain ⟨f, hf, rfl⟩ := Option.map_eq_some_iff.1 hd <;> obtain ⟨g, hg, rfl⟩ := Option.map_eq_some_iff.1 he
  · next i j =>
    rcases Nat.lt_or_gt_of_ne (fun h : i = j => hne (by rw [h])) with h | h
    · exact .inl (offsetAt_ordered (text_push hf) (text_push hg) (by omega))
    · exact .inr (offsetAt_ordered (text_push hg) (text_push hf) (by omega))
  · next i j =>
    rcases Nat.lt_or_gt_of_ne (fun h : i = j => hne (by rw [h])) with h | h
    · exact .inl (offsetAt_ordered (data_push hf) (data_push hg) h)
    · exact .inr (offsetAt_ordered (data_push hg) (data_push hf) h)
  · next i j =>
    have := (List.getElem?_eq_some_iff.1 hf).1
    exact .inl (offsetAt_ordered (data_push hf) (literal_push hg) (by omega))
  · next i j =>
    have := (List.getElem?_eq_some_iff.1 hg).1
    exact .inr (offsetAt_ordered (data_push hg) (literal_push hf) (by omega))
  · next i j =>
    rcases Nat.lt_or_gt_of_ne (fun h : i = j => hne (by rw [h])) with h | h
    · exact .inl (offsetAt_ordered (literal_push hf) (literal_push hg) (by omega))
    · exact .inr (offsetAt_ordered (literal_push hg) (literal_push hf) (by omega))
  · next i j =>
    rcases Nat.lt_or_gt_of_ne (fun h : i = j => hne (by rw [h])) with h | h
    · exact .inl (offsetAt_ordered (tls_push hf) (tls_push hg) h)
    · exact .inr (offsetAt_ordered (tls_push hg) (tls_push hf) h)
  · exact absurd (by rw [hs]) hne

theorem addend_length (q : Patch) : (addend q).length ≤ width q.kind := by
  unfold addend width
  split
  · next h => rw [h]; dsimp only; split
              · exact Nat.zero_le _
              · exact Nat.le_refl _
  · next h => rw [h]; exact Nat.le_refl _
  · next h => rw [h]; exact Nat.zero_le _

/-- The patches are inside of the section. -/
theorem patch_inside {p : Program} (hv : Valid p) {q : Patch} (hq : q ∈ p.patches) :
    destOffset p q.dest + q.at_ + width q.kind ≤ (pushedBytes p (writtenSection q.dest)).length := by
  obtain ⟨b, hb, hl, _⟩ := hv.patchFits q hq
  have := (dest_at hb).1
  omega

/-- Writes do not change the length. -/
theorem pokes_length (f : Patch → Nat) : (l : List Patch) → (b : List Nat) → (∀ q ∈ l, f q + (addend q).length ≤ b.length) →
    (l.foldl (fun b q => poke b (f q) (addend q)) b).length = b.length
  | [], _, _ => rfl
  | q :: l, b, h => by
    have h1 := poke_length (h q List.mem_cons_self)
    rw [List.foldl_cons, pokes_length f l _ (fun r hr => by rw [h1]; exact h r (List.mem_cons_of_mem _ hr)), h1]

theorem sectionBytes_length {p : Program} (hv : Valid p) (s : Section) : (sectionBytes p s).length = (pushedBytes p s).length := by
  unfold sectionBytes
  refine pokes_length (fun q => destOffset p q.dest + q.at_) _ _ (fun q hq => ?_)
  obtain ⟨h1, h2⟩ := List.mem_filter.1 hq
  have h3 := patch_inside hv (List.mem_reverse.1 h1)
  rw [show writtenSection q.dest = s from of_decide_eq_true h2] at h3
  have := addend_length q
  omega

/-! ## The layout of the file -/

theorem le_alignIf (b : Bool) (x : Nat) {a : Nat} (h : 0 < a) : x ≤ alignIf b x a := by
  unfold alignIf
  split
  · exact le_alignUp h
  · exact Nat.le_refl _

theorem headers_length (p : Program) : (l : List Section) → (l.flatMap (headerBytes p)).length = 40 * l.length
  | [] => rfl
  | s :: l => by
    rw [List.flatMap_cons, List.length_append, headers_length p l, List.length_cons]
    have : (headerBytes p s).length = 40 := by
      have h : (sectionName s).length ≤ 8 := by cases s <;> simp [sectionName]
      unfold headerBytes zeros
      simp only [List.length_append, List.length_replicate, u32_length, u16_length]
      omega
    omega

theorem ids_length (p : Program) : (sectionIds p).length ≤ p.selectany.length + 10 := by
  unfold sectionIds
  simp only [List.length_append, List.length_map, List.length_range]
  have h1 : (if p.functions = [] then ([] : List Section) else [.text, .pdata, .xdata]).length ≤ 3 := by split <;> decide
  have h2 : (if p.bss = [] then ([] : List Section) else [.bss]).length ≤ 1 := by split <;> decide
  have h3 : (if rdataBytes p = [] then ([] : List Section) else [.rdata]).length ≤ 1 := by split <;> decide
  have h4 : (if p.data = [] ∧ p.literals = [] then ([] : List Section) else [.data]).length ≤ 1 := by split <;> decide
  have h5 : (if p.tls = [] then ([] : List Section) else [.tls]).length ≤ 1 := by split <;> decide
  simp only [List.length_cons, List.length_nil]
  omega

/-- The part of the file that a section is. -/
def part (p : Program) (s : Section) : Nat × List Nat := (position p s, sectionBytes p s)

theorem fileSections (p : Program) : (sectionIds p).filter (· ≠ .bss) =
    [.drectve] ++ (if p.functions = [] then [] else [.text, .pdata, .xdata]) ++
      (if rdataBytes p = [] then [] else [.rdata]) ++ (if p.data = [] ∧ p.literals = [] then [] else [.data]) ++
      (if p.tls = [] then [] else [.tls]) ++ [.types, .symbols] ++ (List.range p.selectany.length).map .selectany := by
  unfold sectionIds
  simp only [List.filter_append]
  have h1 : (if p.functions = [] then ([] : List Section) else [.text, .pdata, .xdata]).filter (· ≠ .bss) =
    if p.functions = [] then [] else [.text, .pdata, .xdata] := by split <;> rfl
  have h2 : (if p.bss = [] then ([] : List Section) else [.bss]).filter (· ≠ .bss) = [] := by split <;> rfl
  have h3 : (if rdataBytes p = [] then ([] : List Section) else [.rdata]).filter (· ≠ .bss) = if rdataBytes p = [] then [] else [.rdata] := by split <;> rfl
  have h4 : (if p.data = [] ∧ p.literals = [] then ([] : List Section) else [.data]).filter (· ≠ .bss) =
    if p.data = [] ∧ p.literals = [] then [] else [.data] := by split <;> rfl
  have h5 : (if p.tls = [] then ([] : List Section) else [.tls]).filter (· ≠ .bss) = if p.tls = [] then [] else [.tls] := by split <;> rfl
  have h6 : ((List.range p.selectany.length).map Section.selectany).filter (· ≠ .bss) = (List.range p.selectany.length).map .selectany := by
    rw [List.filter_eq_self]
    intro s hs
    obtain ⟨i, _, rfl⟩ := List.mem_map.1 hs
    rfl
  rw [h1, h2, h3, h4, h5, h6, List.append_nil]
  rfl

theorem chain_if {α : Prop} [Decidable α] {a b : Nat} {l : List (Nat × List Nat)} (h0 : a ≤ b) (h : ¬ α → Chain a l b) : Chain a (if α then [] else l) b := by
  split
  · exact h0
  · next hn => exact h hn

theorem chain_selectany {p : Program} (hv : Valid p) : (n : Nat) → n ≤ p.selectany.length →
    Chain (selectanyAt p) (((List.range n).map Section.selectany).map (part p))
      (if n < p.selectany.length then position p (.selectany n) else selectanyAt p + (lay (selectanyAt p) (selectanyPushes p)).length)
  | 0, _ => by
    show selectanyAt p ≤ _
    split
    · exact Nat.le_add_right _ _
    · exact Nat.le_add_right _ _
  | n + 1, h => by
    have ih := chain_selectany hv n (by omega)
    rw [if_pos (by omega)] at ih
    rw [List.range_succ, List.map_append, List.map_append]
    refine Chain.append _ _ _ _ _ ih ⟨Nat.le_refl _, ?_⟩
    obtain ⟨d, hd⟩ : ∃ d, p.selectany[n]? = some d := ⟨_, List.getElem?_eq_getElem (by omega)⟩
    have hl : (sectionBytes p (.selectany n)).length = d.bytes.length := by
      rw [sectionBytes_length hv]
      show (match p.selectany[n]? with | some d => d.bytes | none => []).length = _
      rw [hd]
    show position p (.selectany n) + (sectionBytes p (.selectany n)).length ≤ _
    rw [hl]
    split
    · next hlt =>
      obtain ⟨e, he⟩ : ∃ e, p.selectany[n + 1]? = some e := ⟨_, List.getElem?_eq_getElem hlt⟩
      have := offsetAt_ordered (at_ := selectanyAt p) (selectany_push hd) (selectany_push he) (by omega)
      have : offsetAt (selectanyAt p) (selectanyPushes p) n + d.bytes.length ≤ offsetAt (selectanyAt p) (selectanyPushes p) (n + 1) := this
      show selectanyAt p + offsetAt _ _ n + d.bytes.length ≤ selectanyAt p + offsetAt _ _ (n + 1)
      omega
    · have : offsetAt (selectanyAt p) (selectanyPushes p) n + d.bytes.length ≤ (lay (selectanyAt p) (selectanyPushes p)).length :=
        (offsetAt_spec (at_ := selectanyAt p) (selectany_push hd)).1
      show selectanyAt p + offsetAt _ _ n + d.bytes.length ≤ _
      omega

/-- What is after the sections. -/
def rest (p : Program) : List Nat := symbolBytes p ++ nameBytes p ++ relocated.flatMap (fun s => relocTable (relocsOf p s))

theorem file_chain {p : Program} (hv : Valid p) :
    Chain 0 ([(0, fileHeader p ++ (sectionIds p).flatMap (headerBytes p))] ++ ((sectionIds p).filter (· ≠ .bss)).map (part p) ++ [(tableAt p, rest p)])
      (tableAt p + (rest p).length) := by
  rw [fileSections]
  simp only [List.map_append]
  have hlen : ∀ s, (sectionBytes p s).length = (pushedBytes p s).length := sectionBytes_length hv
  have hmap : ∀ (α : Prop) [Decidable α] (l : List Section), (if α then [] else l).map (part p) = if α then [] else l.map (part p) := by
    intro α _ l; split <;> rfl
  simp only [hmap]
  have t1 := le_alignIf (p.functions ≠ []) (drectveAt p + (drectveBytes p).length) (a := 16) (by omega)
  have t2 := le_alignIf (p.functions ≠ []) (textAt p + (textBytes p).length) (a := 4) (by omega)
  have t3 : xdataAt p = pdataAt p + (pdataBytes p).length := rfl
  have t4 : xdataAt p + (xdataBytes p).length ≤ rdataAt p := le_alignUp (by omega)
  have t5 := le_alignIf (p.data ≠ [] || p.literals.length ≠ 0) (rdataAt p + (rdataBytes p).length) (a := 16) (by omega)
  have t6 := le_alignIf (p.tls ≠ []) (dataAt p + (dataBytes p).length) (a := 16) (by omega)
  have t7 : tlsAt p + (tlsBytes p).length ≤ typesAt p := le_alignUp (by omega)
  have t8 : typesAt p + p.debugTypes.length ≤ symbolsAt p := le_alignUp (by omega)
  have t9 : selectanyAt p + (lay (selectanyAt p) (selectanyPushes p)).length ≤ tableAt p := le_alignUp (by omega)
  have t1 : drectveAt p + (drectveBytes p).length ≤ textAt p := t1
  have t2 : textAt p + (textBytes p).length ≤ pdataAt p := t2
  have t5 : rdataAt p + (rdataBytes p).length ≤ dataAt p := t5
  have t6 : dataAt p + (dataBytes p).length ≤ tlsAt p := t6
  refine Chain.append _ _ _ (tableAt p) _ ?_ ⟨Nat.le_refl _, Nat.le_refl _⟩
  refine Chain.append _ _ _ (drectveAt p) _ ?_ ?_
  · refine ⟨Nat.le_refl _, ?_⟩
    show 0 + (fileHeader p ++ _).length ≤ 20 + 40 * (p.selectany.length + 10)
    rw [List.length_append, headers_length]
    have := ids_length p
    have : (fileHeader p).length = 20 := by unfold fileHeader; simp only [List.length_append, u32_length, u16_length]
    omega
  refine Chain.append _ _ _ (selectanyAt p) _ ?_ ?_
  · refine Chain.append _ _ _ (typesAt p) _ ?_ ?_
    · refine Chain.append _ _ _ (tlsAt p) _ ?_ ?_
      · refine Chain.append _ _ _ (dataAt p) _ ?_ ?_
        · refine Chain.append _ _ _ (rdataAt p) _ ?_ ?_
          · refine Chain.append _ _ _ (textAt p) _ ⟨Nat.le_refl _, ?_⟩ ?_
            · show drectveAt p + (sectionBytes p .drectve).length ≤ textAt p
              rw [hlen]; exact t1
            · refine chain_if (by omega) (fun _ => ⟨Nat.le_refl _, ?_, ?_, ?_⟩)
              · show textAt p + (sectionBytes p .text).length ≤ pdataAt p
                rw [hlen]; exact t2
              · show pdataAt p + (sectionBytes p .pdata).length ≤ xdataAt p
                rw [hlen]; exact Nat.le_refl _
              · show xdataAt p + (sectionBytes p .xdata).length ≤ rdataAt p
                rw [hlen]; exact t4
          · refine chain_if (by omega) (fun _ => ⟨Nat.le_refl _, ?_⟩)
            show rdataAt p + (sectionBytes p .rdata).length ≤ dataAt p
            rw [hlen]; exact t5
        · refine chain_if (by omega) (fun _ => ⟨Nat.le_refl _, ?_⟩)
          show dataAt p + (sectionBytes p .data).length ≤ tlsAt p
          rw [hlen]; exact t6
      · refine chain_if (by omega) (fun _ => ⟨Nat.le_refl _, ?_⟩)
        show tlsAt p + (sectionBytes p .tls).length ≤ typesAt p
        rw [hlen]; exact t7
    · refine ⟨Nat.le_refl _, ?_, ?_⟩
      · show typesAt p + (sectionBytes p .types).length ≤ symbolsAt p
        rw [hlen]; exact t8
      · show symbolsAt p + (sectionBytes p .symbols).length ≤ selectanyAt p
        rw [hlen]; exact Nat.le_refl _
  · have := chain_selectany hv p.selectany.length (Nat.le_refl _)
    rw [if_neg (by omega)] at this
    have := Chain.append _ [] _ _ _ this t9
    rwa [List.append_nil] at this

theorem file_at {p : Program} (hv : Valid p) {x : Nat × List Nat}
    (h : x ∈ [(0, fileHeader p ++ (sectionIds p).flatMap (headerBytes p))] ++ ((sectionIds p).filter (· ≠ .bss)).map (part p) ++ [(tableAt p, rest p)]) :
    At (file p) x.1 x.2 := by
  have := assemble_at _ [] _ (file_chain hv) x h
  exact this

theorem header_at {p : Program} (hv : Valid p) : At (file p) 0 (fileHeader p ++ (sectionIds p).flatMap (headerBytes p)) :=
  file_at hv (List.mem_append_left _ (List.mem_append_left _ List.mem_cons_self))

theorem section_at {p : Program} (hv : Valid p) {s : Section} (h : s ∈ sectionIds p) (hb : s ≠ .bss) : At (file p) (position p s) (sectionBytes p s) :=
  file_at (x := part p s) hv (List.mem_append_left _ (List.mem_append_right _ (List.mem_map.2 ⟨s, List.mem_filter.2 ⟨h, decide_eq_true hb⟩, rfl⟩)))

theorem rest_at {p : Program} (hv : Valid p) : At (file p) (tableAt p) (rest p) :=
  file_at (x := (tableAt p, rest p)) hv (List.mem_append_right _ List.mem_cons_self)

/-- What is in the file ends in the file. -/
theorem at_le {f b : List Nat} {n : Nat} (h : At f n b) (hb : b ≠ []) : n + b.length ≤ f.length := by
  have hl := List.length_pos_iff.2 hb
  have := h (b.length - 1) (by omega)
  rw [List.getElem?_eq_getElem (by omega : b.length - 1 < b.length)] at this
  have := (List.getElem?_eq_some_iff.1 this).1
  omega

end Verif.Lemmas.Object
