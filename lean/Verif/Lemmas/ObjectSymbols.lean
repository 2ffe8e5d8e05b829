import Verif.Lemmas.ObjectRead

/-!
# Lemmas: the symbols of an object file
-/
namespace Verif.Lemmas.Object
open Verif.Model.BaseReloc
open Verif.Model.Image (Push Placed padding alignUp zeros u64 s32 s64 lay place poke djb2 capacity)
open Verif.Model.Object
open Verif.Lemmas.Image (At le_alignUp place_inside)
open Verif.Spec.Image (byte number Holds)

/-! ## All records can be written -/

theorem hexDigits_ok : (fuel n : Nat) → ∀ b ∈ hexDigits fuel n, b ≠ 0
  | 0, _, b, h => by cases h
  | fuel + 1, n, b, h => by
    rw [hexDigits] at h
    have hd : (if n % 16 < 10 then 48 + n % 16 else 87 + n % 16) ≠ 0 := by split <;> omega
    split at h
    · rw [List.mem_singleton.1 h]; exact hd
    · rcases List.mem_cons.1 h with h | h
      · rw [h]; exact hd
      · exact hexDigits_ok fuel _ b h

theorem hex_ok (n : Nat) : ∀ b ∈ hex n, b ≠ 0 := fun b h => hexDigits_ok _ _ b (List.mem_reverse.1 h)

theorem name_append {a b : List Nat} (ha : Name a) (hb : ∀ x ∈ b, x ≠ 0) : Name (a ++ b) := by
  refine ⟨fun h => ha.1 (List.append_eq_nil_iff.1 h).1, fun x hx => ?_⟩
  rcases List.mem_append.1 hx with hx | hx
  · exact ha.2 x hx
  · exact hb x hx

theorem realName_ok (v : List Nat) : Name (realName v) := by
  refine name_append (by unfold Name; decide) (fun x hx => ?_)
  obtain ⟨b, _, hb⟩ := List.mem_flatMap.1 hx
  rcases List.mem_append.1 hb with h | h
  · exact hex_ok _ x h
  · exact hex_ok _ x h

theorem importName_ok {b : Bool} {n : List Nat} (h : Name n) : Name (importName b n) := by
  unfold importName
  split
  · exact name_append (by unfold Name importPrefix; decide) h.2
  · exact h

theorem records_good {p : Program} (hv : Valid p) : ∀ r ∈ records p, Good r := by
  intro r hr
  simp only [records, recordsBeforeStrings, recordsBeforeLiterals, List.mem_append] at hr
  rcases hr with ((((((((((((hr | hr) | hr) | hr) | hr) | hr) | hr) | hr) | hr) | hr) | hr) | hr) | hr)
  · obtain ⟨s, _, hs⟩ := List.mem_flatMap.1 hr
    rcases List.mem_cons.1 hs with rfl | hs
    · exact ⟨by cases s.1 <;> simp [sectionName], (sectionName_ok s.1).2⟩
    · rw [List.mem_singleton.1 hs]; rfl
  · obtain ⟨f, hf, hs⟩ := List.mem_flatMap.1 hr
    have hn := hv.functionNames f.1 (List.mem_of_getElem? (Verif.Lemmas.Image.zipIdx_get hf))
    simp only [List.mem_cons, List.not_mem_nil, or_false] at hs
    rcases hs with rfl | rfl | rfl
    · exact hn
    · exact name_append (by unfold Name unwindPrefix; decide) hn.2
    · exact name_append (by unfold Name pdataPrefix; decide) hn.2
  · obtain ⟨f, hf, hs⟩ := List.mem_flatMap.1 hr
    have hn := hv.externNames f hf
    unfold externRecords at hs
    rcases List.mem_cons.1 hs with rfl | hs
    · exact importName_ok hn
    · split at hs
      · rw [List.mem_singleton.1 hs]; exact hn
      · cases hs
  · obtain ⟨v, hm, rfl⟩ := List.mem_map.1 hr; exact importName_ok (hv.externVarNames v hm)
  · obtain ⟨v, hm, rfl⟩ := List.mem_map.1 hr; exact importName_ok (hv.autoNames v hm)
  · obtain ⟨v, hm, rfl⟩ := List.mem_map.1 hr; exact hv.bssNames v.1 (List.mem_of_getElem? (Verif.Lemmas.Image.zipIdx_get hm))
  · obtain ⟨v, hm, rfl⟩ := List.mem_map.1 hr; exact hv.dataNames v.1 (List.mem_of_getElem? (Verif.Lemmas.Image.zipIdx_get hm))
  · obtain ⟨v, hm, rfl⟩ := List.mem_map.1 hr; exact name_append (a := [36, 83, 108, 105, 116]) (by unfold Name; decide) (hex_ok _)
  · obtain ⟨v, hm, rfl⟩ := List.mem_map.1 hr; exact hv.tlsNames v.1 (List.mem_of_getElem? (Verif.Lemmas.Image.zipIdx_get hm))
  · obtain ⟨v, hm, rfl⟩ := List.mem_map.1 hr; exact hv.selectanyNames v.1 (List.mem_of_getElem? (Verif.Lemmas.Image.zipIdx_get hm))
  · obtain ⟨g, _, hs⟩ := List.mem_flatMap.1 hr
    obtain ⟨v, hm, rfl⟩ := List.mem_map.1 hs; exact name_append (a := [36, 83]) (by unfold Name; decide) (hex_ok _)
  · obtain ⟨v, hm, rfl⟩ := List.mem_map.1 hr; exact realName_ok _
  · obtain ⟨v, hm, rfl⟩ := List.mem_map.1 hr; exact realName_ok _

/-! ## Which sections there are -/

theorem mem_text {p : Program} (h : p.functions ≠ []) : .text ∈ sectionIds p ∧ .pdata ∈ sectionIds p ∧ .xdata ∈ sectionIds p := by
  unfold sectionIds; rw [if_neg h]; simp

theorem mem_bss {p : Program} (h : p.bss ≠ []) : .bss ∈ sectionIds p := by unfold sectionIds; rw [if_neg h]; simp

theorem mem_rdata {p : Program} (h : rdataBytes p ≠ []) : .rdata ∈ sectionIds p := by unfold sectionIds; rw [if_neg h]; simp

theorem mem_data {p : Program} (h : ¬ (p.data = [] ∧ p.literals = [])) : .data ∈ sectionIds p := by unfold sectionIds; rw [if_neg h]; simp

theorem mem_tls {p : Program} (h : p.tls ≠ []) : .tls ∈ sectionIds p := by unfold sectionIds; rw [if_neg h]; simp

theorem mem_symbols (p : Program) : .symbols ∈ sectionIds p := by unfold sectionIds; simp

theorem mem_selectany {p : Program} {i : Nat} (h : i < p.selectany.length) : .selectany i ∈ sectionIds p := by
  unfold sectionIds
  exact List.mem_append_right _ (List.mem_map.2 ⟨i, List.mem_range.2 h, rfl⟩)

theorem sectionNumber_get {p : Program} {s : Section} (h : s ∈ sectionIds p) : ∃ i, sectionNumber p s = i + 1 ∧ (sectionIds p)[i]? = some s ∧
    i < (sectionIds p).length := by
  have hlt := List.idxOf_lt_length_iff.2 h
  exact ⟨_, rfl, by rw [List.getElem?_eq_getElem hlt, List.getElem_idxOf hlt], hlt⟩

theorem sectionNumber_le {p : Program} (hv : Valid p) {s : Section} (h : s ∈ sectionIds p) : 1 ≤ sectionNumber p s ∧
    sectionNumber p s ≤ Spec.Object.sectionCount (file p) ∧ sectionNumber p s < 2 ^ 16 := by
  obtain ⟨i, e, _, hi⟩ := sectionNumber_get h
  have := ids_length p
  have := hv.fewSections
  rw [(header_spec hv (records_good hv)).2.1, e]
  omega

/-! ## Looking for records -/

theorem pre {α : Type} {l l' : List α} {i : Nat} {x : α} (h : l[i]? = some x) : (l ++ l')[i]? = some x := by
  rw [List.getElem?_append_left (List.getElem?_eq_some_iff.1 h).1, h]

theorem suf {α : Type} {l l' : List α} {i : Nat} {x : α} (h : l'[i]? = some x) : (l ++ l')[l.length + i]? = some x := by
  rw [List.getElem?_append_right (by omega), Nat.add_sub_cancel_left, h]

theorem flatMap_triple {α β : Type} (f : α → List β) (hf : ∀ x, (f x).length = 3) : (l : List α) → (i j : Nat) → (x : α) → (y : β) → l[i]? = some x →
    (f x)[j]? = some y → (l.flatMap f)[3 * i + j]? = some y
  | [], _, _, _, _, h, _ => by cases h
  | a :: l, 0, j, x, y, h, hy => by
    cases h
    rw [List.flatMap_cons, Nat.mul_zero, Nat.zero_add]
    exact pre hy
  | a :: l, i + 1, j, x, y, h, hy => by
    rw [List.flatMap_cons, show 3 * (i + 1) + j = (f a).length + (3 * i + j) by rw [hf]; omega]
    exact suf (flatMap_triple f hf l i j x y h hy)

theorem flatMap_take {α β : Type} (f : α → List β) : (l : List α) → (i j : Nat) → (x : α) → (y : β) → l[i]? = some x → (f x)[j]? = some y →
    (l.flatMap f)[((l.take i).flatMap f).length + j]? = some y
  | [], _, _, _, _, h, _ => by cases h
  | a :: l, 0, j, x, y, h, hy => by
    cases h
    rw [List.flatMap_cons, List.take_zero, List.flatMap_nil, List.length_nil, Nat.zero_add]
    exact pre hy
  | a :: l, i + 1, j, x, y, h, hy => by
    rw [List.flatMap_cons, List.take_succ_cons, List.flatMap_cons, List.length_append, Nat.add_assoc]
    exact suf (flatMap_take f l i j x y h hy)

theorem zipIdx_map {α β : Type} (f : α × Nat → β) {l : List α} {i : Nat} {x : α} (h : l[i]? = some x) : (l.zipIdx.map f)[i]? = some (f (x, i)) := by
  rw [List.getElem?_map, List.getElem?_zipIdx, h, Nat.zero_add]
  rfl

theorem zipIdx_some {α : Type} {l : List α} {i : Nat} {x : α} (h : l[i]? = some x) : l.zipIdx[i]? = some (x, i) := by
  rw [List.getElem?_zipIdx, h, Nat.zero_add]
  rfl

theorem flatMap_length_congr {α β γ : Type} (f : α → List β) (g : α → List γ) (h : ∀ x, (f x).length = (g x).length) : (l : List α) →
    (l.flatMap f).length = (l.flatMap g).length
  | [] => rfl
  | a :: l => by rw [List.flatMap_cons, List.flatMap_cons, List.length_append, List.length_append, h, flatMap_length_congr f g h l]

/-- The records up to those of the objects in `.data`. -/
theorem head_get {p : Program} {i : Nat} {r : Record} (h : (recordsBeforeLiterals p)[i]? = some r) : (records p)[i]? = some r :=
  pre (pre (pre (pre (pre (pre h)))))

theorem func_get {p : Program} {i : Nat} {f : Function} (h : p.functions[i]? = some f) :
    (records p)[symbolOf p (.func i)]? = some (.symbol f.name (textOffset p i) (sectionNumber p .text) 0x20 (if f.isStatic then 3 else 2) 0) ∧
    (records p)[symbolOf p (.func i) + 1]? = some (.symbol (unwindPrefix ++ f.name) (unwindStep p * i) (sectionNumber p .xdata) 0 3 0) ∧
    (records p)[symbolOf p (.func i) + 2]? = some (.symbol (pdataPrefix ++ f.name) (12 * i) (sectionNumber p .pdata) 0 3 0) := by
  have key : ∀ (j : Nat) (y : Record), ([.symbol f.name (textOffset p i) (sectionNumber p .text) 0x20 (if f.isStatic then 3 else 2) 0,
      .symbol (unwindPrefix ++ f.name) (unwindStep p * i) (sectionNumber p .xdata) 0 3 0,
      .symbol (pdataPrefix ++ f.name) (12 * i) (sectionNumber p .pdata) 0 3 0] : List Record)[j]? = some y →
      (records p)[symbolOf p (.func i) + j]? = some y := by
    intro j y hy
    unfold symbolOf
    rw [Nat.add_assoc]
    refine head_get (pre (pre (pre (pre (pre (suf ?_))))))
    exact flatMap_triple _ (fun _ => rfl) p.functions.zipIdx i j (f, i) y (zipIdx_some h) hy
  exact ⟨key 0 _ rfl, key 1 _ rfl, key 2 _ rfl⟩

theorem externFunc_get {p : Program} {i j : Nat} {f : Extern} {r : Record} (h : p.externFunctions[i]? = some f) (hr : (externRecords f)[j]? = some r) :
    (records p)[symbolOf p (.externFunc i) + j]? = some r := by
  have hf := flatMap_take externRecords p.externFunctions i j f r h hr
  have hs := suf (l := sectionRecords p ++ functionRecords p) hf
  have e : symbolOf p (.externFunc i) + j =
      (sectionRecords p ++ functionRecords p).length + (((p.externFunctions.take i).flatMap externRecords).length + j) := by
    rw [symbolOf, List.length_append, Nat.add_assoc]
  rw [e]
  exact head_get (pre (pre (pre (pre hs))))

theorem externVar_get {p : Program} {i : Nat} {v : List Nat × Bool} (h : p.externVars[i]? = some v) :
    (records p)[symbolOf p (.externVar i)]? = some (.symbol (importName v.2 v.1) 0 0 0 2 0) := by
  unfold symbolOf
  refine head_get (pre (pre (pre (suf ?_))))
  rw [List.getElem?_map, h]; rfl

theorem auto_get {p : Program} {i : Nat} {v : List Nat × Bool × Nat} (h : p.autos[i]? = some v) :
    (records p)[symbolOf p (.auto i)]? = some (.symbol (importName v.2.1 v.1) v.2.2 0 0 2 0) := by
  unfold symbolOf
  have := suf (l := sectionRecords p ++ functionRecords p ++ p.externFunctions.flatMap externRecords ++
    p.externVars.map (fun v => .symbol (importName v.2 v.1) 0 0 0 2 0))
    (l' := p.autos.map (fun v => (.symbol (importName v.2.1 v.1) v.2.2 0 0 2 0 : Record))) (i := i) (by rw [List.getElem?_map, h]; rfl)
  rw [List.length_append, List.length_map] at this
  exact head_get (pre (pre this))

theorem bss_get {p : Program} {i : Nat} {v : List Nat × Nat × Nat} (h : p.bss[i]? = some v) :
    (records p)[symbolOf p (.bss i)]? = some (.symbol v.1 (bssOffset p i) (sectionNumber p .bss) 0 3 0) := by
  unfold symbolOf
  have := suf (l := sectionRecords p ++ functionRecords p ++ p.externFunctions.flatMap externRecords ++
    p.externVars.map (fun v => .symbol (importName v.2 v.1) 0 0 0 2 0) ++ p.autos.map (fun v => .symbol (importName v.2.1 v.1) v.2.2 0 0 2 0))
    (zipIdx_map (fun v => (.symbol v.1.1 (bssOffset p v.2) (sectionNumber p .bss) 0 3 0 : Record)) h)
  rw [List.length_append, List.length_append, List.length_map, List.length_map] at this
  exact head_get (pre this)

theorem data_get {p : Program} {i : Nat} {v : Var} (h : p.data[i]? = some v) :
    (records p)[symbolOf p (.data i)]? = some (.symbol v.name (dataOffset p i) (sectionNumber p .data) 0 (if v.isStatic then 3 else 2) 0) := by
  unfold symbolOf
  have := suf (l := sectionRecords p ++ functionRecords p ++ p.externFunctions.flatMap externRecords ++
    p.externVars.map (fun v => .symbol (importName v.2 v.1) 0 0 0 2 0) ++ p.autos.map (fun v => .symbol (importName v.2.1 v.1) v.2.2 0 0 2 0) ++
    p.bss.zipIdx.map (fun v => .symbol v.1.1 (bssOffset p v.2) (sectionNumber p .bss) 0 3 0))
    (zipIdx_map (fun v => (.symbol v.1.name (dataOffset p v.2) (sectionNumber p .data) 0 (if v.1.isStatic then 3 else 2) 0 : Record)) h)
  rw [List.length_append, List.length_append, List.length_append, List.length_map, List.length_map, List.length_map, List.length_zipIdx] at this
  exact head_get this

theorem literal_get {p : Program} {i : Nat} {v : Nat × List Nat} (h : p.literals[i]? = some v) : ∃ name,
    (records p)[symbolOf p (.literal i)]? = some (.symbol name (literalOffset p i) (sectionNumber p .data) 0 3 0) :=
  ⟨_, pre (pre (pre (pre (pre (suf (zipIdx_map _ h))))))⟩

theorem tls_get {p : Program} {i : Nat} {v : Var} (h : p.tls[i]? = some v) :
    (records p)[symbolOf p (.tls i)]? = some (.symbol v.name (tlsOffset p i) (sectionNumber p .tls) 0 (if v.isStatic then 3 else 2) 0) := by
  unfold symbolOf
  have := suf (l := recordsBeforeLiterals p ++
    p.literals.zipIdx.map (fun v => .symbol ([36, 83, 108, 105, 116] ++ hex ((recordsBeforeLiterals p).length + v.2)) (literalOffset p v.2)
      (sectionNumber p .data) 0 3 0))
    (zipIdx_map (fun v => (.symbol v.1.name (tlsOffset p v.2) (sectionNumber p .tls) 0 (if v.1.isStatic then 3 else 2) 0 : Record)) h)
  rw [List.length_append, List.length_map, List.length_zipIdx] at this
  exact pre (pre (pre (pre this)))

theorem selectany_get {p : Program} {i : Nat} {v : Var} (h : p.selectany[i]? = some v) :
    (records p)[symbolOf p (.selectany i)]? = some (.symbol v.name 0 (sectionNumber p (.selectany i)) 0 2 0) := by
  unfold symbolOf
  have := suf (l := recordsBeforeLiterals p ++
    p.literals.zipIdx.map (fun v => .symbol ([36, 83, 108, 105, 116] ++ hex ((recordsBeforeLiterals p).length + v.2)) (literalOffset p v.2)
      (sectionNumber p .data) 0 3 0) ++
    p.tls.zipIdx.map (fun v => .symbol v.1.name (tlsOffset p v.2) (sectionNumber p .tls) 0 (if v.1.isStatic then 3 else 2) 0))
    (zipIdx_map (fun v => (.symbol v.1.name 0 (sectionNumber p (.selectany v.2)) 0 2 0 : Record)) h)
  rw [List.length_append, List.length_append, List.length_map, List.length_map, List.length_zipIdx, List.length_zipIdx] at this
  exact pre (pre (pre this))

/-! ## Literals -/

/-- The literals of a group. -/
def groupList (p : Program) : Nat → List (List Nat)
  | 0 => p.strings1
  | 1 => p.strings2
  | 2 => p.strings4
  | 3 => p.floats
  | _ => p.doubles

theorem group_spec {p : Program} (hv : Valid p) (g : Nat) : (∀ v ∈ (group p g).1.values, v ∈ groupList p g) ∧
    ∀ (i : Nat) v, (groupList p g)[i]? = some v → (group p g).1.values[literalIn p g i]? = some v := by
  have key : ∀ (hash : List Nat → Nat) (l : List (List Nat)), l.length < 2 ^ 61 → group p g = interned hash l → groupList p g = l →
      (∀ v ∈ (group p g).1.values, v ∈ groupList p g) ∧
      ∀ (i : Nat) v, (groupList p g)[i]? = some v → (group p g).1.values[literalIn p g i]? = some v := by
    intro hash l hl e1 e2
    obtain ⟨h1, h2⟩ := interned_spec hash l hl
    refine ⟨by rw [e1, e2]; exact h1, fun i v hi => ?_⟩
    rw [e2] at hi
    obtain ⟨e, h3, h4⟩ := h2 i v hi
    have : literalIn p g i = e := by
      unfold literalIn
      rw [e1, List.getD_eq_getElem?_getD, h3]
      rfl
    rw [this, e1]; exact h4
  match g with
  | 0 => exact key _ _ hv.manyStrings1 rfl rfl
  | 1 => exact key _ _ hv.manyStrings2 rfl rfl
  | 2 => exact key _ _ hv.manyStrings4 rfl rfl
  | 3 => exact key _ _ hv.manyFloats rfl rfl
  | g + 4 => exact key _ _ hv.manyDoubles rfl rfl

theorem group_push {p : Program} {g e : Nat} {v : List Nat} (hg : g < 5) (h : (group p g).1.values[e]? = some v) :
    (rdataPushes p)[before p g + 1 + e]? = some ⟨none, 1, 0, v ++ zeros (groupTerminator g)⟩ := by
  have hlt := (List.getElem?_eq_some_iff.1 h).1
  have := flatMap_range (groupPushes p) 5 g (1 + e) hg (by unfold groupPushes; rw [List.length_cons, List.length_map]; omega)
  unfold rdataPushes before
  rw [Nat.add_assoc, this]
  unfold groupPushes
  rw [Nat.add_comm 1 e, List.getElem?_cons_succ, List.getElem?_map, h]
  rfl

theorem group_start_push {p : Program} {g : Nat} (hg : g < 5) : (rdataPushes p)[before p g]? = some ⟨none, groupAlign g, 0, []⟩ := by
  have := flatMap_range (groupPushes p) 5 g 0 hg (by unfold groupPushes; rw [List.length_cons]; omega)
  exact this

/-- Without alignment, a push directly follows. -/
theorem offset_succ (ps : List Push) : ∀ (at_ va j : Nat) (x : Placed) (r : Push), (place at_ va ps)[j]? = some x → ps[j + 1]? = some r → r.align = 1 →
    ∃ y, (place at_ va ps)[j + 1]? = some y ∧ y.rva = x.rva + x.bytes.length := by
  induction ps with
  | nil => intro _ _ _ _ _ h; cases h
  | cons p ps ih =>
    intro at_ va j x r hx hr ha
    rw [place] at hx ⊢
    cases j with
    | zero =>
      cases hx
      cases ps with
      | nil => cases hr
      | cons q ps =>
        cases hr
        refine ⟨_, rfl, ?_⟩
        simp only [padding, ha, Nat.mod_one]
        omega
    | succ j => exact ih _ _ j x r hx hr ha

theorem offsetAt_succ {ps : List Push} {at_ j : Nat} {q r : Push} (hq : ps[j]? = some q) (hr : ps[j + 1]? = some r) (ha : r.align = 1) :
    offsetAt at_ ps (j + 1) = offsetAt at_ ps j + q.bytes.length := by
  obtain ⟨x, hx, hb, _⟩ := offset_spec ps at_ 0 j q hq
  obtain ⟨y, hy, e⟩ := offset_succ ps at_ 0 j x r hx hr ha
  unfold offsetAt
  rw [hx, hy]
  simp only []
  rw [e, hb]

/-- Values of the same size are at equal distances. -/
theorem group_distance {p : Program} {g n : Nat} (hg : g < 5) (hn : ∀ v ∈ (group p g).1.values, (v ++ zeros (groupTerminator g)).length = n) : (e : Nat) →
    e < (group p g).1.values.length → groupOffset p g e = groupStart p g + n * e
  | 0, h => by
    have := offsetAt_succ (at_ := rdataAt p) (group_start_push (p := p) hg) (group_push hg (List.getElem?_eq_getElem h)) rfl
    exact this
  | e + 1, h => by
    have ih := group_distance hg hn e (by omega)
    have hlt : e < (group p g).1.values.length := by omega
    have := offsetAt_succ (at_ := rdataAt p) (group_push hg (List.getElem?_eq_getElem hlt)) (group_push hg (List.getElem?_eq_getElem h)) rfl
    unfold groupOffset at ih ⊢
    rw [show before p g + 1 + (e + 1) = before p g + 1 + e + 1 by omega, this, ih]
    show _ + (_ ++ zeros (groupTerminator g)).length = _
    rw [hn _ (List.getElem_mem hlt), Nat.mul_succ]
    omega

theorem string_get {p : Program} {g e : Nat} {v : List Nat} (hg : g < 3) (h : (group p g).1.values[e]? = some v) : ∃ name,
    (records p)[(recordsBeforeStrings p).length + (stringsBefore p g + e)]? = some (.symbol name (groupOffset p g e) (sectionNumber p .rdata) 0 3 0) := by
  have hz := zipIdx_map (fun v => (.symbol ([36, 83] ++ hex (stringsBefore p g + v.2)) (groupOffset p g v.2) (sectionNumber p .rdata) 0 3 0 : Record)) h
  have hlt := (List.getElem?_eq_some_iff.1 hz).1
  have := flatMap_range (fun g => (group p g).1.values.zipIdx.map (fun v =>
    (.symbol ([36, 83] ++ hex (stringsBefore p g + v.2)) (groupOffset p g v.2) (sectionNumber p .rdata) 0 3 0 : Record))) 3 g e hg hlt
  rw [hz] at this
  have hl : stringsBefore p g = ((List.range g).flatMap (fun g => (group p g).1.values.zipIdx.map (fun v =>
    (.symbol ([36, 83] ++ hex (stringsBefore p g + v.2)) (groupOffset p g v.2) (sectionNumber p .rdata) 0 3 0 : Record)))).length :=
    flatMap_length_congr _ _ (fun g => by rw [List.length_map, List.length_zipIdx]) _
  refine ⟨[36, 83] ++ hex (stringsBefore p g + e), pre (pre (suf ?_))⟩
  unfold stringRecords
  rw [← this]
  congr 2

theorem float_get {p : Program} {e : Nat} {v : List Nat} (h : (group p 3).1.values[e]? = some v) :
    (records p)[(recordsBeforeStrings p ++ stringRecords p).length + e]? = some (.symbol (realName v) (groupStart p 3 + 4 * e) (sectionNumber p .rdata) 0 3 0) :=
  pre (suf (zipIdx_map _ h))

theorem double_get {p : Program} {e : Nat} {v : List Nat} (h : (group p 4).1.values[e]? = some v) :
    (records p)[(recordsBeforeStrings p ++ stringRecords p ++ realRecords p 3 4).length + e]? =
      some (.symbol (realName v) (groupStart p 4 + 8 * e) (sectionNumber p .rdata) 0 3 0) :=
  suf (zipIdx_map _ h)

theorem rdata_ne {p : Program} {j : Nat} {q : Push} (h : (rdataPushes p)[j]? = some q) (hq : q.bytes ≠ []) : rdataBytes p ≠ [] := by
  intro e
  have := (offsetAt_spec (at_ := rdataAt p) h).1
  have hl := List.length_pos_iff.2 hq
  have e : lay (rdataAt p) (rdataPushes p) = [] := e
  rw [e, List.length_nil] at this
  omega

end Verif.Lemmas.Object
