import Verif.Lemmas.ObjectFile

/-!
# Lemmas: reading an object file
-/
namespace Verif.Lemmas.Object
open Verif.Model.BaseReloc
open Verif.Model.Image (Push Placed padding alignUp zeros u64 s32 s64 lay place poke djb2 capacity)
open Verif.Model.Object
open Verif.Lemmas.Image (At holds_of_at holds_append number_u16 number_u32 u16_length u32_length mem_zipIdx zipIdx_get)
open Verif.Spec.Image (byte number Holds)
open Verif.Spec.Object (untilZero)

theorem At.append {f : List Nat} {n : Nat} {a b : List Nat} (h : At f n (a ++ b)) : At f n a ∧ At f (n + a.length) b :=
  Verif.Lemmas.Image.At.append h

theorem chain_le : (l : List (Nat × List Nat)) → (a b : Nat) → Chain a l b → a ≤ b ∧ ∀ x ∈ l, x.1 + x.2.length ≤ b
  | [], _, _, h => ⟨h, fun x hx => by cases hx⟩
  | (pos, bytes) :: l, a, b, h => by
    obtain ⟨h1, h2⟩ := chain_le l _ b h.2
    refine ⟨by have := h.1; omega, fun x hx => ?_⟩
    rcases List.mem_cons.1 hx with rfl | hx
    · exact h1
    · exact h2 x hx

theorem rest_ne (p : Program) : rest p ≠ [] := by
  intro h
  have := congrArg List.length h
  unfold rest nameBytes at this
  simp only [List.length_append, u32_length, List.length_nil] at this
  omega

theorem rest_le {p : Program} (hv : Valid p) : tableAt p + (rest p).length ≤ (file p).length := at_le (rest_at hv) (rest_ne p)

theorem part_le {p : Program} (hv : Valid p) {s : Section} (h : s ∈ sectionIds p) (hb : s ≠ .bss) :
    position p s + (pushedBytes p s).length ≤ (file p).length := by
  have := (chain_le _ _ _ (file_chain hv)).2 (part p s)
    (List.mem_append_left _ (List.mem_append_right _ (List.mem_map.2 ⟨s, List.mem_filter.2 ⟨h, decide_eq_true hb⟩, rfl⟩)))
  have h2 : (part p s).2.length = (pushedBytes p s).length := sectionBytes_length hv s
  rw [h2] at this
  exact Nat.le_trans this (rest_le hv)

theorem flatMap_at {α : Type} (f : α → List Nat) (n : Nat) (hf : ∀ x, (f x).length = n) : (l : List α) → (i : Nat) → (x : α) → l[i]? = some x →
    At (l.flatMap f) (n * i) (f x)
  | [], _, _, h => by cases h
  | y :: l, 0, x, h => by
    cases h
    rw [List.flatMap_cons]
    exact at_left (fun i _ => by rw [Nat.mul_zero, Nat.zero_add]) (by rw [Nat.mul_zero]; omega)
  | y :: l, i + 1, x, h => by
    rw [List.flatMap_cons, Nat.mul_succ, Nat.add_comm, ← hf y]
    have := at_cons (a := f y) (flatMap_at f n hf l i x h)
    rwa [hf y] at this ⊢

theorem headerBytes_length (p : Program) (s : Section) : (headerBytes p s).length = 40 := by
  have := headers_length p [s]
  rw [List.flatMap_singleton] at this
  exact this

/-! ## The flags -/

theorem log2_of {a : Nat} (h : PowerOfTwo a) : a = 2 ^ Nat.log2 a ∧ Nat.log2 a ≤ 13 := by
  obtain ⟨k, hk, rfl⟩ := h
  rw [Nat.log2_two_pow]
  exact ⟨rfl, hk⟩

theorem max_power {a b : Nat} (ha : PowerOfTwo a) (hb : PowerOfTwo b) : PowerOfTwo (max a b) := by
  rcases Nat.le_total a b with h | h
  · rw [Nat.max_eq_right h]; exact hb
  · rw [Nat.max_eq_left h]; exact ha

theorem foldl_max : (l : List Nat) → (a : Nat) → PowerOfTwo a → (∀ x ∈ l, PowerOfTwo x) →
    PowerOfTwo (l.foldl max a) ∧ a ≤ l.foldl max a ∧ ∀ x ∈ l, x ≤ l.foldl max a
  | [], _, ha, _ => ⟨ha, Nat.le_refl _, fun x hx => by cases hx⟩
  | y :: l, a, ha, h => by
    obtain ⟨h1, h2, h3⟩ := foldl_max l (max a y) (max_power ha (h y List.mem_cons_self)) (fun x hx => h x (List.mem_cons_of_mem _ hx))
    rw [List.foldl_cons]
    refine ⟨h1, by omega, fun x hx => ?_⟩
    rcases List.mem_cons.1 hx with rfl | hx
    · omega
    · exact h3 x hx

theorem maxAlign_spec {l : List Nat} (h : ∀ x ∈ l, PowerOfTwo x) : PowerOfTwo (maxAlign l) ∧ ∀ x ∈ l, x ≤ maxAlign l := by
  have := foldl_max l 1 ⟨0, by omega, rfl⟩ h
  exact ⟨this.1, this.2.2⟩

/-- The alignment of a section. -/
def sectionAlign (p : Program) : Section → Nat
  | .drectve | .types | .symbols => 1
  | .text | .rdata => 16
  | .pdata | .xdata => 4
  | .bss => maxAlign (p.bss.map (·.2.2))
  | .data => maxAlign (p.data.map (·.align) ++ p.literals.map (·.1))
  | .tls => maxAlign (p.tls.map (·.align))
  | .selectany i => match p.selectany[i]? with | some d => d.align | none => 1

theorem sectionAlign_power {p : Program} (hv : Valid p) (s : Section) : PowerOfTwo (sectionAlign p s) := by
  cases s with
  | drectve | types | symbols => exact ⟨0, by omega, rfl⟩
  | text | rdata => exact ⟨4, by omega, rfl⟩
  | pdata | xdata => exact ⟨2, by omega, rfl⟩
  | bss => exact (maxAlign_spec (fun x hx => by obtain ⟨v, hm, rfl⟩ := List.mem_map.1 hx; exact hv.bssAligns v hm)).1
  | data =>
    refine (maxAlign_spec (fun x hx => ?_)).1
    rcases List.mem_append.1 hx with hx | hx
    · obtain ⟨v, hm, rfl⟩ := List.mem_map.1 hx; exact hv.dataAligns v hm
    · obtain ⟨v, hm, rfl⟩ := List.mem_map.1 hx; exact hv.literalAligns v hm
  | tls => exact (maxAlign_spec (fun x hx => by obtain ⟨v, hm, rfl⟩ := List.mem_map.1 hx; exact hv.tlsAligns v hm)).1
  | selectany i =>
    show PowerOfTwo (match p.selectany[i]? with | some d => d.align | none => 1)
    split
    · next d h => exact hv.selectanyAligns d (List.mem_of_getElem? h)
    · exact ⟨0, by omega, rfl⟩

/-- The other flags. -/
def otherFlags : Section → Nat
  | .drectve => 0x200 + 0x800
  | .text => 0x20 + 0x40000000 + 0x20000000
  | .pdata | .xdata | .rdata => 0x40 + 0x40000000
  | .bss => 0x80 + 0x40000000 + 0x80000000
  | .data | .tls => 0x40 + 0x40000000 + 0x80000000
  | .types | .symbols => 0x40 + 0x02000000 + 0x40000000
  | .selectany _ => 0x40 + 0x40000000 + 0x80000000 + 0x1000

theorem sectionFlags_eq (p : Program) (s : Section) : sectionFlags p s = otherFlags s + (Nat.log2 (sectionAlign p s) + 1) * 0x100000 := by
  have h1 : Nat.log2 1 = 0 := Nat.log2_two_pow (n := 0)
  have h2 : Nat.log2 16 = 4 := Nat.log2_two_pow (n := 4)
  have h3 : Nat.log2 4 = 2 := Nat.log2_two_pow (n := 2)
  cases s <;> simp only [sectionFlags, otherFlags, sectionAlign, alignFlag, h1, h2, h3]
  case selectany i =>
    have e : ∀ k : Nat, 0x40 + (k + 1) * 0x100000 + 0x40000000 + 0x80000000 + 0x1000 = 0x40 + 0x40000000 + 0x80000000 + 0x1000 + (k + 1) * 0x100000 := by
      intro k; omega
    cases p.selectany[i]? with
    | none => exact e _
    | some d => exact e _
  all_goals omega

/-- The flags with the one for many relocations. -/
def allFlags (p : Program) (s : Section) : Nat := sectionFlags p s + if (relocsOf p s).length ≤ 0xffff then 0 else 0x01000000

theorem allFlags_spec {p : Program} (hv : Valid p) (s : Section) : allFlags p s < 2 ^ 32 ∧
    (allFlags p s / 0x1000000 % 2 = if (relocsOf p s).length ≤ 0xffff then 0 else 1) ∧ allFlags p s / 0x100000 % 16 = Nat.log2 (sectionAlign p s) + 1 ∧
    (allFlags p s / 0x80 % 2 = otherFlags s / 0x80 % 2) ∧ (allFlags p s / 0x1000 % 2 = otherFlags s / 0x1000 % 2) ∧
    (allFlags p s / 0x20000000 % 2 = otherFlags s / 0x20000000 % 2) ∧ (allFlags p s / 0x40000000 % 2 = otherFlags s / 0x40000000 % 2) ∧
    allFlags p s / 0x80000000 % 2 = otherFlags s / 0x80000000 % 2 := by
  have hl := (log2_of (sectionAlign_power hv s)).2
  unfold allFlags
  rw [sectionFlags_eq]
  generalize Nat.log2 (sectionAlign p s) = k at *
  generalize hx : (if (relocsOf p s).length ≤ 0xffff then 0 else 0x01000000 : Nat) = x
  generalize hy : (if (relocsOf p s).length ≤ 0xffff then 0 else 1 : Nat) = y
  have : x = 0x1000000 * y ∧ y ≤ 1 := by subst hx; subst hy; split <;> omega
  clear hx hy
  cases s <;> simp only [otherFlags] <;> (refine ⟨?_, ?_, ?_, ?_, ?_, ?_, ?_, ?_⟩ <;> omega)

/-! ## The header and the table of sections -/

theorem records_le {p : Program} (hg : ∀ r ∈ records p, Good r) : 18 * (records p).length ≤ (rest p).length := by
  have := writeRecords_length (records p) 4 hg
  unfold rest symbolBytes
  simp only [List.length_append]
  omega

theorem header_spec {p : Program} (hv : Valid p) (hg : ∀ r ∈ records p, Good r) :
    Spec.Object.machine (file p) = 0x8664 ∧ Spec.Object.sectionCount (file p) = (sectionIds p).length ∧ Spec.Object.symbolTable (file p) = tableAt p ∧
      Spec.Object.symbolCount (file p) = (records p).length ∧ number (byte (file p)) 2 16 = 0 := by
  have h := holds_of_at (At.append (header_at hv)).1
  unfold fileHeader at h
  simp only [holds_append, u16_length, u32_length, List.length_append, Nat.reduceAdd, Nat.zero_add] at h
  obtain ⟨⟨⟨⟨⟨⟨h1, h2⟩, h3⟩, h4⟩, h5⟩, h6⟩, h7⟩ := h
  have a1 := ids_length p
  have a2 := hv.fewSections
  have a3 := rest_le hv
  have a4 := hv.small
  have a5 := records_le hg
  exact ⟨number_u16 h1 (by omega), number_u16 h2 (by omega), number_u32 h4 (by omega), number_u32 h5 (by omega), number_u16 h6 (by omega)⟩

theorem relocPointer_le {p : Program} (hv : Valid p) (s : Section) : relocPointer p s ≤ (file p).length := by
  have h := rest_le hv
  unfold relocPointer
  split
  · omega
  · have : (relocated.takeWhile (· ≠ s)).flatMap (fun s => relocTable (relocsOf p s)) ++
        (relocated.dropWhile (· ≠ s)).flatMap (fun s => relocTable (relocsOf p s)) = relocated.flatMap (fun s => relocTable (relocsOf p s)) := by
      rw [← List.flatMap_append, List.takeWhile_append_dropWhile]
    have := congrArg List.length this
    rw [List.length_append] at this
    unfold rest at h
    unfold relocsAt
    simp only [List.length_append] at h
    omega

theorem sectionName_ok (s : Section) : (sectionName s).length ≤ 8 ∧ ∀ b ∈ sectionName s, b ≠ 0 := by
  cases s <;> simp [sectionName]

/-- An entry of the table of sections. -/
theorem sectionAt_eq {p : Program} (hv : Valid p) (hg : ∀ r ∈ records p, Good r) {i : Nat} {s : Section} (h : (sectionIds p)[i]? = some s) :
    Spec.Object.sectionAt (file p) (i + 1) =
      ⟨sectionName s, sectionSize p s, position p s, relocPointer p s, min (relocsOf p s).length 0xffff, allFlags p s⟩ := by
  have hm := List.mem_of_getElem? h
  have hat : At (file p) (20 + 40 * i) (headerBytes p s) := by
    have h1 := (At.append (header_at hv)).2
    have hl : 0 + (fileHeader p).length = 20 := rfl
    rw [hl] at h1
    have h2 := flatMap_at (headerBytes p) 40 (headerBytes_length p) _ i s h
    refine at_trans h1 h2 ?_
    have := (List.getElem?_eq_some_iff.1 h).1
    rw [headers_length, headerBytes_length]
    omega
  have hsmall := hv.small
  have b1 : sectionSize p s < 2 ^ 32 := by
    by_cases hb : s = .bss
    · subst hb; have := hv.bssSize; show (bssOffsets 0 p.bss).2 < _; omega
    · have := part_le hv hm hb
      have e : sectionSize p s = (pushedBytes p s).length := by cases s <;> first | rfl | exact absurd rfl hb
      omega
  have b2 : position p s < 2 ^ 32 := by
    by_cases hb : s = .bss
    · subst hb; show 0 < 2 ^ 32; omega
    · have := part_le hv hm hb
      omega
  have b3 : relocPointer p s < 2 ^ 32 := by have := relocPointer_le hv s; omega
  have hopt := (header_spec hv hg).2.2.2.2
  unfold Spec.Object.sectionAt
  simp only [hopt, Nat.add_zero, Nat.add_sub_cancel]
  have hn := sectionName_ok s
  have hn8 : (sectionName s ++ zeros (8 - (sectionName s).length)).length = 8 := by
    rw [List.length_append]; unfold zeros; rw [List.length_replicate]; omega
  generalize 20 + 40 * i = a at *
  unfold headerBytes at hat
  simp only [List.append_assoc] at hat
  rw [← List.append_assoc] at hat
  obtain ⟨g0, g1⟩ := At.append hat
  rw [hn8] at g1
  have hh := holds_of_at g1
  simp only [holds_append, u16_length, u32_length, Nat.add_assoc, Nat.reduceAdd] at hh
  obtain ⟨-, -, h3, h4, h5, -, h7, -, h9⟩ := hh
  rw [short_name g0 hn.1 hn.2, number_u32 h3 b1, number_u32 h4 b2, number_u32 h5 b3, number_u16 h7 (by omega), number_u32 (v := allFlags p s) h9 (allFlags_spec hv s).1]

/-! ## Symbols -/

theorem symbol_eq {p : Program} (hv : Valid p) (hg : ∀ r ∈ records p, Good r) {k : Nat} {name : List Nat} {value sec type cls aux : Nat}
    (h : (records p)[k]? = some (.symbol name value sec type cls aux)) (hval : value < 2 ^ 32) (hsec : sec < 2 ^ 16) (htype : type < 2 ^ 16) :
    k < Spec.Object.symbolCount (file p) ∧ Spec.Object.symbolAt (file p) k = ⟨name, value, sec, type, cls, aux⟩ := by
  obtain ⟨-, -, e1, e2, -⟩ := header_spec hv hg
  have hk := (List.getElem?_eq_some_iff.1 h).1
  refine ⟨by rw [e2]; exact hk, ?_⟩
  have hname : Name name := hg _ (List.mem_of_getElem? h)
  have hlen := writeRecords_length (records p) 4 hg
  have hr := rest_at hv
  unfold rest at hr
  obtain ⟨hsn, -⟩ := At.append hr
  obtain ⟨hs, hn⟩ := At.append hsn
  have hnl : (symbolBytes p).length = 18 * (records p).length := hlen
  rw [hnl] at hn
  unfold Spec.Object.symbolAt
  simp only [e1, e2]
  have fields : ∀ {a : Nat}, At (file p) (a + 8) (tail value sec type cls aux) →
      number (byte (file p)) 4 (a + 8) = value ∧ number (byte (file p)) 2 (a + 12) = sec ∧ number (byte (file p)) 2 (a + 14) = type ∧
        byte (file p) (a + 16) = cls ∧ byte (file p) (a + 17) = aux := by
    intro a ht
    have hh := holds_of_at ht
    unfold tail at hh
    simp only [holds_append, u16_length, u32_length, List.length_append, Nat.add_assoc, Nat.reduceAdd] at hh
    obtain ⟨⟨⟨t1, t2⟩, t3⟩, t4⟩ := hh
    exact ⟨number_u32 t1 hval, number_u16 t2 hsec, number_u16 t3 htype, t4 0 (by show 0 < 2; omega), t4 1 (by show 1 < 2; omega)⟩
  rcases record_at (records p) 4 k hg name value sec type cls aux h with ⟨hl, ha⟩ | ⟨o, ha, hb, hc⟩
  · have hn8 : (name ++ zeros (8 - name.length)).length = 8 := by rw [List.length_append]; unfold zeros; rw [List.length_replicate]; omega
    have ht := at_trans hs ha (by
      rw [hnl, List.length_append, hn8]; unfold tail
      simp only [List.length_append, List.length_cons, List.length_nil, u32_length, u16_length]; omega)
    obtain ⟨g0, g1⟩ := At.append ht
    rw [hn8] at g1
    obtain ⟨f1, f2, f3, f4, f5⟩ := fields g1
    have hne : number (byte (file p)) 4 (tableAt p + 18 * k) ≠ 0 := by
      have h0 := holds_of_at g0 0 (by omega)
      obtain ⟨b, l, e⟩ := List.exists_cons_of_ne_nil hname.1
      have hb : b ≠ 0 := hname.2 b (by rw [e]; exact List.mem_cons_self)
      rw [Nat.add_zero] at h0
      have h0 : byte (file p) (tableAt p + 18 * k) = b := by rw [h0]; simp only [e, List.cons_append, List.getElem_cons_zero]
      rw [number, h0]; omega
    rw [if_neg hne, short_name g0 hl hname.2, f1, f2, f3, f4, f5]
  · have ht := at_trans hs ha (by
      rw [hnl]; unfold tail
      simp only [List.length_append, List.length_cons, List.length_nil, u32_length, u16_length]; omega)
    obtain ⟨g0, g1⟩ := At.append ht
    obtain ⟨f1, f2, f3, f4, f5⟩ := fields (a := tableAt p + 18 * k) g1
    have hh := holds_of_at g0
    rw [holds_append, u32_length] at hh
    have hsmall := hv.small
    have hrest := rest_le hv
    unfold nameBytes at hn
    obtain ⟨-, hn⟩ := At.append hn
    rw [u32_length] at hn
    have hnn := at_trans hn hb (by rw [List.length_append, List.length_singleton]; omega)
    have hle := at_le hnn (by simp)
    rw [if_pos (number_u32 hh.1 (by omega)), number_u32 hh.2 (by rw [List.length_append] at hle; omega), f1, f2, f3, f4, f5,
      show tableAt p + 18 * (records p).length + (4 + o) = tableAt p + 18 * (records p).length + 4 + o by omega, long_name hnn hname.2]

/-! ## Relocations -/

theorem relocBytes_length (r : Reloc) : (relocBytes r).length = 10 := rfl

theorem relocs_length : (rs : List Reloc) → (rs.flatMap relocBytes).length = 10 * rs.length
  | [] => rfl
  | r :: rs => by rw [List.flatMap_cons, List.length_append, relocs_length rs, relocBytes_length, List.length_cons]; omega

/-- What a linker reads. -/
def read (r : Reloc) : Spec.Object.Relocation := ⟨r.offset, r.symbol, r.kind⟩

theorem reloc_at {p : Program} (hv : Valid p) {s : Section} (hne : relocsOf p s ≠ []) : At (file p) (relocPointer p s) (relocTable (relocsOf p s)) := by
  have hr := rest_at hv
  unfold rest at hr
  obtain ⟨-, hr⟩ := At.append hr
  rw [List.length_append, ← Nat.add_assoc] at hr
  unfold relocPointer
  rw [if_neg hne]
  have key : ∃ post, relocated.flatMap (fun s => relocTable (relocsOf p s)) =
      (relocated.takeWhile (· ≠ s)).flatMap (fun s => relocTable (relocsOf p s)) ++ (relocTable (relocsOf p s) ++ post) := by
    cases s with
    | text => exact ⟨_, rfl⟩
    | data => exact ⟨_, by simp [relocated]; rfl⟩
    | tls => exact ⟨_, by simp [relocated]; rfl⟩
    | pdata => exact ⟨_, by simp [relocated]; rfl⟩
    | symbols => exact ⟨[], by simp [relocated]⟩
    | drectve | xdata | bss | rdata | types | selectany _ => exact absurd rfl hne
  obtain ⟨post, e⟩ := key
  rw [e] at hr
  obtain ⟨-, hr⟩ := At.append hr
  exact (At.append hr).1

theorem relocationAt_eq {f : List Nat} {a : Nat} {r : Reloc} (h : At f a (relocBytes r)) (h1 : r.offset < 2 ^ 32) (h2 : r.symbol < 2 ^ 32) (h3 : r.kind < 2 ^ 16) :
    Spec.Object.relocationAt f a = read r := by
  have hh := holds_of_at h
  unfold relocBytes at hh
  simp only [holds_append, u32_length, List.length_append, Nat.reduceAdd] at hh
  unfold Spec.Object.relocationAt read
  rw [number_u32 hh.1.1 h1, number_u32 hh.1.2 h2, number_u16 hh.2 h3]

/-- The relocations of a section. -/
theorem relocations_eq {p : Program} (hv : Valid p) (hg : ∀ r ∈ records p, Good r) {i : Nat} {s : Section} (h : (sectionIds p)[i]? = some s)
    (hb : ∀ r ∈ relocsOf p s, r.offset < 2 ^ 32 ∧ r.symbol < 2 ^ 32 ∧ r.kind < 2 ^ 16) :
    Spec.Object.relocations (file p) (i + 1) = (relocsOf p s).map read := by
  unfold Spec.Object.relocations
  rw [sectionAt_eq hv hg h]
  simp only [(allFlags_spec hv s).2.1]
  have table : ∀ (a : Nat) (rs : List Reloc), At (file p) a (rs.flatMap relocBytes) → (∀ r ∈ rs, r.offset < 2 ^ 32 ∧ r.symbol < 2 ^ 32 ∧ r.kind < 2 ^ 16) →
      (List.range rs.length).map (fun i => Spec.Object.relocationAt (file p) (a + 10 * i)) = rs.map read := by
    intro a rs ha hbs
    apply List.ext_getElem?
    intro j
    rw [List.getElem?_map, List.getElem?_map]
    rcases Nat.lt_or_ge j rs.length with hj | hj
    · rw [List.getElem?_range hj, List.getElem?_eq_getElem hj]
      have h1 := flatMap_at relocBytes 10 relocBytes_length rs j _ (List.getElem?_eq_getElem hj)
      have h2 := at_trans ha h1 (by rw [relocs_length, relocBytes_length]; omega)
      obtain ⟨c1, c2, c3⟩ := hbs _ (List.getElem_mem hj)
      exact congrArg some (relocationAt_eq h2 c1 c2 c3)
    · rw [List.getElem?_eq_none (by rw [List.length_range]; exact hj), List.getElem?_eq_none hj]
      rfl
  by_cases hne : relocsOf p s = []
  · rw [hne]; rfl
  have hat := reloc_at hv hne
  unfold relocTable at hat
  by_cases hl : (relocsOf p s).length ≤ 0xffff
  · rw [if_pos hl] at hat ⊢
    rw [if_neg (by omega), Nat.min_eq_left hl]
    exact table _ _ hat hb
  · rw [if_neg hl] at hat ⊢
    rw [if_pos ⟨by omega, rfl⟩]
    obtain ⟨h1, h2⟩ := At.append hat
    have hle := at_le h2 (by
      intro hc
      have := congrArg List.length hc
      rw [relocs_length, List.length_nil] at this
      omega)
    have hsmall := hv.small
    rw [relocs_length] at hle
    have hh := holds_of_at h1
    simp only [holds_append] at hh
    rw [number_u32 hh.1.1 (by omega), Nat.add_sub_cancel]
    have := table _ _ h2 hb
    rw [← this]
    apply List.map_congr_left
    intro j _
    congr 1
    simp only [List.length_append, u32_length, u16_length]
    omega

end Verif.Lemmas.Object
