import Verif.Lemmas.ObjectPatch

/-!
# C80: an object file describes the program to the linker

`Valid p` (Lemmas/ObjectFile.lean) is what the earlier stages guarantee. `symbolOf p s` is the number of the symbol of `s`; what the linker reads there is
stated with Spec/Object.lean. `target p d` are the bytes of what a patch may change, `destSource d` is its symbol.
-/
namespace Verif.Props.Object
open Verif.Model.BaseReloc hiding relocate
open Verif.Model.Image (zeros padding)
open Verif.Model.Object
open Verif.Lemmas.Object
open Verif.Lemmas.Image (At number_congr number_shift)
open Verif.Spec.Image (byte number Holds signed)
open Verif.Spec.Object (Link relocate linked raw put address startOf indexOf content symbolAt symbolCount sectionAt sectionCount sectionOf machine Defined
  Undefined Tentative)

/-! ## Symbols -/

theorem defined_of {p : Program} (hv : Valid p) {k : Nat} {name : List Nat} {value type : Nat} {s : Section} {static : Bool} (hs : s ∈ sectionIds p)
    (h : (records p)[k]? = some (.symbol name value (sectionNumber p s) type (if static then 3 else 2) 0)) (h1 : value < 2 ^ 32) (h2 : type < 2 ^ 16) :
    Defined (file p) k name static := by
  obtain ⟨hk, e⟩ := symbol_in hv hs h h1 h2
  unfold Defined
  rw [e]
  exact ⟨hk, rfl, (sectionNumber_le hv hs).1, (sectionNumber_le hv hs).2.1, rfl⟩

theorem sectionOf_eq {p : Program} (hv : Valid p) {k : Nat} {s : Section} (hs : s ∈ sectionIds p) (h : (symbolAt (file p) k).section_ = sectionNumber p s) :
    sectionOf (file p) k = ⟨sectionName s, sectionSize p s, position p s, relocPointer p s, min (relocsOf p s).length 0xffff, allFlags p s⟩ := by
  obtain ⟨i, e, hi, _⟩ := sectionNumber_get hs
  unfold sectionOf
  rw [h, e, sectionAt_eq hv (records_good hv) hi]

/-- What may be done with the memory of a section. -/
structure Access where
  read : Bool
  write : Bool
  execute : Bool
deriving DecidableEq

def access (s : Spec.Object.Section) : Access := ⟨s.readable, s.writable, s.executable⟩

theorem access_of {p : Program} (hv : Valid p) {s : Section} {name : List Nat} {size pointer r c : Nat} :
    access ⟨name, size, pointer, r, c, allFlags p s⟩ = ⟨decide (otherFlags s / 0x40000000 % 2 = 1), decide (otherFlags s / 0x80000000 % 2 = 1),
      decide (otherFlags s / 0x20000000 % 2 = 1)⟩ := by
  unfold access Spec.Object.Section.readable Spec.Object.Section.writable Spec.Object.Section.executable
  simp only [(allFlags_spec hv s).2.2.2.2.2.1, (allFlags_spec hv s).2.2.2.2.2.2.1, (allFlags_spec hv s).2.2.2.2.2.2.2]

/-- The file is for x64, and has a table of sections. -/
theorem C80_header (p : Program) (hv : Valid p) : machine (file p) = 0x8664 := (header_spec hv (records_good hv)).1

/-- A function: other objects see it unless it is static; its code is inside of memory that is executed and not written. -/
theorem C80_function (p : Program) (hv : Valid p) {i : Nat} {f : Function} (h : p.functions[i]? = some f) :
    Defined (file p) (symbolOf p (.func i)) f.name f.isStatic ∧ (symbolAt (file p) (symbolOf p (.func i))).type = 0x20 ∧
    access (sectionOf (file p) (symbolOf p (.func i))) = ⟨true, false, true⟩ ∧
    (symbolAt (file p) (symbolOf p (.func i))).value + f.code.length ≤ (sectionOf (file p) (symbolOf p (.func i))).size := by
  have ht : target p (.func i) = some f.code := by rw [target, h]; rfl
  have hs := (target_section ht).1
  have ho := offset_small hv ht
  have e := symbol_in hv hs (func_get h).1 ho (by omega)
  refine ⟨defined_of hv hs (func_get h).1 ho (by omega), by rw [e.2], ?_, ?_⟩
  · rw [sectionOf_eq hv hs (by rw [e.2]), access_of hv]; simp [otherFlags, writtenSection]
  · rw [sectionOf_eq hv hs (by rw [e.2]), e.2]
    exact (dest_at ht).1

/-- An object with an initial value: other objects see it unless it is static; it is inside of memory that is read and written. -/
theorem C80_object (p : Program) (hv : Valid p) {i : Nat} {v : Var} (h : p.data[i]? = some v) :
    Defined (file p) (symbolOf p (.data i)) v.name v.isStatic ∧ access (sectionOf (file p) (symbolOf p (.data i))) = ⟨true, true, false⟩ ∧
    (symbolAt (file p) (symbolOf p (.data i))).value + v.bytes.length ≤ (sectionOf (file p) (symbolOf p (.data i))).size := by
  have ht : target p (.data i) = some v.bytes := by rw [target, h]; rfl
  have hs := (target_section ht).1
  have ho := offset_small hv ht
  have e := symbol_in hv hs (data_get h) ho (by omega)
  refine ⟨defined_of hv hs (data_get h) ho (by omega), ?_, ?_⟩
  · rw [sectionOf_eq hv hs (by rw [e.2]), access_of hv]; simp [otherFlags, writtenSection]
  · rw [sectionOf_eq hv hs (by rw [e.2]), e.2]
    exact (dest_at ht).1

/-- A compound literal with static storage duration: inside of memory that is read and written. -/
theorem C80_literal (p : Program) (hv : Valid p) {i : Nat} {v : Nat × List Nat} (h : p.literals[i]? = some v) :
    (∃ name, Defined (file p) (symbolOf p (.literal i)) name true) ∧ access (sectionOf (file p) (symbolOf p (.literal i))) = ⟨true, true, false⟩ ∧
    (symbolAt (file p) (symbolOf p (.literal i))).value + v.2.length ≤ (sectionOf (file p) (symbolOf p (.literal i))).size := by
  have ht : target p (.literal i) = some v.2 := by rw [target, h]; rfl
  have hs := (target_section ht).1
  have ho := offset_small hv ht
  obtain ⟨name, hl⟩ := literal_get h
  have e := symbol_in hv hs hl ho (by omega)
  refine ⟨⟨name, defined_of (static := true) hv hs hl ho (by omega)⟩, ?_, ?_⟩
  · rw [sectionOf_eq hv hs (by rw [e.2]), access_of hv]; simp [otherFlags, writtenSection]
  · rw [sectionOf_eq hv hs (by rw [e.2]), e.2]
    exact (dest_at ht).1

/-- A thread-local object: in a section whose name starts with `.tls$`, as the linker and the runtime library demand. -/
theorem C80_thread_local (p : Program) (hv : Valid p) {i : Nat} {v : Var} (h : p.tls[i]? = some v) :
    Defined (file p) (symbolOf p (.tls i)) v.name v.isStatic ∧ (sectionOf (file p) (symbolOf p (.tls i))).name = [46, 116, 108, 115, 36] ∧
    (symbolAt (file p) (symbolOf p (.tls i))).value + v.bytes.length ≤ (sectionOf (file p) (symbolOf p (.tls i))).size := by
  have ht : target p (.tls i) = some v.bytes := by rw [target, h]; rfl
  have hs := (target_section ht).1
  have ho := offset_small hv ht
  have e := symbol_in hv hs (tls_get h) ho (by omega)
  refine ⟨defined_of hv hs (tls_get h) ho (by omega), ?_, ?_⟩
  · rw [sectionOf_eq hv hs (by rw [e.2])]; rfl
  · rw [sectionOf_eq hv hs (by rw [e.2]), e.2]
    exact (dest_at ht).1

theorem comdat_of {p : Program} (hv : Valid p) {i : Nat} : (allFlags p (.selectany i)) / 0x1000 % 2 = 1 := by
  rw [(allFlags_spec hv _).2.2.2.2.1]
  simp only [otherFlags]

/-- An object of `__declspec(selectany)`: alone in a section of which the linker takes any one; it is read and written. -/
theorem C80_selectany (p : Program) (hv : Valid p) {i : Nat} {v : Var} (h : p.selectany[i]? = some v) :
    Defined (file p) (symbolOf p (.selectany i)) v.name false ∧ (sectionOf (file p) (symbolOf p (.selectany i))).comdat = true ∧
    access (sectionOf (file p) (symbolOf p (.selectany i))) = ⟨true, true, false⟩ ∧
    (symbolAt (file p) (symbolOf p (.selectany i))).value = 0 ∧ (sectionOf (file p) (symbolOf p (.selectany i))).size = v.bytes.length := by
  have ht : target p (.selectany i) = some v.bytes := by rw [target, h]; rfl
  have hs := (target_section ht).1
  have e := symbol_in hv hs (selectany_get h) (by omega) (by omega)
  refine ⟨defined_of hv hs (selectany_get h) (by omega) (by omega), ?_, ?_, by rw [e.2], ?_⟩
  · rw [sectionOf_eq hv hs (by rw [e.2])]
    exact decide_eq_true (comdat_of hv)
  · rw [sectionOf_eq hv hs (by rw [e.2]), access_of hv]; simp [otherFlags, writtenSection]
  · rw [sectionOf_eq hv hs (by rw [e.2])]
    show (match p.selectany[i]? with | some d => d.bytes | none => []).length = _
    rw [h]

/-! ## Objects without initial value -/

theorem bss_spec : (l : List (List Nat × Nat × Nat)) → (at_ : Nat) → (∀ v ∈ l, 0 < v.2.2) → at_ ≤ (bssOffsets at_ l).2 ∧
    (bssOffsets at_ l).1.length = l.length ∧
    (∀ (i : Nat) (v : List Nat × Nat × Nat), l[i]? = some v → ∃ o, (bssOffsets at_ l).1[i]? = some o ∧ at_ ≤ o ∧ o % v.2.2 = 0 ∧ o + v.2.1 ≤ (bssOffsets at_ l).2) ∧
    ∀ (i j : Nat) (v : List Nat × Nat × Nat) (o u : Nat), i < j → l[i]? = some v → (bssOffsets at_ l).1[i]? = some o → (bssOffsets at_ l).1[j]? = some u → o + v.2.1 ≤ u
  | [], at_, _ => ⟨Nat.le_refl _, rfl, (fun i v h => by cases h), (fun i j v o u _ h => by cases h)⟩
  | w :: l, at_, h => by
    obtain ⟨name, n, a⟩ := w
    have ha := Verif.Lemmas.Image.le_alignUp (x := at_) (h _ List.mem_cons_self)
    obtain ⟨h1, h2, h3, h4⟩ := bss_spec l (Model.Image.alignUp at_ a + n) (fun v hv => h v (List.mem_cons_of_mem _ hv))
    have ha : at_ ≤ Model.Image.alignUp at_ a := ha
    refine ⟨?_, ?_, ?_, ?_⟩
    · show at_ ≤ (bssOffsets _ l).2; omega
    · show (_ :: (bssOffsets _ l).1).length = _; rw [List.length_cons, h2, List.length_cons]
    · intro i v hi
      cases i with
      | zero => cases hi; exact ⟨_, rfl, ha, Verif.Lemmas.Image.alignUp_mod, h1⟩
      | succ i =>
        obtain ⟨o, e1, e2, e3, e4⟩ := h3 i v hi
        exact ⟨o, e1, by omega, e3, e4⟩
    · intro i j v o u hij hi ho hu
      cases j with
      | zero => omega
      | succ j =>
        cases i with
        | zero =>
          cases hi; cases ho
          have hu : (bssOffsets (Model.Image.alignUp at_ a + n) l).1[j]? = some u := hu
          have hj : j < l.length := by rw [← h2]; exact (List.getElem?_eq_some_iff.1 hu).1
          obtain ⟨o, e1, e2, _⟩ := h3 j _ (List.getElem?_eq_getElem hj)
          rw [e1] at hu
          cases hu
          exact e2
        | succ i => exact h4 i j v o u (by omega) hi ho hu

theorem bss_at {p : Program} (hv : Valid p) {i : Nat} {v : List Nat × Nat × Nat} (h : p.bss[i]? = some v) :
    bssOffset p i % v.2.2 = 0 ∧ bssOffset p i + v.2.1 ≤ sectionSize p .bss ∧ (bssOffsets 0 p.bss).1[i]? = some (bssOffset p i) ∧ .bss ∈ sectionIds p ∧
    bssOffset p i < 2 ^ 32 := by
  obtain ⟨o, e1, _, e3, e4⟩ := (bss_spec p.bss 0 (fun v hm => (hv.bssAligns v hm).pos)).2.2.1 i v h
  have e : bssOffset p i = o := by unfold bssOffset; rw [List.getD_eq_getElem?_getD, e1]; rfl
  have := hv.bssSize
  refine ⟨by rw [e]; exact e3, by rw [e]; exact e4, by rw [e]; exact e1, mem_bss (fun h0 => by rw [h0] at h; cases h), by omega⟩

/-- A static object without initial value: it is inside of memory that is zero, read and written. -/
theorem C80_zero (p : Program) (hv : Valid p) (l : Link) {i : Nat} {v : List Nat × Nat × Nat} (h : p.bss[i]? = some v) :
    Defined (file p) (symbolOf p (.bss i)) v.1 true ∧ access (sectionOf (file p) (symbolOf p (.bss i))) = ⟨true, true, false⟩ ∧
    (symbolAt (file p) (symbolOf p (.bss i))).value + v.2.1 ≤ (sectionOf (file p) (symbolOf p (.bss i))).size ∧
    ∀ x, content (file p) l (symbolOf p (.bss i)) x = 0 := by
  obtain ⟨h1, h2, h3, hs, h4⟩ := bss_at hv h
  have e := symbol_in hv hs (bss_get h) h4 (by omega)
  refine ⟨defined_of (static := true) hv hs (bss_get h) h4 (by omega), ?_, ?_, ?_⟩
  · rw [sectionOf_eq hv hs (by rw [e.2]), access_of hv]; simp [otherFlags, writtenSection]
  · rw [sectionOf_eq hv hs (by rw [e.2]), e.2]; exact h2
  · intro x
    unfold content
    rw [e.2]
    show linked (file p) l (sectionNumber p .bss) _ = 0
    rw [linked_eq hv l hs (fun r hr => by cases hr)]
    exact raw_bss hv hs _

/-- Different ones do not overlap. -/
theorem C80_zero_apart (p : Program) (hv : Valid p) {i j : Nat} {v w : List Nat × Nat × Nat} (hi : p.bss[i]? = some v) (hj : p.bss[j]? = some w) (hij : i ≠ j) :
    (symbolAt (file p) (symbolOf p (.bss i))).value + v.2.1 ≤ (symbolAt (file p) (symbolOf p (.bss j))).value ∨
    (symbolAt (file p) (symbolOf p (.bss j))).value + w.2.1 ≤ (symbolAt (file p) (symbolOf p (.bss i))).value := by
  obtain ⟨_, _, a3, hs, a4⟩ := bss_at hv hi
  obtain ⟨_, _, b3, _, b4⟩ := bss_at hv hj
  rw [(symbol_in hv hs (bss_get hi) a4 (by omega)).2, (symbol_in hv hs (bss_get hj) b4 (by omega)).2]
  have key := (bss_spec p.bss 0 (fun v hm => (hv.bssAligns v hm).pos)).2.2.2
  rcases Nat.lt_or_gt_of_ne hij with h | h
  · exact .inl (key i j v _ _ h hi a3 b3)
  · exact .inr (key j i w _ _ h hj b3 a3)

/-! ## What other objects define -/

theorem undefined_of {p : Program} (hv : Valid p) {k : Nat} {name : List Nat} {type : Nat} (h : (records p)[k]? = some (.symbol name 0 0 type 2 0))
    (h2 : type < 2 ^ 16) : Undefined (file p) k name := by
  obtain ⟨hk, e⟩ := symbol_eq hv (records_good hv) h (by omega) (by omega) h2
  unfold Undefined
  rw [e]
  exact ⟨hk, rfl, rfl, rfl, rfl⟩

/-- A function without code is expected from another object: under its name, or, with `__declspec(dllimport)`, as the pointer `__imp_`. If the address of such a
function is needed, there is a second symbol for the function itself. -/
theorem C80_external_function (p : Program) (hv : Valid p) {i : Nat} {f : Extern} (h : p.externFunctions[i]? = some f) :
    Undefined (file p) (symbolOf p (.externFunc i)) (if f.isImport then [95, 95, 105, 109, 112, 95] ++ f.name else f.name) ∧
    (f.needsStub → Undefined (file p) (addressSymbol p (.externFunc i)) f.name) := by
  refine ⟨?_, fun hs => ?_⟩
  · have := externFunc_get (j := 0) h rfl
    exact undefined_of hv this (by split <;> omega)
  · have := externFunc_get (j := 1) (r := .symbol f.name 0 0 0x20 2 0) h (by unfold externRecords; rw [if_pos hs]; rfl)
    have e : addressSymbol p (.externFunc i) = symbolOf p (.externFunc i) + 1 := by
      show symbolOf p (.externFunc i) + (match p.externFunctions[i]? with | some f => if f.needsStub then 1 else 0 | none => 0) = _
      rw [h]; simp only []; rw [if_pos hs]
    rw [e]
    exact undefined_of hv this (by omega)

/-- An `extern` object is expected from another object. -/
theorem C80_external_object (p : Program) (hv : Valid p) {i : Nat} {v : List Nat × Bool} (h : p.externVars[i]? = some v) :
    Undefined (file p) (symbolOf p (.externVar i)) (if v.2 then [95, 95, 105, 109, 112, 95] ++ v.1 else v.1) :=
  undefined_of hv (externVar_get h) (by omega)

/-- A tentative definition: the linker makes one object for all of the same name. -/
theorem C80_tentative (p : Program) (hv : Valid p) {i : Nat} {v : List Nat × Bool × Nat} (h : p.autos[i]? = some v) (hi : v.2.1 = false) (hs : 0 < v.2.2) :
    Tentative (file p) (symbolOf p (.auto i)) v.1 v.2.2 := by
  obtain ⟨hk, e⟩ := symbol_eq hv (records_good hv) (auto_get h) (hv.autoSizes v (List.mem_of_getElem? h)) (by omega) (by omega)
  unfold Tentative
  rw [e]
  exact ⟨hk, by rw [hi]; rfl, rfl, rfl, hs, rfl⟩

/-! ## Bytes -/

/-- No patch changes the byte. -/
def Untouched (p : Program) (d : Dest) (x : Nat) : Prop := ∀ q ∈ p.patches, q.dest = d → x < q.at_ ∨ q.at_ + width q.kind ≤ x

/-- The code of a function, apart from the places of addresses. -/
theorem C80_code (p : Program) (hv : Valid p) (l : Link) {i : Nat} {f : Function} (h : p.functions[i]? = some f) {x v : Nat} (hx : f.code[x]? = some v)
    (hu : Untouched p (.func i) x) : content (file p) l (symbolOf p (.func i)) x = v :=
  linked_unpatched hv l (d := .func i) (by rw [target, h]; rfl) (.inl rfl) (own_text p) hx hu

/-- The initial value of a thread-local object, apart from the places of addresses. -/
theorem C80_thread_local_bytes (p : Program) (hv : Valid p) (l : Link) {i : Nat} {d : Var} (h : p.tls[i]? = some d) {x v : Nat} (hx : d.bytes[x]? = some v)
    (hu : Untouched p (.tls i) x) : content (file p) l (symbolOf p (.tls i)) x = v :=
  linked_unpatched hv l (d := .tls i) (by rw [target, h]; rfl) (.inr (.inr rfl)) (own_tls p) hx hu

/-- No object with `__declspec(selectany)` contains an address. -/
def NoSelectanyPatch (p : Program) : Prop := ∀ q ∈ p.patches, ∀ i, q.dest ≠ .selectany i

/-- The initial value of an object, apart from the places of addresses. Missing: programs in which objects with `__declspec(selectany)` contain addresses;
there, it is not true (`C80_selectany_wrong`). -/
theorem C80_object_bytes_partial (p : Program) (hv : Valid p) (hn : NoSelectanyPatch p) (l : Link) {i : Nat} {d : Var} (h : p.data[i]? = some d) {x v : Nat}
    (hx : d.bytes[x]? = some v) (hu : Untouched p (.data i) x) : content (file p) l (symbolOf p (.data i)) x = v :=
  linked_unpatched hv l (d := .data i) (by rw [target, h]; rfl) (.inr (.inl rfl)) (own_data hn) hx hu

/-- The same for compound literals. -/
theorem C80_literal_bytes_partial (p : Program) (hv : Valid p) (hn : NoSelectanyPatch p) (l : Link) {i : Nat} {d : Nat × List Nat} (h : p.literals[i]? = some d)
    {x v : Nat} (hx : d.2[x]? = some v) (hu : Untouched p (.literal i) x) : content (file p) l (symbolOf p (.literal i)) x = v :=
  linked_unpatched hv l (d := .literal i) (by rw [target, h]; rfl) (.inr (.inl rfl)) (own_data hn) hx hu

/-- The initial value of an object with `__declspec(selectany)`, apart from the places of addresses. -/
theorem C80_selectany_bytes (p : Program) (hv : Valid p) (l : Link) {i : Nat} {d : Var} (h : p.selectany[i]? = some d) {x v : Nat}
    (hx : d.bytes[x]? = some v) (hu : Untouched p (.selectany i) x) : content (file p) l (symbolOf p (.selectany i)) x = v := by
  have ht : target p (.selectany i) = some d.bytes := by rw [target, h]; rfl
  have hs := (target_section ht).1
  refine (content_eq hv l ht x).trans ?_
  rw [linked_eq hv l hs (fun r hr => by cases hr)]
  refine raw_unpatched hv ht hx (fun q hm e => ?_)
  have := hu q hm e
  have := addend_length q
  omega

/-- A literal in `.rdata`. -/
theorem rdata_literal {p : Program} (hv : Valid p) (l : Link) {k g e : Nat} {v name : List Nat} (hg : g < 5) (hne : v ++ zeros (groupTerminator g) ≠ [])
    (hval : (group p g).1.values[e]? = some v) (h : (records p)[k]? = some (.symbol name (groupOffset p g e) (sectionNumber p .rdata) 0 3 0)) :
    Holds (content (file p) l k) 0 (v ++ zeros (groupTerminator g)) ∧ access (sectionOf (file p) k) = ⟨true, false, false⟩ ∧
    address (file p) l k = l.base (sectionNumber p .rdata) + groupOffset p g e ∧ .rdata ∈ sectionIds p := by
  have hpush := group_push hg hval
  have hs : .rdata ∈ sectionIds p := mem_rdata (rdata_ne hpush hne)
  obtain ⟨h1, h2, _⟩ := offsetAt_spec (at_ := rdataAt p) hpush
  have hle := section_le hv hs (fun h => by cases h)
  have hsmall := hv.small
  have ho : groupOffset p g e < 2 ^ 32 := by
    have h1 : groupOffset p g e + (v ++ zeros (groupTerminator g)).length ≤ (pushedBytes p .rdata).length := h1
    omega
  have es := symbol_in hv hs h ho (by omega)
  refine ⟨fun x hx => ?_, ?_, ?_, hs⟩
  · unfold content
    rw [es.2]
    show linked (file p) l (sectionNumber p .rdata) (groupOffset p g e + (0 + x)) = _
    rw [linked_eq hv l hs (fun r hr => by cases hr), Nat.zero_add]
    refine raw_eq hv hs (fun h => by cases h) ?_
    rw [(sectionBytes_get hv _).1 _ (fun q hq hw => by revert hw; cases q.dest <;> simp [writtenSection])]
    exact (h2 x hx).trans (List.getElem?_eq_getElem hx)
  · rw [sectionOf_eq hv hs (by rw [es.2]), access_of hv]; simp [otherFlags, writtenSection]
  · obtain ⟨i, e', _⟩ := sectionNumber_get hs
    rw [e']
    exact address_of (by rw [es.2]; exact e') (by rw [es.2])

/-- A string literal with elements of one, two or four bytes is in memory that is only read, with a terminating zero. -/
theorem C80_string (p : Program) (hv : Valid p) (l : Link) {element i : Nat} {v : List Nat}
    (h : (element = 1 ∧ p.strings1[i]? = some v) ∨ (element = 2 ∧ p.strings2[i]? = some v) ∨ (element = 4 ∧ p.strings4[i]? = some v)) :
    Holds (content (file p) l (symbolOf p (.string element i))) 0 (v ++ List.replicate element 0) ∧
    access (sectionOf (file p) (symbolOf p (.string element i))) = ⟨true, false, false⟩ := by
  have ne : ∀ g, 0 < groupTerminator g → v ++ zeros (groupTerminator g) ≠ [] := by
    intro g hg e
    have := congrArg List.length e
    unfold zeros at this
    rw [List.length_append, List.length_replicate, List.length_nil] at this
    omega
  rcases h with ⟨rfl, h⟩ | ⟨rfl, h⟩ | ⟨rfl, h⟩
  · obtain ⟨_, hr⟩ := string_symbol (element := 1) hv (by decide) h
    have := rdata_literal (g := 0) hv l (by decide) (ne _ (by decide)) ((group_spec hv 0).2 i v h) hr
    exact ⟨this.1, this.2.1⟩
  · obtain ⟨_, hr⟩ := string_symbol (element := 2) hv (by decide) h
    have := rdata_literal (g := 1) hv l (by decide) (ne _ (by decide)) ((group_spec hv 1).2 i v h) hr
    exact ⟨this.1, this.2.1⟩
  · obtain ⟨_, hr⟩ := string_symbol (element := 4) hv (by decide) h
    have := rdata_literal (g := 2) hv l (by decide) (ne _ (by decide)) ((group_spec hv 2).2 i v h) hr
    exact ⟨this.1, this.2.1⟩

/-- A constant of type `float` is in memory that is only read. -/
theorem C80_float (p : Program) (hv : Valid p) (l : Link) {i : Nat} {v : List Nat} (h : p.floats[i]? = some v) :
    Holds (content (file p) l (symbolOf p (.float i))) 0 v ∧ access (sectionOf (file p) (symbolOf p (.float i))) = ⟨true, false, false⟩ := by
  have hl := hv.floats v (List.mem_of_getElem? h)
  have := rdata_literal (g := 3) hv l (by decide) (by intro e; rw [(List.append_eq_nil_iff.1 e).1] at hl; cases hl) ((group_spec hv 3).2 i v h)
    (float_symbol hv h)
  rw [show zeros (groupTerminator 3) = [] from rfl, List.append_nil] at this
  exact ⟨this.1, this.2.1⟩

/-- A constant of type `double` is in memory that is only read. -/
theorem C80_double (p : Program) (hv : Valid p) (l : Link) {i : Nat} {v : List Nat} (h : p.doubles[i]? = some v) :
    Holds (content (file p) l (symbolOf p (.double i))) 0 v ∧ access (sectionOf (file p) (symbolOf p (.double i))) = ⟨true, false, false⟩ := by
  have hl := hv.doubles v (List.mem_of_getElem? h)
  have := rdata_literal (g := 4) hv l (by decide) (by intro e; rw [(List.append_eq_nil_iff.1 e).1] at hl; cases hl) ((group_spec hv 4).2 i v h)
    (double_symbol hv h)
  rw [show zeros (groupTerminator 4) = [] from rfl, List.append_nil] at this
  exact ⟨this.1, this.2.1⟩

/-- Different functions and objects of a section do not overlap. -/
theorem C80_apart (p : Program) (hv : Valid p) {d e : Dest} {b c : List Nat} (hd : target p d = some b) (he : target p e = some c) (hne : d ≠ e)
    (hs : (symbolAt (file p) (symbolOf p (destSource d))).section_ = (symbolAt (file p) (symbolOf p (destSource e))).section_) :
    (symbolAt (file p) (symbolOf p (destSource d))).value + b.length ≤ (symbolAt (file p) (symbolOf p (destSource e))).value ∨
    (symbolAt (file p) (symbolOf p (destSource e))).value + c.length ≤ (symbolAt (file p) (symbolOf p (destSource d))).value := by
  rw [(dest_symbol hv hd).1, (dest_symbol hv he).1] at hs
  rw [(dest_symbol hv hd).2, (dest_symbol hv he).2]
  refine dest_apart hd he ?_ hne
  obtain ⟨i, e1, hi, _⟩ := sectionNumber_get (target_section hd).1
  obtain ⟨j, e2, hj, _⟩ := sectionNumber_get (target_section he).1
  have : i = j := by omega
  subst this
  rw [hi] at hj
  exact Option.some.inj hj

/-! ## Addresses -/

/-- An instruction that refers to something relative to the next instruction (`ripAt`) finds it, if it is near enough. -/
theorem C80_rip_relative (p : Program) (hv : Valid p) (l : Link) {q : Patch} (hq : q ∈ p.patches) (hk : q.kind = .ripRelative) {i : Nat} (hd : q.dest = .func i)
    (h1 : -2 ^ 31 ≤ (address (file p) l (symbolOf p q.source) : Int) + q.offset - (address (file p) l (symbolOf p (.func i)) + q.ripAt))
    (h2 : (address (file p) l (symbolOf p q.source) : Int) + q.offset - (address (file p) l (symbolOf p (.func i)) + q.ripAt) < 2 ^ 31) :
    (address (file p) l (symbolOf p (.func i)) : Int) + q.ripAt + signed (number (content (file p) l (symbolOf p (.func i))) 4 q.at_) =
      address (file p) l (symbolOf p q.source) + q.offset := by
  obtain ⟨b, ht, hl, _⟩ := hv.patchFits q hq
  have hw : writtenSection q.dest = .text := by rw [hd]; rfl
  have hn := linked_patch hv l hq (.inl hw) (by rw [hw]; exact own_text p) (n := 4) (by rw [hk]; rfl)
  have hr := raw_rip hv hq hk
  have ha := dest_address hv l ht
  have er : Lemmas.Object.read (relocOf p q) = ⟨destOffset p q.dest + q.at_, symbolOf p q.source, 4⟩ := by unfold relocOf Lemmas.Object.read; rw [hk]
  rw [er] at hn
  rw [relocate_relative, put_number] at hn
  rw [show symbolOf p (.func i) = symbolOf p (destSource q.dest) by rw [hd]; rfl] at h1 h2 ⊢
  rw [hn]
  generalize number (raw (file p) (sectionNumber p (writtenSection q.dest))) 4 (destOffset p q.dest + q.at_) = w at *
  generalize address (file p) l (symbolOf p (destSource q.dest)) = A at *
  generalize address (file p) l (symbolOf p q.source) = B at *
  unfold signed
  split <;> omega

/-- The offset of a thread-local object from the start of its section. -/
theorem C80_section_offset (p : Program) (hv : Valid p) (l : Link) {q : Patch} (hq : q ∈ p.patches) (hk : q.kind = .sectionOffset) {i : Nat}
    (hd : q.dest = .func i) (h1 : startOf (file p) l (symbolOf p q.source) ≤ address (file p) l (symbolOf p q.source))
    (h2 : address (file p) l (symbolOf p q.source) < startOf (file p) l (symbolOf p q.source) + 2 ^ 32) :
    startOf (file p) l (symbolOf p q.source) + number (content (file p) l (symbolOf p (.func i))) 4 q.at_ = address (file p) l (symbolOf p q.source) := by
  obtain ⟨b, ht, hl, _⟩ := hv.patchFits q hq
  have hw : writtenSection q.dest = .text := by rw [hd]; rfl
  have hn := linked_patch hv l hq (.inl hw) (by rw [hw]; exact own_text p) (n := 4) (by rw [hk]; rfl)
  have hr := raw_zero hv hq (by rw [hk]; decide) (by unfold addend; rw [hk])
  have er : Lemmas.Object.read (relocOf p q) = ⟨destOffset p q.dest + q.at_, symbolOf p q.source, 0xb⟩ := by unfold relocOf Lemmas.Object.read; rw [hk]
  rw [er] at hn
  rw [relocate_offset, put_number, hr] at hn
  rw [show symbolOf p (.func i) = symbolOf p (destSource q.dest) by rw [hd]; rfl, hn]
  generalize address (file p) l (symbolOf p q.source) = B at *
  generalize startOf (file p) l (symbolOf p q.source) = C at *
  omega

/-- An address in an initial value is that of the source and the offset, modulo 2^64; for an imported function it is that of its stub. Missing: addresses in
objects with `__declspec(selectany)`, and programs with them (`C80_selectany_wrong`). -/
theorem C80_absolute_partial (p : Program) (hv : Valid p) (hn : NoSelectanyPatch p) (l : Link) {q : Patch} (hq : q ∈ p.patches) (hk : q.kind = .absolute) :
    (number (content (file p) l (symbolOf p (destSource q.dest))) 8 q.at_ : Int) =
      ((address (file p) l (addressSymbol p q.source) : Int) + q.offset) % 2 ^ 64 := by
  obtain ⟨b, ht, hl, _⟩ := hv.patchFits q hq
  have hkind := hv.patchKinds q hq
  have hw : Patched (writtenSection q.dest) ∧ Own p (writtenSection q.dest) := by
    have hno := hn q hq
    revert hkind hno
    cases q.dest with
    | func i => intro h _; exact absurd hk (h.1 rfl)
    | data i => intro _ _; exact ⟨.inr (.inl rfl), own_data hn⟩
    | literal i => intro _ _; exact ⟨.inr (.inl rfl), own_data hn⟩
    | tls i => intro _ _; exact ⟨.inr (.inr rfl), own_tls p⟩
    | selectany i => intro _ h; exact absurd rfl (h i)
  have hnum := linked_patch hv l hq hw.1 hw.2 (n := 8) (by rw [hk]; rfl)
  have hr := raw_absolute hv hq hk
  have er : Lemmas.Object.read (relocOf p q) = ⟨destOffset p q.dest + q.at_, addressSymbol p q.source, 1⟩ := by unfold relocOf Lemmas.Object.read; rw [hk]
  rw [er] at hnum
  rw [relocate_absolute, put_number] at hnum
  rw [hnum]
  generalize number (raw (file p) (sectionNumber p (writtenSection q.dest))) 8 (destOffset p q.dest + q.at_) = w at *
  generalize address (file p) l (addressSymbol p q.source) = B at *
  omega

/-! ## Alignment -/

theorem alignment_of {p : Program} (hv : Valid p) {s : Section} (hs : s ∈ sectionIds p) {l : Link} (hl : l.Aligned (file p)) :
    l.base (sectionNumber p s) % sectionAlign p s = 0 := by
  obtain ⟨i, e, hi, _⟩ := sectionNumber_get hs
  have h := hl (sectionNumber p s) (sectionNumber_le hv hs).1 (sectionNumber_le hv hs).2.1
  rw [e] at h ⊢
  rw [sectionAt_eq hv (records_good hv) hi] at h
  unfold Spec.Object.Section.alignment at h
  simp only [(allFlags_spec hv s).2.2.1, Nat.add_sub_cancel] at h
  rw [← (log2_of (sectionAlign_power hv s)).1] at h
  exact h

theorem power_dvd {a b : Nat} (ha : PowerOfTwo a) (hb : PowerOfTwo b) (h : a ≤ b) : a ∣ b := by
  obtain ⟨i, _, rfl⟩ := ha
  obtain ⟨j, _, rfl⟩ := hb
  exact Nat.pow_dvd_pow 2 ((Nat.pow_le_pow_iff_right (by decide)).1 h)

theorem flatMap_second {α β : Type} (f g : α → β) : (l : List α) → (i : Nat) → (x : α) → l[i]? = some x → (l.flatMap (fun x => [f x, g x]))[2 * i + 1]? = some (g x)
  | [], _, _, h => by cases h
  | _ :: _, 0, _, h => by cases h; rfl
  | a :: l, i + 1, x, h => flatMap_second f g l i x h

theorem text_gap {p : Program} {i : Nat} {f : Function} (h : p.functions[i]? = some f) : (textPushes p)[2 * i + 1]? = some ⟨none, 16, 0xcc, []⟩ :=
  flatMap_second (fun f : Function => (⟨none, 1, 0, f.code⟩ : Model.Image.Push)) (fun _ => ⟨none, 16, 0xcc, []⟩) p.functions i f h

/-- Functions are aligned to 16 bytes. -/
theorem C80_function_aligned (p : Program) (hv : Valid p) (l : Link) (hl : l.Aligned (file p)) {i : Nat} {f : Function} (h : p.functions[i]? = some f) :
    address (file p) l (symbolOf p (.func i)) % 16 = 0 := by
  have ht : target p (.func i) = some f.code := by rw [target, h]; rfl
  have ha := dest_address hv l ht
  have hb : l.base (sectionNumber p .text) % 16 = 0 := alignment_of hv (target_section ht).1 hl
  have hne : p.functions ≠ [] := fun e => by rw [e] at h; cases h
  have htext : textAt p % 16 = 0 := by
    unfold textAt alignIf
    rw [if_pos (decide_eq_true hne)]
    exact Verif.Lemmas.Image.alignUp_mod
  have ho : (textAt p + textOffset p i) % 16 = 0 := by
    unfold textOffset
    cases i with
    | zero =>
      have hp : (textPushes p)[0]? = some ⟨none, 1, 0, f.code⟩ := text_push h
      cases hps : textPushes p with
      | nil => rw [hps] at hp; cases hp
      | cons a ps =>
        rw [hps] at hp
        cases hp
        show (textAt p + (0 + padding (textAt p) 1)) % 16 = 0
        unfold padding
        omega
    | succ i =>
      have hlt := (List.getElem?_eq_some_iff.1 h).1
      have h1 := text_gap (List.getElem?_eq_getElem (show i < p.functions.length by omega))
      have h2 := (offsetAt_spec (at_ := textAt p) h1).2.2 (by show (0 : Nat) < 16; omega)
      have h3 := offsetAt_succ (at_ := textAt p) h1 (text_push h) rfl
      rw [show 2 * (i + 1) = 2 * i + 1 + 1 by omega, h3]
      exact h2
  have ha : address (file p) l (symbolOf p (.func i)) = l.base (sectionNumber p .text) + textOffset p i := ha
  rw [ha]
  omega

theorem dataAlign_dvd {p : Program} (hv : Valid p) {a : Nat} (h : a ∈ p.data.map (·.align) ++ p.literals.map (·.1)) : PowerOfTwo a ∧ a ∣ sectionAlign p .data := by
  have all : ∀ x ∈ p.data.map (·.align) ++ p.literals.map (·.1), PowerOfTwo x := by
    intro x hx
    rcases List.mem_append.1 hx with hx | hx
    · obtain ⟨v, hm, rfl⟩ := List.mem_map.1 hx; exact hv.dataAligns v hm
    · obtain ⟨v, hm, rfl⟩ := List.mem_map.1 hx; exact hv.literalAligns v hm
  have hm := (maxAlign_spec all).2 a h
  exact ⟨all a h, power_dvd (all a h) (sectionAlign_power hv .data) hm⟩

theorem aligned_push {ps : List Model.Image.Push} {at_ j a : Nat} {q : Model.Image.Push} (hat : at_ % 16 = 0) (h : ps[j]? = some q) (hq : q.align = a) (hp : PowerOfTwo a)
    (ha : a ≤ 16) : a ∣ offsetAt at_ ps j := by
  have h1 : a ∣ at_ := Nat.dvd_trans (power_dvd hp ⟨4, by omega, rfl⟩ ha) (Nat.dvd_of_mod_eq_zero hat)
  have h2 := (offsetAt_spec (at_ := at_) h).2.2 (by rw [hq]; exact hp.pos)
  rw [hq] at h2
  exact (Nat.dvd_add_right h1).1 (Nat.dvd_of_mod_eq_zero h2)

theorem dataAt_aligned {p : Program} (h : ¬ (p.data = [] ∧ p.literals = [])) : dataAt p % 16 = 0 := by
  have hc : (decide (p.data ≠ []) || decide (p.literals.length ≠ 0)) = true := by
    rw [Bool.or_eq_true, decide_eq_true_eq, decide_eq_true_eq]
    by_cases hd : p.data = []
    · exact .inr (fun h0 => h ⟨hd, List.length_eq_zero_iff.1 h0⟩)
    · exact .inl hd
  unfold dataAt alignIf
  rw [if_pos hc]
  exact Verif.Lemmas.Image.alignUp_mod

theorem sum_aligned {a b c d : Nat} (h1 : a ∣ d) (h2 : b % d = 0) (h3 : a ∣ c) : (b + c) % a = 0 :=
  Nat.mod_eq_zero_of_dvd (Nat.dvd_add (Nat.dvd_trans h1 (Nat.dvd_of_mod_eq_zero h2)) h3)

/-- Objects of `.data` are aligned, if their alignment is at most 16. Missing: larger alignments, which are relative to the start of the file
(`C80_aligned_wrong`). -/
theorem C80_object_aligned_partial (p : Program) (hv : Valid p) (l : Link) (hl : l.Aligned (file p)) {i : Nat} {v : Var} (h : p.data[i]? = some v)
    (ha : v.align ≤ 16) : address (file p) l (symbolOf p (.data i)) % v.align = 0 := by
  have ht : target p (.data i) = some v.bytes := by rw [target, h]; rfl
  have hb := alignment_of hv (target_section ht).1 hl
  have hd := dataAlign_dvd hv (List.mem_append_left _ (List.mem_map_of_mem (f := (·.align)) (List.mem_of_getElem? h)))
  have h3 := aligned_push (dataAt_aligned (fun e => by rw [e.1] at h; cases h)) (data_push h) rfl hd.1 ha
  have e := dest_address hv l ht
  rw [destSource] at e
  rw [e]
  exact sum_aligned hd.2 hb h3

/-- The same for compound literals. -/
theorem C80_literal_aligned_partial (p : Program) (hv : Valid p) (l : Link) (hl : l.Aligned (file p)) {i : Nat} {v : Nat × List Nat}
    (h : p.literals[i]? = some v) (ha : v.1 ≤ 16) : address (file p) l (symbolOf p (.literal i)) % v.1 = 0 := by
  have ht : target p (.literal i) = some v.2 := by rw [target, h]; rfl
  have hb := alignment_of hv (target_section ht).1 hl
  have hd := dataAlign_dvd hv (List.mem_append_right _ (List.mem_map_of_mem (f := (·.1)) (List.mem_of_getElem? h)))
  have h3 := aligned_push (dataAt_aligned (fun e => by rw [e.2] at h; cases h)) (literal_push h) rfl hd.1 ha
  have e := dest_address hv l ht
  rw [destSource] at e
  rw [e]
  exact sum_aligned hd.2 hb h3

/-- The same for thread-local objects. -/
theorem C80_thread_local_aligned_partial (p : Program) (hv : Valid p) (l : Link) (hl : l.Aligned (file p)) {i : Nat} {v : Var} (h : p.tls[i]? = some v)
    (ha : v.align ≤ 16) : address (file p) l (symbolOf p (.tls i)) % v.align = 0 := by
  have ht : target p (.tls i) = some v.bytes := by rw [target, h]; rfl
  have hb := alignment_of hv (target_section ht).1 hl
  have all : ∀ x ∈ p.tls.map (·.align), PowerOfTwo x := by
    intro x hx
    obtain ⟨v, hm, rfl⟩ := List.mem_map.1 hx; exact hv.tlsAligns v hm
  have hm : v.align ∈ p.tls.map (·.align) := List.mem_map_of_mem (f := (·.align)) (List.mem_of_getElem? h)
  have hle := (maxAlign_spec all).2 v.align hm
  have hd : v.align ∣ sectionAlign p .tls := power_dvd (all _ hm) (sectionAlign_power hv .tls) hle
  have hne : p.tls ≠ [] := fun e => by rw [e] at h; cases h
  have hat : tlsAt p % 16 = 0 := by
    unfold tlsAt alignIf
    rw [if_pos (decide_eq_true hne)]
    exact Verif.Lemmas.Image.alignUp_mod
  have h3 := aligned_push hat (tls_push h) rfl (all _ hm) ha
  have e := dest_address hv l ht
  rw [destSource] at e
  rw [e]
  exact sum_aligned hd hb h3

/-- Static objects without initial value are aligned. -/
theorem C80_zero_aligned (p : Program) (hv : Valid p) (l : Link) (hl : l.Aligned (file p)) {i : Nat} {v : List Nat × Nat × Nat} (h : p.bss[i]? = some v) :
    address (file p) l (symbolOf p (.bss i)) % v.2.2 = 0 := by
  obtain ⟨h1, _, _, hs, h4⟩ := bss_at hv h
  have hp := hv.bssAligns v (List.mem_of_getElem? h)
  have es := symbol_in hv hs (bss_get h) h4 (by omega)
  obtain ⟨n, e', _⟩ := sectionNumber_get hs
  have hd : v.2.2 ∣ sectionAlign p .bss := by
    refine power_dvd hp (sectionAlign_power hv .bss) ((maxAlign_spec (l := p.bss.map (fun v : List Nat × Nat × Nat => v.2.2)) (fun x hx => ?_)).2 v.2.2 ?_)
    · obtain ⟨v, hm, rfl⟩ := List.mem_map.1 hx; exact hv.bssAligns v hm
    · exact List.mem_map_of_mem (List.mem_of_getElem? h)
  have hb : l.base (sectionNumber p .bss) % sectionAlign p .bss = 0 := alignment_of hv hs hl
  have e : address (file p) l (symbolOf p (.bss i)) = l.base (n + 1) + bssOffset p i := address_of (by rw [es.2]; exact e') (by rw [es.2])
  rw [e, ← e']
  exact Nat.mod_eq_zero_of_dvd (Nat.dvd_add (Nat.dvd_trans hd (Nat.dvd_of_mod_eq_zero hb)) (Nat.dvd_of_mod_eq_zero h1))

/-- Objects with `__declspec(selectany)` are aligned. -/
theorem C80_selectany_aligned (p : Program) (hv : Valid p) (l : Link) (hl : l.Aligned (file p)) {i : Nat} {v : Var} (h : p.selectany[i]? = some v) :
    address (file p) l (symbolOf p (.selectany i)) % v.align = 0 := by
  have ht : target p (.selectany i) = some v.bytes := by rw [target, h]; rfl
  have hb := alignment_of hv (target_section ht).1 hl
  have e := dest_address hv l ht
  have ea : sectionAlign p (writtenSection (.selectany i)) = v.align := by
    show (match p.selectany[i]? with | some d => d.align | none => 1) = _
    rw [h]
  rw [ea] at hb
  rw [destOffset, Nat.add_zero, destSource] at e
  rw [e]
  exact hb

end Verif.Props.Object
