import Verif.Lemmas.PdbRecords
import Verif.Lemmas.PdbSort

/-!
# C82: symbols are found in PDB files by name and by address
-/
namespace Verif.Props.PdbSymbols
open Verif.Model.PdbSymbols
open Verif.Spec.PdbSymbols (describe lookup Walk references addressMap second third)
open Verif.Spec.Image (byte number)
open Verif.Model.BaseReloc (u16 u32)
open Verif.Lemmas.PdbTable (Holds)
open Verif.Lemmas.PdbRead
open Verif.Lemmas.PdbRecords

/-- A name: bytes that are not zero, and not too many. -/
def Name (n : List Nat) : Prop := (∀ b ∈ n, 0 < b ∧ b < 256) ∧ n.length ≤ 60000

def ObjectFine (s : Section) (o : Object) : Prop := Name o.name ∧ o.type < 2 ^ 32 ∧ o.rva - s.address < 2 ^ 32

/-- What is assumed of a program: names as above, and all numbers fit. -/
structure Valid (p : Program) : Prop where
  functions : ∀ f ∈ p.functions, Name f.name ∧ f.symbolOffset < 2 ^ 32 ∧ p.text.address ≤ f.rva ∧ f.rva - p.text.address < 2 ^ 32
  imports : ∀ i ∈ p.imports, Name i.1 ∧ p.rdata.address ≤ i.2 ∧ i.2 - p.rdata.address < 2 ^ 32
  stubs : ∀ i ∈ p.stubs, Name i.1 ∧ p.text.address ≤ i.2 ∧ i.2 - p.text.address < 2 ^ 32
  constants : ∀ c ∈ p.constants, Name c.1 ∧ c.2.1 < 2 ^ 32 ∧ -2 ^ 63 ≤ c.2.2 ∧ c.2.2 < 2 ^ 63
  uninitialized : ∀ o ∈ p.uninitialized, ObjectFine p.bss o
  initialized : ∀ o ∈ p.initialized, ObjectFine p.data o
  typedefs : ∀ t ∈ p.typedefs, Name t.1 ∧ t.2 < 2 ^ 32
  ids : p.text.id < 2 ^ 16 ∧ p.rdata.id < 2 ^ 16 ∧ p.bss.id < 2 ^ 16 ∧ p.data.id < 2 ^ 16
  different : p.text.id ≠ p.rdata.id
  size : (symbols p).records.length < 2 ^ 31

/-- No constant is below -32768. -/
def SmallConstants (p : Program) : Prop := ∀ c ∈ p.constants, -2 ^ 15 ≤ c.2.2

/-! ## What a debugger should find -/

/-- Functions are found with the position of their debug symbols in the module. -/
def aboutFunction (f : Function) : List Int := [if f.isStatic then 0x1127 else 0x1125, 0, (f.symbolOffset : Int), 1]
/-- Objects are found with their type, their position in the section and the number of the section. -/
def aboutObject (s : Section) (o : Object) : List Int := [if o.isStatic then 0x110c else 0x110d, (o.type : Int), ((o.rva - s.address : Nat) : Int), (s.id : Int)]
def aboutConstant (c : List Nat × Nat × Int) : List Int := [0x1107, (c.2.1 : Int), c.2.2]
def aboutType (t : List Nat × Nat) : List Int := [0x1108, (t.2 : Int)]
/-- Public symbols are found with their position in the section. -/
def aboutPublic (flags : Nat) (s : Section) (rva : Nat) : List Int := [0x110e, (flags : Int), ((rva - s.address : Nat) : Int), (s.id : Int)]

/-- The globals with a name. -/
def globalsNamed (p : Program) (n : List Nat) : List (List Int) :=
  (p.functions.filter (fun f => decide (f.name = n))).map aboutFunction ++
    (p.constants.filter (fun c => decide (c.1 = n))).map aboutConstant ++
    (p.uninitialized.filter (fun o => decide (o.name = n))).map (aboutObject p.bss) ++
    (p.initialized.filter (fun o => decide (o.name = n))).map (aboutObject p.data) ++
    (p.typedefs.filter (fun t => decide (t.1 = n))).map aboutType

/-- The public symbols: functions that are not static, imported addresses and stubs. -/
def publicFunctions (p : Program) : List (List Nat × List Int) :=
  (p.functions.filter (fun f => !f.isStatic)).map (fun f => (f.name, aboutPublic 2 p.text f.rva)) ++
    p.imports.map (fun i => (i.1, aboutPublic 0 p.rdata i.2)) ++ p.stubs.map (fun i => (i.1, aboutPublic 0 p.text i.2))

/-! ## The entries -/

theorem number_head {v : Nat} (h : v < 2 ^ 32) (rest : List Nat) : number (byte (u32 v ++ rest)) 4 0 = v := by
  have : At (u32 v ++ rest) 0 (u32 v) := at_of_drop (post := rest) rfl
  exact Verif.Lemmas.Image.number_u32 this h

theorem number_second {x v : Nat} (h : v < 2 ^ 32) (rest : List Nat) : number (byte (u32 x ++ u32 v ++ rest)) 4 4 = v := by
  have : At (u32 x ++ u32 v ++ rest) 4 (u32 v) := at_of_drop (post := rest) rfl
  exact Verif.Lemmas.Image.number_u32 this h

theorem number_third {x y v : Nat} (h : v < 2 ^ 16) : number (byte (u32 x ++ u32 y ++ u16 v)) 2 8 = v := by
  have : At (u32 x ++ u32 y ++ u16 v) 8 (u16 v) := at_of_drop (post := []) rfl
  exact Verif.Lemmas.Image.number_u16 this h

theorem desc_numbers {e : Entry} {x y z : Nat} (hk : e.kind ∈ [0x1125, 0x1127, 0x110e, 0x110c, 0x110d]) (he : e.fields = u32 x ++ u32 y ++ u16 z)
    (hx : x < 2 ^ 32) (hy : y < 2 ^ 32) (hz : z < 2 ^ 16) : desc e = [(e.kind : Int), (x : Int), (y : Int), (z : Int)] := by
  unfold desc
  rw [if_pos hk, he, number_second hy, number_third hz, List.append_assoc, number_head hx]

theorem good_numbers {e : Entry} {x y z : Nat} (hk : e.kind ∈ [0x1125, 0x1127, 0x110e, 0x110c, 0x110d]) (he : e.fields = u32 x ++ u32 y ++ u16 z)
    (hv : e.value = none) : Good e := .numbers hk (by rw [he]; rfl) hv

/-- All entries can be read if there are only small constants; the public ones always. -/
theorem entries_fine {p : Program} (hv : Valid p) : ∀ e ∈ entries p, Name e.name ∧ (4 ≤ e.fields.length ∧ e.fields.length ≤ 10) ∧ (SmallConstants p ∨ e.isPublic = true → Good e) := by
  intro e he
  unfold entries at he
  simp only [List.mem_append, List.mem_flatMap, List.mem_map] at he
  rcases he with (((((⟨f, hf, he⟩ | ⟨i, hi, rfl⟩) | ⟨i, hi, rfl⟩) | ⟨c, hc, rfl⟩) | ⟨o, ho, rfl⟩) | ⟨o, ho, rfl⟩) | ⟨t, ht, rfl⟩
  · have hfv := hv.functions f hf
    unfold functionEntries at he
    rcases List.mem_cons.mp he with rfl | he
    · exact ⟨hfv.1, ⟨by show 4 ≤ 10; omega, Nat.le_refl _⟩, fun _ => good_numbers (by show (if f.isStatic then _ else _) ∈ _; cases f.isStatic <;> decide) rfl rfl⟩
    · cases hs : f.isStatic with
      | true => rw [hs] at he; simp at he
      | false =>
        rw [hs] at he
        simp at he
        subst he
        exact ⟨hfv.1, ⟨by show 4 ≤ 10; omega, Nat.le_refl _⟩, fun _ => good_numbers (by show 0x110e ∈ _; decide) rfl rfl⟩
  · exact ⟨(hv.imports i hi).1, ⟨by show 4 ≤ 10; omega, Nat.le_refl _⟩, fun _ => good_numbers (by show 0x110e ∈ _; decide) rfl rfl⟩
  · exact ⟨(hv.stubs i hi).1, ⟨by show 4 ≤ 10; omega, Nat.le_refl _⟩, fun _ => good_numbers (by show 0x110e ∈ _; decide) rfl rfl⟩
  · refine ⟨(hv.constants c hc).1, ⟨Nat.le_refl _, by show 4 ≤ 10; omega⟩, fun h => ?_⟩
    rcases h with h | h
    · exact .constant rfl rfl rfl (h c hc) (hv.constants c hc).2.2.2
    · cases h
  · exact ⟨(hv.uninitialized o ho).1, ⟨by show 4 ≤ 10; omega, Nat.le_refl _⟩, fun _ => good_numbers (by show (if o.isStatic then _ else _) ∈ _; cases o.isStatic <;> decide) rfl rfl⟩
  · exact ⟨(hv.initialized o ho).1, ⟨by show 4 ≤ 10; omega, Nat.le_refl _⟩, fun _ => good_numbers (by show (if o.isStatic then _ else _) ∈ _; cases o.isStatic <;> decide) rfl rfl⟩
  · exact ⟨(hv.typedefs t ht).1, ⟨Nat.le_refl _, by show 4 ≤ 10; omega⟩, fun _ => .type rfl rfl rfl⟩

theorem desc_object {s : Section} {o : Object} (h : ObjectFine s o) (hs : s.id < 2 ^ 16) : desc (objectEntry s o) = aboutObject s o := by
  rw [desc_numbers (e := objectEntry s o) (by show (if o.isStatic then _ else _) ∈ _; cases o.isStatic <;> decide) rfl h.2.1 h.2.2 hs]
  unfold objectEntry aboutObject
  cases o.isStatic <;> rfl

theorem desc_function {f : Function} (h : f.symbolOffset < 2 ^ 32) :
    desc ⟨false, if f.isStatic then 0x1127 else 0x1125, u32 0 ++ u32 f.symbolOffset ++ u16 1, none, f.name, f.rva⟩ = aboutFunction f := by
  rw [desc_numbers (by show (if f.isStatic then _ else _) ∈ _; cases f.isStatic <;> decide) rfl (by omega) h (by omega)]
  unfold aboutFunction
  cases f.isStatic <;> rfl

theorem desc_public {x : Nat} {s : Section} {rva : Nat} {n : List Nat} (hx : x < 2 ^ 32) (h : rva - s.address < 2 ^ 32) (hs : s.id < 2 ^ 16) :
    desc ⟨true, 0x110e, u32 x ++ u32 (rva - s.address) ++ u16 s.id, none, n, rva⟩ = aboutPublic x s rva := by
  rw [desc_numbers (by show 0x110e ∈ _; decide) rfl hx h hs]
  rfl

theorem map_filter_congr {α β γ : Type} (l : List α) (mk : α → β) (q : β → Bool) (r : α → Bool) (d : β → γ) (d' : α → γ) (hq : ∀ x ∈ l, q (mk x) = r x)
    (hd : ∀ x ∈ l, d (mk x) = d' x) : (((l.map mk).filter q).map d) = (l.filter r).map d' := by
  rw [List.filter_map, List.map_map, List.filter_congr (p := q ∘ mk) (q := r) (fun x hx => hq x hx)]
  exact List.map_congr_left (fun x hx => hd x (List.mem_filter.mp hx).1)

theorem filter_none {α β : Type} (l : List α) (mk : α → β) (q : β → Bool) (h : ∀ x ∈ l, q (mk x) = false) : (l.map mk).filter q = [] := by
  rw [List.filter_eq_nil_iff]
  intro y hy
  obtain ⟨x, hx, rfl⟩ := List.mem_map.mp hy
  rw [h x hx]; simp

theorem function_globals (p : Program) (n : List Nat) : (l : List Function) → (∀ f ∈ l, f.symbolOffset < 2 ^ 32) →
    ((l.flatMap (functionEntries p)).filter (fun e => (!e.isPublic) && decide (e.name = n))).map desc = (l.filter (fun f => decide (f.name = n))).map aboutFunction
  | [], _ => rfl
  | f :: l, h => by
    rw [List.flatMap_cons, List.filter_append, List.map_append, function_globals p n l (fun g hg => h g (List.mem_cons_of_mem _ hg)), List.filter_cons]
    have hd := desc_function (h f (List.mem_cons_self ..))
    unfold functionEntries
    cases hs : f.isStatic <;> rw [hs] at hd <;> by_cases hn : f.name = n <;> simp [hn] <;> rw [hn] at hd <;> exact hd

theorem function_publics (p : Program) (hid : p.text.id < 2 ^ 16) : (l : List Function) → (∀ f ∈ l, f.rva - p.text.address < 2 ^ 32) →
    ((l.flatMap (functionEntries p)).filter (fun e => e.isPublic)).map (fun e => (e.name, desc e)) =
      (l.filter (fun f => !f.isStatic)).map (fun f => (f.name, aboutPublic 2 p.text f.rva))
  | [], _ => rfl
  | f :: l, h => by
    rw [List.flatMap_cons, List.filter_append, List.map_append, function_publics p hid l (fun g hg => h g (List.mem_cons_of_mem _ hg)), List.filter_cons]
    have hd := desc_public (x := 2) (s := p.text) (n := f.name) (by omega) (h f (List.mem_cons_self ..)) hid
    unfold functionEntries
    cases hs : f.isStatic <;> simp
    exact hd

theorem entries_globals {p : Program} (hv : Valid p) (n : List Nat) :
    ((entries p).filter (fun e => (!e.isPublic) && decide (e.name = n))).map desc = globalsNamed p n := by
  unfold entries globalsNamed
  simp only [List.filter_append, List.map_append]
  rw [function_globals p n p.functions (fun f hf => (hv.functions f hf).2.1)]
  rw [filter_none p.imports _ _ (fun x _ => rfl), filter_none p.stubs _ _ (fun x _ => rfl)]
  rw [map_filter_congr p.constants _ _ (fun c => decide (c.1 = n)) desc aboutConstant (fun c _ => rfl) (fun c hc => by
    unfold desc
    simp only []
    rw [if_neg (by decide), if_neg (by decide)]
    have := number_head (hv.constants c hc).2.1 []
    rw [List.append_nil] at this
    rw [this]; rfl)]
  rw [map_filter_congr p.uninitialized _ _ (fun o => decide (o.name = n)) desc (aboutObject p.bss) (fun o _ => rfl)
    (fun o ho => desc_object (hv.uninitialized o ho) hv.ids.2.2.1)]
  rw [map_filter_congr p.initialized _ _ (fun o => decide (o.name = n)) desc (aboutObject p.data) (fun o _ => rfl)
    (fun o ho => desc_object (hv.initialized o ho) hv.ids.2.2.2)]
  rw [map_filter_congr p.typedefs _ _ (fun t => decide (t.1 = n)) desc aboutType (fun t _ => rfl) (fun t ht => by
    unfold desc
    simp only []
    rw [if_neg (by decide), if_pos (by decide)]
    have := number_head (hv.typedefs t ht).2 []
    rw [List.append_nil] at this
    rw [this]; rfl)]
  simp only [List.map_nil, List.append_nil]

theorem entries_publics {p : Program} (hv : Valid p) :
    ((entries p).filter (fun e => e.isPublic)).map (fun e => (e.name, desc e)) = publicFunctions p := by
  unfold entries publicFunctions
  simp only [List.filter_append, List.map_append]
  rw [function_publics p hv.ids.1 p.functions (fun f hf => (hv.functions f hf).2.2.2)]
  rw [map_filter_congr p.imports _ (fun e => e.isPublic) (fun _ => true) (fun e => (e.name, desc e)) (fun i => (i.1, aboutPublic 0 p.rdata i.2)) (fun _ _ => rfl)
    (fun i hi => by rw [desc_public (by omega) (hv.imports i hi).2.2 hv.ids.2.1])]
  rw [map_filter_congr p.stubs _ (fun e => e.isPublic) (fun _ => true) (fun e => (e.name, desc e)) (fun i => (i.1, aboutPublic 0 p.text i.2)) (fun _ _ => rfl)
    (fun i hi => by rw [desc_public (by omega) (hv.stubs i hi).2.2 hv.ids.1])]
  rw [filter_none p.constants _ _ (fun x _ => rfl), filter_none p.uninitialized _ _ (fun x _ => rfl), filter_none p.initialized _ _ (fun x _ => rfl),
    filter_none p.typedefs _ _ (fun x _ => rfl)]
  simp only [List.map_nil, List.append_nil]
  rw [List.filter_eq_self.mpr (fun _ _ => rfl), List.filter_eq_self.mpr (fun _ _ => rfl)]

/-! ## All records -/

theorem placed_facts {p : Program} (hv : Valid p) :
    (∀ x ∈ placed 0 (entries p), x.2 ∈ entries p ∧ x.1 % 4 = 0 ∧ x.1 + 1 < 2 ^ 32 ∧ ∃ post, (symbols p).records.drop x.1 = record x.1 x.2 ++ post) ∧
    12 * (placed 0 (entries p)).length < 2 ^ 32 := by
  have hr := (symbols_eq p).1
  have hd : (symbols p).records.drop 0 = bytes (placed 0 (entries p)) := by rw [List.drop_zero, hr]
  have hsize := hv.size
  refine ⟨fun x hx => ⟨?_, placed_aligned _ 0 rfl x hx, ?_, placed_at _ 0 _ (Nat.zero_le _) hd x hx⟩, ?_⟩
  · rw [← placed_entries (entries p) 0]
    exact List.mem_map_of_mem hx
  · obtain ⟨post, h⟩ := placed_at _ 0 _ (Nat.zero_le _) hd x hx
    have := congrArg List.length h
    rw [List.length_drop, List.length_append, record_length] at this
    omega
  · have := placed_count (entries p) 0 rfl (fun e he => (entries_fine hv e he).2.1.1)
    rw [← hr] at this
    omega

theorem map_placed {β : Type} (p : Program) (q : Entry → Bool) (f : Entry → β) :
    ((placed 0 (entries p)).filter (fun x => q x.2)).map (fun x => f x.2) = ((entries p).filter q).map f := by
  conv => rhs; rw [← placed_entries (entries p) 0]
  rw [List.filter_map, List.map_map]
  rfl

/-- C82 (globals), part: looking up a name in the stream of the globals gives the records of exactly the functions, objects, enumerators and types with this name, each with what it should say.
Missing: programs with enumerators below -32768, see `C82_globals_wrong`. -/
theorem C82_globals_partial (p : Program) (hv : Valid p) (hc : SmallConstants p) (n : List Nat) :
    ((lookup (symbols p).records (hashStream (symbols p).globals) 0 n).map (describe (symbols p).records)).Perm (globalsNamed p n) := by
  obtain ⟨hp, hl⟩ := placed_facts hv
  have hread : ∀ x ∈ placed 0 (entries p), Verif.Spec.PdbSymbols.name (symbols p).records x.1 = some x.2.name ∧ describe (symbols p).records x.1 = desc x.2 := by
    intro x hx
    obtain ⟨h1, h2, h3, post, h4⟩ := hp x hx
    have hf := entries_fine hv x.2 h1
    exact read h4 h2 (hf.2.2 (.inl hc)) (fun b hb => by have := hf.1.1 b hb; omega)
  have hat : At (hashStream (symbols p).globals) 0 (hashStream (symbols p).globals) := at_of_drop (post := []) (by simp)
  have hlk := lookup_eq (R := (symbols p).records) hat (symbols_eq p).2.1
    (by have := List.length_filter_le (fun x => !x.2.isPublic) (placed 0 (entries p)); omega)
    (fun x hx => (hp x (List.mem_filter.mp hx).1).2.2.1)
    (fun x hx b hb => ((entries_fine hv x.2 (hp x (List.mem_filter.mp hx).1).1).1.1 b hb).2)
    (fun x hx => (hread x (List.mem_filter.mp hx).1).1) n
  refine (hlk.map _).trans (List.Perm.of_eq ?_)
  rw [List.map_map, List.filter_filter, ← entries_globals hv n, ← map_placed p (fun e => (!e.isPublic) && decide (e.name = n)) desc]
  rw [List.filter_congr (p := fun (x : Nat × Entry) => decide (x.2.name = n) && !x.2.isPublic) (q := fun (x : Nat × Entry) => (!x.2.isPublic) && decide (x.2.name = n)) (fun x _ => Bool.and_comm _ _)]
  exact List.map_congr_left (fun x hx => (hread x (List.mem_filter.mp hx).1).2)

theorem read_publics {p : Program} (hv : Valid p) : ∀ x ∈ (placed 0 (entries p)).filter (fun x => x.2.isPublic),
    Verif.Spec.PdbSymbols.name (symbols p).records x.1 = some x.2.name ∧ describe (symbols p).records x.1 = desc x.2 := by
  intro x hx
  obtain ⟨hm, hpub⟩ := List.mem_filter.mp hx
  obtain ⟨h1, h2, h3, post, h4⟩ := (placed_facts hv).1 x hm
  have hf := entries_fine hv x.2 h1
  exact read h4 h2 (hf.2.2 (.inr hpub)) (fun b hb => by have := hf.1.1 b hb; omega)

/-- The stream of the public symbols is always written: the sort ends, and its stack is large enough. -/
theorem public_written (p : Program) : ∃ (s : List Nat) (sorted : List (Nat × Nat)), publicStream (symbols p).publics = some s ∧
    sorted.Perm ((tableSymbols (symbols p).publics).map (fun s => (s.rva, s.offset))) ∧ sorted.Pairwise (fun x y => x.1 ≤ y.1) ∧
    s = u32 (hashStream (symbols p).publics).length ++ u32 ((symbols p).publics.symbols * 4) ++ u32 0 ++ u32 0 ++ u16 0 ++ u16 0 ++ u32 0 ++ u32 0 ++
      hashStream (symbols p).publics ++ (sorted.map (·.2)).flatMap u32 := by
  obtain ⟨sorted, h1, h2, h3⟩ := Verif.Lemmas.PdbSort.sort_spec ((tableSymbols (symbols p).publics).map (fun s => (s.rva, s.offset)))
  refine ⟨_, sorted, ?_, h2, h3, rfl⟩
  unfold publicStream
  rw [h1]
  simp only [List.flatMap_map]

theorem C82_public_written (p : Program) : ∃ s, publicStream (symbols p).publics = some s := by
  obtain ⟨s, _, h, _⟩ := public_written p
  exact ⟨s, h⟩

theorem public_at {p : Program} {s : List Nat} (h : publicStream (symbols p).publics = some s) : At s 28 (hashStream (symbols p).publics) := by
  obtain ⟨s', sorted, h1, h2, h3, h4⟩ := public_written p
  rw [h] at h1
  obtain rfl := Option.some.inj h1
  refine at_of_drop (post := (sorted.map (·.2)).flatMap u32) ?_
  rw [h4, List.append_assoc]
  exact List.drop_left' rfl

/-- C82 (public symbols): looking up a name in the stream of the public symbols gives the records of exactly the functions that are not static, the imported addresses
and the stubs with this name. -/
theorem C82_publics (p : Program) (hv : Valid p) {s : List Nat} (hs : publicStream (symbols p).publics = some s) (n : List Nat) :
    ((lookup (symbols p).records s 28 n).map (describe (symbols p).records)).Perm (((publicFunctions p).filter (fun x => decide (x.1 = n))).map (·.2)) := by
  obtain ⟨hp, hl⟩ := placed_facts hv
  have hread := read_publics hv
  have hlk := lookup_eq (R := (symbols p).records) (public_at hs) (symbols_eq p).2.2
    (by have := List.length_filter_le (fun x => x.2.isPublic) (placed 0 (entries p)); omega)
    (fun x hx => (hp x (List.mem_filter.mp hx).1).2.2.1)
    (fun x hx b hb => ((entries_fine hv x.2 (hp x (List.mem_filter.mp hx).1).1).1.1 b hb).2)
    (fun x hx => (hread x hx).1) n
  refine (hlk.map _).trans (List.Perm.of_eq ?_)
  rw [List.map_map, ← entries_publics hv, ← map_placed p (fun e => e.isPublic) (fun e => (e.name, desc e)), List.filter_map, List.map_map]
  exact List.map_congr_left (fun x hx => (hread x (List.mem_filter.mp hx).1).2)

/-- The address a public symbol has according to its record. -/
def addressOf (p : Program) (o : Nat) : Nat :=
  second (symbols p).records o + (if third (symbols p).records o = p.text.id then p.text.address else p.rdata.address)

theorem public_fields {p : Program} (hv : Valid p) : ∀ e ∈ entries p, e.isPublic = true →
    ∃ (x : Nat) (s : Section), (s = p.text ∨ s = p.rdata) ∧ e.fields = u32 x ++ u32 (e.rva - s.address) ++ u16 s.id ∧ s.address ≤ e.rva ∧ e.rva - s.address < 2 ^ 32 := by
  intro e he hpub
  unfold entries at he
  simp only [List.mem_append, List.mem_flatMap, List.mem_map] at he
  rcases he with (((((⟨f, hf, he⟩ | ⟨i, hi, rfl⟩) | ⟨i, hi, rfl⟩) | ⟨c, hc, rfl⟩) | ⟨o, ho, rfl⟩) | ⟨o, ho, rfl⟩) | ⟨t, ht, rfl⟩
  · have hfv := hv.functions f hf
    unfold functionEntries at he
    rcases List.mem_cons.mp he with rfl | he
    · cases hpub
    · cases hs : f.isStatic with
      | true => rw [hs] at he; simp at he
      | false =>
        rw [hs, if_neg (by simp), List.mem_singleton] at he
        subst he
        exact ⟨2, p.text, .inl rfl, rfl, hfv.2.2⟩
  · exact ⟨0, p.rdata, .inr rfl, rfl, (hv.imports i hi).2⟩
  · exact ⟨0, p.text, .inl rfl, rfl, (hv.stubs i hi).2⟩
  · cases hpub
  · cases hpub
  · cases hpub
  · cases hpub

theorem addressOf_eq {p : Program} (hv : Valid p) : ∀ x ∈ (placed 0 (entries p)).filter (fun x => x.2.isPublic), addressOf p x.1 = x.2.rva := by
  intro x hx
  obtain ⟨hm, hpub⟩ := List.mem_filter.mp hx
  obtain ⟨h1, h2, h3, post, h4⟩ := (placed_facts hv).1 x hm
  obtain ⟨v, s, hs, hf, hle, hlt⟩ := public_fields hv x.2 h1 hpub
  obtain ⟨r1, r2⟩ := read_numbers h4 (by rw [hf]; rfl)
  have hid : s.id < 2 ^ 16 := by
    rcases hs with rfl | rfl
    · exact hv.ids.1
    · exact hv.ids.2.1
  unfold addressOf
  rw [r1, r2, hf, number_second hlt, number_third hid]
  rcases hs with rfl | rfl
  · rw [if_pos rfl]; omega
  · rw [if_neg (fun h => hv.different h.symm)]; omega

/-- C82 (addresses): the list of addresses refers to exactly the public symbols, the same records as the hash table, and is sorted by the address. -/
theorem C82_addresses (p : Program) (hv : Valid p) {s : List Nat} (hs : publicStream (symbols p).publics = some s) :
    (addressMap s).Perm (references s 28) ∧ ((addressMap s).map (describe (symbols p).records)).Perm ((publicFunctions p).map (·.2)) ∧
      (addressMap s).Pairwise (fun x y => addressOf p x ≤ addressOf p y) := by
  obtain ⟨s', sorted, h1, h2, h3, h4⟩ := public_written p
  rw [hs] at h1
  obtain rfl := Option.some.inj h1
  obtain ⟨hp, hl⟩ := placed_facts hv
  have hh := (symbols_eq p).2.2
  have hall : (tableSymbols (symbols p).publics).Perm (((placed 0 (entries p)).filter (fun x => x.2.isPublic)).map sym) := all_symbols hh (by omega)
  have hsl : sorted.length = (symbols p).publics.symbols := by
    rw [h2.length_eq, List.length_map, hall.length_eq, hh.count]
  have hle := List.length_filter_le (fun x : Nat × Entry => x.2.isPublic) (placed 0 (entries p))
  have hcount : (symbols p).publics.symbols ≤ (placed 0 (entries p)).length := by rw [hh.count, List.length_map]; exact hle
  -- the list
  have hmap : addressMap s = sorted.map (·.2) := by
    have hat : At s 0 s := at_of_drop (post := []) (by simp)
    have hslen := hashStream_length hh
    rw [List.length_map] at hslen
    have hat' := hat
    conv at hat' => arg 3; rw [h4]
    obtain ⟨hat', q9⟩ := at_split hat' (b := 28 + (hashStream (symbols p).publics).length) (by
      simp only [List.length_append, u32, u16, List.length_cons, List.length_nil]; omega)
    obtain ⟨hat', _⟩ := at_split hat' rfl
    obtain ⟨hat', _⟩ := at_split hat' rfl
    obtain ⟨hat', _⟩ := at_split hat' rfl
    obtain ⟨hat', _⟩ := at_split hat' rfl
    obtain ⟨hat', _⟩ := at_split hat' rfl
    obtain ⟨hat', _⟩ := at_split hat' rfl
    obtain ⟨hat', _⟩ := at_split hat' rfl
    obtain ⟨q1, q2⟩ := at_split hat' (b := 4) rfl
    have e1 : number (byte s) 4 0 = (hashStream (symbols p).publics).length := Verif.Lemmas.Image.number_u32 q1 (by omega)
    have e2 : number (byte s) 4 4 = (symbols p).publics.symbols * 4 := Verif.Lemmas.Image.number_u32 q2 (by omega)
    unfold addressMap
    rw [e1, e2, Nat.mul_div_cancel _ (by omega)]
    apply List.ext_getElem
    · rw [List.length_map, List.length_map, List.length_range, hsl]
    · intro i g1 g2
      rw [List.getElem_map, List.getElem_range, List.getElem_map]
      have hi : i < sorted.length := by simpa using g2
      have hfl := flat_at q9 (i := i) (v := sorted[i].2) (by rw [List.getElem?_map, List.getElem?_eq_getElem hi]; rfl)
      refine Verif.Lemmas.Image.number_u32 hfl ?_
      have hm : sorted[i] ∈ sorted := List.getElem_mem hi
      obtain ⟨y, hy, he⟩ := List.mem_map.mp (h2.mem_iff.mp hm)
      obtain ⟨x, hx, rfl⟩ := List.mem_map.mp (hall.mem_iff.mp hy)
      rw [← he]
      have := (hp x (List.mem_filter.mp hx).1).2.2.1
      show x.1 < 2 ^ 32
      omega
  have hperm : (addressMap s).Perm (((placed 0 (entries p)).filter (fun x => x.2.isPublic)).map (·.1)) := by
    rw [hmap]
    refine (h2.map _).trans ?_
    rw [List.map_map]
    refine (hall.map _).trans ?_
    rw [List.map_map]
    exact List.Perm.refl _
  refine ⟨?_, ?_, ?_⟩
  · have href := references_eq (public_at hs) hh (by rw [List.length_map]; omega) (fun y hy => by
      obtain ⟨x, hx, rfl⟩ := List.mem_map.mp hy
      exact (hp x (List.mem_filter.mp hx).1).2.2.1)
    rw [List.map_map] at href
    exact hperm.trans href.symm
  · refine (hperm.map _).trans (List.Perm.of_eq ?_)
    rw [List.map_map, ← entries_publics hv, ← map_placed p (fun e => e.isPublic) (fun e => (e.name, desc e)), List.map_map]
    exact List.map_congr_left (fun x hx => (read_publics hv x hx).2)
  · rw [hmap, List.pairwise_map]
    refine List.Pairwise.imp_of_mem (fun {a b} ha hb hab => ?_) h3
    have haddr : ∀ a ∈ sorted, addressOf p a.2 = a.1 := by
      intro a ha
      obtain ⟨y, hy, he⟩ := List.mem_map.mp (h2.mem_iff.mp ha)
      obtain ⟨x, hx, rfl⟩ := List.mem_map.mp (hall.mem_iff.mp hy)
      rw [← he]
      exact addressOf_eq hv x hx
    rw [haddr a ha, haddr b hb]
    exact hab

/-- C82 (all records): following the lengths of the records gives all of them, in the order of the program. -/
theorem C82_records (p : Program) (hv : Valid p) : ∃ l, Walk (symbols p).records 0 l ∧ l.length = (entries p).length ∧
    ∀ s, publicStream (symbols p).publics = some s → l.Perm (references (hashStream (symbols p).globals) 0 ++ references s 28) := by
  obtain ⟨hp, hl⟩ := placed_facts hv
  have hr := (symbols_eq p).1
  have hd : (symbols p).records.drop 0 = bytes (placed 0 (entries p)) := by rw [List.drop_zero, hr]
  refine ⟨(placed 0 (entries p)).map (·.1), walk (entries p) 0 _ rfl (Nat.zero_le _) hd (fun x hx => ?_), ?_, fun s hs => ?_⟩
  · have hf := entries_fine hv x.2 (hp x hx).1
    have h1 := leaf_length x.1 x.2
    have h2 := pad_length x.1 x.2
    have h3 := hf.1.2
    have h4 := hf.2.1.2
    rw [body_length]
    omega
  · rw [List.length_map, ← List.length_map (f := fun x : Nat × Entry => x.2), placed_entries]
  · have hle := List.length_filter_le (fun x : Nat × Entry => x.2.isPublic) (placed 0 (entries p))
    have hle' := List.length_filter_le (fun x : Nat × Entry => !x.2.isPublic) (placed 0 (entries p))
    have h1 := references_eq (public_at hs) (symbols_eq p).2.2 (by rw [List.length_map]; omega) (fun y hy => by
      obtain ⟨x, hx, rfl⟩ := List.mem_map.mp hy
      exact (hp x (List.mem_filter.mp hx).1).2.2.1)
    have h2 := references_eq (s := hashStream (symbols p).globals) (a := 0) (at_of_drop (post := []) (by simp)) (symbols_eq p).2.1 (by rw [List.length_map]; omega) (fun y hy => by
      obtain ⟨x, hx, rfl⟩ := List.mem_map.mp hy
      exact (hp x (List.mem_filter.mp hx).1).2.2.1)
    refine List.Perm.symm ((h2.append h1).trans ?_)
    rw [List.map_map, List.map_map, ← List.map_append]
    refine List.Perm.map _ ?_
    have := List.filter_append_perm (fun x : Nat × Entry => x.2.isPublic) (placed 0 (entries p))
    exact List.perm_append_comm.trans this

end Verif.Props.PdbSymbols
