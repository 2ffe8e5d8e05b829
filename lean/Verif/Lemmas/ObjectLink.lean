import Verif.Lemmas.ObjectSymbols

/-!
# Lemmas: the sections of an object file after linking
-/
namespace Verif.Lemmas.Object
open Verif.Model.BaseReloc hiding relocate
open Verif.Model.Image (Push Placed padding alignUp zeros u64 s32 s64 lay place poke djb2 capacity)
open Verif.Model.Object
open Verif.Lemmas.Image (At le_alignUp place_inside poke_get poke_length number_congr holds_of_at number_u32 number_u64)
open Verif.Spec.Image (byte number Holds)
open Verif.Spec.Object (Link relocate linked raw put address startOf)

/-! ## Storing numbers -/

theorem number_stored (V : Nat) : (n a : Nat) → (m : Nat → Nat) → (∀ i, i < n → m (a + i) = V / 256 ^ i % 256) → number m n a = V % 256 ^ n
  | 0, _, _, _ => by rw [Nat.pow_zero, Nat.mod_one]; rfl
  | n + 1, a, m, h => by
    have h0 := h 0 (by omega)
    rw [Nat.add_zero, Nat.pow_zero, Nat.div_one] at h0
    have ih := number_stored (V / 256) n (a + 1) m (fun i hi => by
      have := h (i + 1) (by omega)
      rw [show a + 1 + i = a + (i + 1) by omega, this, Nat.div_div_eq_div_mul, Nat.pow_succ, Nat.mul_comm (256 ^ i)])
    rw [number, ih, h0, Nat.pow_succ, Nat.mul_comm (256 ^ n), Nat.mod_mul]

theorem put_number (m : Nat → Nat) (a n : Nat) (v : Int) : number (put m a n v) n a = (v % 256 ^ n).toNat := by
  rw [number_stored (v % 256 ^ n).toNat n a _ (fun i hi => by unfold put; rw [if_pos (by omega), Nat.add_sub_cancel_left])]
  apply Nat.mod_eq_of_lt
  have hp : (0 : Int) < 256 ^ n := Int.pow_pos (by decide)
  have h1 := Int.emod_lt_of_pos v hp
  have h2 := Int.emod_nonneg v (Int.ne_of_gt hp)
  have e : ((256 ^ n : Nat) : Int) = 256 ^ n := Int.natCast_pow 256 n
  generalize hx : v % 256 ^ n = x at *
  generalize (256 : Int) ^ n = y at *
  generalize (256 : Nat) ^ n = z at *
  omega

theorem put_outside {m : Nat → Nat} {a n x : Nat} {v : Int} (h : x < a ∨ a + n ≤ x) : put m a n v x = m x := by
  unfold put
  rw [if_neg (by omega)]

theorem put_same {m m' : Nat → Nat} {a n x : Nat} {v : Int} (h1 : a ≤ x) (h2 : x < a + n) : put m a n v x = put m' a n v x := by
  unfold put
  rw [if_pos ⟨h1, h2⟩, if_pos ⟨h1, h2⟩]

/-! ## Relocations one after the other -/

/-- How many bytes a relocation changes. -/
def relocSize (kind : Nat) : Nat := if kind = 1 then 8 else if kind = 3 ∨ kind = 4 ∨ kind = 0xb then 4 else if kind = 0xa then 2 else 0

/-- The places of two relocations do not overlap. -/
def Apart (r s : Reloc) : Prop := r.offset + relocSize r.kind ≤ s.offset ∨ s.offset + relocSize s.kind ≤ r.offset

theorem relocate_outside {file : List Nat} {l : Link} {n : Nat} {m : Nat → Nat} {r : Reloc} {x : Nat} (h : x < r.offset ∨ r.offset + relocSize r.kind ≤ x) :
    relocate file l n m (read r) x = m x := by
  obtain ⟨o, k, kind⟩ := r
  unfold relocate read
  simp only [relocSize] at h ⊢
  split
  · next e => rw [if_pos e] at h; exact put_outside h
  · next e => rw [if_neg e] at h; split
              · next e => rw [if_pos (.inl e)] at h; exact put_outside h
              · split
                · next e => rw [if_pos (.inr (.inl e))] at h; exact put_outside h
                · split
                  · next e => rw [if_neg (by omega), if_pos e] at h; exact put_outside h
                  · split
                    · next e => rw [if_pos (.inr (.inr e))] at h; exact put_outside h
                    · rfl

theorem relocate_local {file : List Nat} {l : Link} {n : Nat} {m m' : Nat → Nat} {r : Reloc}
    (h : ∀ x, r.offset ≤ x → x < r.offset + relocSize r.kind → m x = m' x) :
    ∀ x, r.offset ≤ x → x < r.offset + relocSize r.kind → relocate file l n m (read r) x = relocate file l n m' (read r) x := by
  intro x h1 h2
  obtain ⟨o, k, kind⟩ := r
  have hn : number m (relocSize kind) o = number m' (relocSize kind) o := number_congr _ _ (fun i hi => h _ (by simp only []; omega) (by simp only []; omega))
  unfold relocate read
  simp only [] at h h1 h2 ⊢
  have hx := h x h1 h2
  unfold relocSize at hn h2
  split
  · next e => rw [if_pos e] at hn h2; rw [hn]; exact put_same h1 h2
  · next e =>
    rw [if_neg e] at hn h2
    split
    · next e => rw [if_pos (.inl e)] at hn h2; rw [hn]; exact put_same h1 h2
    · split
      · next e => rw [if_pos (.inr (.inl e))] at hn h2; rw [hn]; exact put_same h1 h2
      · split
        · next e => rw [if_neg (by omega), if_pos e] at hn h2; rw [hn]; exact put_same h1 h2
        · split
          · next e => rw [if_pos (.inr (.inr e))] at hn h2; rw [hn]; exact put_same h1 h2
          · exact hx

theorem relocate_all {file : List Nat} {l : Link} {n : Nat} : (rs : List Reloc) → (m : Nat → Nat) → rs.Pairwise Apart →
    (∀ x, (∀ r ∈ rs, x < r.offset ∨ r.offset + relocSize r.kind ≤ x) → ((rs.map read).foldl (relocate file l n) m) x = m x) ∧
    ∀ r ∈ rs, ∀ x, r.offset ≤ x → x < r.offset + relocSize r.kind → ((rs.map read).foldl (relocate file l n) m) x = relocate file l n m (read r) x
  | [], _, _ => ⟨fun _ _ => rfl, fun r h => by cases h⟩
  | s :: rs, m, hp => by
    obtain ⟨hp1, hp2⟩ := List.pairwise_cons.1 hp
    obtain ⟨ih1, ih2⟩ := relocate_all (file := file) (l := l) (n := n) rs (relocate file l n m (read s)) hp2
    rw [List.map_cons, List.foldl_cons]
    refine ⟨fun x hx => ?_, fun r hr x h1 h2 => ?_⟩
    · rw [ih1 x (fun r hr => hx r (List.mem_cons_of_mem _ hr)), relocate_outside (hx s List.mem_cons_self)]
    · rcases List.mem_cons.1 hr with rfl | hr
      · exact ih1 x (fun t ht => by
          have := hp1 t ht
          unfold Apart at this
          omega)
      · rw [ih2 r hr x h1 h2]
        have ha := hp1 r hr
        unfold Apart at ha
        exact relocate_local (fun y h3 h4 => relocate_outside (by omega)) x h1 h2

/-! ## Patches one after the other -/

theorem pokes_get (f : Patch → Nat) : (l : List Patch) → (b : List Nat) → (∀ q ∈ l, f q + (addend q).length ≤ b.length) →
    l.Pairwise (fun q r => f q + width q.kind ≤ f r ∨ f r + width r.kind ≤ f q) →
    (∀ x : Nat, (∀ q ∈ l, x < f q ∨ f q + (addend q).length ≤ x) → (l.foldl (fun b q => poke b (f q) (addend q)) b)[x]? = b[x]?) ∧
    ∀ q ∈ l, At (l.foldl (fun b q => poke b (f q) (addend q)) b) (f q) (addend q)
  | [], _, _, _ => ⟨fun _ _ => rfl, fun r h => by cases h⟩
  | s :: l, b, h, hp => by
    obtain ⟨hp1, hp2⟩ := List.pairwise_cons.1 hp
    have h1 := poke_length (h s List.mem_cons_self)
    obtain ⟨ih1, ih2⟩ := pokes_get f l (poke b (f s) (addend s)) (fun r hr => by rw [h1]; exact h r (List.mem_cons_of_mem _ hr)) hp2
    rw [List.foldl_cons]
    refine ⟨fun x hx => ?_, fun r hr => ?_⟩
    · rw [ih1 x (fun r hr => hx r (List.mem_cons_of_mem _ hr)), poke_get (h s List.mem_cons_self)]
      have := hx s List.mem_cons_self
      split
      · rfl
      · rw [if_neg (by omega)]
    · rcases List.mem_cons.1 hr with rfl | hr
      · intro i hi
        rw [ih1 _ (fun t ht => by
          have := hp1 t ht
          have := addend_length r
          have := addend_length t
          omega), poke_get (h r List.mem_cons_self), if_neg (by omega), if_pos (by omega), Nat.add_sub_cancel_left]
      · exact ih2 r hr

/-! ## The bytes of a section -/

theorem pairwise_reverse {α : Type} {R : α → α → Prop} (hs : ∀ a b, R a b → R b a) {l : List α} (h : l.Pairwise R) : l.reverse.Pairwise R :=
  List.pairwise_reverse.2 (h.imp (fun h => hs _ _ h))

/-- Patches of the same section are apart. -/
theorem patches_apart {p : Program} (hv : Valid p) (s : Section) : (p.patches.filter (fun q => writtenSection q.dest = s)).Pairwise (fun q r =>
    destOffset p q.dest + q.at_ + width q.kind ≤ destOffset p r.dest + r.at_ ∨ destOffset p r.dest + r.at_ + width r.kind ≤ destOffset p q.dest + q.at_) := by
  refine List.Pairwise.imp_of_mem ?_ (hv.patchApart.filter _)
  intro q r hq hr h
  obtain ⟨h1, h2⟩ := List.mem_filter.1 hq
  obtain ⟨h3, h4⟩ := List.mem_filter.1 hr
  obtain ⟨b, hb, hl, _⟩ := hv.patchFits q h1
  obtain ⟨c, hc, hm, _⟩ := hv.patchFits r h3
  by_cases e : q.dest = r.dest
  · rw [e]
    have := h e
    omega
  · have := dest_apart hb hc ((of_decide_eq_true h2).trans (of_decide_eq_true h4).symm) e
    omega

/-- The bytes of a section: what was pushed, and the addends. -/
theorem sectionBytes_get {p : Program} (hv : Valid p) (s : Section) :
    (∀ x : Nat, (∀ q ∈ p.patches, writtenSection q.dest = s → x < destOffset p q.dest + q.at_ ∨ destOffset p q.dest + q.at_ + (addend q).length ≤ x) →
      (sectionBytes p s)[x]? = (pushedBytes p s)[x]?) ∧
    ∀ q ∈ p.patches, writtenSection q.dest = s → At (sectionBytes p s) (destOffset p q.dest + q.at_) (addend q) := by
  have hp : (p.patches.reverse.filter (fun q => writtenSection q.dest = s)).Pairwise (fun q r =>
      destOffset p q.dest + q.at_ + width q.kind ≤ destOffset p r.dest + r.at_ ∨ destOffset p r.dest + r.at_ + width r.kind ≤ destOffset p q.dest + q.at_) := by
    rw [List.filter_reverse]
    exact pairwise_reverse (fun _ _ h => h.symm) (patches_apart hv s)
  have := pokes_get (fun q => destOffset p q.dest + q.at_) (p.patches.reverse.filter (fun q => writtenSection q.dest = s)) (pushedBytes p s) (fun q hq => by
    obtain ⟨h1, h2⟩ := List.mem_filter.1 hq
    have h3 := patch_inside hv (List.mem_reverse.1 h1)
    rw [show writtenSection q.dest = s from of_decide_eq_true h2] at h3
    have := addend_length q
    omega) hp
  refine ⟨fun x hx => this.1 x (fun q hq => ?_), fun q hq hs => this.2 q ?_⟩
  · obtain ⟨h1, h2⟩ := List.mem_filter.1 hq
    exact hx q (List.mem_reverse.1 h1) (of_decide_eq_true h2)
  · exact List.mem_filter.2 ⟨List.mem_reverse.2 hq, decide_eq_true hs⟩

/-! ## The symbols that exist -/

theorem target_section {p : Program} {d : Dest} {b : List Nat} (h : target p d = some b) : writtenSection d ∈ sectionIds p ∧ writtenSection d ≠ .bss := by
  have ne : ∀ {α : Type} {l : List α} {i : Nat} {x : α}, l[i]? = some x → l ≠ [] := by
    intro α l i x h e
    rw [e] at h; cases h
  cases d with
  | func i =>
    obtain ⟨f, hf, rfl⟩ := Option.map_eq_some_iff.1 h
    exact ⟨(mem_text (ne hf)).1, (fun h => by cases h)⟩
  | data i =>
    obtain ⟨f, hf, rfl⟩ := Option.map_eq_some_iff.1 h
    exact ⟨mem_data (fun h => ne hf h.1), (fun h => by cases h)⟩
  | literal i =>
    obtain ⟨f, hf, rfl⟩ := Option.map_eq_some_iff.1 h
    exact ⟨mem_data (fun h => ne hf h.2), (fun h => by cases h)⟩
  | tls i =>
    obtain ⟨f, hf, rfl⟩ := Option.map_eq_some_iff.1 h
    exact ⟨mem_tls (ne hf), (fun h => by cases h)⟩
  | selectany i =>
    obtain ⟨f, hf, rfl⟩ := Option.map_eq_some_iff.1 h
    exact ⟨mem_selectany (List.getElem?_eq_some_iff.1 hf).1, (fun h => by cases h)⟩

theorem section_le {p : Program} (hv : Valid p) {s : Section} (h : s ∈ sectionIds p) (hb : s ≠ .bss) : (pushedBytes p s).length ≤ (file p).length := by
  have := part_le hv h hb
  omega

/-- The place of a patch has a number of 32 bits. -/
theorem patch_small {p : Program} (hv : Valid p) {q : Patch} (hq : q ∈ p.patches) : destOffset p q.dest + q.at_ + width q.kind < 2 ^ 31 := by
  obtain ⟨b, hb, _⟩ := hv.patchFits q hq
  have h1 := patch_inside hv hq
  have h2 := section_le hv (target_section hb).1 (target_section hb).2
  have := hv.small
  omega

theorem records_small {p : Program} (hv : Valid p) : (records p).length < 2 ^ 31 := by
  have h1 := records_le (records_good hv)
  have h2 := rest_le hv
  have := hv.small
  omega

theorem group_length_floats {p : Program} (hv : Valid p) : ∀ v ∈ (group p 3).1.values, (v ++ zeros (groupTerminator 3)).length = 4 := by
  intro v hm
  have := hv.floats v ((group_spec hv 3).1 v hm)
  rw [List.length_append, this]
  rfl

theorem group_length_doubles {p : Program} (hv : Valid p) : ∀ v ∈ (group p 4).1.values, (v ++ zeros (groupTerminator 4)).length = 8 := by
  intro v hm
  have := hv.doubles v ((group_spec hv 4).1 v hm)
  rw [List.length_append, this]
  rfl

theorem float_symbol {p : Program} (hv : Valid p) {i : Nat} {v : List Nat} (h : p.floats[i]? = some v) :
    (records p)[symbolOf p (.float i)]? = some (.symbol (realName v) (groupOffset p 3 (literalIn p 3 i)) (sectionNumber p .rdata) 0 3 0) := by
  have hi := (group_spec hv 3).2 i v h
  have hd := group_distance (p := p) (g := 3) (by omega) (group_length_floats hv) (literalIn p 3 i) (List.getElem?_eq_some_iff.1 hi).1
  have := float_get hi
  show (records p)[(recordsBeforeStrings p ++ stringRecords p).length + (groupOffset p 3 (literalIn p 3 i) - groupStart p 3) / 4]? = _
  rw [hd, Nat.add_sub_cancel_left, Nat.mul_div_cancel_left _ (by omega)]
  exact this

theorem double_symbol {p : Program} (hv : Valid p) {i : Nat} {v : List Nat} (h : p.doubles[i]? = some v) :
    (records p)[symbolOf p (.double i)]? = some (.symbol (realName v) (groupOffset p 4 (literalIn p 4 i)) (sectionNumber p .rdata) 0 3 0) := by
  have hi := (group_spec hv 4).2 i v h
  have hd := group_distance (p := p) (g := 4) (by omega) (group_length_doubles hv) (literalIn p 4 i) (List.getElem?_eq_some_iff.1 hi).1
  have := double_get hi
  show (records p)[(recordsBeforeStrings p ++ stringRecords p ++ realRecords p 3 4).length + (groupOffset p 4 (literalIn p 4 i) - groupStart p 4) / 8]? = _
  rw [hd, Nat.add_sub_cancel_left, Nat.mul_div_cancel_left _ (by omega)]
  exact this

theorem string_symbol {p : Program} (hv : Valid p) {element i : Nat} {v : List Nat} (hg : groupOf element < 3) (h : (groupList p (groupOf element))[i]? = some v) :
    ∃ name, (records p)[symbolOf p (.string element i)]? =
      some (.symbol name (groupOffset p (groupOf element) (literalIn p (groupOf element) i)) (sectionNumber p .rdata) 0 3 0) :=
  string_get hg ((group_spec hv _).2 i v h)

/-- A source has a symbol. -/
theorem source_record {p : Program} (hv : Valid p) {s : Source} (h : Exists p s) : ∃ name value sec type cls aux,
    (records p)[symbolOf p s]? = some (.symbol name value sec type cls aux) := by
  cases s with
  | func i => exact ⟨_, _, _, _, _, _, (func_get (List.getElem?_eq_getElem h)).1⟩
  | externFunc i => exact ⟨_, _, _, _, _, _, externFunc_get (j := 0) (List.getElem?_eq_getElem h) rfl⟩
  | externVar i => exact ⟨_, _, _, _, _, _, externVar_get (List.getElem?_eq_getElem h)⟩
  | auto i => exact ⟨_, _, _, _, _, _, auto_get (List.getElem?_eq_getElem h)⟩
  | bss i => exact ⟨_, _, _, _, _, _, bss_get (List.getElem?_eq_getElem h)⟩
  | data i => exact ⟨_, _, _, _, _, _, data_get (List.getElem?_eq_getElem h)⟩
  | literal i => obtain ⟨_, h⟩ := literal_get (List.getElem?_eq_getElem h); exact ⟨_, _, _, _, _, _, h⟩
  | tls i => exact ⟨_, _, _, _, _, _, tls_get (List.getElem?_eq_getElem h)⟩
  | selectany i => exact ⟨_, _, _, _, _, _, selectany_get (List.getElem?_eq_getElem h)⟩
  | string element i =>
    rcases h with ⟨rfl, h⟩ | ⟨rfl, h⟩ | ⟨rfl, h⟩
    · obtain ⟨_, h⟩ := string_symbol (element := 1) hv (by decide) (List.getElem?_eq_getElem (l := p.strings1) h); exact ⟨_, _, _, _, _, _, h⟩
    · obtain ⟨_, h⟩ := string_symbol (element := 2) hv (by decide) (List.getElem?_eq_getElem (l := p.strings2) h); exact ⟨_, _, _, _, _, _, h⟩
    · obtain ⟨_, h⟩ := string_symbol (element := 4) hv (by decide) (List.getElem?_eq_getElem (l := p.strings4) h); exact ⟨_, _, _, _, _, _, h⟩
  | float i => exact ⟨_, _, _, _, _, _, float_symbol hv (List.getElem?_eq_getElem h)⟩
  | double i => exact ⟨_, _, _, _, _, _, double_symbol hv (List.getElem?_eq_getElem h)⟩

theorem symbolOf_small {p : Program} (hv : Valid p) {s : Source} (h : Exists p s) : symbolOf p s < 2 ^ 31 := by
  obtain ⟨_, _, _, _, _, _, h⟩ := source_record hv h
  have := (List.getElem?_eq_some_iff.1 h).1
  have := records_small hv
  omega

theorem addressSymbol_small {p : Program} (hv : Valid p) {s : Source} (h : Exists p s) : addressSymbol p s < 2 ^ 32 := by
  have := symbolOf_small hv h
  cases s with
  | externFunc i =>
    show symbolOf p (.externFunc i) + (match p.externFunctions[i]? with | some f => if f.needsStub then 1 else 0 | none => 0) < 2 ^ 32
    cases p.externFunctions[i]? with
    | none => simp only []; omega
    | some f =>
      simp only []
      split <;> omega
  | _ => exact Nat.lt_trans this (by decide)

/-! ## Relocations -/

theorem relocOf_offset (p : Program) (q : Patch) : (relocOf p q).offset = destOffset p q.dest + q.at_ ∧ relocSize (relocOf p q).kind = width q.kind ∧
    (relocOf p q).kind < 2 ^ 16 := by
  unfold relocOf
  split
  · next h => rw [h]; exact ⟨rfl, rfl, by show (4 : Nat) < _; omega⟩
  · next h => rw [h]; exact ⟨rfl, rfl, by show (1 : Nat) < _; omega⟩
  · next h => rw [h]; exact ⟨rfl, rfl, by show (0xb : Nat) < _; omega⟩

theorem patch_relocs_small {p : Program} (hv : Valid p) (s : Section) : ∀ r ∈ (patchesOf p s).map (relocOf p),
    r.offset < 2 ^ 32 ∧ r.symbol < 2 ^ 32 ∧ r.kind < 2 ^ 16 := by
  intro r hr
  obtain ⟨q, hq, rfl⟩ := List.mem_map.1 hr
  have hm := (List.mem_filter.1 (List.mem_reverse.1 hq)).1
  have h1 := patch_small hv hm
  have h2 := symbolOf_small hv (hv.patchSources q hm)
  have h3 := addressSymbol_small hv (hv.patchSources q hm)
  obtain ⟨h4, _, h5⟩ := relocOf_offset p q
  refine ⟨by omega, ?_, h5⟩
  unfold relocOf
  split
  · exact Nat.lt_trans h2 (by decide)
  · exact h3
  · exact Nat.lt_trans h2 (by decide)

/-- The sections with patches, if those for `selectany` are not mixed with others. -/
def Own (p : Program) (s : Section) : Prop := ∀ q ∈ p.patches, patchSection q.dest = s ↔ writtenSection q.dest = s

theorem own_text (p : Program) : Own p .text := by
  intro q _
  cases q.dest <;> simp [patchSection, writtenSection]

theorem own_tls (p : Program) : Own p .tls := by
  intro q _
  cases q.dest <;> simp [patchSection, writtenSection]

theorem own_data {p : Program} (h : ∀ q ∈ p.patches, ∀ i, q.dest ≠ .selectany i) : Own p .data := by
  intro q hq
  have := h q hq
  revert this
  cases q.dest <;> simp [patchSection, writtenSection]

theorem patch_relocs_apart {p : Program} (hv : Valid p) {s : Section} (ho : Own p s) : ((patchesOf p s).map (relocOf p)).Pairwise Apart := by
  rw [List.pairwise_map]
  unfold patchesOf
  apply pairwise_reverse (fun _ _ h => Or.symm h)
  have e : p.patches.filter (fun q => patchSection q.dest = s) = p.patches.filter (fun q => writtenSection q.dest = s) := by
    apply List.filter_congr
    intro q hq
    exact decide_eq_decide.2 (ho q hq)
  rw [e]
  refine (patches_apart hv s).imp ?_
  intro q r h
  rw [(relocOf_offset p q).1, (relocOf_offset p r).1, (relocOf_offset p q).2.1, (relocOf_offset p r).2.1]
  exact h

theorem raw_of {file : List Nat} {n x : Nat} {name : List Nat} {size pointer relocations count flags : Nat}
    (h : Spec.Object.sectionAt file n = ⟨name, size, pointer, relocations, count, flags⟩) :
    raw file n x = if flags / 0x80 % 2 = 1 then 0 else if x < size then byte file (pointer + x) else 0 := by
  unfold raw
  rw [h]
  simp only [Spec.Object.Section.uninitialized, decide_eq_true_eq]

/-- The bytes of a section in the file. -/
theorem raw_eq {p : Program} (hv : Valid p) {s : Section} (h : s ∈ sectionIds p) (hb : s ≠ .bss) {x v : Nat} (hx : (sectionBytes p s)[x]? = some v) :
    raw (file p) (sectionNumber p s) x = v := by
  obtain ⟨i, e, hi, _⟩ := sectionNumber_get h
  have hlt := (List.getElem?_eq_some_iff.1 hx).1
  have hs : sectionSize p s = (sectionBytes p s).length := by
    rw [sectionBytes_length hv]
    cases s <;> first | exact absurd rfl hb | rfl
  have hf : allFlags p s / 0x80 % 2 = 0 := by
    rw [(allFlags_spec hv s).2.2.2.1]
    cases s <;> first | exact absurd rfl hb | (simp only [otherFlags]; omega) | simp only [otherFlags]
  have hat := section_at hv h hb x hlt
  rw [hx] at hat
  have hbyte : byte (file p) (position p s + x) = v := by
    unfold byte
    rw [List.getD_eq_getElem?_getD, hat]
    rfl
  rw [e, raw_of (sectionAt_eq hv (records_good hv) hi), if_neg (by rw [hf]; decide), hs, if_pos hlt, hbyte]

theorem raw_bss {p : Program} (hv : Valid p) (h : .bss ∈ sectionIds p) (x : Nat) : raw (file p) (sectionNumber p .bss) x = 0 := by
  obtain ⟨i, e, hi, _⟩ := sectionNumber_get h
  rw [e, raw_of (sectionAt_eq hv (records_good hv) hi), if_pos (by rw [(allFlags_spec hv .bss).2.2.2.1]; rfl)]

theorem linked_eq {p : Program} (hv : Valid p) (l : Link) {s : Section} (h : s ∈ sectionIds p)
    (hb : ∀ r ∈ relocsOf p s, r.offset < 2 ^ 32 ∧ r.symbol < 2 ^ 32 ∧ r.kind < 2 ^ 16) :
    linked (file p) l (sectionNumber p s) = ((relocsOf p s).map read).foldl (relocate (file p) l (sectionNumber p s)) (raw (file p) (sectionNumber p s)) := by
  obtain ⟨i, e, hi, _⟩ := sectionNumber_get h
  unfold linked
  rw [e, relocations_eq hv (records_good hv) hi hb]

end Verif.Lemmas.Object
