import Verif.Lemmas.Layout

/-!
# C12, C13: struct, union and bit-field layout
-/
namespace Verif.Props.Layout
open Verif.Layout Verif.Spec.Layout Verif.Align

/-- Member declarations without bit-fields, each declaring something. -/
def Plain (d : Decl) : Prop := DeclOk d ∧ d.bits = none ∧ (d.named = true ∨ d.compound = true)

theorem pow2_dvd_of_le {a b : Nat} (ha : IsPow2 a) (hb : IsPow2 b) (h : a ≤ b) : a ∣ b := by
  obtain ⟨i, rfl⟩ := ha
  obtain ⟨j, rfl⟩ := hb
  exact Nat.pow_dvd_pow 2 ((Nat.pow_le_pow_iff_right (by omega)).1 h)

/-- C12 (structs): the layout never fails; the members are exactly the declarations in
order, each at the least offset that is a multiple of its alignment and not below the
end of its predecessor; the struct's alignment is the largest of the requested and the
member alignments; its size is the least multiple of that not below the end of the last
member. This determines the layout completely. -/
theorem C12_struct_layout (c : Config) (ds : List Decl) (hc : ConfigOk c) (hu : c.isUnion = false)
    (hd : ∀ d ∈ ds, Plain d) :
    ∃ r e, layout c ds = .ok r ∧ Sequential c 0 ds r.members e ∧ IsNext e r.align r.size ∧
      c.declspecAlign ≤ r.align ∧ (∀ d ∈ ds, memberAlign c d ≤ r.align) ∧
      (r.align = c.declspecAlign ∨ ∃ d ∈ ds, r.align = memberAlign c d) := by
  obtain ⟨s', ms, h1, h2, h3, h4, h5, h6, h7⟩ := run_plain c hc hu ds hd { align := c.declspecAlign } hc.1
  refine ⟨_, s'.size, by simp only [layout, h1]; rfl, ?_, ?_, h5, h6, h7⟩
  · simpa [h2] using h3
  · simp only
    rw [clearLow_eq h4]
    exact isNext_alignUp h4 _

/-- C12 (structs), the consequences users rely on: members in order and without overlap,
inside the struct, at offsets that are multiples of their alignment, also when the
struct is an array element (the struct size and alignment are multiples of each member's
alignment). -/
theorem C12_struct_members (c : Config) (ds : List Decl) (hc : ConfigOk c) (hu : c.isUnion = false)
    (hd : ∀ d ∈ ds, Plain d) (r : Compound) (hr : layout c ds = .ok r) :
    r.members.map (·.size) = ds.map (·.size) ∧ InOrder r.members ∧
    (∀ m ∈ r.members, InBounds r.size m) ∧
    (∀ d ∈ ds, memberAlign c d ∣ r.align) ∧ r.align ∣ r.size ∧
    ∀ i (hi : i < ds.length), ∃ m, r.members[i]? = some m ∧ memberAlign c ds[i] ∣ m.offset := by
  obtain ⟨s', ms, h1, h2, h3, h4, h5, h6, h7⟩ := run_plain c hc hu ds hd { align := c.declspecAlign } hc.1
  have hr' : r = { size := clearLow (s'.size + (s'.align - 1)) s'.align, align := s'.align, members := ms } := by
    rw [layout, h1] at hr
    simp [h2] at hr
    exact hr.symm
  obtain ⟨f1, f2, f3, f4, f5⟩ := sequential_facts h3
  have hnext := isNext_alignUp h4 s'.size
  subst hr'
  simp only
  rw [clearLow_eq h4]
  refine ⟨f4, f3, ?_, ?_, hnext.1, ?_⟩
  · intro m hm
    obtain ⟨g1, g2, g3, g4⟩ := f2 m hm
    exact ⟨by have := hnext.2.1; omega, by simp [g3]⟩
  · intro d hd'
    exact pow2_dvd_of_le (memberAlign_pow2 hc (hd d hd').1) h4 (h6 d hd')
  · intro i hi
    have hlen : ms.length = ds.length := by simpa using congrArg List.length f4
    have hi' : i < ms.length := by omega
    refine ⟨ms[i], by simp [hi'], ?_⟩
    have h8 := (f2 ms[i] (List.getElem_mem hi')).2.2.2
    have h9 : (ms.map (·.align))[i]'(by simpa using hi') = (ds.map (memberAlign c))[i]'(by simpa using hi) := by
      simp only [f5]
    simp only [List.getElem_map] at h9
    rwa [h9] at h8

/-- C12 (unions): every member is at offset 0 and fits; the size is the least multiple of
the alignment that is not below the largest member. -/
theorem C12_union_layout (c : Config) (ds : List Decl) (hc : ConfigOk c) (hu : c.isUnion = true)
    (hd : ∀ d ∈ ds, Plain d) :
    ∃ r e, layout c ds = .ok r ∧
      r.members = ds.map (fun d => { offset := 0, size := d.size, align := memberAlign c d, bits := none }) ∧
      (∀ d ∈ ds, d.size ≤ e) ∧ (e = 0 ∨ ∃ d ∈ ds, e = d.size) ∧ IsNext e r.align r.size ∧
      (∀ d ∈ ds, memberAlign c d ∣ r.align) ∧ (∀ m ∈ r.members, InBounds r.size m) := by
  obtain ⟨s', h1, h2, h3, h4, h5, h6, h7, h8⟩ := run_union c hc hu ds hd { align := c.declspecAlign } hc.1
  refine ⟨_, s'.size, by simp only [layout, h1]; rfl, by simp [h2], h4, h8, ?_, ?_, ?_⟩
  · simp only
    rw [clearLow_eq h5]
    exact isNext_alignUp h5 _
  · intro d hd'
    exact pow2_dvd_of_le (memberAlign_pow2 hc (hd d hd').1) h5 (h7 d hd')
  · intro m hm
    simp only [h2, List.append_nil, List.reverse_reverse, List.mem_map] at hm
    obtain ⟨d, hd', rfl⟩ := hm
    refine ⟨?_, by simp⟩
    simp only
    rw [clearLow_eq h5]
    have := (isNext_alignUp h5 s'.size).2.1
    have := h4 d hd'
    omega

/-- A concrete struct `{char; int; alignas(16) char; long long; short}` that meets the
hypotheses: offsets 0, 4, 16, 24, 32 and size 48. -/
def exampleStruct : List Decl :=
  [{ size := 1, align := 1 }, { size := 4, align := 4 }, { size := 1, align := 1, specAlign := 16 },
   { size := 8, align := 8 }, { size := 2, align := 2 }]
def exampleConfig : Config := { isUnion := false, isPacked := false, declspecAlign := 1, pragmaAlign := 16 }
example : ConfigOk exampleConfig ∧ (∀ d ∈ exampleStruct, Plain d) := by
  refine ⟨⟨⟨0, rfl⟩, ⟨4, rfl⟩⟩, ?_⟩
  intro d hd
  simp only [exampleStruct, List.mem_cons, List.not_mem_nil, or_false] at hd
  rcases hd with rfl | rfl | rfl | rfl | rfl
  · exact ⟨⟨⟨0, rfl⟩, .inl rfl⟩, rfl, .inl rfl⟩
  · exact ⟨⟨⟨2, rfl⟩, .inl rfl⟩, rfl, .inl rfl⟩
  · exact ⟨⟨⟨0, rfl⟩, .inr ⟨4, rfl⟩⟩, rfl, .inl rfl⟩
  · exact ⟨⟨⟨3, rfl⟩, .inl rfl⟩, rfl, .inl rfl⟩
  · exact ⟨⟨⟨1, rfl⟩, .inl rfl⟩, rfl, .inl rfl⟩
example : (match layout exampleConfig exampleStruct with
    | .ok r => (r.size, r.align, r.members.map (·.offset)) | _ => (0, 0, [])) = (48, 16, [0, 4, 16, 24, 32]) := by
  decide

/-! ## C13 -/

theorem inOrder_disjoint {ms : List Placed} (h : InOrder ms) : Disjoint ms := by
  refine List.Pairwise.imp ?_ h
  intro a b hab bit
  omega

/-- C13 for structs. The full statement has no hypothesis on anonymous bit-fields; it is
false (see below). Proved: if every anonymous bit-field of non-zero width fits into the
storage unit of the bit-field before it (or comes before all members), then no assertion
fails, all members are in order, disjoint down to the bit, and each bit-field is inside
its storage unit, which is inside the struct. Other outcome: a reported error (width too
large, named zero-width bit-field, declaration without a declarator). -/
theorem C13_bitfields_disjoint_partial (c : Config) (ds : List Decl) (hc : ConfigOk c) (hu : c.isUnion = false)
    (hd : ∀ d ∈ ds, DeclOk d) (hanon : AnonOk none true ds) :
    layout c ds = .error ∨ ∃ r, layout c ds = .ok r ∧ InOrder r.members ∧ Disjoint r.members ∧
      ∀ m ∈ r.members, InBounds r.size m := by
  rcases run_binv c hc hu ds { align := c.declspecAlign } hd (binv_init c hc) (by simpa [unitOf] using hanon) with h | ⟨s', h1, h2⟩
  · left; simp [layout, h]
  · right
    have ho : InOrder s'.members.reverse := List.pairwise_reverse.2 h2.order
    refine ⟨_, by simp only [layout, h1]; rfl, ho, inOrder_disjoint ho, ?_⟩
    intro m hm
    simp only [List.mem_reverse] at hm
    simp only
    rw [clearLow_eq h2.pow]
    have := (isNext_alignUp h2.pow s'.size).2.1
    exact inBounds_mono (h2.bound m hm).1 this

/-- The hypotheses are met by `{ int :2; int a:3; int :4; int b:30; int :0; char c; short d:5; }`. -/
def exampleBits : List Decl :=
  [{ size := 4, align := 4, bits := some 2, named := false }, { size := 4, align := 4, bits := some 3 },
   { size := 4, align := 4, bits := some 4, named := false }, { size := 4, align := 4, bits := some 30 },
   { size := 4, align := 4, bits := some 0, named := false }, { size := 1, align := 1 },
   { size := 2, align := 2, bits := some 5 }]
example : AnonOk none true exampleBits ∧ ∃ r, layout exampleConfig exampleBits = .ok r ∧
    r.members.map (fun m => (m.offset, m.bits)) = [(0, some (2, 3)), (4, some (0, 30)), (8, none), (10, some (0, 5))] := by
  refine ⟨by simp [AnonOk, exampleBits], _, rfl, by decide⟩

/-- The struct `{ int x:30; int :4; int a:3; }`. -/
def badAnon : List Decl :=
  [{ size := 4, align := 4, bits := some 30 }, { size := 4, align := 4, bits := some 4, named := false },
   { size := 4, align := 4, bits := some 3 }]

/-- C13 is violated: in `struct { int x:30; int :4; int a:3; }` the members `x` and `a`
share bits (the anonymous bit-field starts a new unit for which no storage is
reserved). -/
theorem C13_anonymous_bitfield_overlap :
    ∃ r, layout exampleConfig badAnon = .ok r ∧ ¬ Disjoint r.members := by
  refine ⟨_, rfl, ?_⟩
  intro h
  have h2 : Disjoint [({ offset := 0, size := 4, align := 4, bits := some (0, 30) } : Placed),
      { offset := 0, size := 4, align := 4, bits := some (4, 3) }] := h
  have := (List.pairwise_cons.1 h2).1 _ (List.mem_singleton.2 rfl) 4
  exact this (by decide)

/-- C13 is violated: `struct { char c; int :4; int a:4; }` fails an assertion (without
assertions, `a` would overlap `c`). -/
theorem C13_anonymous_bitfield_assert :
    layout exampleConfig [{ size := 1, align := 1 }, { size := 4, align := 4, bits := some 4, named := false },
      { size := 4, align := 4, bits := some 4 }] = .assertFail := by decide

/-- C13 is violated for unions: in `union { int a:3; int b:4; }` the member `b` starts at
bit 3 instead of bit 0. -/
theorem C13_union_bitfield_not_at_zero :
    ∃ r, layout { exampleConfig with isUnion := true }
        [{ size := 4, align := 4, bits := some 3 }, { size := 4, align := 4, bits := some 4 }] = .ok r ∧
      r.members.map (·.bits) = [some (0, 3), some (3, 4)] :=
  ⟨_, rfl, by decide⟩

end Verif.Props.Layout
