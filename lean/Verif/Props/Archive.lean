import Verif.Lemmas.Archive

/-!
# C78: names are looked up in import libraries
-/
namespace Verif.Props.Archive

open Verif.Archive Verif.Spec.Archive Verif.Spec.ToU64

/-- Whatever a file contains, reading its index looks at no byte outside of the file. -/
theorem C78_parse_inside (f : List Nat) : parse f ≠ .oob := by
  unfold parse
  split
  · exact (fun h => by cases h)
  split
  · exact (fun h => by cases h)
  have hb := scan_bounds f 0 8 none (by intro b s h; cases h)
  cases hs : scan f 0 8 none with
  | oob => exact absurd hs hb.1
  | error => rw [Res.bind]; exact (fun h => by cases h)
  | ok le =>
    rw [Res.bind]
    cases le with
    | none => exact (fun h => by cases h)
    | some bs => exact (parseIndex_bounds f bs.1 bs.2 (hb.2 bs.1 bs.2 hs)).1

theorem parse_sane {f lib} (h : parse f = .ok (some lib)) : Sane f lib := by
  unfold parse at h
  split at h
  · cases h
  split at h
  · cases h
  have hb := scan_bounds f 0 8 none (by intro b s h; cases h)
  cases hs : scan f 0 8 none with
  | oob => rw [hs, Res.bind] at h; cases h
  | error => rw [hs, Res.bind] at h; cases h
  | ok le =>
    rw [hs, Res.bind] at h
    cases le with
    | none => cases h
    | some bs => exact (parseIndex_bounds f bs.1 bs.2 (hb.2 bs.1 bs.2 hs)).2 lib h

/-! ## The index -/

theorem flatMap_const_length {α : Type} (l : List α) (g : α → List Nat) (n : Nat) (h : ∀ a, (g a).length = n) :
    (l.flatMap g).length = n * l.length := by
  induction l with
  | nil => simp
  | cons a l ih => rw [List.flatMap_cons, List.length_append, ih, h, List.length_cons, Nat.mul_succ]; omega

theorem has_nth {α : Type} {f p} {l : List α} (g : α → List Nat) (n : Nat) (hg : ∀ a, (g a).length = n)
    (h : Has f p (l.flatMap g)) {i : Nat} {a : α} (hi : l[i]? = some a) : Has f (p + n * i) (g a) := by
  induction l generalizing p i with
  | nil => cases hi
  | cons b l ih =>
    rw [List.flatMap_cons] at h
    cases i with
    | zero =>
      have : b = a := by simpa using hi
      subst this; exact h.left
    | succ i =>
      have := ih h.right (i := i) (by simpa using hi)
      rw [hg] at this
      rw [Nat.mul_succ, show p + (n * i + n) = p + n + n * i by omega]
      exact this

theorem last_zero {ss : List (List Nat × Nat)} (hne : ss ≠ []) :
    ∃ l, ss.flatMap (fun s => s.1 ++ [0]) = l ++ [0] := by
  induction ss with
  | nil => exact absurd rfl hne
  | cons s ss ih =>
    rw [List.flatMap_cons]
    rcases ss.eq_nil_or_concat with h | h
    · subst h; exact ⟨s.1, by simp⟩
    · obtain ⟨l, hl⟩ := ih (by obtain ⟨_, _, rfl⟩ := h; simp)
      exact ⟨s.1 ++ [0] ++ l, by rw [hl, List.append_assoc (s.1 ++ [0])]⟩

/-- The library that is read. -/
def libOf (base : Nat) (offs : List Nat) (syms : List (List Nat × Nat)) : Library :=
  ⟨offs.length, base + 4, syms.length, base + 4 + 4 * offs.length + 4, syms.map (·.1)⟩

theorem parseIndex_of {f base offs syms} (h : Has f base (index offs syms)) (hne : syms ≠ []) (h0 : ∀ s ∈ syms, 0 ∉ s.1)
    (h1 : offs.length < 2^16) (h2 : syms.length < 2^32) :
    parseIndex f base (index offs syms).length = .ok (some (libOf base offs syms)) := by
  have l1 : (offs.flatMap le32).length = 4 * offs.length := flatMap_const_length _ _ 4 (fun _ => rfl)
  have l2 : (syms.flatMap (fun s => le16 s.2)).length = 2 * syms.length := flatMap_const_length _ _ 2 (fun _ => rfl)
  have hlen : (index offs syms).length = 4 + 4 * offs.length + 4 + 2 * syms.length + (syms.flatMap (fun s => s.1 ++ [0])).length := by
    unfold index; rw [List.length_append, List.length_append, List.length_append, List.length_append, l1, l2]; rfl
  obtain ⟨l, hl⟩ := last_zero hne
  have hpos : 0 < (syms.flatMap (fun s => s.1 ++ [0])).length := by rw [hl]; simp
  have hsy : 0 < syms.length := List.length_pos_iff.2 hne
  have hS : Has f (base + 4 + 4 * offs.length + 4 + 2 * syms.length) (syms.flatMap (fun s => s.1 ++ [0])) := by
    unfold index at h
    refine h.right' ?_
    rw [List.length_append, List.length_append, List.length_append, l1, l2]
    show _ = base + (4 + _ + 4 + _)
    omega
  have hI : Has f base (le32 offs.length) := by unfold index at h; exact h.left.left.left.left
  have hN : Has f (base + 4 + 4 * offs.length) (le32 syms.length) := by
    unfold index at h
    refine h.left.left.right' ?_
    rw [List.length_append, l1]; show _ = base + (4 + _); omega
  have hlast : byteAt f (base + (index offs syms).length - 1) = .ok 0 := by
    rw [hl] at hS
    have := hS.right.byte
    rw [hlen, hl, List.length_append, show base + (4 + 4 * offs.length + 4 + 2 * syms.length + (l.length + [0].length)) - 1 =
      base + 4 + 4 * offs.length + 4 + 2 * syms.length + l.length by
        rw [List.length_singleton]; omega]
    exact this
  unfold parseIndex
  rw [if_neg (by omega), hlast, Res.bind, if_neg (by simp), hI.u32 (by omega), Res.bind, if_neg (by omega), hN.u32 h2, Res.bind,
    if_neg (by omega)]
  dsimp only
  rw [if_neg (by omega), show base + (index offs syms).length = base + 4 + 4 * offs.length + 4 + 2 * syms.length +
    (syms.flatMap (fun s => s.1 ++ [0])).length by omega, hS.strings h0, Res.bind, if_neg (by simp)]
  rfl

theorem scan_two {f first second} (h1 : Member f 8 [47] first) (h2 : Member f (next 8 first.length) [47] second)
    (h3 : f.length < next (next 8 first.length) second.length + 60 ∨
      ∃ ident data, Member f (next (next 8 first.length) second.length) ident data) :
    scan f 0 8 none = .ok (some (next 8 first.length + 60, second.length)) := by
  have r1 := Member.reads h1
  have r2 := Member.reads h2
  obtain ⟨n1, i1⟩ := r1.ident
  obtain ⟨n2, i2⟩ := r2.ident
  have b1 := r1.le
  have b2 := r2.le
  unfold scan
  rw [dif_pos (by omega), i1, Res.bind, r1.size, Res.bind]
  dsimp only
  rw [if_neg (by omega), if_pos ⟨rfl, strip_slash n1⟩]
  rw [show 8 + 60 + (first.length + first.length % 2) = next 8 first.length by unfold next; omega]
  unfold scan
  rw [dif_pos (by omega), i2, Res.bind, r2.size, Res.bind]
  dsimp only
  rw [if_neg (by omega), if_neg (fun h => by cases h.1), if_pos ⟨rfl, strip_slash n2⟩]
  rw [show next 8 first.length + 60 + (second.length + second.length % 2) = next (next 8 first.length) second.length by
    show _ = next 8 first.length + 60 + second.length + second.length % 2; omega]
  unfold scan
  rcases h3 with h3 | ⟨ident, data, h3⟩
  · rw [dif_neg (by omega)]
  · have r3 := Member.reads h3
    have b3 := r3.le
    obtain ⟨n3, i3⟩ := r3.ident
    rw [dif_pos (by omega), i3, Res.bind, r3.size, Res.bind]
    dsimp only
    rw [if_neg (by omega), if_neg (fun h => by cases h.1), if_neg (fun h => by cases h.1)]

theorem parse_of {f offs syms} (h : IsLibrary f offs syms) :
    ∃ base, Has f base (index offs syms) ∧ parse f = .ok (some (libOf base offs syms)) := by
  obtain ⟨first, m1, m2, m3⟩ := h.indexes
  have r1 := Member.reads m1
  have r2 := Member.reads m2
  have b1 := r1.le
  refine ⟨_, r2.data, ?_⟩
  unfold parse
  rw [if_neg (by intro hh; rcases hh with hh | hh
                 · omega
                 · exact hh h.signature), if_neg (by omega), scan_two m1 m2 m3, Res.bind]
  exact parseIndex_of r2.data h.nonempty h.names h.small.1 h.small.2

theorem names_sorted {syms : List (List Nat × Nat)} (h : syms.Pairwise (fun s t => Before s.1 t.1)) :
    (syms.map (·.1)).Pairwise Before := List.pairwise_map.2 h

theorem lookup_to_member {f base offs syms} (hH : Has f base (index offs syms)) (h : IsLibrary f offs syms)
    {name k off} (hs : (name, k) ∈ syms) (ho : offs[k - 1]? = some off) :
    lookup f (libOf base offs syms) name = lookupMember f name off := by
  obtain ⟨i, hi⟩ := List.mem_iff_getElem?.1 hs
  have hil : i < syms.length := by
    rcases Nat.lt_or_ge i syms.length with h | h
    · exact h
    · rw [List.getElem?_eq_none h] at hi; cases hi
  have l1 : (offs.flatMap le32).length = 4 * offs.length := flatMap_const_length _ _ 4 (fun _ => rfl)
  have hk1 : 1 ≤ k := (h.numbered _ hs).1
  have hk2 : k ≤ offs.length := (h.numbered _ hs).2
  have hk3 := h.small.1
  have hb : bsearch (libOf base offs syms).names name 0 (((libOf base offs syms).names.length : Int) - 1) = some i := by
    refine bsearch_complete (libOf base offs syms).names name 0 _ i (Int.le_refl 0) (by omega) (names_sorted h.sorted) ?_ ?_ ?_
    · show (syms.map (·.1))[i]? = some name
      rw [List.getElem?_map, hi]; rfl
    · omega
    · show (i : Int) ≤ ((syms.map (·.1)).length : Int) - 1
      rw [List.length_map]; omega
  have hI : Has f (base + 4 + 4 * offs.length + 4 + 2 * i) (le16 k) := by
    refine has_nth (fun s : List Nat × Nat => le16 s.2) 2 (fun _ => rfl) (l := syms) ?_ hi
    unfold index at hH
    refine hH.left.right' ?_
    rw [List.length_append, List.length_append, l1]; show _ = base + (4 + _ + 4); omega
  have hO : Has f (base + 4 + 4 * (k - 1)) (le32 off) := by
    refine has_nth le32 4 (fun _ => rfl) (l := offs) ?_ ho
    unfold index at hH
    exact hH.left.left.left.right
  unfold lookup
  rw [hb]
  dsimp only
  rw [show (libOf base offs syms).symbolMemberIndices = base + 4 + 4 * offs.length + 4 from rfl, hI.u16 (by omega), Res.bind, if_neg (by
      show ¬ (k = 0 ∨ k > offs.length)
      omega)]
  rw [show (libOf base offs syms).memberOffsets = base + 4 from rfl, hO.u32 (h.offsets off (List.mem_of_getElem? ho)), Res.bind]

/-- A symbol that the library imports from a dll is found, with the name of its dll, its hint and
whether it is imported by number. -/
theorem C78_finds_imports {f offs syms} (h : IsLibrary f offs syms) {name k off ident version machine stamp dll hint kind nameType reserved}
    (hs : (name, k) ∈ syms) (ho : offs[k - 1]? = some off)
    (hm : Member f off ident (importMember version machine stamp name dll hint kind nameType reserved))
    (hv : version.length = 2 ∧ machine.length = 2 ∧ stamp.length = 4) (hd : 0 ∉ dll)
    (hh : hint < 2^16) (hk : kind < 4 ∧ nameType < 8 ∧ reserved < 2^11) :
    ∃ lib p n, parse f = .ok (some lib) ∧ lookup f lib name = .ok (.importHeader p n) ∧
      importOf f p name = .ok ⟨dll, name, hint, decide (nameType = 0)⟩ := by
  obtain ⟨base, hH, hp⟩ := parse_of h
  have r := Member.reads hm
  have hle := r.le
  have hsz : (importMember version machine stamp name dll hint kind nameType reserved).length = 20 + name.length + 1 + dll.length + 1 := by
    unfold importMember
    simp only [List.length_append, List.length_cons, List.length_nil, le16, le32]; omega
  have hD := r.data
  refine ⟨_, off + 60, (importMember version machine stamp name dll hint kind nameType reserved).length, hp, ?_, ?_⟩
  · rw [lookup_to_member hH h hs ho]
    unfold lookupMember
    rw [if_neg (by omega), r.size, Res.bind]
    dsimp only
    have hlast : Has f (off + 60 + ((importMember version machine stamp name dll hint kind nameType reserved).length - 1)) [0] := by
      rw [hsz]; unfold importMember at hD
      refine hD.right' ?_
      simp only [List.length_append, List.length_cons, List.length_nil, le16, le32]; omega
    have hsig : Has f (off + 60) [0, 0, 255, 255] := by
      unfold importMember at hD
      exact hD.left.left.left.left.left.left.left.left.left.left
    have s1 : u16At f (off + 60) = .ok 0 := by unfold u16At; rw [hsig.byte, Res.bind, hsig.tail.byte, Res.bind]
    have s2 : u16At f (off + 62) = .ok 65535 := by
      unfold u16At; rw [hsig.tail.tail.byte, Res.bind, hsig.tail.tail.tail.byte, Res.bind]
    rw [if_neg (by omega), if_neg (by omega), s1, Res.bind, s2, Res.bind, if_pos ⟨rfl, rfl⟩, if_neg (by omega), hlast.byte, Res.bind,
      if_neg (by simp)]
  · have hdll : Has f (off + 60 + 20 + (name.length + 1)) (dll ++ [0]) := by
      unfold importMember at hD
      rw [List.append_assoc] at hD
      refine hD.right' ?_
      simp only [List.length_append, List.length_cons, List.length_nil, le16, le32]; omega
    have hhint : Has f (off + 60 + 16) (le16 hint) := by
      unfold importMember at hD
      refine hD.left.left.left.left.left.right' ?_
      simp only [List.length_append, List.length_cons, List.length_nil, le32]; omega
    have hfl : Has f (off + 60 + 18) (le16 (kind + 4 * nameType + 32 * reserved)) := by
      unfold importMember at hD
      refine hD.left.left.left.left.right' ?_
      simp only [List.length_append, List.length_cons, List.length_nil, le16, le32]; omega
    unfold importOf
    rw [hdll.cstring hd, Res.bind, hhint.u16 hh, Res.bind, hfl.u16 (by omega), Res.bind]
    congr 2
    have : (kind + 4 * nameType + 32 * reserved) / 4 % 8 = nameType := by omega
    rw [this]

/-- A symbol that is defined by an object file in the library is found there. -/
theorem C78_finds_objects {f offs syms} (h : IsLibrary f offs syms) {name k off ident data}
    (hs : (name, k) ∈ syms) (ho : offs[k - 1]? = some off) (hm : Member f off ident data) (hd : IsObject data)
    (hb : ∀ b ∈ f, b < 256) :
    ∃ lib, parse f = .ok (some lib) ∧ lookup f lib name = .ok (.objectFile (off + 60) data.length) := by
  obtain ⟨base, hH, hp⟩ := parse_of h
  have r := Member.reads hm
  have hle := r.le
  have hD := r.data
  refine ⟨_, hp, ?_⟩
  rw [lookup_to_member hH h hs ho]
  unfold lookupMember
  have h20 := hd.1
  rw [if_neg (by omega), r.size, Res.bind]
  dsimp only
  rw [if_neg (by omega), if_neg (by omega)]
  obtain ⟨rest, hrest⟩ := hD
  match data, hd, hrest with
  | a :: b :: c :: d :: data, hd, hrest =>
    have hh : Has f (off + 60) (a :: b :: c :: d :: data) := ⟨rest, hrest⟩
    have hmem : ∀ x ∈ [a, b, c, d], x < 256 := by
      intro x hx
      apply hb
      apply List.mem_of_mem_drop (i := off + 60)
      rw [hrest]
      simp only [List.mem_cons, List.not_mem_nil, or_false] at hx
      simp only [List.cons_append, List.mem_cons]
      rcases hx with h | h | h | h <;> simp [h]
    have s1 : u16At f (off + 60) = .ok (a + 256 * b) := by unfold u16At; rw [hh.byte, Res.bind, hh.tail.byte, Res.bind]
    have s2 : u16At f (off + 62) = .ok (c + 256 * d) := by
      unfold u16At; rw [hh.tail.tail.byte, Res.bind, hh.tail.tail.tail.byte, Res.bind]
    rw [s1, Res.bind, s2, Res.bind, if_neg]
    rintro ⟨e1, e2⟩
    apply hd.2
    have := hmem a (by simp); have := hmem b (by simp); have := hmem c (by simp); have := hmem d (by simp)
    have ea : a = 0 := by omega
    have eb : b = 0 := by omega
    have ed : d = 255 := by omega
    have ec : c = 255 := by omega
    subst ea; subst eb; subst ec; subst ed; rfl
  | [], hd, _ => have := hd.1; simp at this
  | [_], hd, _ => have := hd.1; simp at this
  | [_, _], hd, _ => have := hd.1; simp at this
  | [_, _, _], hd, _ => have := hd.1; simp at this

/-- A name that the library does not list is not found. -/
theorem C78_absent {f offs syms} (h : IsLibrary f offs syms) {name} (hn : ∀ k, (name, k) ∉ syms) :
    ∃ lib, parse f = .ok (some lib) ∧ lookup f lib name = .ok .failed := by
  obtain ⟨base, hH, hp⟩ := parse_of h
  refine ⟨_, hp, ?_⟩
  unfold lookup
  cases hb : bsearch (libOf base offs syms).names name 0 (((libOf base offs syms).names.length : Int) - 1) with
  | none => rfl
  | some i =>
    exfalso
    obtain ⟨h1, h2⟩ := bsearch_sound _ _ _ _ _ (by omega) (by omega) hb
    have e : (libOf base offs syms).names = syms.map (·.1) := rfl
    rw [e] at h1 h2
    rw [List.getD_eq_getElem?_getD, List.getElem?_eq_getElem h1, Option.getD_some, List.getElem_map] at h2
    rw [List.length_map] at h1
    apply hn (syms[i]).2
    rw [← h2]
    exact List.getElem_mem h1

/-! ## Lookups in any file -/

/-- A lookup reads behind the file only if a member of the index extends behind the end of the
file. (The header of 60 bytes is forgotten in the check that a member ends before the file does,
see `C78_past_end_wrong`.) -/
theorem C78_lookup_inside_partial {f lib} (h : parse f = .ok (some lib)) {name} (ho : lookup f lib name = .oob) :
    ∃ k off n, k < lib.members ∧ u32At f (lib.memberOffsets + 4 * k) = .ok off ∧
      sizeField f off = .ok (some n) ∧ off + n ≤ f.length ∧ f.length < off + 60 + n := by
  have hs := parse_sane h
  unfold lookup at ho
  cases hb : bsearch lib.names name 0 ((lib.names.length : Int) - 1) with
  | none => rw [hb] at ho; cases ho
  | some i =>
    rw [hb] at ho
    obtain ⟨hi, -⟩ := bsearch_sound _ _ _ _ _ (by omega) (by omega) hb
    have hsi := hs.idxs
    have hso := hs.offs
    obtain ⟨k, hk⟩ := u16At_ok (f := f) (i := lib.symbolMemberIndices + 2 * i) (by omega)
    dsimp only at ho
    rw [hk, Res.bind] at ho
    split at ho
    · cases ho
    rename_i hkr
    obtain ⟨off, hoff⟩ := u32At_ok (f := f) (i := lib.memberOffsets + 4 * (k - 1)) (by omega)
    rw [hoff, Res.bind] at ho
    unfold lookupMember at ho
    split at ho
    · cases ho
    rename_i h60
    obtain ⟨sz, hsz⟩ := sizeField_ok (f := f) (p := off) (by omega)
    rw [hsz, Res.bind] at ho
    cases sz with
    | none => cases ho
    | some n =>
      dsimp only at ho
      split at ho
      · cases ho
      rename_i hn
      split at ho
      · cases ho
      rename_i hn20
      refine ⟨k - 1, off, n, by omega, hoff, hsz, by omega, ?_⟩
      rcases Nat.lt_or_ge f.length (off + 60 + n) with hlt | hge
      · exact hlt
      exfalso
      obtain ⟨a, ha⟩ := u16At_ok (f := f) (i := off + 60) (by omega)
      obtain ⟨b, hb'⟩ := u16At_ok (f := f) (i := off + 62) (by omega)
      rw [ha, Res.bind, hb', Res.bind] at ho
      split at ho
      · split at ho
        · cases ho
        rw [byteAt_ok (by omega), Res.bind] at ho
        split at ho <;> cases ho
      · cases ho

theorem lookup_import {f lib name p n} (ho : lookup f lib name = .ok (.importHeader p n)) :
    20 + name.length + 1 < n ∧ f[p + (n - 1)]? = some 0 := by
  unfold lookup at ho
  cases hb : bsearch lib.names name 0 ((lib.names.length : Int) - 1) with
  | none => rw [hb] at ho; injection ho with ho; cases ho
  | some i =>
    rw [hb] at ho
    dsimp only at ho
    cases hk : u16At f (lib.symbolMemberIndices + 2 * i) with
    | error => rw [hk, Res.bind] at ho; cases ho
    | oob => rw [hk, Res.bind] at ho; cases ho
    | ok k =>
    rw [hk, Res.bind] at ho
    split at ho
    · injection ho with ho; cases ho
    cases hoff : u32At f (lib.memberOffsets + 4 * (k - 1)) with
    | error => rw [hoff, Res.bind] at ho; cases ho
    | oob => rw [hoff, Res.bind] at ho; cases ho
    | ok off =>
    rw [hoff, Res.bind] at ho
    unfold lookupMember at ho
    split at ho
    · injection ho with ho; cases ho
    rename_i h60
    obtain ⟨sz, hsz⟩ := sizeField_ok (f := f) (p := off) (by omega)
    rw [hsz, Res.bind] at ho
    cases sz with
    | none => injection ho with ho; cases ho
    | some size =>
      dsimp only at ho
      split at ho
      · injection ho with ho; cases ho
      split at ho
      · injection ho with ho; cases ho
      cases ha : u16At f (off + 60) with
      | error => rw [ha, Res.bind] at ho; cases ho
      | oob => rw [ha, Res.bind] at ho; cases ho
      | ok a =>
      cases hb' : u16At f (off + 62) with
      | error => rw [ha, Res.bind, hb', Res.bind] at ho; cases ho
      | oob => rw [ha, Res.bind, hb', Res.bind] at ho; cases ho
      | ok b =>
      rw [ha, Res.bind, hb', Res.bind] at ho
      split at ho
      · split at ho
        · injection ho with ho; cases ho
        rename_i hlen
        cases hl : f[off + 60 + (size - 1)]? with
        | none => unfold byteAt at ho; rw [hl] at ho; cases ho
        | some last =>
          unfold byteAt at ho; rw [hl, Res.bind] at ho
          split at ho
          · injection ho with ho; cases ho
          rename_i hz
          injection ho with ho
          injection ho with e1 e2
          subst e1; subst e2
          exact ⟨by omega, by rw [hl]; congr 1; exact Classical.not_not.1 hz⟩
      · injection ho with ho; cases ho

/-- Whatever the file contains: if a lookup yields an import header, then the name of the dll and
the other fields are inside of the file. -/
theorem C78_import_inside {f lib name p n} (h : lookup f lib name = .ok (.importHeader p n)) :
    ∃ i, importOf f p name = .ok i := by
  obtain ⟨h1, h2⟩ := lookup_import h
  obtain ⟨s, hs, -⟩ := cstring_ok (f := f) (i := p + 20 + (name.length + 1)) (z := p + (n - 1)) (by omega) h2
  have hl : p + (n - 1) < f.length := by
    rcases Nat.lt_or_ge (p + (n - 1)) f.length with h | h
    · exact h
    · rw [List.getElem?_eq_none h] at h2; cases h2
  obtain ⟨a, ha⟩ := u16At_ok (f := f) (i := p + 16) (by omega)
  obtain ⟨b, hb⟩ := u16At_ok (f := f) (i := p + 18) (by omega)
  unfold importOf
  rw [hs, Res.bind, ha, Res.bind, hb, Res.bind]
  exact ⟨_, rfl⟩

/-! ## A sample -/

namespace Sample

set_option maxRecDepth 8000

/-- A header. -/
def header (ident : List Nat) (digits : List Nat) : List Nat :=
  ident ++ List.replicate (16 - ident.length) 32 ++ List.replicate 32 48 ++
    (digits ++ List.replicate (10 - digits.length) 32) ++ [96, 10]

theorem header_ok (ident digits : List Nat) (n : Nat) (h1 : ident.length ≤ 16) (h2 : digits.length ≤ 10)
    (h3 : IsDecimal digits) (h4 : value 10 (digits.map (· - 48)) = n) : Header ident n (header ident digits) :=
  ⟨List.replicate 32 48, digits, [96, 10], by simp, rfl, h1, h2, h3, h4, rfl⟩

/-- Two symbols, `puts` in member 2 and `exit` in member 1. -/
def syms : List (List Nat × Nat) := [([101, 120, 105, 116], 2), ([112, 117, 116, 115], 1)]

/-- The import of `puts` from `c.dll`. -/
def puts : List Nat := importMember [0, 0] [100, 134] [1, 2, 3, 4] [112, 117, 116, 115] [99, 46, 100, 108, 108] 7 0 1 0

/-- A library: the indexes, then the two members. -/
def file : List Nat :=
  [33, 60, 97, 114, 99, 104, 62, 10] ++ header [47] [48] ++ header [47] [51, 48] ++ index [158, 250] syms ++
    header [120] [51, 49] ++ puts ++ [10] ++ header [121] [50, 48] ++ List.replicate 20 1

theorem file_ok : IsLibrary file [158, 250] syms where
  signature := by decide
  indexes := by
    refine ⟨[], ⟨_, file.drop 68, header_ok [47] [48] 0 (by decide) (by decide) ⟨by decide, by decide⟩ (by decide), by decide⟩,
      ⟨_, file.drop 158, header_ok [47] [51, 48] _ (by decide) (by decide) ⟨by decide, by decide⟩ (by decide), by decide⟩, ?_⟩
    exact Or.inr ⟨[120], puts, _, file.drop 249, header_ok [120] [51, 49] _ (by decide) (by decide) ⟨by decide, by decide⟩ (by decide), by decide⟩
  nonempty := by decide
  offsets := by decide
  small := by decide
  numbered := by decide
  names := by decide
  sorted := by
    refine List.Pairwise.cons ?_ (List.Pairwise.cons (by simp) List.Pairwise.nil)
    intro t ht
    rw [List.mem_singleton] at ht
    subst ht
    exact Before.head (by decide)

/-- `puts` is imported from `c.dll` by name. -/
example : ∃ lib p n, parse file = .ok (some lib) ∧ lookup file lib [112, 117, 116, 115] = .ok (.importHeader p n) ∧
    importOf file p [112, 117, 116, 115] = .ok ⟨[99, 46, 100, 108, 108], [112, 117, 116, 115], 7, false⟩ :=
  C78_finds_imports file_ok (k := 1) (off := 158) (by decide) (by decide)
    (ident := [120]) (version := [0, 0]) (machine := [100, 134]) (stamp := [1, 2, 3, 4]) (kind := 0) (nameType := 1) (reserved := 0)
    ⟨_, file.drop 249, header_ok [120] [51, 49] _ (by decide) (by decide) ⟨by decide, by decide⟩ (by decide), by decide⟩
    (by decide) (by decide) (by decide) (by decide)

/-- `exit` is defined by an object file. -/
example : ∃ lib, parse file = .ok (some lib) ∧ lookup file lib [101, 120, 105, 116] = .ok (.objectFile 310 20) :=
  C78_finds_objects file_ok (k := 2) (off := 250) (ident := [121]) (data := List.replicate 20 1) (by decide) (by decide)
    ⟨_, [], header_ok [121] [50, 48] _ (by decide) (by decide) ⟨by decide, by decide⟩ (by decide), by decide⟩
    ⟨by decide, by decide⟩ (by decide)

/-- `gets` is not in the library. -/
example : ∃ lib, parse file = .ok (some lib) ∧ lookup file lib [103, 101, 116, 115] = .ok .failed :=
  C78_absent file_ok (by intro k; simp [syms])

/-- The same library, cut off after the header of the last member. -/
def cut : List Nat := file.take 310

theorem cut_ok : IsLibrary cut [158, 250] syms where
  signature := by decide
  indexes := by
    refine ⟨[], ⟨_, cut.drop 68, header_ok [47] [48] 0 (by decide) (by decide) ⟨by decide, by decide⟩ (by decide), by decide⟩,
      ⟨_, cut.drop 158, header_ok [47] [51, 48] _ (by decide) (by decide) ⟨by decide, by decide⟩ (by decide), by decide⟩, ?_⟩
    exact Or.inr ⟨[120], puts, _, cut.drop 249, header_ok [120] [51, 49] _ (by decide) (by decide) ⟨by decide, by decide⟩ (by decide), by decide⟩
  nonempty := by decide
  offsets := by decide
  small := by decide
  numbered := by decide
  names := by decide
  sorted := file_ok.sorted

end Sample

set_option maxRecDepth 8000 in
/-- That a member ends before the file does is checked without its header: in a library that was
cut off, the lookup of a symbol reads behind the end of the file. -/
theorem C78_past_end_wrong : ∃ f lib name, parse f = .ok (some lib) ∧ lookup f lib name = .oob := by
  obtain ⟨base, hH, hp⟩ := parse_of Sample.cut_ok
  refine ⟨Sample.cut, _, [101, 120, 105, 116], hp, ?_⟩
  rw [lookup_to_member hH Sample.cut_ok (k := 2) (off := 250) (by decide) (by decide)]
  decide

/-! ## Which library is used -/

theorem search_pre {dllimport : Bool} (pre post : List Kind) (seen : Bool) (h1 : ∀ k ∈ pre, ∀ i, k ≠ .imported i)
    (h2 : dllimport = true ∨ Kind.object ∉ pre) :
    search dllimport (pre ++ post) seen = search dllimport post (seen || decide (Kind.object ∈ pre)) := by
  induction pre generalizing seen with
  | nil => simp
  | cons k pre ih =>
    have h1' : ∀ k ∈ pre, ∀ i, k ≠ .imported i := fun k hk => h1 k (List.mem_cons_of_mem _ hk)
    have h2' : dllimport = true ∨ Kind.object ∉ pre := h2.imp_right (fun h hm => h (List.mem_cons_of_mem _ hm))
    cases k with
    | imported i => exact absurd rfl (h1 _ List.mem_cons_self i)
    | none =>
      rw [List.cons_append, search, ih seen h1' h2']
      simp
    | object =>
      rcases h2 with h2 | h2
      · rw [List.cons_append, search, if_pos h2, ih true h1' h2']
        simp
      · exact absurd List.mem_cons_self h2

/-- A function is imported from the first library that imports it, unless it is not declared
`dllimport` and an earlier library defines it. There is a warning if an earlier library defines
it. -/
theorem C78_first_import (kinds : List Nat → List Kind) (alts) (dllimport : Bool) (name : List Nat) (fuel : Nat)
    {pre post : List Kind} {i : Nat} (hk : kinds name = pre ++ .imported i :: post) (h1 : ∀ k ∈ pre, ∀ j, k ≠ .imported j)
    (h2 : dllimport = true ∨ Kind.object ∉ pre) :
    resolve kinds alts dllimport (fuel + 1) name = some (.imported i name (decide (Kind.object ∈ pre))) := by
  unfold resolve
  rw [hk, search_pre pre _ false h1 h2, search, Bool.false_or]

/-- A function that is not declared `dllimport` is taken from the first library that has it, if
that library defines it. -/
theorem C78_first_object (kinds : List Nat → List Kind) (alts) (name : List Nat) (fuel : Nat)
    {pre post : List Kind} (hk : kinds name = pre ++ .object :: post) (h1 : ∀ k ∈ pre, k = .none) :
    resolve kinds alts false (fuel + 1) name = some .static := by
  unfold resolve
  rw [hk, search_pre pre _ false (fun k hk i => by rw [h1 k hk]; exact (fun h => by cases h))
    (Or.inr (fun hm => by have := h1 _ hm; cases this)), search]
  rfl

/-- A function that is declared `dllimport` is not taken from a library that defines it. -/
theorem C78_dllimport_object (kinds : List Nat → List Kind) (alts) (name : List Nat) (fuel : Nat)
    (h1 : ∀ k ∈ kinds name, ∀ j, k ≠ .imported j) (h2 : Kind.object ∈ kinds name) :
    resolve kinds alts true (fuel + 1) name = some .importedButStatic := by
  unfold resolve
  have := search_pre (dllimport := true) (kinds name) [] false h1 (Or.inl rfl)
  rw [List.append_nil] at this
  rw [this, decide_eq_true h2]
  rfl

theorem search_none {dllimport : Bool} {ks : List Kind} (h : ∀ k ∈ ks, k = .none) :
    search dllimport ks false = (none, false, false) := by
  have := search_pre (dllimport := dllimport) ks [] false (fun k hk i => by rw [h k hk]; exact (fun h => by cases h))
    (Or.inr (fun hm => by have := h _ hm; cases this))
  rw [List.append_nil] at this
  rw [this, decide_eq_false (fun hm => by have := h _ hm; cases this)]
  rfl

/-- A name that no library has is undefined if it has no alternate name, and otherwise stands for
its first alternate name. -/
theorem C78_alternate (kinds : List Nat → List Kind) (alts : List (List Nat × List Nat)) (dllimport : Bool) (name : List Nat)
    (fuel : Nat) (h : ∀ k ∈ kinds name, k = .none) :
    ((∀ a ∈ alts, a.1 ≠ name) → resolve kinds alts dllimport (fuel + 1) name = some .undefined) ∧
    (∀ pre post dest, alts = pre ++ (name, dest) :: post → (∀ a ∈ pre, a.1 ≠ name) →
      resolve kinds alts dllimport (fuel + 1) name = resolve kinds alts dllimport fuel dest) := by
  refine ⟨fun ha => ?_, fun pre post dest he ha => ?_⟩
  · unfold resolve
    rw [search_none h]
    have : alts.find? (fun a => a.1 == name) = none := List.find?_eq_none.2 (fun a hm => by simpa using ha a hm)
    dsimp only
    rw [this]
  · conv => lhs; unfold resolve
    rw [search_none h]
    have : alts.find? (fun a => a.1 == name) = some (name, dest) := by
      rw [he, List.find?_append, List.find?_eq_none.2 (fun a hm => by simpa using ha a hm), Option.none_or, List.find?_cons_of_pos (by simp)]
    dsimp only
    rw [this]

/-- Alternate names that lead back to themselves: the search never ends. -/
theorem C78_alternate_cycle_wrong : ∃ kinds alts dllimport name, ∀ fuel, resolve kinds alts dllimport fuel name = none := by
  refine ⟨fun _ => [], [([97], [98]), ([98], [97])], false, [97], ?_⟩
  have h : ∀ fuel, resolve (fun _ => []) [([97], [98]), ([98], [97])] false fuel [97] = none ∧
      resolve (fun _ => []) [([97], [98]), ([98], [97])] false fuel [98] = none := by
    intro fuel
    induction fuel with
    | zero => exact ⟨rfl, rfl⟩
    | succ fuel ih =>
      exact ⟨ih.2, ih.1⟩
  exact fun fuel => (h fuel).1

/-- If no alternate name leads back to itself, the search ends. -/
theorem C78_search_ends_partial (kinds : List Nat → List Kind) (alts : List (List Nat × List Nat)) (dllimport : Bool)
    (rank : List Nat → Nat) (hr : ∀ a ∈ alts, rank a.2 < rank a.1) (name : List Nat) :
    ∃ fuel o, resolve kinds alts dllimport fuel name = some o := by
  obtain ⟨n, hn⟩ : ∃ n, n = rank name := ⟨_, rfl⟩
  induction n using Nat.strongRecOn generalizing name with
  | _ n ih =>
    cases hf : alts.find? (fun a => a.1 == name) with
    | none =>
      refine ⟨1, ?_⟩
      unfold resolve
      rw [hf]
      split
      · exact ⟨_, rfl⟩
      · exact ⟨_, rfl⟩
      · exact ⟨_, rfl⟩
      · exact ⟨_, rfl⟩
    | some a =>
      have h1 := hr a (List.mem_of_find?_eq_some hf)
      have h2 : a.1 = name := by simpa using List.find?_some hf
      obtain ⟨fuel, o, ho⟩ := ih (rank a.2) (by rw [hn, ← h2]; exact h1) a.2 rfl
      refine ⟨fuel + 1, ?_⟩
      unfold resolve
      rw [hf]
      split
      · exact ⟨_, rfl⟩
      · exact ⟨_, rfl⟩
      · exact ⟨_, rfl⟩
      · exact ⟨o, ho⟩

/-- `strdup` is an alternate name of `_strdup`, which the second library imports. -/
example : resolve (fun n => if n = [95, 115] then [.none, .imported 3] else [.none, .none]) [([115], [95, 115])] false 2 [115] =
    some (.imported 3 [95, 115] false) := by decide

end Verif.Props.Archive
