import Verif.Lemmas.DebugRead

/-!
# Lemmas: the line information in object files and PDB files
-/
namespace Verif.Lemmas.DebugSection
open Verif.Model.DebugLines Verif.Model.BaseReloc
open Verif.Spec.Image (byte number Holds)
open Verif.Spec.DebugLines (Subsection subsections untilZero Source source Record recordsOf recordFor lineIn objectLine pdbLine linesOf)
open Verif.Lemmas.Image (holds_append number_u32 number_u16)
open Verif.Lemmas.DebugRead
open Verif.Lemmas.DebugLines (lineAt lineAt_none seen entries_ok)

/-- The bytes around placed contents. -/
theorem placed_split : ∀ (subs : Subs) (pre post : List Nat), ∀ x ∈ placed pre.length subs, ∃ u v, pre ++ (flat subs ++ post) = u ++ (x.2.2 ++ v) ∧ u.length = x.1
  | [], _, _, x, h => by cases h
  | (k, c) :: rest, pre, post, x, h => by
    have e : pre ++ (flat ((k, c) :: rest) ++ post) = pre ++ (subsection k c ++ (flat rest ++ post)) := by
      show pre ++ ((subsection k c ++ flat rest) ++ post) = _
      rw [List.append_assoc]
    rcases List.mem_cons.1 h with rfl | h
    · refine ⟨pre ++ (u32 k ++ u32 c.length), List.replicate ((4 - c.length % 4) % 4) 0 ++ (flat rest ++ post), ?_, ?_⟩
      · rw [e]
        unfold subsection
        simp only [List.append_assoc]
      · rw [List.length_append]
        rfl
    · rw [e, ← List.append_assoc]
      have h' : x ∈ placed (pre ++ subsection k c).length rest := by rw [List.length_append]; exact h
      exact placed_split rest _ post x h'

theorem placed_mem : ∀ (subs : Subs) (p : Nat), ∀ x ∈ placed p subs, x.2 ∈ subs
  | [], _, x, h => by cases h
  | (k, c) :: rest, p, x, h => by
    rcases List.mem_cons.1 h with rfl | h
    · exact List.mem_cons_self ..
    · exact List.mem_cons_of_mem _ (placed_mem rest _ x h)

/-- What a reader learns about a file. -/
theorem source_ok {u c v names : List Nat} {o n : Nat} {d post path r : List Nat} (hd : d.length = 16) (hc : c.drop o = u32 n ++ u16 0x110 ++ d ++ [0, 0] ++ post)
    (ho : o ≤ c.length) (hn : n < 2 ^ 32) (hnames : names.drop n = path ++ 0 :: r) (hpath : ∀ x ∈ path, x ≠ 0) :
    source (u ++ (c ++ v)) names (u.length + o) = some ⟨path, d⟩ := by
  have e : u ++ (c ++ v) = (u ++ c.take o) ++ (u32 n ++ (u16 0x110 ++ (d ++ ([0, 0] ++ (post ++ v))))) := by
    have : c = c.take o ++ c.drop o := (List.take_append_drop o c).symm
    rw [hc] at this
    have hh : c ++ v = (c.take o ++ (u32 n ++ u16 0x110 ++ d ++ [0, 0] ++ post)) ++ v := by rw [← this]
    rw [hh]
    simp only [List.append_assoc]
  have hl : (u ++ c.take o).length = u.length + o := by rw [List.length_append, List.length_take, Nat.min_eq_left ho]
  rw [e, ← hl]
  generalize u ++ c.take o = a
  have h1 := holds_of_append a (u32 n) (u16 0x110 ++ (d ++ ([0, 0] ++ (post ++ v))))
  have h2 := holds_of_append (a ++ u32 n) (u16 0x110) (d ++ ([0, 0] ++ (post ++ v)))
  rw [List.append_assoc, List.length_append] at h2
  have b0 : byte (a ++ (u32 n ++ (u16 0x110 ++ (d ++ ([0, 0] ++ (post ++ v)))))) (a.length + 4) = 16 := h2 0 (by show 0 < 2; omega)
  have b1 : byte (a ++ (u32 n ++ (u16 0x110 ++ (d ++ ([0, 0] ++ (post ++ v)))))) (a.length + 5) = 1 := h2 1 (by show 1 < 2; omega)
  unfold source
  rw [if_pos ⟨b0, b1⟩, number_u32 h1 hn, hnames, untilZero_eq path r hpath]
  have hd' : ((a ++ (u32 n ++ (u16 0x110 ++ (d ++ ([0, 0] ++ (post ++ v)))))).drop (a.length + 6)).take 16 = d := by
    have e2 : a ++ (u32 n ++ (u16 0x110 ++ (d ++ ([0, 0] ++ (post ++ v))))) = (a ++ u32 n ++ u16 0x110) ++ (d ++ ([0, 0] ++ (post ++ v))) := by
      simp only [List.append_assoc]
    have l2 : (a ++ u32 n ++ u16 0x110).length = a.length + 6 := by
      simp only [List.length_append, u32_length, u16_length]
    rw [e2, ← l2, List.drop_left, ← hd, List.take_left]
  rw [hd']

theorem linesOf_length (file : Nat) : ∀ (ev : List Event) (line : Nat), (linesOf file line (ev.map seen)).length = ((nodes ev).map (·.2)).sum
  | [], _ => rfl
  | .mark _ _ :: rest, _ => linesOf_length file rest _
  | .node s b :: rest, line => by
    show (List.replicate b line ++ linesOf file line (rest.map seen)).length = b + _
    rw [List.length_append, List.length_replicate, linesOf_length file rest]
    rfl

/-- Names and digests of the files are found. -/
theorem files_ok {files : Files} (hp : ∀ f, some f ∈ files → f.padding.length = 128) : ∃ r, checksums files (nameOffsets files) 0 = some r ∧
    ∀ (i : Nat) (f : File), files[i]? = some (some f) → (∀ x ∈ f.path, x ≠ 0) → (names files).length < 2 ^ 32 → ∃ o, r.2.getD i 0 = o ∧ o ≤ r.1.length ∧
      ∀ u v, source (u ++ (r.1 ++ v)) (names files) (u.length + o) = some ⟨backslashes f.path, Verif.Spec.Md5.digest f.content⟩ := by
  obtain ⟨r, h1, h2, h3⟩ := checksums_ok files (nameOffsets files) [] (strings_length files 1) hp
  refine ⟨r, h1, ?_⟩
  intro i f hf hz hlen
  obtain ⟨o, n, post, g1, g2, g3, g4⟩ := h3 i f hf
  obtain ⟨n', rest, k1, k2, k3⟩ := strings_ok files [0] i f hf
  have hn : n = n' := by
    have : (nameOffsets files)[i]? = some n' := k1
    rw [this] at g2
    exact (Option.some.inj g2).symm
  subst hn
  refine ⟨o, ?_, g4, ?_⟩
  · rw [List.getD_eq_getElem?_getD, g1]; rfl
  · intro u v
    obtain ⟨_, he, hl, _⟩ := checksum_ok f n (hp f (List.mem_of_getElem? hf))
    refine source_ok (by rw [← he]; exact hl) g3 g4 (Nat.lt_of_le_of_lt k3 hlen) k2 ?_
    intro x hx
    obtain ⟨y, hy, rfl⟩ := List.mem_map.1 hx
    by_cases hs : y = 0x2f
    · rw [if_pos hs]; omega
    · rw [if_neg hs]; exact hz y hy

/-- What must hold of a function: nodes have sizes, and lines fit into 24 bits. -/
structure Fine (f : Function) : Prop where
  sizes : ∀ n ∈ nodes f.events, 0 < n.1
  line : f.line < 2 ^ 24
  lines : ∀ file line, Event.mark file line ∈ f.events → line < 2 ^ 24
  size : f.byteSize < 2 ^ 32

/-- File and line of the code, from the subsection of its function. -/
theorem lineIn_ok {b nm : List Nat} {subs : List Subsection} {f : Function} {es : List Entry} {off q s4 l4 : Nat} {w : Nat × Nat} {src : Source} (hf : Fine f)
    (he : f.entries = some es) (hfind : subs.find? (fun s => s.kind = 0xf4) = some ⟨0xf4, s4, l4⟩) (hq : Holds (byte b) q (lines f es off w))
    (hlen : (lines f es off w).length < 2 ^ 32) (hoff : off < 2 ^ 32) (hw : w.1 < 2 ^ 32 ∧ w.2 < 2 ^ 16) (hsrc : source b nm (s4 + off) = some src) :
    (∀ c, c < f.prolog → lineIn b nm subs ⟨0xf2, q, (lines f es off w).length⟩ c = some (src, f.line)) ∧
    (∀ (k l : Nat), (linesOf f.bodyFile f.line (f.events.map seen))[k]? = some l →
      lineIn b nm subs ⟨0xf2, q, (lines f es off w).length⟩ (f.prolog + k) = some (src, l)) := by
  obtain ⟨es', he', h2, h3, h4, h5⟩ := entries_ok f hf.sizes
  rw [he] at he'
  cases he'
  have hbs : f.byteSize = f.prolog + ((nodes f.events).map (·.2)).sum + f.epilog := rfl
  have hsz := hf.size
  obtain ⟨r1, r2, _, _⟩ := lines_read hq hf.line (fun e he => by
    obtain ⟨file, hm⟩ := h4 e he
    have := h2 e he
    exact ⟨hf.lines file e.line hm, by omega⟩) hoff hlen hf.size hw
  have gen : ∀ c, c < f.byteSize → lineIn b nm subs ⟨0xf2, q, (lines f es off w).length⟩ c = some (src, lineAt f.line es c) := by
    intro c hc
    obtain ⟨o, ho⟩ := recordFor_eq off c es f.line
    unfold lineIn
    simp only
    rw [r2, if_pos hc, r1, ho, Option.bind_eq_bind, Option.bind_some, hfind, Option.bind_eq_bind, Option.bind_some]
    simp only
    rw [hsrc]
    rfl
  refine ⟨?_, ?_⟩
  · intro c hc
    rw [gen c (by omega), lineAt_none es c (fun e he => by have := h2 e he; omega)]
  · intro k l hk
    have hk' : k < ((nodes f.events).map (·.2)).sum := by
      rw [← linesOf_length f.bodyFile f.events f.line]
      exact (List.getElem?_eq_some_iff.1 hk).1
    rw [gen _ (by omega)]
    have := h5 f.line k hk'
    rw [hk] at this
    rw [Option.some.inj this]

/-- The part of the section for the functions. -/
theorem functionPart_ok : ∀ (fs : List (Function × Symbols)) (offs : List Nat) (num at_ : Nat), (∀ x ∈ fs, ∀ n ∈ nodes x.1.events, 0 < n.1) →
    (∀ x ∈ fs, ∀ r ∈ x.2.relocations, r.1 < x.2.content.length) → ∃ r subs starts, functionPart fs offs num at_ = some r ∧ r.1 = flat subs ∧
      (∀ s ∈ subs, s.1 = 0xf1 ∨ s.1 = 0xf2) ∧
      (∀ q t, (q, t) ∈ r.2 → (∃ z ∈ placed at_ subs, z.2.1 = 0xf1 ∧ z.1 ≤ q ∧ q < z.1 + z.2.2.length) ∨ ∃ i : Nat, t = num + i ∧ (starts : List Nat)[i]? = some q) ∧
      (∀ (i : Nat) (f : Function) (s : Symbols), fs[i]? = some (f, s) → ∃ q es, starts[i]? = some q ∧ (q, num + i) ∈ r.2 ∧ f.entries = some es ∧
        (q, 0xf2, lines f es (offs.getD f.file 0) (0, 0)) ∈ placed at_ subs)
  | [], offs, num, at_, _, _ => ⟨([], []), [], [], rfl, rfl, (fun s h => by cases h), (fun q t h => by cases h), fun i f s h => by simp at h⟩
  | (f, s) :: rest, offs, num, at_, hs, hr => by
    obtain ⟨es, he, _⟩ := entries_ok f (hs (f, s) (List.mem_cons_self ..))
    have hsr := hr (f, s) (List.mem_cons_self ..)
    generalize ha : subsection 0xf1 s.content = a
    generalize hb : subsection 0xf2 (lines f es (offs.getD f.file 0) (0, 0)) = b
    obtain ⟨r, subs, starts, h1, h2, h3, h4, h5⟩ := functionPart_ok rest offs (num + 1) (at_ + (a ++ b).length)
      (fun x hx => hs x (List.mem_cons_of_mem _ hx)) (fun x hx => hr x (List.mem_cons_of_mem _ hx))
    refine ⟨(a ++ b ++ r.1, s.relocations.map (fun x => (at_ + 8 + x.1, x.2)) ++ (at_ + a.length + 8, num) :: r.2),
      (0xf1, s.content) :: (0xf2, lines f es (offs.getD f.file 0) (0, 0)) :: subs, (at_ + a.length + 8) :: starts, ?_, ?_, ?_, ?_, ?_⟩
    · rw [functionPart, he, Option.bind_eq_bind, Option.bind_some]
      simp only
      rw [ha, hb, h1]
      rfl
    · show a ++ b ++ r.1 = subsection 0xf1 s.content ++ (subsection 0xf2 _ ++ flat subs)
      rw [ha, hb, h2, List.append_assoc]
    · intro x hx
      rcases List.mem_cons.1 hx with rfl | hx
      · exact .inl rfl
      · rcases List.mem_cons.1 hx with rfl | hx
        · exact .inr rfl
        · exact h3 x hx
    all_goals
      have hpl : placed at_ ((0xf1, s.content) :: (0xf2, lines f es (offs.getD f.file 0) (0, 0)) :: subs) =
          (at_ + 8, 0xf1, s.content) :: (at_ + a.length + 8, 0xf2, lines f es (offs.getD f.file 0) (0, 0)) :: placed (at_ + (a ++ b).length) subs := by
        show _ :: _ :: placed (at_ + (subsection 0xf1 s.content).length + (subsection 0xf2 _).length) subs = _
        rw [hb, ha, List.length_append, ← Nat.add_assoc at_ a.length b.length]
      rw [hpl]
    · intro q t hq
      rcases List.mem_append.1 hq with hq | hq
      · obtain ⟨x, hx, hx'⟩ := List.mem_map.1 hq
        have hlt := hsr x hx
        cases hx'
        refine .inl ⟨_, List.mem_cons_self .., rfl, ?_, ?_⟩
        · simp only; omega
        · simp only at hlt ⊢; omega
      · rcases List.mem_cons.1 hq with hq | hq
        · cases hq
          exact .inr ⟨0, rfl, rfl⟩
        · rcases h4 q t hq with ⟨z, hz, h⟩ | ⟨i, hi, h⟩
          · exact .inl ⟨z, List.mem_cons_of_mem _ (List.mem_cons_of_mem _ hz), h⟩
          · exact .inr ⟨i + 1, by omega, h⟩
    · intro i g sy hg
      cases i with
      | zero =>
        rw [List.getElem?_cons_zero] at hg
        cases hg
        exact ⟨_, es, rfl, List.mem_append_right _ (List.mem_cons_self ..), he, List.mem_cons_of_mem _ (List.mem_cons_self ..)⟩
      | succ i =>
        obtain ⟨q, es', g1, g2, g3, g4⟩ := h5 i g sy hg
        refine ⟨q, es', g1, List.mem_append_right _ (List.mem_cons_of_mem _ ?_), g3, List.mem_cons_of_mem _ (List.mem_cons_of_mem _ g4)⟩
        rw [show num + (i + 1) = num + 1 + i by omega]
        exact g2

/-- The bytes of the subsections fit into the whole. -/
theorem sub_le : ∀ (subs : Subs), ∀ s ∈ subs, s.2.length ≤ (flat subs).length
  | [], s, h => by cases h
  | (k, c) :: rest, s, h => by
    have e : (flat ((k, c) :: rest)).length = (subsection k c).length + (flat rest).length := List.length_append
    have hl := subsection_length k c
    rcases List.mem_cons.1 h with rfl | h
    · simp only; omega
    · have := sub_le rest s h
      omega

theorem subs_length : ∀ (subs : Subs), subs.length ≤ (flat subs).length
  | [] => Nat.le_refl _
  | (k, c) :: rest => by
    have e : (flat ((k, c) :: rest)).length = (subsection k c).length + (flat rest).length := List.length_append
    have hl := subsection_length k c
    have := subs_length rest
    rw [List.length_cons]
    omega

end Verif.Lemmas.DebugSection
