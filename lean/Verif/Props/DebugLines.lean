import Verif.Lemmas.DebugSection

/-!
# C85: a debugger finds the source line of every byte of the code

`Verif.Spec.DebugLines` describes how a debugger reads the information. `linesOf` has the line of every byte of the body of a function: that of the
statement, in the file of the function, that started last.
-/
namespace Verif.Props.DebugLines
open Verif.Model.DebugLines Verif.Model.BaseReloc
open Verif.Spec.Image (byte number Holds)
open Verif.Spec.DebugLines (Subsection subsections Source objectLine pdbLine linesOf recordsOf)
open Verif.Lemmas.DebugRead Verif.Lemmas.DebugSection
open Verif.Lemmas.DebugLines (seen entries_ok)
open Verif.Lemmas.Image (number_u32 number_u16)

/-- What a debugger should know of a file: its path, with backslashes, and the MD5 digest of its contents. -/
noncomputable def about (f : File) : Source := ⟨f.path.map (fun c => if c = 0x2f then 0x5c else c), Verif.Spec.Md5.digest f.content⟩

/-- What is given: files have 128 bytes behind their contents, paths have no zero; relocations are inside of the contents they are for. -/
structure Input (files : Files) (functions : List (Function × Symbols)) : Prop where
  padding : ∀ f, some f ∈ files → f.padding.length = 128
  paths : ∀ f, some f ∈ files → ∀ c ∈ f.path, c ≠ 0
  fine : ∀ x ∈ functions, Fine x.1
  relocations : ∀ x ∈ functions, ∀ r ∈ x.2.relocations, r.1 < x.2.content.length

/-- C85: The section is always written: no assertion fails. -/
theorem C85_total (first last : List Nat) (lastRelocations : List (Nat × Nat)) (files : Files) (functions : List (Function × Symbols)) (h : Input files functions) :
    ∃ r, debugSection first last lastRelocations files functions = some r := by
  obtain ⟨c, hc, _⟩ := files_ok h.padding
  obtain ⟨r, subs, starts, h1, _⟩ := functionPart_ok functions c.2 0
    (u32 4 ++ subsection 0xf1 first ++ subsection 0xf3 (names files) ++ subsection 0xf4 c.1).length (fun x hx => (h.fine x hx).sizes) h.relocations
  cases hd : debugSection first last lastRelocations files functions with
  | some r => exact ⟨r, rfl⟩
  | none =>
    unfold debugSection at hd
    rw [hc, Option.bind_eq_bind, Option.bind_some] at hd
    simp only at hd
    rw [h1, Option.bind_eq_bind, Option.bind_some] at hd
    cases hd

/-- The section as a list of subsections, and where the lines of a function are. -/
theorem object_ok (first last : List Nat) (lastRelocations : List (Nat × Nat)) (files : Files) (functions : List (Function × Symbols)) (h : Input files functions)
    (hlast : ∀ r ∈ lastRelocations, r.1 < last.length) (b : List Nat) (relocations : List (Nat × Nat))
    (hb : debugSection first last lastRelocations files functions = some (b, relocations)) (hlen : b.length < 2 ^ 32)
    (i : Nat) (f : Function) (s : Symbols) (F : File) (hi : functions[i]? = some (f, s)) (hF : files[f.file]? = some (some F)) :
    ∃ q es off s4 l4, f.entries = some es ∧ off < 2 ^ 32 ∧ (lines f es off (0, 0)).length < 2 ^ 32 ∧ Holds (byte b) q (lines f es off (0, 0)) ∧
      (subsections b b.length 4).find? (fun s => s.kind = 0xf4) = some ⟨0xf4, s4, l4⟩ ∧
      ∃ s3, (subsections b b.length 4).find? (fun s => s.kind = 0xf3) = some ⟨0xf3, s3, (names files).length⟩ ∧
      (b.drop s3).take (names files).length = names files ∧ Verif.Spec.DebugLines.source b (names files) (s4 + off) = some (about F) ∧ number (byte b) 4 0 = 4 ∧
      (subsections b b.length 4).find? (fun s => s.kind = 0xf2 ∧ (s.start, i) ∈ relocations) = some ⟨0xf2, q, (lines f es off (0, 0)).length⟩ := by
  obtain ⟨c, hc, hsrc⟩ := files_ok h.padding
  obtain ⟨r, subs, starts, h1, h2, h3, h4, h5⟩ := functionPart_ok functions c.2 0
    (u32 4 ++ subsection 0xf1 first ++ subsection 0xf3 (names files) ++ subsection 0xf4 c.1).length (fun x hx => (h.fine x hx).sizes) h.relocations
  unfold debugSection at hb
  rw [hc, Option.bind_eq_bind, Option.bind_some] at hb
  simp only at hb
  rw [h1, Option.bind_eq_bind, Option.bind_some] at hb
  have hb := Option.some.inj hb
  have hb1 : u32 4 ++ subsection 0xf1 first ++ subsection 0xf3 (names files) ++ subsection 0xf4 c.1 ++ r.1 ++ subsection 0xf1 last = b := congrArg Prod.fst hb
  have hb2 := congrArg Prod.snd hb
  simp only at hb2
  have hflat : b = u32 4 ++ flat ((0xf1, first) :: (0xf3, names files) :: (0xf4, c.1) :: (subs ++ [(0xf1, last)])) := by
    rw [← hb1, h2]
    show _ = u32 4 ++ (subsection 0xf1 first ++ (subsection 0xf3 (names files) ++ (subsection 0xf4 c.1 ++ flat (subs ++ [(0xf1, last)]))))
    rw [flat_append]
    show _ = u32 4 ++ (subsection 0xf1 first ++ (subsection 0xf3 (names files) ++ (subsection 0xf4 c.1 ++ (flat subs ++ (subsection 0xf1 last ++ [])))))
    simp only [List.append_assoc, List.append_nil]
  have hpl : placed 4 ((0xf1, first) :: (0xf3, names files) :: (0xf4, c.1) :: (subs ++ [(0xf1, last)])) =
      (4 + 8, 0xf1, first) :: (4 + (subsection 0xf1 first).length + 8, 0xf3, names files) ::
        (4 + (subsection 0xf1 first).length + (subsection 0xf3 (names files)).length + 8, 0xf4, c.1) ::
        (placed (u32 4 ++ subsection 0xf1 first ++ subsection 0xf3 (names files) ++ subsection 0xf4 c.1).length subs ++
          [((u32 4 ++ subsection 0xf1 first ++ subsection 0xf3 (names files) ++ subsection 0xf4 c.1 ++ r.1).length + 8, 0xf1, last)]) := by
    have hl : (u32 4 ++ subsection 0xf1 first ++ subsection 0xf3 (names files) ++ subsection 0xf4 c.1).length =
        4 + (subsection 0xf1 first).length + (subsection 0xf3 (names files)).length + (subsection 0xf4 c.1).length := by
      simp only [List.length_append, u32_length]
    show _ :: _ :: _ :: placed (4 + (subsection 0xf1 first).length + (subsection 0xf3 (names files)).length + (subsection 0xf4 c.1).length) (subs ++ [(0xf1, last)]) = _
    rw [← hl, placed_append, h2, List.length_append (bs := flat subs)]
    rfl
  generalize hall : (0xf1, first) :: (0xf3, names files) :: (0xf4, c.1) :: (subs ++ [(0xf1, last)]) = all at hflat hpl
  have hbl : b.length = 4 + (flat all).length := by rw [hflat, List.length_append]; rfl
  have hle := sub_le all
  have hview : subsections b b.length 4 = (placed 4 all).map view := by
    have := subsections_eq all (u32 4) b.length (by have := subs_length all; omega) rfl (fun s hs => by
      refine ⟨?_, by have := hle s hs; omega⟩
      rw [← hall] at hs
      rcases List.mem_cons.1 hs with rfl | hs
      · show (0xf1 : Nat) < 2 ^ 32; omega
      rcases List.mem_cons.1 hs with rfl | hs
      · show (0xf3 : Nat) < 2 ^ 32; omega
      rcases List.mem_cons.1 hs with rfl | hs
      · show (0xf4 : Nat) < 2 ^ 32; omega
      rcases List.mem_append.1 hs with hs | hs
      · rcases h3 s hs with h | h <;> rw [h] <;> omega
      · rw [List.mem_singleton.1 hs]; show (0xf1 : Nat) < 2 ^ 32; omega)
    rw [← hflat] at this
    exact this
  have hmem : ∀ x ∈ placed 4 all, ∃ u v, b = u ++ (x.2.2 ++ v) ∧ u.length = x.1 := by
    intro x hx
    obtain ⟨u, v, huv, hu⟩ := placed_split all (u32 4) [] x hx
    rw [List.append_nil, ← hflat] at huv
    exact ⟨u, v, huv, hu⟩
  obtain ⟨q, es, g1, g2, g3, g4⟩ := h5 i f s hi
  have hx : (q, 0xf2, lines f es (c.2.getD f.file 0) (0, 0)) ∈ placed 4 all := by
    rw [hpl]
    exact List.mem_cons_of_mem _ (List.mem_cons_of_mem _ (List.mem_cons_of_mem _ (List.mem_append_left _ g4)))
  have h3m : (4 + (subsection 0xf1 first).length + 8, 0xf3, names files) ∈ placed 4 all := by
    rw [hpl]; exact List.mem_cons_of_mem _ (List.mem_cons_self ..)
  have h4m : (4 + (subsection 0xf1 first).length + (subsection 0xf3 (names files)).length + 8, 0xf4, c.1) ∈ placed 4 all := by
    rw [hpl]; exact List.mem_cons_of_mem _ (List.mem_cons_of_mem _ (List.mem_cons_self ..))
  have hnl : (names files).length < 2 ^ 32 := by have := hle _ (placed_mem all 4 _ h3m); simp only at this; omega
  have hcl : c.1.length < 2 ^ 32 := by have := hle _ (placed_mem all 4 _ h4m); simp only at this; omega
  have hll : (lines f es (c.2.getD f.file 0) (0, 0)).length < 2 ^ 32 := by have := hle _ (placed_mem all 4 _ hx); simp only at this; omega
  obtain ⟨o, ho1, ho2, ho3⟩ := hsrc f.file F hF (h.paths F (List.mem_of_getElem? hF)) hnl
  rw [ho1] at hx hll
  refine ⟨q, es, o, 4 + (subsection 0xf1 first).length + (subsection 0xf3 (names files)).length + 8, c.1.length, g3, by omega, hll, ?_, ?_,
    4 + (subsection 0xf1 first).length + 8, ?_, ?_, ?_, ?_, ?_⟩
  · obtain ⟨u, v, huv, hu⟩ := hmem _ hx
    simp only at huv hu
    rw [huv, ← hu]
    exact holds_of_append _ _ _
  · rw [hview, hpl]
    rfl
  · rw [hview, hpl]
    rfl
  · obtain ⟨u, v, huv, hu⟩ := hmem _ h3m
    simp only at huv hu
    rw [huv, ← hu, List.drop_left, List.take_left]
  · obtain ⟨u, v, huv, hu⟩ := hmem _ h4m
    simp only at huv hu
    rw [huv, ← hu]
    exact ho3 u v
  · rw [hflat]
    exact number_u32 (holds_of_append [] (u32 4) (flat all)) (by omega)
  · rw [hview]
    refine find_unique (List.mem_map.2 ⟨_, hx, rfl⟩) ?_ ?_
    · rw [← hb2]
      refine decide_eq_true ⟨rfl, List.mem_append_left _ ?_⟩
      rw [Nat.zero_add] at g2
      exact g2
    · intro y hy hpy
      obtain ⟨y, hy', rfl⟩ := List.mem_map.1 hy
      obtain ⟨hk, hm⟩ := of_decide_eq_true hpy
      have hf2 : y.2.1 = 0xf2 := hk
      have hm : (y.1, i) ∈ relocations := hm
      have inf1 : ∀ z ∈ placed 4 all, z.2.1 = 0xf1 → z.1 ≤ y.1 → y.1 < z.1 + z.2.2.length → False := by
        intro z hz hz1 hz2 hz3
        have := placed_disjoint all 4 z hz y hy' hz2 (.inl hz3)
        rw [this, hf2] at hz1
        exact absurd hz1 (by decide)
      rw [← hb2] at hm
      rcases List.mem_append.1 hm with hm | hm
      · rcases h4 y.1 i hm with ⟨z, hz, hz1, hz2, hz3⟩ | ⟨j, hj, hj'⟩
        · refine (inf1 z ?_ hz1 hz2 hz3).elim
          rw [hpl]
          exact List.mem_cons_of_mem _ (List.mem_cons_of_mem _ (List.mem_cons_of_mem _ (List.mem_append_left _ hz)))
        · have hij : j = i := by omega
          rw [hij, g1] at hj'
          have hq : q = y.1 := Option.some.inj hj'
          rw [← placed_disjoint all 4 _ hx y hy' (Nat.le_of_eq hq) (.inr hq)]
          rfl
      · obtain ⟨x, hx1, hx2⟩ := List.mem_map.1 hm
        have hlt := hlast x hx1
        have hx3 := congrArg Prod.fst hx2
        simp only at hx3
        refine (inf1 ((u32 4 ++ subsection 0xf1 first ++ subsection 0xf3 (names files) ++ subsection 0xf4 c.1 ++ r.1).length + 8, 0xf1, last) ?_ rfl
          (by simp only; omega) (by simp only; omega)).elim
        rw [hpl]
        exact List.mem_cons_of_mem _ (List.mem_cons_of_mem _ (List.mem_cons_of_mem _ (List.mem_append_right _ (List.mem_singleton.2 rfl))))

/-- C85, for object files: For every function, the bytes before its body are for the line on which its body opens, and every byte of the body is for the line of the
statement that started last; the debugger also gets the path and the digest of the file. What is missing: bodies whose first token is in another file than
the brace before it (`C85_wrong`). -/
theorem C85_object_partial (first last : List Nat) (lastRelocations : List (Nat × Nat)) (files : Files) (functions : List (Function × Symbols))
    (h : Input files functions) (hlast : ∀ r ∈ lastRelocations, r.1 < last.length) (b : List Nat) (relocations : List (Nat × Nat))
    (hb : debugSection first last lastRelocations files functions = some (b, relocations)) (hlen : b.length < 2 ^ 32)
    (i : Nat) (f : Function) (s : Symbols) (F : File) (hi : functions[i]? = some (f, s)) (hF : files[f.file]? = some (some F)) (hsame : f.bodyFile = f.file) :
    (∀ c, c < f.prolog → objectLine b relocations i c = some (about F, f.line)) ∧
    (∀ (k l : Nat), (linesOf f.file f.line (f.events.map seen))[k]? = some l → objectLine b relocations i (f.prolog + k) = some (about F, l)) := by
  obtain ⟨q, es, off, s4, l4, he, hoff, hll, hq, hf4, s3, hf3, hnames, hsrc, h4, hf2⟩ :=
    object_ok first last lastRelocations files functions h hlast b relocations hb hlen i f s F hi hF
  have hfine := h.fine (f, s) (List.mem_of_getElem? hi)
  obtain ⟨r1, r2⟩ := lineIn_ok (nm := names files) hfine he hf4 hq hll hoff ⟨by decide, by decide⟩ hsrc
  have red : ∀ c, objectLine b relocations i c = Verif.Spec.DebugLines.lineIn b (names files) (subsections b b.length 4) ⟨0xf2, q, (lines f es off (0, 0)).length⟩ c := by
    intro c
    unfold objectLine
    rw [if_pos h4]
    simp only
    rw [hf2, Option.bind_eq_bind, Option.bind_some, hf3, Option.bind_some]
    simp only
    rw [hnames]
  refine ⟨fun c hc => by rw [red]; exact r1 c hc, fun k l hk => ?_⟩
  rw [red]
  rw [← hsame] at hk
  exact r2 k l hk

/-- C85: The records of a function are in the order of the code, the first one is for its first byte, and none is behind the end of the function. -/
theorem C85_sorted (first last : List Nat) (lastRelocations : List (Nat × Nat)) (files : Files) (functions : List (Function × Symbols))
    (h : Input files functions) (hlast : ∀ r ∈ lastRelocations, r.1 < last.length) (b : List Nat) (relocations : List (Nat × Nat))
    (hb : debugSection first last lastRelocations files functions = some (b, relocations)) (hlen : b.length < 2 ^ 32)
    (i : Nat) (f : Function) (s : Symbols) (F : File) (hi : functions[i]? = some (f, s)) (hF : files[f.file]? = some (some F)) :
    ∃ sub, (subsections b b.length 4).find? (fun s => s.kind = 0xf2 ∧ (s.start, i) ∈ relocations) = some sub ∧
      (recordsOf b sub).Pairwise (fun r r' => r.offset ≤ r'.offset) ∧ (recordsOf b sub).head?.map (fun r => (r.offset, r.line)) = some (0, f.line) ∧
      ∀ r ∈ recordsOf b sub, r.offset ≤ f.byteSize := by
  obtain ⟨q, es, off, s4, l4, he, hoff, hll, hq, hf4, s3, hf3, hnames, hsrc, h4, hf2⟩ :=
    object_ok first last lastRelocations files functions h hlast b relocations hb hlen i f s F hi hF
  have hfine := h.fine (f, s) (List.mem_of_getElem? hi)
  obtain ⟨es', he', e2, e3, e4, _⟩ := entries_ok f hfine.sizes
  rw [he] at he'
  cases he'
  have hbs : f.byteSize = f.prolog + ((nodes f.events).map (·.2)).sum + f.epilog := rfl
  have hsz := hfine.size
  obtain ⟨r1, _⟩ := lines_read hq hfine.line (fun e he => by
    obtain ⟨file, hm⟩ := e4 e he
    have := e2 e he
    exact ⟨hfine.lines _ _ hm, by simp only at hsz; omega⟩) hoff hll hfine.size ⟨by decide, by decide⟩
  refine ⟨_, hf2, ?_, ?_, ?_⟩
  · rw [r1, List.pairwise_map]
    refine List.pairwise_cons.2 ⟨fun e _ => Nat.zero_le _, e3⟩
  · rw [r1]
    rfl
  · intro r hr
    rw [r1] at hr
    obtain ⟨e, he1, rfl⟩ := List.mem_map.1 hr
    show e.offset ≤ _
    rcases List.mem_cons.1 he1 with rfl | he1
    · exact Nat.zero_le _
    · have := e2 e he1
      omega

/-- The subsections of the functions in a PDB file, and which one is found for an address. -/
theorem pdbPart_ok (section_ : Nat) (hsec : section_ < 2 ^ 16) (offs : List Nat) : ∀ (fs : List Function), (∀ f ∈ fs, Fine f ∧ f.textOffset < 2 ^ 32) →
    (fs.Pairwise fun f g => f.textOffset + f.byteSize ≤ g.textOffset ∨ g.textOffset + g.byteSize ≤ f.textOffset) →
    ∃ subs, pdbPart section_ fs offs = some (flat subs) ∧ (∀ s ∈ subs, s.1 = 0xf2) ∧
      ∀ (b : List Nat) (at_ : Nat), (∀ f ∈ fs, offs.getD f.file 0 < 2 ^ 32) → (∀ x ∈ placed at_ subs, Holds (byte b) x.1 x.2.2 ∧ x.2.2.length < 2 ^ 32) →
        ∀ f ∈ fs, ∀ c, c < f.byteSize → ∃ q es, f.entries = some es ∧
          (q, 0xf2, lines f es (offs.getD f.file 0) (f.textOffset, section_)) ∈ placed at_ subs ∧ number (byte b) 4 q = f.textOffset ∧
          ((placed at_ subs).map view).find? (fun s => s.kind = 0xf2 ∧ number (byte b) 2 (s.start + 4) = section_ ∧ number (byte b) 4 s.start ≤ f.textOffset + c ∧
            f.textOffset + c < number (byte b) 4 s.start + number (byte b) 4 (s.start + 8)) =
            some ⟨0xf2, q, (lines f es (offs.getD f.file 0) (f.textOffset, section_)).length⟩
  | [], _, _ => ⟨[], rfl, (fun s h => by cases h), fun b at_ _ _ f hf => by cases hf⟩
  | g :: rest, hfine, hpw => by
    obtain ⟨hpw1, hpw2⟩ := List.pairwise_cons.1 hpw
    obtain ⟨hg, hgt⟩ := hfine g (List.mem_cons_self ..)
    obtain ⟨es, he, e2, e3, e4, _⟩ := entries_ok g hg.sizes
    obtain ⟨subs, h1, h2, h3⟩ := pdbPart_ok section_ hsec offs rest (fun f hf => hfine f (List.mem_cons_of_mem _ hf)) hpw2
    refine ⟨(0xf2, lines g es (offs.getD g.file 0) (g.textOffset, section_)) :: subs, ?_, ?_, ?_⟩
    · unfold pdbPart
      rw [he, Option.bind_eq_bind, Option.bind_some, h1, Option.bind_eq_bind, Option.bind_some]
      rfl
    · intro s hs
      rcases List.mem_cons.1 hs with rfl | hs
      · rfl
      · exact h2 s hs
    · intro b at_ hoffs hh f hf c hc
      have hpl : placed at_ ((0xf2, lines g es (offs.getD g.file 0) (g.textOffset, section_)) :: subs) =
        (at_ + 8, 0xf2, lines g es (offs.getD g.file 0) (g.textOffset, section_)) ::
          placed (at_ + (subsection 0xf2 (lines g es (offs.getD g.file 0) (g.textOffset, section_))).length) subs := rfl
      rw [hpl] at hh ⊢
      obtain ⟨hq, hlen⟩ := hh _ (List.mem_cons_self ..)
      have hbs : g.byteSize = g.prolog + ((nodes g.events).map (·.2)).sum + g.epilog := rfl
      have hsz := hg.size
      obtain ⟨_, r2, r3, r4⟩ := lines_read hq hg.line (fun e he => by
        obtain ⟨file, hm⟩ := e4 e he
        have := e2 e he
        exact ⟨hg.lines _ _ hm, by omega⟩) (hoffs g (List.mem_cons_self ..)) hlen hg.size ⟨hgt, hsec⟩
      simp only at r2 r3 r4
      rw [List.map_cons, List.find?_cons]
      rcases List.mem_cons.1 hf with rfl | hf
      · refine ⟨at_ + 8, es, he, List.mem_cons_self .., r3, ?_⟩
        have hp : decide ((view (at_ + 8, 0xf2, lines f es (offs.getD f.file 0) (f.textOffset, section_))).kind = 0xf2 ∧
            number (byte b) 2 ((view (at_ + 8, 0xf2, lines f es (offs.getD f.file 0) (f.textOffset, section_))).start + 4) = section_ ∧
            number (byte b) 4 (view (at_ + 8, 0xf2, lines f es (offs.getD f.file 0) (f.textOffset, section_))).start ≤ f.textOffset + c ∧
            f.textOffset + c < number (byte b) 4 (view (at_ + 8, 0xf2, lines f es (offs.getD f.file 0) (f.textOffset, section_))).start +
              number (byte b) 4 ((view (at_ + 8, 0xf2, lines f es (offs.getD f.file 0) (f.textOffset, section_))).start + 8)) = true := by
          refine decide_eq_true ⟨rfl, r4, ?_, ?_⟩
          · show number (byte b) 4 (at_ + 8) ≤ _
            omega
          · show _ < number (byte b) 4 (at_ + 8) + number (byte b) 4 (at_ + 8 + 8)
            omega
        rw [hp]
        rfl
      · obtain ⟨q, es', k1, k2, k3, k4⟩ := h3 b _ (fun f hf => hoffs f (List.mem_cons_of_mem _ hf)) (fun x hx => hh x (List.mem_cons_of_mem _ hx)) f hf c hc
        refine ⟨q, es', k1, List.mem_cons_of_mem _ k2, k3, ?_⟩
        have hd := hpw1 f hf
        have hp : decide ((view (at_ + 8, 0xf2, lines g es (offs.getD g.file 0) (g.textOffset, section_))).kind = 0xf2 ∧
            number (byte b) 2 ((view (at_ + 8, 0xf2, lines g es (offs.getD g.file 0) (g.textOffset, section_))).start + 4) = section_ ∧
            number (byte b) 4 (view (at_ + 8, 0xf2, lines g es (offs.getD g.file 0) (g.textOffset, section_))).start ≤ f.textOffset + c ∧
            f.textOffset + c < number (byte b) 4 (view (at_ + 8, 0xf2, lines g es (offs.getD g.file 0) (g.textOffset, section_))).start +
              number (byte b) 4 ((view (at_ + 8, 0xf2, lines g es (offs.getD g.file 0) (g.textOffset, section_))).start + 8)) = false := by
          refine decide_eq_false ?_
          rintro ⟨_, _, m1, m2⟩
          have m1 : number (byte b) 4 (at_ + 8) ≤ f.textOffset + c := m1
          have m2 : f.textOffset + c < number (byte b) 4 (at_ + 8) + number (byte b) 4 (at_ + 8 + 8) := m2
          omega
        rw [hp]
        exact k4

/-- C85, for PDB files: For every function, the bytes before its body are for the line on which its body opens, and every byte of the body is for the line of the
statement that started last. What is missing: bodies whose first token is in another file than the brace before it (`C85_wrong`). -/
theorem C85_pdb_partial (section_ : Nat) (hsec : section_ < 2 ^ 16) (files : Files) (functions : List Function)
    (hpad : ∀ f, some f ∈ files → f.padding.length = 128) (hpath : ∀ f, some f ∈ files → ∀ c ∈ f.path, c ≠ 0)
    (hfine : ∀ f ∈ functions, Fine f ∧ f.textOffset < 2 ^ 32 ∧ ∃ F, files[f.file]? = some (some F))
    (hpw : functions.Pairwise fun f g => f.textOffset + f.byteSize ≤ g.textOffset ∨ g.textOffset + g.byteSize ≤ f.textOffset) :
    ∃ b, pdbLines section_ files functions = some b ∧ (b.length < 2 ^ 32 → (names files).length < 2 ^ 32 → ∀ f ∈ functions, f.bodyFile = f.file →
      ∀ F, files[f.file]? = some (some F) →
        (∀ c, c < f.prolog → pdbLine b (names files) section_ (f.textOffset + c) = some (about F, f.line)) ∧
        (∀ (k l : Nat), (linesOf f.file f.line (f.events.map seen))[k]? = some l →
          pdbLine b (names files) section_ (f.textOffset + (f.prolog + k)) = some (about F, l))) := by
  obtain ⟨c, hc, hsrc⟩ := files_ok hpad
  obtain ⟨subs, h1, h2, h3⟩ := pdbPart_ok section_ hsec c.2 functions (fun f hf => ⟨(hfine f hf).1, (hfine f hf).2.1⟩) hpw
  refine ⟨flat ((0xf4, c.1) :: subs), ?_, ?_⟩
  · unfold pdbLines
    rw [hc, Option.bind_eq_bind, Option.bind_some, h1, Option.bind_eq_bind, Option.bind_some]
    rfl
  intro hlen hnl f hf hsame F hF
  generalize hb : flat ((0xf4, c.1) :: subs) = b at hlen ⊢
  have hle := sub_le ((0xf4, c.1) :: subs)
  rw [hb] at hle
  have hview : subsections b b.length 0 = (placed 0 ((0xf4, c.1) :: subs)).map view := by
    have := subsections_eq ((0xf4, c.1) :: subs) [] b.length (by have := subs_length ((0xf4, c.1) :: subs); rw [hb] at this; exact this) rfl (fun s hs => by
      refine ⟨?_, by have := hle s hs; omega⟩
      rcases List.mem_cons.1 hs with rfl | hs
      · show (0xf4 : Nat) < 2 ^ 32; omega
      · rw [h2 s hs]; omega)
    rw [List.nil_append, hb] at this
    exact this
  have hmem : ∀ x ∈ placed 0 ((0xf4, c.1) :: subs), ∃ u v, b = u ++ (x.2.2 ++ v) ∧ u.length = x.1 := by
    intro x hx
    obtain ⟨u, v, huv, hu⟩ := placed_split ((0xf4, c.1) :: subs) [] [] x hx
    rw [List.append_nil, hb] at huv
    exact ⟨u, v, huv, hu⟩
  have hpl : placed 0 ((0xf4, c.1) :: subs) = (8, 0xf4, c.1) :: placed (0 + (subsection 0xf4 c.1).length) subs := rfl
  have hcl : c.1.length < 2 ^ 32 := by have := hle _ (List.mem_cons_self ..); simp only at this; omega
  have hoffs : ∀ g ∈ functions, c.2.getD g.file 0 ≤ c.1.length := by
    intro g hg
    obtain ⟨_, _, G, hG⟩ := hfine g hg
    obtain ⟨o, ho1, ho2, _⟩ := hsrc g.file G hG (hpath G (List.mem_of_getElem? hG)) hnl
    omega
  obtain ⟨o, ho1, ho2, ho3⟩ := hsrc f.file F hF (hpath F (List.mem_of_getElem? hF)) hnl
  have hf4 : (subsections b b.length 0).find? (fun s => s.kind = 0xf4) = some ⟨0xf4, 8, c.1.length⟩ := by
    rw [hview, hpl]
    rfl
  have hs : Verif.Spec.DebugLines.source b (names files) (8 + o) = some (about F) := by
    obtain ⟨u, v, huv, hu⟩ := hmem (8, 0xf4, c.1) (by rw [hpl]; exact List.mem_cons_self ..)
    simp only at huv hu
    rw [huv, ← hu]
    exact ho3 u v
  have hline : ∀ a, a < f.byteSize → ∃ q es, f.entries = some es ∧ Holds (byte b) q (lines f es o (f.textOffset, section_)) ∧
      (lines f es o (f.textOffset, section_)).length < 2 ^ 32 ∧
      pdbLine b (names files) section_ (f.textOffset + a) =
        Verif.Spec.DebugLines.lineIn b (names files) (subsections b b.length 0) ⟨0xf2, q, (lines f es o (f.textOffset, section_)).length⟩ a := by
    intro a ha
    obtain ⟨q, es, k1, k2, k3, k4⟩ := h3 b (0 + (subsection 0xf4 c.1).length) (fun g hg => by have := hoffs g hg; omega) (fun x hx => by
      have hx' : x ∈ placed 0 ((0xf4, c.1) :: subs) := by rw [hpl]; exact List.mem_cons_of_mem _ hx
      obtain ⟨u, v, huv, hu⟩ := hmem x hx'
      refine ⟨?_, ?_⟩
      · rw [huv, ← hu]
        exact holds_of_append _ _ _
      · have := hle _ (placed_mem _ _ x hx')
        omega) f hf a ha
    rw [ho1] at k2 k4
    have hx' : (q, 0xf2, lines f es o (f.textOffset, section_)) ∈ placed 0 ((0xf4, c.1) :: subs) := by rw [hpl]; exact List.mem_cons_of_mem _ k2
    refine ⟨q, es, k1, ?_, ?_, ?_⟩
    · obtain ⟨u, v, huv, hu⟩ := hmem _ hx'
      simp only at huv hu
      rw [huv, ← hu]
      exact holds_of_append _ _ _
    · have := hle _ (placed_mem _ _ _ hx')
      simp only at this
      omega
    · unfold pdbLine
      simp only
      have hfd : (subsections b b.length 0).find? (fun s => s.kind = 0xf2 ∧ number (byte b) 2 (s.start + 4) = section_ ∧ number (byte b) 4 s.start ≤ f.textOffset + a ∧
          f.textOffset + a < number (byte b) 4 s.start + number (byte b) 4 (s.start + 8)) = some ⟨0xf2, q, (lines f es o (f.textOffset, section_)).length⟩ := by
        rw [hview, hpl, List.map_cons, List.find?_cons]
        have hk : decide ((view (8, 0xf4, c.1)).kind = 0xf2 ∧ number (byte b) 2 ((view (8, 0xf4, c.1)).start + 4) = section_ ∧
            number (byte b) 4 (view (8, 0xf4, c.1)).start ≤ f.textOffset + a ∧
            f.textOffset + a < number (byte b) 4 (view (8, 0xf4, c.1)).start + number (byte b) 4 ((view (8, 0xf4, c.1)).start + 8)) = false := by
          refine decide_eq_false ?_
          rintro ⟨m, _⟩
          have m : (0xf4 : Nat) = 0xf2 := m
          omega
        rw [hk]
        exact k4
      rw [hfd, Option.bind_eq_bind, Option.bind_some]
      simp only
      rw [k3, show f.textOffset + a - f.textOffset = a by omega]
  have hff := (hfine f hf).1
  have hw : (f.textOffset, section_).1 < 2 ^ 32 ∧ (f.textOffset, section_).2 < 2 ^ 16 := ⟨(hfine f hf).2.1, hsec⟩
  have hbs : f.byteSize = f.prolog + ((nodes f.events).map (·.2)).sum + f.epilog := rfl
  refine ⟨fun a ha => ?_, fun k l hk => ?_⟩
  · obtain ⟨q, es, k1, k2, k3, k4⟩ := hline a (by omega)
    rw [k4]
    exact (lineIn_ok hff k1 hf4 k2 k3 (by omega) hw hs).1 a ha
  · have hkl : k < (linesOf f.file f.line (f.events.map seen)).length := by
      rcases Nat.lt_or_ge k (linesOf f.file f.line (f.events.map seen)).length with h | h
      · exact h
      · rw [List.getElem?_eq_none h] at hk
        cases hk
    rw [linesOf_length] at hkl
    obtain ⟨q, es, k1, k2, k3, k4⟩ := hline (f.prolog + k) (by omega)
    rw [k4]
    rw [← hsame] at hk
    exact (lineIn_ok hff k1 hf4 k2 k3 (by omega) hw hs).2 k l hk

/-- Two files, `/a` (empty) and `b` with the letters "abc". -/
def sampleFiles : Files := [some ⟨[0x2f, 0x61], [], List.replicate 128 0⟩, none, some ⟨[0x62], [0x61, 0x62, 0x63], List.replicate 128 0⟩]

/-- A function with two statements; for the second one the line is taken twice. -/
def sampleFunction : Function :=
  { file := 2, line := 3, bodyFile := 2, events := [.mark 2 4, .node 8 5, .mark 0 70, .mark 2 6, .node 16 2, .node 8 0, .node 8 3], prolog := 4, epilog := 2, textOffset := 0x20 }

/-- The sample is within the hypotheses, and its information is read. -/
theorem C85_sample : Input sampleFiles [(sampleFunction, ⟨[1, 2, 3, 4, 5], [(1, 0)]⟩)] ∧ sampleFunction.bodyFile = sampleFunction.file ∧
    linesOf 2 3 (sampleFunction.events.map seen) = [4, 4, 4, 4, 4, 6, 6, 6, 6, 6] ∧
    (do let r ← debugSection [9] [7, 7] [(0, 0)] sampleFiles [(sampleFunction, ⟨[1, 2, 3, 4, 5], [(1, 0)]⟩)]
        return ((objectLine r.1 r.2 0 0).map (fun x => (x.1.name, x.2)), (objectLine r.1 r.2 0 4).map (·.2), (objectLine r.1 r.2 0 9).map (·.2),
          (objectLine r.1 r.2 0 16).map (·.2))) = some (some ([0x62], 3), some 4, some 6, none) := by
  refine ⟨⟨?_, ?_, ?_, ?_⟩, rfl, rfl, by decide +kernel⟩
  · intro f hf
    rcases List.mem_cons.1 hf with h | hf
    · cases h; exact List.length_replicate
    rcases List.mem_cons.1 hf with h | hf
    · cases h
    · cases List.mem_singleton.1 hf; exact List.length_replicate
  · intro f hf
    rcases List.mem_cons.1 hf with h | hf
    · cases h; decide
    rcases List.mem_cons.1 hf with h | hf
    · cases h
    · cases List.mem_singleton.1 hf; decide
  · intro x hx
    rw [List.mem_singleton.1 hx]
    refine ⟨by decide, by decide, ?_, by decide⟩
    intro file line hm
    simp only [sampleFunction, List.mem_cons, Event.mark.injEq, List.not_mem_nil, or_false, reduceCtorEq, false_or] at hm
    omega
  · intro x hx
    rw [List.mem_singleton.1 hx]
    decide

/-- C85 does not hold for all programs: `void f() {`, then (line 2) an include directive, for a file whose fifth line has the first statement, then (line 3) another
statement. The code for the first statement is said to be for line 5 of the outer file, and so is the code for the second one, which is on line 3 of that file. -/
theorem C85_wrong : ∃ (files : Files) (f : Function) (s : Symbols) (b : List Nat) (relocations : List (Nat × Nat)),
    debugSection [] [] [] files [(f, s)] = some (b, relocations) ∧ f.file = 0 ∧ f.events = [.mark 2 5, .node 8 2, .mark 0 3, .node 8 2] ∧
    linesOf f.file f.line (f.events.map seen) = [1, 1, 3, 3] ∧
    (objectLine b relocations 0 (f.prolog + 0)).map (fun x => (x.1.name, x.2)) = some ([0x5c, 0x61], 5) ∧
    (objectLine b relocations 0 (f.prolog + 2)).map (fun x => (x.1.name, x.2)) = some ([0x5c, 0x61], 5) := by
  have h : (do let r ← debugSection [] [] [] sampleFiles [({ sampleFunction with file := 0, line := 1, events := [.mark 2 5, .node 8 2, .mark 0 3, .node 8 2] }, ⟨[], []⟩)]
               return ((objectLine r.1 r.2 0 (4 + 0)).map (fun x => (x.1.name, x.2)), (objectLine r.1 r.2 0 (4 + 2)).map (fun x => (x.1.name, x.2)))) =
      some (some ([0x5c, 0x61], 5), some ([0x5c, 0x61], 5)) := by decide +kernel
  cases hd : debugSection [] [] [] sampleFiles [({ sampleFunction with file := 0, line := 1, events := [.mark 2 5, .node 8 2, .mark 0 3, .node 8 2] }, ⟨[], []⟩)] with
  | none => rw [hd] at h; cases h
  | some r =>
    rw [hd] at h
    have h := Option.some.inj h
    exact ⟨sampleFiles, _, _, r.1, r.2, hd, rfl, rfl, rfl, congrArg Prod.fst h, congrArg Prod.snd h⟩

end Verif.Props.DebugLines
