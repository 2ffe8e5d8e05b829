import Verif.Lemmas.Align
import Verif.Model.Frame
import Verif.Spec.Frame

/-!
# C38: stack slots
-/
namespace Verif.Props.Frame
open Verif.Frame Verif.Spec.Frame Verif.Align

/-- All requested alignments are powers of two, which the compiler checks (`src/parse.c:7700,7745`). -/
def Powers (ss : List (Nat × Nat)) : Prop := ∀ s ∈ ss, ∃ k, s.2 = 2 ^ k

/-- The slots of a list of offsets below the frame pointer. -/
def regions (fp : Int) (ss : List (Nat × Nat)) (os : List Nat) : List Region :=
  List.zipWith (fun (s : Nat × Nat) (o : Nat) => ⟨fp - o, s.1⟩) ss os

/-- The memory of the local variables. -/
def locals (f : Function) (entry : Int) (os : List Nat) : List Region := regions (framePointer f entry) f.decls os
/-- The memory of the temporaries and spilled registers. -/
def temporaries (f : Function) (entry : Int) : List Region := regions (framePointer f entry) f.temps (tempOffsets f)
/-- The saved registers and the return address. -/
def record (f : Function) (entry : Int) : Region := ⟨framePointer f entry, 8 * saved f + 16⟩
/-- The blocks of `_alloca` and the outgoing arguments after these calls. -/
def blocks (f : Function) (entry : Int) (ns : List Nat) : List Region :=
  List.zipWith (fun n a => ⟨a, n⟩) ns (allocas f (stackPointer f entry) ns).1
def outgoing (f : Function) (entry : Int) (ns : List Nat) : Region :=
  ⟨(allocas f (stackPointer f entry) ns).2, 8 * max 4 f.maxArguments⟩
/-- Argument `i` as passed by the caller. -/
def argument (f : Function) (entry : Int) (i : Nat) : Region := ⟨framePointer f entry - argumentOffset f i, 8⟩

theorem regions_nil (fp os) : regions fp [] os = [] := by simp [regions]

theorem place_regions (fp : Int) (ss : List (Nat × Nat)) (h : Powers ss) (off : Nat) :
    off ≤ (place off ss).2 ∧
    (regions fp ss (place off ss).1).Pairwise Apart ∧
    (∀ r ∈ regions fp ss (place off ss).1, Within (fp - (place off ss).2) (fp - off) r) := by
  induction ss generalizing off with
  | nil => simp [place, regions]
  | cons s ss ih =>
    obtain ⟨k, hk⟩ := h s (by simp)
    obtain ⟨i1, i2, i3⟩ := ih (fun x hx => h x (by simp [hx])) (bump off s)
    have hb : off + s.1 ≤ bump off s := by
      simp only [bump, hk]
      have := le_alignUp off k
      omega
    have e : regions fp (s :: ss) (place off (s :: ss)).1
        = ⟨fp - (bump off s), s.1⟩ :: regions fp ss (place (bump off s) ss).1 := by
      simp [regions, place]
    rw [e]
    have e2 : (place off (s :: ss)).2 = (place (bump off s) ss).2 := rfl
    rw [e2]
    refine ⟨by omega, List.pairwise_cons.2 ⟨fun r hr a => ?_, i2⟩, ?_⟩
    · have w := i3 r hr
      simp only [Region.Has, Within] at *
      omega
    · intro r hr
      rcases List.mem_cons.1 hr with rfl | hr
      · simp only [Within]; omega
      · have := i3 r hr
        simp only [Within] at *
        omega

theorem regions_shift (fp : Int) (ss : List (Nat × Nat)) (d : Nat) (os : List Nat) :
    regions fp ss (os.map (d + ·)) = regions (fp - d) ss os := by
  induction ss generalizing os with
  | nil => simp [regions]
  | cons s ss ih =>
    cases os with
    | nil => simp [regions]
    | cons o os =>
      have := ih os
      simp only [regions] at this ⊢
      simp only [List.map_cons, List.zipWith_cons_cons, this]
      congr 2
      omega

theorem pairwise_append_within {l1 l2 : List Region} {a b c : Int} (h1 : l1.Pairwise Apart) (h2 : l2.Pairwise Apart)
    (w1 : ∀ r ∈ l1, Within a b r) (w2 : ∀ r ∈ l2, Within b c r) : (l1 ++ l2).Pairwise Apart := by
  refine List.pairwise_append.2 ⟨h1, h2, fun r hr s hs x => ?_⟩
  have := w1 r hr; have := w2 s hs
  simp only [Within, Region.Has] at *
  omega

theorem allocas_le (f : Function) (sp : Int) (ns : List Nat) : (allocas f sp ns).2 ≤ sp := by
  induction ns generalizing sp with
  | nil => simp [allocas]
  | cons n ns ih =>
    have := ih (sp - ((n + 15) / 16 * 16 : Nat))
    simp only [allocas]
    omega

theorem allocas_regions (f : Function) (sp : Int) (ns : List Nat) :
    (List.zipWith (fun n a => (⟨a, n⟩ : Region)) ns (allocas f sp ns).1).Pairwise Apart ∧
    (∀ r ∈ List.zipWith (fun n a => (⟨a, n⟩ : Region)) ns (allocas f sp ns).1,
      Within ((allocas f sp ns).2 + callSpace f) (sp + callSpace f) r) := by
  induction ns generalizing sp with
  | nil => simp [allocas]
  | cons n ns ih =>
    obtain ⟨i2, i3⟩ := ih (sp - ((n + 15) / 16 * 16 : Nat))
    have hle := allocas_le f (sp - ((n + 15) / 16 * 16 : Nat)) ns
    have hn : n ≤ (n + 15) / 16 * 16 := by omega
    refine ⟨?_, ?_⟩
    · simp only [allocas, List.zipWith_cons_cons]
      refine List.pairwise_cons.2 ⟨fun r hr a => ?_, i2⟩
      have w := i3 r hr
      simp only [Region.Has, Within] at *
      omega
    · simp only [allocas, List.zipWith_cons_cons]
      intro r hr
      rcases List.mem_cons.1 hr with rfl | hr
      · simp only [Within]; omega
      · have := i3 r hr
        simp only [Within] at *
        omega

theorem alignUp16_le (x : Nat) : x ≤ alignUp x 16 := le_alignUp x 4

/-- C38 (disjoint): for every sequence of local variables, temporaries and `_alloca` calls and every number of call
arguments, the memory of outgoing arguments, of `_alloca` blocks, of temporaries, of local variables and of the saved
registers with the return address is pairwise disjoint, everything lies above the stack pointer and below the caller's
frame, and the arguments of the caller lie above it. -/
theorem C38_disjoint (f : Function) (hd : Powers f.decls) (ht : Powers f.temps) (entry : Int) (ns : List Nat)
    (os : List Nat) (ho : declOffsets f = some os) :
    (outgoing f entry ns :: (blocks f entry ns ++ (temporaries f entry ++ (locals f entry os ++ [record f entry])))).Pairwise
      Apart ∧
    (∀ r ∈ outgoing f entry ns :: (blocks f entry ns ++ (temporaries f entry ++ (locals f entry os ++ [record f entry]))),
      Within (allocas f (stackPointer f entry) ns).2 (entry + 8) r) ∧
    (∀ i : Nat, Within (entry + 8) (entry + 8 + 8 * (i + 1)) (argument f entry i)) := by
  have hos : os = (place 0 f.decls).1 := by
    simp only [declOffsets] at ho
    split at ho
    · simp at ho
    · simpa using ho.symm
  subst hos
  obtain ⟨_, p2, p3⟩ := place_regions (framePointer f entry) f.decls hd 0
  obtain ⟨_, q2, q3⟩ := place_regions (framePointer f entry - declSpace f) f.temps ht 0
  obtain ⟨a1, a2⟩ := allocas_regions f (stackPointer f entry) ns
  have hle := allocas_le f (stackPointer f entry) ns
  have hds : (place 0 f.decls).2 ≤ declSpace f := alignUp16_le _
  have hfs := alignUp16_le (declSpace f + 32 + (place 0 f.temps).2 + 8 * max 4 f.maxArguments)
  have hfs2 : declSpace f + 32 + (place 0 f.temps).2 + 8 * max 4 f.maxArguments ≤ frameSize f := by
    simp only [frameSize]; omega
  have hcs : callSpace f ≤ 8 * max 4 f.maxArguments + 8 ∧ 8 * max 4 f.maxArguments ≤ callSpace f := by
    simp only [callSpace]; omega
  have hsp : stackPointer f entry = framePointer f entry - frameSize f := rfl
  have hfp : framePointer f entry + (8 * saved f + 16 : Nat) = entry + 8 := by simp only [framePointer]; omega
  have et : temporaries f entry = regions (framePointer f entry - declSpace f) f.temps (place 0 f.temps).1 :=
    regions_shift _ _ _ _
  have wl : ∀ r ∈ locals f entry (place 0 f.decls).1,
      Within (framePointer f entry - declSpace f) (framePointer f entry) r := by
    intro r hr
    have := p3 r hr
    simp only [Within] at *; omega
  have wt : ∀ r ∈ temporaries f entry,
      Within (stackPointer f entry + callSpace f) (framePointer f entry - declSpace f) r := by
    intro r hr
    rw [et] at hr
    have := q3 r hr
    simp only [Within] at *; omega
  have wr : ∀ r ∈ [record f entry], Within (framePointer f entry) (entry + 8) r := by
    intro r hr
    simp only [List.mem_singleton] at hr
    subst hr
    simp only [Within, record]; omega
  have w2 : ∀ r ∈ locals f entry (place 0 f.decls).1 ++ [record f entry],
      Within (framePointer f entry - declSpace f) (entry + 8) r := by
    intro r hr
    rcases List.mem_append.1 hr with hr | hr
    · have := wl r hr; simp only [Within] at *; omega
    · have := wr r hr; simp only [Within] at *; omega
  have w3 : ∀ r ∈ temporaries f entry ++ (locals f entry (place 0 f.decls).1 ++ [record f entry]),
      Within (stackPointer f entry + callSpace f) (entry + 8) r := by
    intro r hr
    rcases List.mem_append.1 hr with hr | hr
    · have := wt r hr; simp only [Within] at *; omega
    · have := w2 r hr; simp only [Within] at *; omega
  have w4 : ∀ r ∈ blocks f entry ns ++ (temporaries f entry ++ (locals f entry (place 0 f.decls).1 ++ [record f entry])),
      Within ((allocas f (stackPointer f entry) ns).2 + callSpace f) (entry + 8) r := by
    intro r hr
    rcases List.mem_append.1 hr with hr | hr
    · have := a2 r hr; simp only [Within] at *; omega
    · have := w3 r hr; simp only [Within] at *; omega
  have pr : [record f entry].Pairwise Apart := by simp
  have pl := pairwise_append_within p2 pr wl wr
  have pt := pairwise_append_within (et ▸ q2) pl wt w2
  have pb := pairwise_append_within a1 pt a2 w3
  refine ⟨List.pairwise_cons.2 ⟨fun r hr a => ?_, pb⟩, ?_, ?_⟩
  · have := w4 r hr
    simp only [Within, Region.Has, outgoing] at *
    omega
  · intro r hr
    rcases List.mem_cons.1 hr with rfl | hr
    · simp only [Within, outgoing]; omega
    · have := w4 r hr
      simp only [Within] at *
      omega
  · intro i
    simp only [Within, argument, argumentOffset, framePointer]
    omega

theorem sixteen_dvd_alignUp (x : Nat) : 16 ∣ alignUp x 16 := dvd_alignUp x 4

theorem frameSize_dvd (f : Function) : 16 ∣ frameSize f := by
  have := sixteen_dvd_alignUp (declSpace f + 32 + (place 0 f.temps).2 + 8 * max 4 f.maxArguments)
  have hs : saved f % 2 = 0 := by simp only [saved]; split <;> rfl
  simp only [frameSize, hs]
  simpa using this

theorem allocas_align (f : Function) (ns : List Nat) (sp : Int) (h : (16 : Int) ∣ sp) :
    (16 : Int) ∣ (allocas f sp ns).2 ∧ ∀ a ∈ (allocas f sp ns).1, (16 : Int) ∣ a := by
  induction ns generalizing sp with
  | nil => simp [allocas, h]
  | cons n ns ih =>
    have h' : (16 : Int) ∣ sp - ((n + 15) / 16 * 16 : Nat) := by omega
    obtain ⟨i1, i2⟩ := ih _ h'
    refine ⟨i1, fun a ha => ?_⟩
    simp only [allocas, List.mem_cons] at ha
    rcases ha with rfl | ha
    · have : callSpace f % 16 = 0 := by simp only [callSpace]; omega
      omega
    · exact i2 a ha

theorem framePointer_dvd (f : Function) (entry : Int) (he : entry % 16 = 8) : (16 : Int) ∣ framePointer f entry := by
  simp only [framePointer, saved]
  split <;> omega

theorem stackPointer_dvd (f : Function) (entry : Int) (he : entry % 16 = 8) : (16 : Int) ∣ stackPointer f entry := by
  have := framePointer_dvd f entry he
  have := frameSize_dvd f
  simp only [stackPointer]
  omega

/-- C38 (calls): with the alignment the calling convention gives at the entry, the stack pointer is a multiple of 16
at every call in the body, and so is every block of `_alloca`. -/
theorem C38_stack_pointer (f : Function) (entry : Int) (he : entry % 16 = 8) (ns : List Nat) :
    (16 : Int) ∣ (allocas f (stackPointer f entry) ns).2 ∧ ∀ r ∈ blocks f entry ns, (16 : Int) ∣ r.low := by
  obtain ⟨h1, h2⟩ := allocas_align f ns _ (stackPointer_dvd f entry he)
  refine ⟨h1, fun r hr => ?_⟩
  simp only [blocks] at hr
  obtain ⟨i, hi, e⟩ := List.getElem_of_mem hr
  rw [List.getElem_zipWith] at e
  rw [← e]
  exact h2 _ (List.getElem_mem _)

/-- The slots whose alignment is at most 16 and divides the size, as it does for every type without an explicit
alignment. -/
def Natural (s : Nat × Nat) : Prop := s.2 ∣ 16 ∧ s.2 ∣ s.1

theorem place_align (fp : Int) (hfp : (16 : Int) ∣ fp) (ss : List (Nat × Nat)) (h : Powers ss) (off : Nat) :
    ∀ p ∈ ss.zip (regions fp ss (place off ss).1), Natural p.1 → (p.1.2 : Int) ∣ p.2.low := by
  induction ss generalizing off with
  | nil => simp
  | cons s ss ih =>
    intro p hp hn
    simp only [regions, place, List.zipWith_cons_cons, List.zip_cons_cons, List.mem_cons] at hp
    rcases hp with rfl | hp
    · obtain ⟨k, hk⟩ := h s (by simp)
      simp only [bump]
      have h1 : s.2 ∣ alignUp off s.2 := by rw [hk]; exact dvd_alignUp off k
      have h2 : s.2 ∣ alignUp off s.2 + s.1 := (Nat.dvd_add_iff_right h1).1 hn.2
      have h3 : (s.2 : Int) ∣ fp := Int.dvd_trans (Int.natCast_dvd_natCast.2 hn.1) hfp
      exact Int.dvd_sub h3 (Int.natCast_dvd_natCast.2 h2)
    · exact ih (fun x hx => h x (by simp [hx])) _ p hp hn

/-- C38 (aligned), part: a slot whose alignment is at most 16 and divides its size starts at a multiple of its
alignment. Missing: slots with an explicit larger alignment, see `C38_overaligned_wrong` and `C38_alignas_char_wrong`. -/
theorem C38_aligned_partial (f : Function) (hd : Powers f.decls) (ht : Powers f.temps) (entry : Int)
    (he : entry % 16 = 8) (os : List Nat) (ho : declOffsets f = some os) :
    (∀ p ∈ f.decls.zip (locals f entry os), Natural p.1 → (p.1.2 : Int) ∣ p.2.low) ∧
    (∀ p ∈ f.temps.zip (temporaries f entry), Natural p.1 → (p.1.2 : Int) ∣ p.2.low) := by
  have hos : os = (place 0 f.decls).1 := by
    simp only [declOffsets] at ho
    split at ho
    · simp at ho
    · simpa using ho.symm
  subst hos
  refine ⟨place_align _ (framePointer_dvd f entry he) _ hd 0, ?_⟩
  have et : temporaries f entry = regions (framePointer f entry - declSpace f) f.temps (place 0 f.temps).1 :=
    regions_shift _ _ _ _
  rw [et]
  refine place_align _ ?_ _ ht 0
  have := framePointer_dvd f entry he
  have := sixteen_dvd_alignUp (place 0 f.decls).2
  have e : declSpace f = alignUp (place 0 f.decls).2 16 := rfl
  omega

/-- C38, counterexample: `_Alignas(16) char x;` is at an odd address. -/
theorem C38_alignas_char_wrong :
    ∃ (f : Function) (os : List Nat), declOffsets f = some os ∧ f.decls = [(1, 16)] ∧
      ∀ entry : Int, entry % 16 = 8 → ∀ r ∈ locals f entry os, ¬ (2 : Int) ∣ r.low := by
  refine ⟨⟨[(1, 16)], [], 0, false⟩, [1], by decide, rfl, fun entry he r hr => ?_⟩
  have hfp := framePointer_dvd ⟨[(1, 16)], [], 0, false⟩ entry he
  simp only [locals, regions, List.zipWith_cons_cons, List.zipWith_nil_left, List.mem_singleton] at hr
  subst hr
  simp only
  omega

/-- C38, counterexample: `_Alignas(64) char x[64];` is not at a multiple of 64 for all entry stack pointers. -/
theorem C38_overaligned_wrong :
    ∃ (f : Function) (os : List Nat) (entry : Int), declOffsets f = some os ∧ f.decls = [(64, 64)] ∧ entry % 16 = 8 ∧
      ∀ r ∈ locals f entry os, ¬ (64 : Int) ∣ r.low := by
  refine ⟨⟨[(64, 64)], [], 0, false⟩, [64], 1000 * 64 + 8, by decide, rfl, by decide, fun r hr => ?_⟩
  simp only [locals, regions, List.zipWith_cons_cons, List.zipWith_nil_left, List.mem_singleton, framePointer, saved] at hr
  subst hr
  decide

/-- A function with a char, an int, a double, a 24-byte struct, two temporaries and six call arguments. -/
def exampleFunction : Function := ⟨[(1, 1), (4, 4), (8, 8), (24, 8)], [(12, 16), (8, 8)], 6, false⟩

example : declOffsets exampleFunction = some [1, 8, 16, 40] ∧ frameSize exampleFunction = 160 ∧
    tempOffsets exampleFunction = [60, 72] ∧ (allocas exampleFunction 0 [100, 3]).2 = -128 := by decide

example : Powers exampleFunction.decls ∧ Powers exampleFunction.temps ∧ Natural (24, 8) := by
  refine ⟨?_, ?_, ⟨2, rfl⟩, ⟨3, rfl⟩⟩
  · intro s hs
    simp only [exampleFunction, List.mem_cons, List.not_mem_nil, or_false] at hs
    rcases hs with rfl | rfl | rfl | rfl
    · exact ⟨0, rfl⟩
    · exact ⟨2, rfl⟩
    · exact ⟨3, rfl⟩
    · exact ⟨3, rfl⟩
  · intro s hs
    simp only [exampleFunction, List.mem_cons, List.not_mem_nil, or_false] at hs
    rcases hs with rfl | rfl
    · exact ⟨4, rfl⟩
    · exact ⟨3, rfl⟩

end Verif.Props.Frame
