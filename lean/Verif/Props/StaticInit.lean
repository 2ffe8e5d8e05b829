import Verif.Lemmas.StaticInit

/-!
# C74: the contents of objects with static storage duration

The bytes of an initialized object in a running program, after the patches are applied and the
program is linked or loaded, are those its initializer says, wherever the program is loaded.
-/
namespace Verif.Props.StaticInit
open Verif.Spec.StaticInit Verif.Model.StaticInit Verif.Lemmas.StaticInit

theorem evaluate_does (it : Item) (hc : ∀ p ∈ partsOf 0 it, p.constant) :
    ∃ s, evaluate (lowerDecl it) = .ok s ∧ DoesAll (partsOf 0 it) ⟨fun _ => 0, []⟩ s := by
  have single : (∀ l id is n, it ≠ .list l id is n) → ∃ s, evaluate (lowerDecl it) = .ok s ∧
      DoesAll (partsOf 0 it) ⟨fun _ => 0, []⟩ s := by
    intro hne
    obtain ⟨s, hd, he⟩ := lowerItem_does it 0 0 (.cons .pop .nil) [] ⟨fun _ => 0, []⟩ hc
    refine ⟨s, ?_, hd⟩
    unfold evaluate
    rw [lowerDecl, he, exec]
    exact hne
  cases it with
  | list l id is n =>
    rw [partsOf] at hc ⊢
    obtain ⟨s, hd, he⟩ := lowerItems_does is 0 0 .nil [] ⟨fun _ => 0, []⟩ (fun p hp => hc p (List.mem_cons_of_mem _ hp))
    refine ⟨s, ?_, ⟨_, rfl, hd⟩⟩
    unfold evaluate
    rw [append_nil] at he
    rw [lowerDecl, he, exec]
  | value e n => exact single (by intros; simp)
  | float bs => exact single (by intros; simp)
  | file bs => exact single (by intros; simp)
  | text id bs elem n => exact single (by intros; simp)

/-- **C74, object files.** If all initializers are constants, and no address constant is overridden, and nothing is overridden by a
shorter string or by a list, then the initializer is accepted, and once the program is linked,
every byte of the object is what the initializer says, wherever the linker puts the objects.
What is missing: see the counterexamples below. -/
theorem C74_object_file_partial (it : Item) (hc : ∀ p ∈ partsOf 0 it, p.constant)
    (hh : (partsOf 0 it).Pairwise Harmless) :
    ∃ s, evaluate (lowerDecl it) = .ok s ∧ ∀ at_ i,
      objLink at_ (objPatch s.data s.patches) s.patches i = image at_ (partsOf 0 it) i := by
  obtain ⟨s, he, hd⟩ := evaluate_does it hc
  refine ⟨s, he, fun at_ i => ?_⟩
  have inv := inv_all (at_ := at_) (partsOf 0 it) [] _ s (inv_nil at_) hd hc hh
  rw [List.nil_append] at inv
  obtain ⟨h1, h2⟩ := obj_final at_ s.patches inv.apart s.data
  by_cases hcov : ∃ p ∈ s.patches, Covers p i
  · obtain ⟨p, hp, hlo, hhi⟩ := hcov
    obtain ⟨k, rfl⟩ : ∃ k, i = p.dest + k := ⟨i - p.dest, by omega⟩
    rw [h1 p hp k (by omega), inv.patched p hp k (by omega)]
    congr 1
    omega
  · have hn : ∀ p ∈ s.patches, ¬ Covers p i := fun p hp hcv => hcov ⟨p, hp, hcv⟩
    rw [h2 i hn, inv.rest i hn]

/-- The patches of strings are for their first characters. -/
theorem whole_patches : (ps : List Part) → ∀ s s', DoesAll ps s s' → (∀ p ∈ ps, p.wholeString) →
    (∀ p ∈ s.patches, ∀ id t, p.source = .string id t → p.offset = 0) →
    ∀ p ∈ s'.patches, ∀ id t, p.source = .string id t → p.offset = 0
  | [], s, s', h, _, hs => by cases h; exact hs
  | q :: qs, s, s', ⟨t, h1, h2⟩, hw, hs => by
    refine whole_patches qs t s' h2 (fun p hp => hw p (List.mem_cons_of_mem _ hp)) ?_
    have hq := hw q List.mem_cons_self
    obtain ⟨o, n, w⟩ := q
    cases w with
    | clear => have : t = s := h1; subst this; exact hs
    | bytes bs => have : t = { s with data := copy s.data o bs.length (fun k => bs.getD k 0) } := h1; subst this; exact hs
    | text bs => intro p hp; rw [h1.1] at hp; exact hs p hp
    | value e =>
      rcases h1 with ⟨_, v, _, rfl⟩ | ⟨src, off, hb, hoff, hv, rfl⟩
      · exact hs
      · intro p hp id tx hsrc
        rcases List.mem_append.1 hp with hp | hp
        · exact hs p hp id tx hsrc
        · rw [List.mem_singleton] at hp
          subst hp
          have hsrc : src = .string id tx := hsrc
          subst hsrc
          have e1 := hq id tx hb (fun _ => 0)
          rw [hv] at e1
          show off = 0
          omega

/-- **C74, executables.** The same for executables, which the system loads at any distance `delta` from their preferred address, if only whole string literals are
pointed to. What is missing: see the counterexamples below. -/
theorem C74_executable_partial (it : Item) (hc : ∀ p ∈ partsOf 0 it, p.constant)
    (hh : (partsOf 0 it).Pairwise Harmless) (hw : ∀ p ∈ partsOf 0 it, p.wholeString) :
    ∃ s, evaluate (lowerDecl it) = .ok s ∧ ∀ imageBase delta rva i,
      exeLoad delta (exePatch imageBase rva s.data s.patches) s.patches i =
        image (fun x => rva x + imageBase + delta) (partsOf 0 it) i := by
  obtain ⟨s, he, hd⟩ := evaluate_does it hc
  refine ⟨s, he, fun imageBase delta rva i => ?_⟩
  have inv := inv_all (at_ := fun x => rva x + imageBase + delta) (partsOf 0 it) [] _ s (inv_nil _) hd hc hh
  rw [List.nil_append] at inv
  have whole := whole_patches _ _ _ hd hw (by simp)
  obtain ⟨h1, h2⟩ := exe_final imageBase delta rva s.patches inv.apart s.data
  by_cases hcov : ∃ p ∈ s.patches, Covers p i
  · obtain ⟨p, hp, hlo, hhi⟩ := hcov
    obtain ⟨k, rfl⟩ : ∃ k, i = p.dest + k := ⟨i - p.dest, by omega⟩
    rw [h1 p hp k (by omega), inv.patched p hp k (by omega)]
    congr 1
    have hwp := whole p hp
    unfold exeSource
    split
    · rename_i hs; rw [hs]; omega
    · rename_i id t hs
      rw [hs, hwp id t hs]; omega
  · have hn : ∀ p ∈ s.patches, ¬ Covers p i := fun p hp hcv => hcov ⟨p, hp, hcv⟩
    rw [h2 i hn, inv.rest i hn]

theorem does_bounds {size : Nat} : (ps : List Part) → ∀ s s', DoesAll ps s s' → (∀ p ∈ ps, p.constant ∧ p.offset + p.length ≤ size) →
    (∀ i, size ≤ i → s'.data i = s.data i) ∧
    ((∀ p ∈ s.patches, p.dest + 8 ≤ size) → ∀ p ∈ s'.patches, p.dest + 8 ≤ size)
  | [], s, s', h, _ => by cases h; exact ⟨fun _ _ => rfl, fun h => h⟩
  | q :: qs, s, s', ⟨t, h1, h2⟩, hb => by
    obtain ⟨i1, i2⟩ := does_bounds qs t s' h2 (fun p hp => hb p (List.mem_cons_of_mem _ hp))
    obtain ⟨hc, hq⟩ := hb q List.mem_cons_self
    suffices h : (∀ i, size ≤ i → t.data i = s.data i) ∧ ((∀ p ∈ s.patches, p.dest + 8 ≤ size) → ∀ p ∈ t.patches, p.dest + 8 ≤ size) from
      ⟨fun i hi => (i1 i hi).trans (h.1 i hi), fun hp => i2 (h.2 hp)⟩
    obtain ⟨o, n, w⟩ := q
    simp only [] at hq
    cases w with
    | clear => have : t = s := h1; subst this; exact ⟨fun _ _ => rfl, fun h => h⟩
    | bytes bs =>
      have : t = { s with data := copy s.data o bs.length (fun k => bs.getD k 0) } := h1
      subst this
      have hl : bs.length = n := hc
      refine ⟨fun i hi => ?_, fun h => h⟩
      show copy s.data o bs.length (fun k => bs.getD k 0) i = _
      unfold copy
      rw [if_neg (by omega)]
    | text bs =>
      have hl : bs.length ≤ n := hc
      refine ⟨fun i hi => ?_, fun h => by rw [h1.1]; exact h⟩
      have := (h1.2 i).2
      simp only [] at this
      rcases this (by omega) with h' | h'
      · exact h'
      · omega
    | value e =>
      rcases h1 with ⟨_, v, _, rfl⟩ | ⟨src, off, hb', hoff, hv, rfl⟩
      · refine ⟨fun i hi => ?_, fun h => h⟩
        show copy _ _ _ _ i = _
        unfold copy
        simp only []
        rw [if_neg (by omega)]
      · refine ⟨fun _ _ => rfl, fun h p hp => ?_⟩
        have hn : n = 8 := by
          rcases hc.2 with h' | ⟨_, _, h'⟩
          · rw [hb'] at h'; cases h'
          · exact h'
        rcases List.mem_append.1 hp with hp | hp
        · exact h p hp
        · rw [List.mem_singleton] at hp
          subst hp
          show o + 8 ≤ size
          omega

/-- **C74, memory.** Nothing outside of the object is written, also when there is overriding: if every part is
within the `size` bytes of the object, so is everything that is written, and every patch. -/
theorem C74_in_bounds (it : Item) (size : Nat) (hc : ∀ p ∈ partsOf 0 it, p.constant ∧ p.offset + p.length ≤ size) :
    ∃ s, evaluate (lowerDecl it) = .ok s ∧ (∀ i, size ≤ i → s.data i = 0) ∧ ∀ p ∈ s.patches, p.dest + 8 ≤ size := by
  obtain ⟨s, he, hd⟩ := evaluate_does it (fun p hp => (hc p hp).1)
  obtain ⟨h1, h2⟩ := does_bounds (size := size) _ _ _ hd hc
  exact ⟨s, he, h1, h2 (by simp)⟩

/-! ## Objects without a fixed address -/

mutual
/-- The declarations an expression mentions have fixed addresses. -/
def fixedL : LExpr → Prop
  | .object (.declaration _ f) => f = true
  | .object (.string _ _) => True
  | .member e _ => fixedL e
  | .index e i _ => fixedL e ∧ fixedV i
def fixedV : VExpr → Prop
  | .int _ => True
  | .ptr _ => True
  | .addr e => fixedL e
  | .decay e => fixedL e
  | .add a b => fixedV a ∧ fixedV b
  | .sub a b => fixedV a ∧ fixedV b
end

/-- Nodes that only change the stack. -/
def simple : Node → Bool
  | .pop | .compound _ _ | .init _ _ | .initArray _ _ _ => false
  | _ => true

theorem exec_simple {root n rest stack s s'} (hn : simple n = true) (h : exec root (.cons n rest) stack s = .ok s') :
    ∃ stack', step n stack = .ok stack' ∧ exec root rest stack' s = .ok s' := by
  cases n <;> first | (cases hn; done) | skip
  all_goals
    rw [exec] at h
    · split at h
      · rename_i st hst; exact ⟨st, hst, h⟩
      · cases h
      · cases h
    all_goals simp

mutual
theorem exec_fixedL : (e : LExpr) → ∀ root rest stack s s', exec root (lowerL e ++ rest) stack s = .ok s' →
    fixedL e ∧ ∃ stack', exec root rest stack' s = .ok s'
  | .object (.declaration id f), root, rest, stack, s, s', h => by
    rw [lowerL] at h
    obtain ⟨st, h1, h2⟩ := exec_simple (n := .ident id f) rfl h
    rw [step] at h1
    split at h1
    · rename_i hf; exact ⟨hf, st, h2⟩
    · cases h1
  | .object (.string id t), root, rest, stack, s, s', h => by
    rw [lowerL] at h
    obtain ⟨st, _, h2⟩ := exec_simple (n := .string id t) rfl h
    exact ⟨trivial, st, h2⟩
  | .member e o, root, rest, stack, s, s', h => by
    rw [lowerL, append_assoc] at h
    obtain ⟨h1, st, h2⟩ := exec_fixedL e _ _ _ _ _ h
    obtain ⟨st', _, h3⟩ := exec_simple (n := .member o) rfl h2
    exact ⟨h1, st', h3⟩
  | .index e i n, root, rest, stack, s, s', h => by
    rw [lowerL, append_assoc, append_assoc] at h
    obtain ⟨h1, st, h2⟩ := exec_fixedL e _ _ _ _ _ h
    obtain ⟨h3, st', h4⟩ := exec_fixedV i _ _ _ _ _ h2
    obtain ⟨st'', _, h5⟩ := exec_simple (n := .subscript n) rfl h4
    exact ⟨⟨h1, h3⟩, st'', h5⟩
theorem exec_fixedV : (e : VExpr) → ∀ root rest stack s s', exec root (lowerV e ++ rest) stack s = .ok s' →
    fixedV e ∧ ∃ stack', exec root rest stack' s = .ok s'
  | .int v, root, rest, stack, s, s', h => by
    rw [lowerV] at h
    obtain ⟨st, _, h2⟩ := exec_simple (n := .int v) rfl h
    exact ⟨trivial, st, h2⟩
  | .ptr v, root, rest, stack, s, s', h => by
    rw [lowerV] at h
    obtain ⟨st, _, h2⟩ := exec_simple (n := .ptr v) rfl h
    exact ⟨trivial, st, h2⟩
  | .addr e, root, rest, stack, s, s', h => by
    rw [lowerV, append_assoc] at h
    obtain ⟨h1, st, h2⟩ := exec_fixedL e _ _ _ _ _ h
    obtain ⟨st', _, h3⟩ := exec_simple (n := .loadAddress) rfl h2
    exact ⟨h1, st', h3⟩
  | .decay e, root, rest, stack, s, s', h => by
    rw [lowerV, append_assoc] at h
    obtain ⟨h1, st, h2⟩ := exec_fixedL e _ _ _ _ _ h
    obtain ⟨st', _, h3⟩ := exec_simple (n := .loadAddress) rfl h2
    exact ⟨h1, st', h3⟩
  | .add a b, root, rest, stack, s, s', h => by
    cases a with
    | decay e =>
      rw [lowerV, append_assoc, append_assoc] at h
      obtain ⟨h1, st, h2⟩ := exec_fixedL e _ _ _ _ _ h
      obtain ⟨h3, st', h4⟩ := exec_fixedV b _ _ _ _ _ h2
      obtain ⟨_, _, h5⟩ := exec_simple (n := .loadAddressLhs) rfl h4
      obtain ⟨st'', _, h6⟩ := exec_simple (n := .add) rfl h5
      exact ⟨⟨h1, h3⟩, st'', h6⟩
    | int _ | ptr _ | addr _ | add _ _ | sub _ _ =>
      rw [lowerV, append_assoc, append_assoc] at h
      · obtain ⟨h1, st, h2⟩ := exec_fixedV _ _ _ _ _ _ h
        obtain ⟨h3, st', h4⟩ := exec_fixedV b _ _ _ _ _ h2
        obtain ⟨st'', _, h6⟩ := exec_simple (n := .add) rfl h4
        exact ⟨⟨h1, h3⟩, st'', h6⟩
      all_goals simp
  | .sub a b, root, rest, stack, s, s', h => by
    cases a with
    | decay e =>
      rw [lowerV, append_assoc, append_assoc] at h
      obtain ⟨h1, st, h2⟩ := exec_fixedL e _ _ _ _ _ h
      obtain ⟨h3, st', h4⟩ := exec_fixedV b _ _ _ _ _ h2
      obtain ⟨_, _, h5⟩ := exec_simple (n := .loadAddressLhs) rfl h4
      obtain ⟨st'', _, h6⟩ := exec_simple (n := .sub) rfl h5
      exact ⟨⟨h1, h3⟩, st'', h6⟩
    | int _ | ptr _ | addr _ | add _ _ | sub _ _ =>
      rw [lowerV, append_assoc, append_assoc] at h
      · obtain ⟨h1, st, h2⟩ := exec_fixedV _ _ _ _ _ _ h
        obtain ⟨h3, st', h4⟩ := exec_fixedV b _ _ _ _ _ h2
        obtain ⟨st'', _, h6⟩ := exec_simple (n := .sub) rfl h4
        exact ⟨⟨h1, h3⟩, st'', h6⟩
      all_goals simp
end

mutual
theorem exec_shapeL : (e : LExpr) → ∀ root rest stack s s', exec root (lowerL e ++ rest) stack s = .ok s' →
    ∃ x src, x.isAddress = false ∧ x.ir = .source src ∧ exec root rest (x :: stack) s = .ok s'
  | .object (.declaration id f), root, rest, stack, s, s', h => by
    rw [lowerL] at h
    obtain ⟨st, h1, h2⟩ := exec_simple (n := .ident id f) rfl h
    rw [step] at h1
    split at h1
    · cases h1; exact ⟨_, _, rfl, rfl, h2⟩
    · cases h1
  | .object (.string id t), root, rest, stack, s, s', h => by
    rw [lowerL] at h
    obtain ⟨st, h1, h2⟩ := exec_simple (n := .string id t) rfl h
    cases h1; exact ⟨_, _, rfl, rfl, h2⟩
  | .member e o, root, rest, stack, s, s', h => by
    rw [lowerL, append_assoc] at h
    obtain ⟨x, src, h0, h1, h2⟩ := exec_shapeL e _ _ _ _ _ h
    obtain ⟨st', h3, h4⟩ := exec_simple (n := .member o) rfl h2
    cases h3; exact ⟨{ x with offset := (x.offset + o) % 2 ^ 64 }, src, h0, h1, h4⟩
  | .index e i n, root, rest, stack, s, s', h => by
    rw [lowerL, append_assoc, append_assoc] at h
    obtain ⟨x, src, h0, h1, h2⟩ := exec_shapeL e _ _ _ _ _ h
    obtain ⟨y, h4⟩ := exec_shapeV i _ _ _ _ _ h2
    obtain ⟨st'', h5, h6⟩ := exec_simple (n := .subscript n) rfl h4
    rw [step] at h5
    split at h5
    · next v _ => cases h5; exact ⟨{ x with offset := (x.offset + v % 2 ^ 64 * n) % 2 ^ 64 }, src, h0, h1, h6⟩
    · cases h5
    · cases h5
theorem exec_shapeV : (e : VExpr) → ∀ root rest stack s s', exec root (lowerV e ++ rest) stack s = .ok s' →
    ∃ x, exec root rest (x :: stack) s = .ok s'
  | .int v, root, rest, stack, s, s', h => by
    rw [lowerV] at h
    obtain ⟨st, h1, h2⟩ := exec_simple (n := .int v) rfl h
    cases h1; exact ⟨_, h2⟩
  | .ptr v, root, rest, stack, s, s', h => by
    rw [lowerV] at h
    obtain ⟨st, h1, h2⟩ := exec_simple (n := .ptr v) rfl h
    cases h1; exact ⟨_, h2⟩
  | .addr e, root, rest, stack, s, s', h => by
    rw [lowerV, append_assoc] at h
    obtain ⟨x, _, _, _, h2⟩ := exec_shapeL e _ _ _ _ _ h
    obtain ⟨st', h3, h4⟩ := exec_simple (n := .loadAddress) rfl h2
    cases h3; exact ⟨_, h4⟩
  | .decay e, root, rest, stack, s, s', h => by
    rw [lowerV, append_assoc] at h
    obtain ⟨x, _, _, _, h2⟩ := exec_shapeL e _ _ _ _ _ h
    obtain ⟨st', h3, h4⟩ := exec_simple (n := .loadAddress) rfl h2
    cases h3; exact ⟨_, h4⟩
  | .add a b, root, rest, stack, s, s', h => by
    cases a with
    | decay e =>
      rw [lowerV, append_assoc, append_assoc] at h
      obtain ⟨x, _, _, _, h2⟩ := exec_shapeL e _ _ _ _ _ h
      obtain ⟨y, h4⟩ := exec_shapeV b _ _ _ _ _ h2
      obtain ⟨st, h5, h6⟩ := exec_simple (n := .loadAddressLhs) rfl h4
      cases h5
      obtain ⟨st'', h7, h8⟩ := exec_simple (n := .add) rfl h6
      rw [step] at h7
      split at h7
      · cases h7; exact ⟨_, h8⟩
      · cases h7
    | int _ | ptr _ | addr _ | add _ _ | sub _ _ =>
      rw [lowerV, append_assoc, append_assoc] at h
      · obtain ⟨x, h2⟩ := exec_shapeV _ _ _ _ _ _ h
        obtain ⟨y, h4⟩ := exec_shapeV b _ _ _ _ _ h2
        obtain ⟨st'', h7, h8⟩ := exec_simple (n := .add) rfl h4
        rw [step] at h7
        split at h7
        · cases h7; exact ⟨_, h8⟩
        · cases h7
      all_goals simp
  | .sub a b, root, rest, stack, s, s', h => by
    cases a with
    | decay e =>
      rw [lowerV, append_assoc, append_assoc] at h
      obtain ⟨x, _, _, _, h2⟩ := exec_shapeL e _ _ _ _ _ h
      obtain ⟨y, h4⟩ := exec_shapeV b _ _ _ _ _ h2
      obtain ⟨st, h5, h6⟩ := exec_simple (n := .loadAddressLhs) rfl h4
      cases h5
      obtain ⟨st'', h7, h8⟩ := exec_simple (n := .sub) rfl h6
      rw [step] at h7
      split at h7
      · cases h7; exact ⟨_, h8⟩
      · cases h7
    | int _ | ptr _ | addr _ | add _ _ | sub _ _ =>
      rw [lowerV, append_assoc, append_assoc] at h
      · obtain ⟨x, h2⟩ := exec_shapeV _ _ _ _ _ _ h
        obtain ⟨y, h4⟩ := exec_shapeV b _ _ _ _ _ h2
        obtain ⟨st'', h7, h8⟩ := exec_simple (n := .sub) rfl h4
        rw [step] at h7
        split at h7
        · cases h7; exact ⟨_, h8⟩
        · cases h7
      all_goals simp
end

/-- The value of another object, or of a part of it, is not constant: an initializer that needs it is not accepted, wherever in
a static initializer it stands. -/
theorem C74_rejects_values (e : LExpr) (o n root : Nat) (rest : Code) (stack : List Entry) (s s' : State) :
    exec root (lowerL e ++ .cons (.init o n) rest) stack s ≠ .ok s' := by
  intro h
  obtain ⟨x, src, h0, h1, h2⟩ := exec_shapeL e _ _ _ _ _ h
  rw [exec] at h2
  simp only [initializer, h0, h1] at h2
  cases src <;> simp at h2

/-- `static int x = y;` -/
example : ∀ s, evaluate (.cons (.ident 3 true) (.cons (.init 0 4) .nil)) ≠ .ok s := C74_rejects_values (.object (.declaration 3 true)) 0 4 0 .nil [] _

theorem exec_init_ok {root o n rest stack s s'} (h : exec root (.cons (.init o n) rest) stack s = .ok s') :
    ∃ stack' t, exec root rest stack' t = .ok s' := by
  cases stack with
  | nil => simp [exec] at h
  | cons e st =>
    rw [exec] at h
    split at h
    · exact ⟨_, _, h⟩
    · cases h
    · cases h

theorem exec_initArray_ok {root o elem n rest stack s s'} (h : exec root (.cons (.initArray o elem n) rest) stack s = .ok s') :
    ∃ stack' t, exec root rest stack' t = .ok s' := by
  cases stack with
  | nil => simp [exec] at h
  | cons e st =>
    rw [exec] at h
    split at h
    · exact ⟨_, _, h⟩
    · cases h
    · cases h

mutual
theorem item_fixed : (it : Item) → ∀ root base rest stack s s', exec root (lowerItem base it ++ rest) stack s = .ok s' →
    (∀ b, ∀ p ∈ partsOf b it, ∀ e, p.what = .value e → fixedV e) ∧ ∃ stack' t, exec root rest stack' t = .ok s'
  | .value e n, root, base, rest, stack, s, s', h => by
    rw [lowerItem, append_assoc] at h
    obtain ⟨h1, st, h2⟩ := exec_fixedV e _ _ _ _ _ h
    refine ⟨fun b p hp e' he => ?_, exec_init_ok h2⟩
    rw [partsOf, List.mem_singleton] at hp
    subst hp
    cases he
    exact h1
  | .float bs, root, base, rest, stack, s, s', h => by
    rw [lowerItem] at h
    obtain ⟨st, _, h2⟩ := exec_simple (n := .float bs) rfl h
    refine ⟨fun b p hp e' he => ?_, exec_init_ok h2⟩
    rw [partsOf, List.mem_singleton] at hp
    subst hp
    cases he
  | .file bs, root, base, rest, stack, s, s', h => by
    rw [lowerItem] at h
    obtain ⟨st, _, h2⟩ := exec_simple (n := .embed bs) rfl h
    refine ⟨fun b p hp e' he => ?_, exec_init_ok h2⟩
    rw [partsOf, List.mem_singleton] at hp
    subst hp
    cases he
  | .text id bs elem n, root, base, rest, stack, s, s', h => by
    rw [lowerItem] at h
    obtain ⟨st, _, h2⟩ := exec_simple (n := .string id bs) rfl h
    refine ⟨fun b p hp e' he => ?_, exec_initArray_ok h2⟩
    rw [partsOf, List.mem_singleton] at hp
    subst hp
    cases he
  | .list true id is n, root, base, rest, stack, s, s', h => by
    rw [lowerItem] at h
    have h : exec root (.cons (.compound id (lowerItems 0 is)) (.cons (.init base n) rest)) stack s = .ok s' := h
    rw [exec] at h
    split at h
    · rename_i t ht
      rw [← append_nil (lowerItems 0 is)] at ht
      obtain ⟨h1, _⟩ := items_fixed is _ _ _ _ _ _ ht
      refine ⟨fun b p hp e' he => ?_, _, _, h⟩
      rw [partsOf] at hp
      rcases List.mem_cons.1 hp with rfl | hp
      · cases he
      · exact h1 b p hp e' he
    · cases h
    · cases h
  | .list false id is n, root, base, rest, stack, s, s', h => by
    rw [lowerItem] at h
    obtain ⟨h1, h2⟩ := items_fixed is _ _ _ _ _ _ h
    refine ⟨fun b p hp e' he => ?_, h2⟩
    rw [partsOf] at hp
    rcases List.mem_cons.1 hp with rfl | hp
    · cases he
    · exact h1 b p hp e' he
theorem items_fixed : (is : Items) → ∀ root base rest stack s s', exec root (lowerItems base is ++ rest) stack s = .ok s' →
    (∀ b, ∀ p ∈ partsOfList b is, ∀ e, p.what = .value e → fixedV e) ∧ ∃ stack' t, exec root rest stack' t = .ok s'
  | .nil, root, base, rest, stack, s, s', h => by
    rw [lowerItems] at h
    refine ⟨fun b p hp => ?_, stack, s, h⟩
    rw [partsOfList] at hp
    cases hp
  | .cons o i is, root, base, rest, stack, s, s', h => by
    rw [lowerItems, append_assoc] at h
    obtain ⟨h1, st, t, h2⟩ := item_fixed i _ _ _ _ _ _ h
    obtain ⟨h3, h4⟩ := items_fixed is _ _ _ _ _ _ h2
    refine ⟨fun b p hp e he => ?_, h4⟩
    rw [partsOfList] at hp
    rcases List.mem_append.1 hp with hp | hp
    · exact h1 (b + o) p hp e he
    · exact h3 b p hp e he
end

/-- **C74, rejection.** An initializer is not accepted if an expression in it mentions, at any depth, a declaration without
a fixed address: a variable on the stack, of a thread or of a library. This holds without any other condition on the initializer. -/
theorem C74_rejects_no_fixed_address (it : Item) {p : Part} (hp : p ∈ partsOf 0 it) {e : VExpr}
    (he : p.what = .value e) (hf : ¬ fixedV e) (s : State) : evaluate (lowerDecl it) ≠ .ok s := by
  intro h
  unfold evaluate at h
  have single : (∀ l id is n, it ≠ .list l id is n) → False := by
    intro hne
    rw [lowerDecl] at h
    · exact hf ((item_fixed it _ _ _ _ _ _ h).1 0 p hp e he)
    · exact hne
  cases it with
  | list l id is n =>
    rw [lowerDecl, ← append_nil (lowerItems 0 is)] at h
    rw [partsOf] at hp
    rcases List.mem_cons.1 hp with rfl | hp
    · cases he
    · exact hf ((items_fixed is _ _ _ _ _ _ h).1 0 p hp e he)
  | value e n => exact single (by intros; simp)
  | float bs => exact single (by intros; simp)
  | file bs => exact single (by intros; simp)
  | text id bs elem n => exact single (by intros; simp)

/-! ## An example

```
struct { char name[4]; int n; char *p; struct { long long a, b; } q; int *r; } x = {"ab", 7, &y.c, {1, &z[3] - z}, w + 2};
```
-/

namespace Sample

def y : Source := .declaration 1 true
def z : Source := .declaration 2 true
def w : Source := .declaration 3 true

def it : Item := .list false 0
  (.cons 0 (.text 9 [97, 98] 1 4) <|
   .cons 4 (.value (.int 7) 4) <|
   .cons 8 (.value (.addr (.member (.object y) 12)) 8) <|
   .cons 16 (.list true 5 (.cons 0 (.value (.int 1) 8) <|
      .cons 8 (.value (.sub (.addr (.index (.object z) (.int 3) 4)) (.decay (.object z))) 8) .nil) 16) <|
   .cons 32 (.value (.add (.decay (.object w)) (.int 8)) 8) .nil) 40

/-- The initializer meets the conditions of all theorems. -/
theorem it_ok : (∀ p ∈ partsOf 0 it, p.constant ∧ p.offset + p.length ≤ 40) ∧ (partsOf 0 it).Pairwise Harmless ∧
    ∀ p ∈ partsOf 0 it, p.wholeString := by
  have hp : partsOf 0 it = [⟨0, 40, .clear⟩, ⟨0, 4, .text [97, 98]⟩, ⟨4, 4, .value (.int 7)⟩,
      ⟨8, 8, .value (.addr (.member (.object y) 12))⟩, ⟨16, 16, .clear⟩, ⟨16, 8, .value (.int 1)⟩,
      ⟨24, 8, .value (.sub (.addr (.index (.object z) (.int 3) 4)) (.decay (.object z)))⟩,
      ⟨32, 8, .value (.add (.decay (.object w)) (.int 8))⟩] := by
    simp [it, partsOf, partsOfList]
  rw [hp]
  refine ⟨?_, ?_, ?_⟩
  · simp [Part.constant, VExpr.plainIndices, LExpr.plainIndices, baseOf, objectOf, y, z, w]
  · simp [Harmless, Part.overlaps, Part.isAddress, Part.isClear, Part.pads, baseOf]
  · simp [Part.wholeString, baseOf, objectOf, y, z, w]

example : ∃ s, evaluate (lowerDecl it) = .ok s ∧ ∀ at_ i,
    objLink at_ (objPatch s.data s.patches) s.patches i = image at_ (partsOf 0 it) i :=
  C74_object_file_partial it (fun p hp => (it_ok.1 p hp).1) it_ok.2.1

example : ∃ s, evaluate (lowerDecl it) = .ok s ∧ ∀ imageBase delta rva i,
    exeLoad delta (exePatch imageBase rva s.data s.patches) s.patches i =
      image (fun x => rva x + imageBase + delta) (partsOf 0 it) i :=
  C74_executable_partial it (fun p hp => (it_ok.1 p hp).1) it_ok.2.1 it_ok.2.2

example : ∃ s, evaluate (lowerDecl it) = .ok s ∧ (∀ i, 40 ≤ i → s.data i = 0) ∧ ∀ p ∈ s.patches, p.dest + 8 ≤ 40 :=
  C74_in_bounds it 40 it_ok.1

/-- What the bytes of `name`, `n` and `p` are if `y` is at 0x1234. -/
example : (List.range 16).map (image (fun _ => 0x1234) (partsOf 0 it)) =
    [97, 98, 0, 0, 7, 0, 0, 0, 0x40, 0x12, 0, 0, 0, 0, 0, 0] := by decide

/-- `int *p = &local;` -/
example (s : State) : evaluate (lowerDecl (.value (.addr (.object (.declaration 1 false))) 8)) ≠ .ok s :=
  C74_rejects_no_fixed_address _ (p := ⟨0, 8, .value (.addr (.object (.declaration 1 false)))⟩)
    (by simp [partsOf]) rfl (by simp [fixedV, fixedL]) s

end Sample

/-! ## Where it goes wrong -/

/-- `char *p = &"abc"[1];` in an executable points to the `a`: the writer of executables forgets the
offset for string literals (/repo/src/coff_writer.c 1717–1722). -/
theorem C74_string_offset_wrong : ∃ it s, (∀ p ∈ partsOf 0 it, p.constant) ∧ (partsOf 0 it).Pairwise Harmless ∧
    evaluate (lowerDecl it) = .ok s ∧
    exeLoad 0 (exePatch 0x140000000 (fun _ => 0x3000) s.data s.patches) s.patches 0 = 0 ∧
    image (fun _ => 0x140003000) (partsOf 0 it) 0 = 1 := by
  refine ⟨.value (.addr (.index (.object (.string 0 [97, 98, 99])) (.int 1) 1)) 8,
    ⟨fun _ => 0, [⟨.string 0 [97, 98, 99], 1, 0⟩]⟩, ?_, ?_, rfl, by decide +kernel, by decide +kernel⟩
  · simp [partsOf, Part.constant, VExpr.plainIndices, LExpr.plainIndices, baseOf, objectOf]
  · simp [partsOf]

/-- `struct { char s[8]; } x = { .s = "abcdef", .s = "xy" };`: the `d` is still there, although the second initializer
is for all of the array (/repo/src/main.c 2541–2546). -/
theorem C74_shorter_string_wrong : ∃ it s, (∀ p ∈ partsOf 0 it, p.constant) ∧ evaluate (lowerDecl it) = .ok s ∧
    objLink (fun _ => 0) (objPatch s.data s.patches) s.patches 3 = 100 ∧ image (fun _ => 0) (partsOf 0 it) 3 = 0 := by
  refine ⟨.list false 0 (.cons 0 (.text 1 [97, 98, 99, 100, 101, 102] 1 8) (.cons 0 (.text 2 [120, 121] 1 8) .nil)) 8,
    ⟨copy (copy (copy (copy (fun _ => 0) 0 6 (fun k => [97, 98, 99, 100, 101, 102].getD k 0)) 6 1 (fun _ => 0)) 0 2
      (fun k => [120, 121].getD k 0)) 2 1 (fun _ => 0), []⟩, ?_, rfl, by decide +kernel, by decide +kernel⟩
  simp [partsOf, partsOfList, Part.constant]

/-- `struct { struct { int a, b; } s; } x = { .s = {1, 2}, .s = {3} };`: `x.s.b` is still 2. -/
theorem C74_shorter_list_wrong : ∃ it s, (∀ p ∈ partsOf 0 it, p.constant) ∧ evaluate (lowerDecl it) = .ok s ∧
    objLink (fun _ => 0) (objPatch s.data s.patches) s.patches 4 = 2 ∧ image (fun _ => 0) (partsOf 0 it) 4 = 0 := by
  refine ⟨.list false 0 (.cons 0 (.list false 1 (.cons 0 (.value (.int 1) 4) (.cons 4 (.value (.int 2) 4) .nil)) 8)
      (.cons 0 (.list false 2 (.cons 0 (.value (.int 3) 4) .nil) 8) .nil)) 8,
    ⟨copy (copy (copy (fun _ => 0) 0 4 (le 1)) 4 4 (le 2)) 0 4 (le 3), []⟩, ?_, rfl, by decide +kernel, by decide +kernel⟩
  simp [partsOf, partsOfList, Part.constant, VExpr.plainIndices, baseOf]

/-- `struct { int *p; } x = { .p = &y, .p = 0 };`: `x.p` is `&y`, in executables and in object files, because patches are applied
after all bytes are written. -/
theorem C74_overridden_address_wrong : ∃ it s, (∀ p ∈ partsOf 0 it, p.constant) ∧ evaluate (lowerDecl it) = .ok s ∧
    exeLoad 0 (exePatch 0 (fun _ => 7) s.data s.patches) s.patches 0 = 7 ∧
    objLink (fun _ => 7) (objPatch s.data s.patches) s.patches 0 = 7 ∧ image (fun _ => 7) (partsOf 0 it) 0 = 0 := by
  refine ⟨.list false 0 (.cons 0 (.value (.addr (.object (.declaration 1 true))) 8) (.cons 0 (.value (.ptr 0) 8) .nil)) 8,
    ⟨copy (fun _ => 0) 0 8 (le 0), [⟨.declaration 1 true, 0, 0⟩]⟩, ?_, rfl, by decide +kernel, by decide +kernel, by decide +kernel⟩
  simp [partsOf, partsOfList, Part.constant, VExpr.plainIndices, LExpr.plainIndices, baseOf, objectOf]

/-- `struct { int *p; } x = { .p = &y, .p = &z };` in an object file: there are two relocations for the same place, so that the linker adds both addresses.
In an executable that is not loaded at its preferred address, the distance is added twice. -/
theorem C74_two_addresses_wrong : ∃ it s, (∀ p ∈ partsOf 0 it, p.constant) ∧ evaluate (lowerDecl it) = .ok s ∧
    (∃ at_ : Addresses, objLink at_ (objPatch s.data s.patches) s.patches 0 ≠ image at_ (partsOf 0 it) 0) ∧
    exeLoad 16 (exePatch 0 (fun _ => 7) s.data s.patches) s.patches 0 ≠ image (fun _ => 7 + 16) (partsOf 0 it) 0 := by
  refine ⟨.list false 0 (.cons 0 (.value (.addr (.object (.declaration 1 true))) 8)
      (.cons 0 (.value (.addr (.object (.declaration 2 true))) 8) .nil)) 8,
    ⟨fun _ => 0, [⟨.declaration 1 true, 0, 0⟩, ⟨.declaration 2 true, 0, 0⟩]⟩, ?_, rfl, ⟨fun _ => 5, by decide +kernel⟩,
    by decide +kernel⟩
  simp [partsOf, partsOfList, Part.constant, VExpr.plainIndices, LExpr.plainIndices, baseOf, objectOf]

/-- `long long x = 5 - (long long)&y;` is no constant expression, and there is no relocation for it. It is accepted; the value is that of `&y + 5`. -/
theorem C74_number_minus_address_wrong : ∃ e s, baseOf e = none ∧ evaluate (lowerDecl (.value e 8)) = .ok s ∧
    objLink (fun _ => 2) (objPatch s.data s.patches) s.patches 0 = 7 ∧ valueOf (fun _ => 2) e = 3 := by
  refine ⟨.sub (.int 5) (.addr (.object (.declaration 1 true))), ⟨fun _ => 0, [⟨.declaration 1 true, 5, 0⟩]⟩, by decide, rfl,
    by decide +kernel, by decide⟩

/-- `long long x = (long long)&y + (long long)&y;` is no constant expression. It is accepted; the value is 0. -/
theorem C74_sum_of_addresses_wrong : ∃ e s, baseOf e = none ∧ evaluate (lowerDecl (.value e 8)) = .ok s ∧
    objLink (fun _ => 2) (objPatch s.data s.patches) s.patches 0 = 0 ∧ valueOf (fun _ => 2) e = 4 := by
  refine ⟨.add (.addr (.object (.declaration 1 true))) (.addr (.object (.declaration 1 true))),
    ⟨copy (fun _ => 0) 0 8 (le 0), []⟩, by decide, rfl, by decide +kernel, by decide⟩

/-- `int *p = &a[&c - &c];` with `char c` is a constant expression, but the compiler dereferences a null pointer
(/repo/src/main.c 2389–2391). -/
theorem C74_difference_as_index_wrong : ∃ e s, baseOf e = some (some s) ∧ evaluate (lowerDecl (.value e 8)) = .crash :=
  ⟨.addr (.index (.object (.declaration 1 true))
    (.sub (.addr (.object (.declaration 2 true))) (.addr (.object (.declaration 2 true)))) 4), .declaration 1 true, by decide, rfl⟩

end Verif.Props.StaticInit
