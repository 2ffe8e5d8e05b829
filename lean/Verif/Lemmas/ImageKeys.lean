import Verif.Lemmas.Image

/-!
# Lemmas: the names of pushes are different
-/
namespace Verif.Lemmas.Image
open Verif.Model.Image Verif.Model.BaseReloc

/-- The part of the image something belongs to. -/
def group : Key → Nat
  | .func _ => 0
  | .stub _ => 1
  | .descriptors => 2
  | .dllName _ | .slots _ | .hint .. | .importName .. | .lookup _ => 3
  | .debugInfo | .debugDirectory => 4
  | .string _ => 5
  | .float _ => 6
  | .exportAddresses | .exportNames | .exportOrdinals | .exportDllName | .exportDirectory => 7
  | .exportName _ => 8
  | .tlsStart => 9
  | .tls _ => 10
  | .tlsEnd | .tlsCallbacks | .tlsDirectory => 11
  | .data _ => 12
  | .reloc => 13
  | .runtime => 14
  | .unwind _ => 15

/-- Pushes have names of the groups from `a` to `b`. -/
def Within (a b : Nat) (ps : List Push) : Prop := ∀ p ∈ ps, ∀ k, p.key = some k → a ≤ group k ∧ group k ≤ b

/-- The names in pushes are different. -/
def Names (ps : List Push) : Prop := ps.Pairwise (fun p q => Distinct p.key q.key)

/-- Different names in the groups from `a` to `b`. -/
def Good (a b : Nat) (ps : List Push) : Prop := Within a b ps ∧ Names ps

theorem good_append {a b c d : Nat} {ps qs : List Push} (h1 : Good a b ps) (h2 : Good c d qs) (h : b < c) (hab : a ≤ c) (hbd : b ≤ d) : Good a d (ps ++ qs) := by
  refine ⟨fun p hp k hk => ?_, ?_⟩
  · rcases List.mem_append.1 hp with hp | hp
    · have := h1.1 p hp k hk; omega
    · have := h2.1 p hp k hk; omega
  · unfold Names
    rw [List.pairwise_append]
    refine ⟨h1.2, h2.2, fun p hp q hq k hk hk' => ?_⟩
    have := h1.1 p hp k hk
    have := h2.1 q hq k hk'
    omega

theorem good_nil (a b : Nat) : Good a b [] := ⟨fun p hp => (nomatch hp), List.Pairwise.nil⟩

theorem good_mono {a b c d : Nat} {ps : List Push} (h : Good a b ps) (h1 : c ≤ a) (h2 : b ≤ d) : Good c d ps :=
  ⟨fun p hp k hk => by have := h.1 p hp k hk; omega, h.2⟩

theorem zipIdx_ordered {α : Type} (l : List α) : l.zipIdx.Pairwise (fun a b => a.2 < b.2) := by
  have : (l.zipIdx.map (·.2)).Pairwise (· < ·) := by
    rw [List.zipIdx_map_snd]; exact List.pairwise_lt_range'
  rwa [List.pairwise_map] at this

/-- A list of pushes with numbered names. -/
theorem good_map {α : Type} (l : List α) (f : α × Nat → Push) (key : Nat → Key) (g : Nat) (hg : ∀ i, group (key i) = g)
    (hi : ∀ i j, key i = key j → i = j) (hf : ∀ x, (f x).key = some (key x.2)) : Good g g (l.zipIdx.map f) := by
  refine ⟨fun p hp k hk => ?_, ?_⟩
  · obtain ⟨x, -, rfl⟩ := List.mem_map.1 hp
    rw [hf] at hk
    rw [← Option.some.inj hk, hg]
    exact ⟨Nat.le_refl _, Nat.le_refl _⟩
  · unfold Names
    rw [List.pairwise_map]
    refine (zipIdx_ordered l).imp (fun {x y} h k hx hy => ?_)
    rw [hf] at hx hy
    rw [← Option.some.inj hx] at hy
    have := hi _ _ (Option.some.inj hy)
    omega

theorem good_functions (p : Program) :
    Good 0 0 (p.functions.zipIdx.flatMap (fun f => [⟨some (.func f.2), 1, 0, f.1⟩, ⟨none, 16, 0xcc, []⟩])) := by
  refine ⟨fun q hq k hk => ?_, ?_⟩
  · obtain ⟨x, -, hx⟩ := List.mem_flatMap.1 hq
    simp only [List.mem_cons, List.not_mem_nil, or_false] at hx
    rcases hx with rfl | rfl
    · rw [← Option.some.inj hk]; exact ⟨Nat.le_refl _, Nat.le_refl _⟩
    · cases hk
  · unfold Names
    rw [List.pairwise_flatMap]
    refine ⟨fun x _ => ?_, (zipIdx_ordered _).imp (fun {x y} h q hq r hr k hk hk' => ?_)⟩
    · refine List.pairwise_cons.2 ⟨fun q hq k _ hk' => ?_, List.pairwise_singleton _ _⟩
      rw [List.mem_singleton] at hq; subst hq; cases hk'
    · simp only [List.mem_cons, List.not_mem_nil, or_false] at hq hr
      rcases hq with rfl | rfl
      · rcases hr with rfl | rfl
        · rw [← Option.some.inj hk] at hk'
          injection Option.some.inj hk' with e
          omega
        · cases hk'
      · cases hk

theorem good_text (p : Program) : Good 0 1 (textPushes p) :=
  good_append (good_functions p) (good_map _ _ .stub 1 (fun _ => rfl) (fun _ _ h => by injection h) (fun _ => rfl)) (by omega) (by omega) (by omega)

/-- The library a name belongs to. -/
def library : Key → Nat
  | .dllName d | .slots d | .hint d _ | .importName d _ | .lookup d => d
  | _ => 0

theorem dll_keys (n : Nat) (d : Dll) : ∀ q ∈ dllPushes n d, ∃ k, q.key = some k ∧ group k = 3 ∧ library k = n := by
  intro q hq
  unfold dllPushes at hq
  rcases List.mem_append.1 hq with hq | hq
  · rcases List.mem_append.1 hq with hq | hq
    · simp only [List.mem_cons, List.not_mem_nil, or_false] at hq
      rcases hq with rfl | rfl
      · exact ⟨_, rfl, rfl, rfl⟩
      · exact ⟨_, rfl, rfl, rfl⟩
    · obtain ⟨x, -, hx⟩ := List.mem_flatMap.1 hq
      split at hx
      · cases hx
      · simp only [List.mem_cons, List.not_mem_nil, or_false] at hx
        rcases hx with rfl | rfl
        · exact ⟨_, rfl, rfl, rfl⟩
        · exact ⟨_, rfl, rfl, rfl⟩
  · rw [List.mem_singleton] at hq
    subst hq
    exact ⟨_, rfl, rfl, rfl⟩

theorem dll_names (n : Nat) (d : Dll) : Names (dllPushes n d) := by
  unfold Names dllPushes
  rw [List.pairwise_append, List.pairwise_append]
  refine ⟨⟨?_, ?_, ?_⟩, List.pairwise_singleton _ _, ?_⟩
  · refine List.pairwise_cons.2 ⟨fun q hq k hk hk' => ?_, List.pairwise_singleton _ _⟩
    rw [List.mem_singleton] at hq; subst hq
    rw [← Option.some.inj hk] at hk'
    cases hk'
  · rw [List.pairwise_flatMap]
    refine ⟨fun x _ => ?_, (zipIdx_ordered _).imp (fun {x y} h q hq r hr k hk hk' => ?_)⟩
    · split
      · exact .nil
      · refine List.pairwise_cons.2 ⟨fun q hq k hk hk' => ?_, List.pairwise_singleton _ _⟩
        rw [List.mem_singleton] at hq; subst hq
        rw [← Option.some.inj hk] at hk'
        cases hk'
    · split at hq
      · cases hq
      · split at hr
        · cases hr
        · simp only [List.mem_cons, List.not_mem_nil, or_false] at hq hr
          rcases hq with rfl | rfl <;> rcases hr with rfl | rfl <;> rw [← Option.some.inj hk] at hk' <;>
            have hk' := Option.some.inj hk' <;> first | (cases hk'; done) | (injection hk' with e1 e2; omega)
  · intro q hq r hr k hk hk'
    obtain ⟨x, -, hx⟩ := List.mem_flatMap.1 hr
    split at hx
    · cases hx
    · simp only [List.mem_cons, List.not_mem_nil, or_false] at hq hx
      rcases hq with rfl | rfl <;> rcases hx with rfl | rfl <;> rw [← Option.some.inj hk] at hk' <;> cases hk'
  · intro q hq r hr k hk hk'
    rw [List.mem_singleton] at hr; subst hr
    rcases List.mem_append.1 hq with hq | hq
    · simp only [List.mem_cons, List.not_mem_nil, or_false] at hq
      rcases hq with rfl | rfl <;> rw [← Option.some.inj hk] at hk' <;> cases hk'
    · obtain ⟨x, -, hx⟩ := List.mem_flatMap.1 hq
      split at hx
      · cases hx
      · simp only [List.mem_cons, List.not_mem_nil, or_false] at hx
        rcases hx with rfl | rfl <;> rw [← Option.some.inj hk] at hk' <;> cases hk'

theorem good_imports (p : Program) : Good 2 3 (importPushes p) := by
  unfold importPushes
  split
  · exact good_nil _ _
  · refine good_append (ps := [_]) (a := 2) (b := 2) (c := 3) (d := 3) ⟨?_, List.pairwise_singleton _ _⟩ ⟨?_, ?_⟩ (by omega) (by omega) (by omega)
    · intro q hq k hk
      rw [List.mem_singleton] at hq; subst hq
      rw [← Option.some.inj hk]; exact ⟨Nat.le_refl _, Nat.le_refl _⟩
    · intro q hq k hk
      obtain ⟨x, -, hx⟩ := List.mem_flatMap.1 hq
      obtain ⟨k', hk', hg, -⟩ := dll_keys _ _ q hx
      rw [hk] at hk'
      rw [Option.some.inj hk', hg]; exact ⟨Nat.le_refl _, Nat.le_refl _⟩
    · unfold Names
      show (p.dlls.zipIdx.flatMap (fun d => dllPushes d.2 d.1)).Pairwise _
      rw [List.pairwise_flatMap]
      refine ⟨fun x _ => dll_names _ _, (zipIdx_ordered _).imp (fun {x y} h q hq r hr k hk hk' => ?_)⟩
      obtain ⟨k1, e1, -, l1⟩ := dll_keys _ _ q hq
      obtain ⟨k2, e2, -, l2⟩ := dll_keys _ _ r hr
      rw [hk] at e1
      rw [hk'] at e2
      rw [← Option.some.inj e1] at l1
      rw [← Option.some.inj e2] at l2
      omega

/-- A few pushes with names of one group. -/
theorem good_few {a : Nat} (ps : List Push) (h1 : ∀ k ∈ ps.filterMap (·.key), group k = a) (h2 : (ps.filterMap (·.key)).Nodup) : Good a a ps := by
  refine ⟨fun q hq k hk => ?_, ?_⟩
  · rw [h1 k (List.mem_filterMap.2 ⟨q, hq, hk⟩)]; exact ⟨Nat.le_refl _, Nat.le_refl _⟩
  · unfold Names
    clear h1
    induction ps with
    | nil => exact .nil
    | cons q ps ih =>
      refine List.pairwise_cons.2 ⟨fun r hr k hk hk' => ?_, ih ?_⟩
      · rw [List.filterMap_cons, hk, List.nodup_cons] at h2
        exact h2.1 (List.mem_filterMap.2 ⟨r, hr, hk'⟩)
      · rw [List.filterMap_cons] at h2
        split at h2
        · exact h2
        · exact (List.nodup_cons.1 h2).2

theorem good_debug (p : Program) : Good 4 4 (debugPushes p) := by
  unfold debugPushes
  split
  · exact good_nil _ _
  · exact good_few _ (by simp [group]) (by simp)

theorem good_exports (p : Program) : Good 7 8 (exportPushes p) := by
  unfold exportPushes
  split
  · exact good_nil _ _
  · refine good_append (good_few (a := 7) _ (by simp [group]) (by simp))
      (good_map _ _ .exportName 8 (fun _ => rfl) (fun _ _ h => by injection h) (fun _ => rfl)) (by omega) (by omega) (by omega)

theorem good_tls (p : Program) : Good 9 11 (tlsPushes p) := by
  unfold tlsPushes
  split
  · exact good_nil _ _
  · refine good_append (good_append (good_few (a := 9) _ (by simp [group]) (by simp))
      (good_map _ _ .tls 10 (fun _ => rfl) (fun _ _ h => by injection h) (fun _ => rfl)) (by omega) (by omega) (by omega))
      (good_few (a := 11) _ (by simp [group]) (by simp)) (by omega) (by omega) (by omega)

theorem good_rdata (p : Program) : Good 2 11 (rdataPushes p) := by
  unfold rdataPushes
  refine good_append (good_append (good_append (good_append (good_append (good_imports p) (good_debug p) ?_ ?_ ?_)
    (good_map _ _ .string 5 (fun _ => rfl) (fun _ _ h => by injection h) (fun _ => rfl)) ?_ ?_ ?_)
    (good_map _ _ .float 6 (fun _ => rfl) (fun _ _ h => by injection h) (fun _ => rfl)) ?_ ?_ ?_) (good_exports p) ?_ ?_ ?_) (good_tls p) ?_ ?_ ?_ <;> omega

theorem good_data (p : Program) : Good 12 12 (dataPushes p) :=
  good_map _ _ .data 12 (fun _ => rfl) (fun _ _ h => by injection h) (fun _ => rfl)

theorem good_reloc (p : Program) : Good 13 13 (relocPushes p) := good_few _ (by simp [group, relocPushes]) (by simp [relocPushes])

theorem good_pdata (p : Program) : Good 14 15 (pdataPushes p) :=
  good_append (ps := [_]) (good_few (a := 14) _ (by simp [group]) (by simp))
    (good_map _ _ .unwind 15 (fun _ => rfl) (fun _ _ h => by injection h) (fun _ => rfl)) (by omega) (by omega) (by omega)

/-- All pushes. -/
def earlyPushes (p : Program) : List Push := textPushes p ++ rdataPushes p ++ dataPushes p
def allPushes (p : Program) : List Push := earlyPushes p ++ relocPushes p ++ pdataPushes p

theorem good_early (p : Program) : Good 0 12 (earlyPushes p) :=
  good_append (good_append (good_text p) (good_rdata p) (by omega) (by omega) (by omega)) (good_data p) (by omega) (by omega) (by omega)

theorem good_all (p : Program) : Good 0 15 (allPushes p) :=
  good_append (good_append (good_early p) (good_reloc p) (by omega) (by omega) (by omega)) (good_pdata p) (by omega) (by omega) (by omega)

theorem early_distinct (p : Program) : ((early p).map (·.key)).Pairwise Distinct := by
  have : (early p).map (·.key) = (earlyPushes p).map (·.key) := by
    unfold early earlyPushes; simp only [List.map_append, place_keys]
  rw [this, List.pairwise_map]
  exact (good_early p).2

theorem placed_distinct (p : Program) : ((placed p).map (·.key)).Pairwise Distinct := by
  have : (placed p).map (·.key) = (allPushes p).map (·.key) := by
    unfold placed early allPushes earlyPushes; simp only [List.map_append, place_keys]
  rw [this, List.pairwise_map]
  exact (good_all p).2

end Verif.Lemmas.Image
