import Verif.Lemmas.Include

/-!
# Lemmas: the files of a directory, and their paths
-/
namespace Verif.Lemmas.Include
open Verif.Include
open Verif.Path (concatenate eatFront eatWhole stripSlashes popDirectories)
open Verif.Spec.Include

theorem fold_eq (s : Path) : fold s = s.map lower := by
  unfold fold
  congr 1
  funext c
  unfold lower
  by_cases h : c = 92
  · subst h; rfl
  · rw [if_neg h, if_neg h]
    by_cases h' : 65 ≤ c ∧ c ≤ 90
    · rw [if_pos h', if_pos h']
      have : ∀ c, c ≤ 90 → 65 ≤ c → c ||| 32 = c + 32 := by decide
      exact this c h'.2 h'.1
    · rw [if_neg h', if_neg h']

/-! ## Directories -/

theorem below_split {d : Path} {ns : List Node} {e : Path} {ms : List Node} : Below d ns e ms ↔
    (e = d ∧ ms = ns) ∨ ∃ n ks, Node.directory n ks ∈ ns ∧ Below (d ++ 47 :: n) ks e ms := by
  constructor
  · intro h
    induction h with
    | here => exact .inl ⟨rfl, rfl⟩
    | down h hm ih =>
      rcases ih with ⟨rfl, rfl⟩ | ⟨n, ks, h1, h2⟩
      · exact .inr ⟨_, _, hm, .here⟩
      · exact .inr ⟨n, ks, h1, .down h2 hm⟩
  · rintro (⟨rfl, rfl⟩ | ⟨n, ks, h1, h2⟩)
    · exact .here
    · induction h2 with
      | here => exact .down .here h1
      | down _ hm ih => exact .down ih hm

theorem mem_files {d : Path} {ns : List Node} {path : Path} : path ∈ files d ns ↔ ∃ n, Node.file n ∈ ns ∧ path = d ++ 47 :: n := by
  unfold files
  rw [List.mem_filterMap]
  constructor
  · rintro ⟨n, hn, h⟩
    cases n with
    | file n => simp only [Option.some.injEq] at h; exact ⟨n, hn, h.symm⟩
    | directory => cases h
  · rintro ⟨n, hn, rfl⟩; exact ⟨_, hn, rfl⟩

theorem hasFile_split {d : Path} {ns : List Node} {path : Path} : HasFile d ns path ↔
    path ∈ files d ns ∨ ∃ n ks, Node.directory n ks ∈ ns ∧ HasFile (d ++ 47 :: n) ks path := by
  rw [mem_files]
  constructor
  · rintro ⟨e, ms, n, h, hn, rfl⟩
    rcases below_split.1 h with ⟨rfl, rfl⟩ | ⟨n', ks, h1, h2⟩
    · exact .inl ⟨n, hn, rfl⟩
    · exact .inr ⟨n', ks, h1, e, ms, n, h2, hn, rfl⟩
  · rintro (⟨n, hn, rfl⟩ | ⟨n', ks, h1, e, ms, n, h2, hn, rfl⟩)
    · exact ⟨d, ns, n, .here, hn, rfl⟩
    · exact ⟨e, ms, n, below_split.2 (.inr ⟨n', ks, h1, h2⟩), hn, rfl⟩

theorem mem_push {d : Path} {x : Path × List Node} : (ns : List Node) → (stack : List (Path × List Node)) →
    (x ∈ push d ns stack ↔ x ∈ stack ∨ ∃ n ks, Node.directory n ks ∈ ns ∧ x = (d ++ 47 :: n, ks))
  | [], stack => by simp [push]
  | .file n :: ns, stack => by
    have := mem_push (d := d) (x := x) ns stack
    unfold push at this ⊢
    rw [List.foldl_cons, this]
    simp
  | .directory n ks :: ns, stack => by
    have := mem_push (d := d) (x := x) ns ((d ++ 47 :: n, ks) :: stack)
    unfold push at this ⊢
    rw [List.foldl_cons, this]
    constructor
    · rintro (h | ⟨n', ks', h, e⟩)
      · rcases List.mem_cons.1 h with rfl | h
        · exact .inr ⟨n, ks, List.mem_cons_self, rfl⟩
        · exact .inl h
      · exact .inr ⟨n', ks', List.mem_cons_of_mem _ h, e⟩
    · rintro (h | ⟨n', ks', h, e⟩)
      · exact .inl (List.mem_cons_of_mem _ h)
      · rcases List.mem_cons.1 h with h | h
        · cases h; exact .inl (by rw [e]; exact List.mem_cons_self)
        · exact .inr ⟨n', ks', h, e⟩

/-- The directories that are left. -/
def weight : List (Path × List Node) → Nat
  | [] => 0
  | d :: l => 1 + nodesSize d.2 + weight l

theorem weight_push {d : Path} : (ns : List Node) → (stack : List (Path × List Node)) → weight (push d ns stack) = nodesSize ns + weight stack
  | [], stack => by simp [push, nodesSize]
  | .file n :: ns, stack => by
    have := weight_push (d := d) ns stack
    unfold push at this ⊢
    rw [List.foldl_cons, this, nodesSize, nodeSize]; omega
  | .directory n ks :: ns, stack => by
    have := weight_push (d := d) ns ((d ++ 47 :: n, ks) :: stack)
    unfold push at this ⊢
    rw [List.foldl_cons, this, nodesSize, nodeSize, weight]
    show _ + (1 + nodesSize ks + _) = _
    omega

/-- No path of a directory is too long for the search. -/
def Short (d : Path) (ns : List Node) : Prop := ∀ e ms, Below d ns e ms → e.length + 3 < 260

theorem walk_spec (path : Path) : (fuel : Nat) → (stack : List (Path × List Node)) → weight stack ≤ fuel → (∀ d ∈ stack, Short d.1 d.2) →
    (path ∈ walk fuel stack ↔ ∃ d ∈ stack, HasFile d.1 d.2 path)
  | 0, [], _, _ => by simp [walk]
  | 0, d :: stack, h, _ => by simp only [weight] at h; omega
  | fuel + 1, [], _, _ => by simp [walk]
  | fuel + 1, (d, ns) :: stack, h, hs => by
    have h0 := hs _ List.mem_cons_self d ns .here
    have ih := walk_spec path fuel (push d ns stack) (by rw [weight_push]; simp only [weight] at h; omega) (by
      intro x hx
      rcases (mem_push ns stack).1 hx with hx | ⟨n, ks, hn, rfl⟩
      · exact hs x (List.mem_cons_of_mem _ hx)
      · intro e ms hb
        exact hs _ List.mem_cons_self e ms (below_split.2 (.inr ⟨n, ks, hn, hb⟩)))
    rw [walk, if_neg (by omega), List.mem_append, ih]
    constructor
    · rintro (h | ⟨x, hx, h⟩)
      · exact ⟨_, List.mem_cons_self, hasFile_split.2 (.inl h)⟩
      · rcases (mem_push ns stack).1 hx with hx | ⟨n, ks, hn, rfl⟩
        · exact ⟨x, List.mem_cons_of_mem _ hx, h⟩
        · exact ⟨_, List.mem_cons_self, hasFile_split.2 (.inr ⟨n, ks, hn, h⟩)⟩
    · rintro ⟨x, hx, h⟩
      rcases List.mem_cons.1 hx with rfl | hx
      · rcases hasFile_split.1 h with h | ⟨n, ks, hn, h⟩
        · exact .inl h
        · exact .inr ⟨_, (mem_push ns stack).2 (.inr ⟨n, ks, hn, rfl⟩), h⟩
      · exact .inr ⟨x, (mem_push ns stack).2 (.inl hx), h⟩

theorem filesOf_spec {d : Path × List Node} (hs : Short d.1 d.2) (path : Path) : path ∈ filesOf d ↔ HasFile d.1 d.2 path := by
  unfold filesOf
  rw [walk_spec path _ _ (by simp only [weight]; omega) (by intro x hx; rw [List.mem_singleton.1 hx]; exact hs)]
  simp

/-! ## Paths -/

theorem parts_ne : (s : Path) → parts s ≠ []
  | [] => by simp [parts]
  | c :: s => by
    rw [parts]
    split
    · simp
    · split <;> simp

theorem parts_append : (a b : Path) → parts (a ++ 47 :: b) = parts a ++ parts b
  | [], b => by simp [parts]
  | c :: a, b => by
    rw [List.cons_append, parts, parts, parts_append a b]
    by_cases h : c = 47
    · simp [h]
    · rw [if_neg h, if_neg h]
      cases hp : parts a with
      | nil => exact absurd hp (parts_ne a)
      | cons p ps => rfl

theorem parts_name : (n : Path) → 47 ∉ n → parts n = [n]
  | [], _ => rfl
  | c :: n, h => by
    rw [List.mem_cons] at h
    rw [parts, if_neg (fun e => h (.inl e.symm)), parts_name n (fun e => h (.inr e))]

theorem lower_dot {c : Nat} (h : lower c = 46) : c = 46 := by
  unfold lower at h
  split at h
  · cases h
  · split at h
    · omega
    · exact h

theorem lower_sep {c : Nat} (h : lower c = 47 ∨ lower c = 92) : c = 47 ∨ c = 92 := by
  unfold lower at h
  split at h
  · exact .inr (by assumption)
  · split at h <;> omega

theorem name_lower {n : Path} (h : Name n) : Name (n.map lower) := by
  obtain ⟨h1, h2, h3, h4, h5⟩ := h
  refine ⟨by simpa using h1, ?_, ?_, ?_, ?_⟩
  · intro e
    rcases n with _ | ⟨c, _ | ⟨c', n⟩⟩
    · cases e
    · simp only [List.map_cons, List.map_nil, List.cons.injEq, and_true] at e; exact h2 (by rw [lower_dot e])
    · simp at e
  · intro e
    rcases n with _ | ⟨c, _ | ⟨c', _ | ⟨c'', n⟩⟩⟩
    · cases e
    · simp at e
    · simp only [List.map_cons, List.map_nil, List.cons.injEq, and_true] at e
      exact h3 (by rw [lower_dot e.1, lower_dot e.2])
    · simp at e
  · intro e
    obtain ⟨c, hc, e⟩ := List.mem_map.1 e
    rcases lower_sep (.inl e) with rfl | rfl
    · exact h4 hc
    · exact h5 hc
  · intro e
    obtain ⟨c, hc, e⟩ := List.mem_map.1 e
    rcases lower_sep (.inr e) with rfl | rfl
    · exact h4 hc
    · exact h5 hc

/-- The names in a directory are names. -/
def Named (d : Path) (ns : List Node) : Prop := ∀ e ms, Below d ns e ms → (∀ n, Node.file n ∈ ms → Name n) ∧ ∀ n ks, Node.directory n ks ∈ ms → Name n

theorem plain_name {n : Path} (h : Name n) : Plain (n.map lower) := by
  intro p hp
  rw [parts_name _ (name_lower h).2.2.2.1, List.mem_singleton] at hp
  rw [hp]
  exact name_lower h

theorem plain_append {s n : Path} (hs : Plain (s.map lower)) (h : Name n) : Plain ((s ++ 47 :: n).map lower) := by
  rw [List.map_append, List.map_cons, show lower 47 = 47 from rfl]
  intro p hp
  rw [parts_append, List.mem_append] at hp
  rcases hp with hp | hp
  · exact hs p hp
  · exact plain_name h p hp

theorem below_path {d : Path} {ns : List Node} (hn : Named d ns) {e : Path} {ms : List Node} (h : Below d ns e ms) :
    e = d ∨ ∃ s, e = d ++ 47 :: s ∧ Plain (s.map lower) := by
  induction h with
  | here => exact .inl rfl
  | down h hm ih =>
    have hname := (hn _ _ h).2 _ _ hm
    rcases ih with rfl | ⟨s, rfl, hs⟩
    · exact .inr ⟨_, rfl, plain_name hname⟩
    · exact .inr ⟨_, by rw [List.append_assoc, List.cons_append], plain_append hs hname⟩

theorem file_path {d : Path} {ns : List Node} (hn : Named d ns) {path : Path} (h : HasFile d ns path) : ∃ s, path = d ++ 47 :: s ∧ Plain (s.map lower) := by
  obtain ⟨e, ms, n, hb, hm, rfl⟩ := h
  have hname := (hn _ _ hb).1 _ hm
  rcases below_path hn hb with rfl | ⟨s, rfl, hs⟩
  · exact ⟨_, rfl, plain_name hname⟩
  · exact ⟨_, by rw [List.append_assoc, List.cons_append], plain_append hs hname⟩

theorem drop_root (d s : Path) : (d ++ 47 :: s).drop (d.length + 1) = s := by
  rw [show d ++ 47 :: s = (d ++ [47]) ++ s by simp, show d.length + 1 = (d ++ [47]).length by simp, List.drop_left]

theorem take_root (d s : Path) : (d ++ 47 :: s).take (d.length + 1) = d ++ [47] := by
  rw [show d ++ 47 :: s = (d ++ [47]) ++ s by simp, show d.length + 1 = (d ++ [47]).length by simp, List.take_left]

theorem plain_front {x : Path} (h : Plain x) : eatWhole (eatFront 0 x) = (x, 0) := by
  have e : eatFront 0 x = (x, 0) := by
    unfold eatFront
    split
    · exact absurd rfl (h [] (by rw [parts, if_pos rfl]; exact List.mem_cons_self)).1
    · exact absurd rfl (h [46] (by rw [parts, if_neg (by decide), parts, if_pos rfl]; exact List.mem_cons_self)).2.1
    · exact absurd rfl (h [46, 46] (by rw [parts, if_neg (by decide), parts, if_neg (by decide), parts, if_pos rfl]; exact List.mem_cons_self)).2.2.1
    · rfl
  rw [e]
  unfold eatWhole
  split
  · rename_i h'
    have h' : x = [46] := h'
    subst h'
    exact absurd rfl (h [46] List.mem_cons_self).2.1
  · split
    · rename_i h'
      have h' : x = [46, 46] := h'
      subst h'
      exact absurd rfl (h [46, 46] List.mem_cons_self).2.2.1
    · rfl

theorem concatenate_plain {r x : Path} (hr : r.getLast? ≠ some 47) (hx : Plain x) : concatenate r x = r ++ 47 :: x := by
  unfold concatenate
  rw [plain_front hx]
  have hs : stripSlashes r = r := by rw [stripSlashes, if_neg (fun h => hr h.2)]
  have hne : x.length ≠ 0 := fun h => by
    have : x = [] := List.length_eq_zero_iff.1 h
    subst this
    exact (hx [] List.mem_cons_self).1 rfl
  simp only [popDirectories, hs]
  rw [if_neg hne]

end Verif.Lemmas.Include
