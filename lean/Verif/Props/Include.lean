import Verif.Lemmas.IncludeWalk

/-!
# C83: which file an include directive includes
-/
namespace Verif.Props.Include
open Verif.Include
open Verif.Lemmas.Include
open Verif.Path (concatenate stripFileName canonicalizeSlashes)
open Verif.Spec.Include

theorem findSome_bind {α : Type} (g : α → Option Path) (f : α → Option Nat) (disk : Path → Option Nat) : (l : List α) →
    (∀ d ∈ l, (g d).bind disk = f d ∧ ((g d).isSome → (f d).isSome)) → (l.findSome? g).bind disk = l.findSome? f
  | [], _ => rfl
  | d :: l, h => by
    have ih := findSome_bind g f disk l (fun d hd => h d (List.mem_cons_of_mem _ hd))
    obtain ⟨h1, h2⟩ := h d List.mem_cons_self
    rw [List.findSome?_cons, List.findSome?_cons]
    cases hg : g d with
    | none =>
      rw [hg] at h1
      rw [← h1]
      exact ih
    | some v =>
      rw [hg] at h1 h2
      have := h2 rfl
      obtain ⟨x, hx⟩ := Option.isSome_iff_exists.1 this
      rw [hx]
      rw [hx] at h1
      exact h1

theorem walk_bind (w : World) (inc : Path) : (l : List Path) → (walkDirectories w inc l).bind w.disk = l.findSome? (fun d => w.disk (concatenate d inc))
  | [] => rfl
  | d :: l => by
    rw [walkDirectories, List.findSome?_cons]
    cases h : w.disk (concatenate d inc) with
    | none => simp only [Option.isSome_none, Bool.false_eq_true, if_false]; exact walk_bind w inc l
    | some x => simp only [Option.isSome_some, if_true, Option.bind_some, h]

/-- What is in the table for a directory. -/
theorem entries_find {w : World} (hw : Faithful w.directories w.disk) {d : Path × List Node} (hd : d ∈ w.directories) (x : Path) :
    (∀ v, ((entriesOf d).find? (fun e => e.1 = x)).map Prod.snd = some v → v = d.1 ++ 47 :: x ∧ ∃ s, HasFile d.1 d.2 (d.1 ++ 47 :: s) ∧ s.map lower = x) ∧
    (((entriesOf d).find? (fun e => e.1 = x)).map Prod.snd = none → ∀ s, HasFile d.1 d.2 (d.1 ++ 47 :: s) → s.map lower ≠ x) := by
  have hn : Named d.1 d.2 := hw.named d hd
  have hf := filesOf_spec (d := d) (hw.short d hd)
  constructor
  · intro v hv
    obtain ⟨e, he, rfl⟩ := Option.map_eq_some_iff.1 hv
    have hx := List.find?_some he
    have hx : e.1 = x := by simpa using hx
    obtain ⟨path, hp, rfl⟩ := List.mem_map.1 (List.mem_of_find?_eq_some he)
    have hh := (hf path).1 hp
    obtain ⟨s, rfl, -⟩ := file_path hn hh
    simp only [entry, drop_root, take_root, fold_eq] at hx ⊢
    exact ⟨by rw [hx]; simp, s, hh, hx⟩
  · intro hv s hs e
    have hv := Option.map_eq_none_iff.1 hv
    rw [List.find?_eq_none] at hv
    refine hv _ (List.mem_map.2 ⟨_, (hf _).2 hs, rfl⟩) ?_
    simp only [entry, drop_root, fold_eq, e, decide_true]

theorem table_find {w : World} (hw : Faithful w.directories w.disk) (hash : Path → Nat) (x : Path) : (systemFolded hash w x).bind w.disk =
    w.roots.findSome? (fun d => w.disk (concatenate d x)) := by
  unfold systemFolded
  rw [find_table]
  cases ht : w.directories.findSome? (fun d => ((entriesOf d).find? (fun e => e.1 = x)).map Prod.snd) with
  | none => exact walk_bind w x w.roots
  | some path =>
    simp only []
    obtain ⟨d', hd', hx⟩ := List.exists_of_findSome?_eq_some ht
    obtain ⟨-, s, hs, rfl⟩ := (entries_find hw hd' x).1 _ hx
    have hplain : Plain (s.map lower) := by
      obtain ⟨s', e, h⟩ := file_path (hw.named d' hd') hs
      have : s = s' := by simpa using e
      rw [this]; exact h
    rw [← ht]
    unfold World.roots
    rw [List.findSome?_map]
    apply findSome_bind
    intro d hd
    have hc := concatenate_plain (hw.roots d hd) hplain
    have hl := hw.listed d hd d' hd' s hs
    obtain ⟨e1, e2⟩ := entries_find hw hd (s.map lower)
    simp only [Function.comp_apply, hc]
    cases hg : ((entriesOf d).find? (fun e => e.1 = s.map lower)).map Prod.snd with
    | none =>
      refine ⟨?_, fun h => by cases h⟩
      cases hdisk : w.disk (d.1 ++ 47 :: s.map lower) with
      | none => rfl
      | some y =>
        obtain ⟨s', h1, h2⟩ := hl.1 (by rw [hdisk]; rfl)
        exact absurd h2 (e2 hg s' h1)
    | some v =>
      obtain ⟨rfl, s', h1, h2⟩ := e1 v hg
      exact ⟨rfl, fun _ => hl.2 ⟨s', h1, h2⟩⟩

/-- `#include <>` includes the file of the first system include directory that has it. -/
theorem C83_system (w : World) (hw : Faithful w.directories w.disk) (hash : Path → Nat) (inc : Path) (hi : Plain (inc.map lower)) :
    (includeSystem hash w inc).bind w.disk = first w.disk (w.directories.map Prod.fst) (inc.map lower) := by
  unfold includeSystem
  rw [fold_eq, table_find hw hash, first]
  unfold World.roots
  rw [List.findSome?_map, List.findSome?_map]
  have : ∀ l : List (Path × List Node), (∀ d ∈ l, d.1.getLast? ≠ some 47) → l.findSome? ((fun d => w.disk (concatenate d (inc.map lower))) ∘ Prod.fst) =
      l.findSome? ((fun d => w.disk (d ++ 47 :: inc.map lower)) ∘ Prod.fst) := by
    intro l hl
    induction l with
    | nil => rfl
    | cons d l ih =>
      rw [List.findSome?_cons, List.findSome?_cons, ih (fun d hd => hl d (List.mem_cons_of_mem _ hd)), Function.comp_apply, Function.comp_apply,
        concatenate_plain (hl d List.mem_cons_self) hi]
  exact this w.directories hw.roots

/-- The same for strings with `..` and the like: the paths are put together as C52 says. -/
theorem C83_system_any (w : World) (hw : Faithful w.directories w.disk) (hash : Path → Nat) (inc : Path) :
    (includeSystem hash w inc).bind w.disk = (w.directories.map Prod.fst).findSome? (fun d => w.disk (concatenate d (inc.map lower))) := by
  unfold includeSystem
  rw [fold_eq, table_find hw hash]
  rfl

theorem canonical_of {s : Path} (h : 92 ∉ s) : canonicalizeSlashes s = s := by
  unfold canonicalizeSlashes
  conv => rhs; rw [← List.map_id s]
  apply List.map_congr_left
  intro c hc
  rw [if_neg (fun e => h (by rw [← e]; exact hc))]
  rfl

theorem lower_no_backslash (s : Path) : 92 ∉ s.map lower := by
  intro h
  obtain ⟨c, -, e⟩ := List.mem_map.1 h
  unfold lower at e
  split at e
  · omega
  · split at e <;> omega

/-- The directory of a file: everything before its name. -/
theorem stripFileName_of (d n : Path) (hn : 47 ∉ n ∧ 92 ∉ n) : stripFileName (d ++ 47 :: n) = d ++ [47] := by
  have key : ∀ k, k ≤ n.length → Verif.Path.scanBack Verif.Path.isSlash (d ++ 47 :: n) (d.length + 1 + k) = some d.length := by
    intro k
    induction k with
    | zero =>
      intro _
      rw [Nat.add_zero, Verif.Path.scanBack]
      have : (d ++ 47 :: n).getD d.length 0 = 47 := by simp
      rw [this]; rfl
    | succ k ih =>
      intro hk
      rw [← Nat.add_assoc, Verif.Path.scanBack]
      have e : (d ++ 47 :: n).getD (d.length + 1 + k) 0 = n[k]'(by omega) := by
        rw [List.getD_eq_getElem?_getD, List.getElem?_append_right (by omega), show d.length + 1 + k - d.length = k + 1 by omega, List.getElem?_cons_succ,
          List.getElem?_eq_getElem (by omega)]
        rfl
      have hm : n[k]'(by omega) ∈ n := List.getElem_mem _
      have : Verif.Path.isSlash (n[k]'(by omega)) = false := by
        unfold Verif.Path.isSlash
        have h1 : n[k]'(by omega) ≠ 47 := fun e => hn.1 (e ▸ hm)
        have h2 : n[k]'(by omega) ≠ 92 := fun e => hn.2 (e ▸ hm)
        simp [h1, h2]
      rw [e, this]
      exact ih (by omega)
  unfold stripFileName Verif.Path.onePastLastSlash
  have := key n.length (Nat.le_refl _)
  rw [show (d ++ 47 :: n).length = d.length + 1 + n.length by simp; omega, this]
  exact take_root d n

/-- `#include ""` includes the file in the directory of the file with the directive, or, if there is none, what `#include <>` would. -/
theorem C83_quoted (w : World) (hw : Faithful w.directories w.disk) (hash : Path → Nat) (d n inc : Path) (hn : 47 ∉ n ∧ 92 ∉ n) (hd : 92 ∉ d)
    (hd' : 2 ≤ d.length) (hd'' : d.getLast? ≠ some 47) (hi : Plain (inc.map lower)) :
    (includeQuoted hash w (d ++ 47 :: n) inc).bind w.disk = first w.disk (d :: w.directories.map Prod.fst) (inc.map lower) := by
  have hc : canonicalizeSlashes (concatenate (stripFileName (d ++ 47 :: n)) (fold inc)) = d ++ 47 :: inc.map lower := by
    rw [stripFileName_of d n hn, fold_eq]
    have : concatenate (d ++ [47]) (inc.map lower) = concatenate d (inc.map lower) := by
      unfold concatenate
      rw [plain_front hi]
      simp only [Verif.Path.popDirectories]
      have : Verif.Path.stripSlashes (d ++ [47]) = Verif.Path.stripSlashes d := by
        rw [Verif.Path.stripSlashes, if_pos ⟨by rw [List.length_append, List.length_singleton]; omega, by simp⟩, List.dropLast_concat]
      rw [this]
    rw [this, concatenate_plain hd'' hi, canonical_of]
    intro h
    rcases List.mem_append.1 h with h | h
    · exact hd h
    · rcases List.mem_cons.1 h with h | h
      · cases h
      · exact lower_no_backslash _ h
  have hs := C83_system w hw hash inc hi
  unfold includeSystem at hs
  unfold includeQuoted
  simp only [hc]
  rw [first, List.findSome?_cons]
  cases h : w.disk (d ++ 47 :: inc.map lower) with
  | none => simp only [Option.isSome_none, Bool.false_eq_true, if_false]; exact hs
  | some x => simp only [Option.isSome_some, if_true, Option.bind_some, h]

/-! ## `#include_next` -/

theorem agrees_self : (a b : Path) → agrees a (a ++ b) = true
  | [], b => by rw [agrees]
  | c :: a, b => by rw [List.cons_append, agrees, agrees_self a b]; simp

theorem walkNext_skip (w : World) (parent inc : Path) : (before after : List Path) → (∀ d ∈ before, agrees d parent = false) →
    walkNext w parent inc (before ++ after) = walkNext w parent inc after
  | [], _, _ => rfl
  | d :: before, after, h => by
    rw [List.cons_append, walkNext, h d List.mem_cons_self]
    exact walkNext_skip w parent inc before after (fun d hd => h d (List.mem_cons_of_mem _ hd))

/-- The paths differ at a place that both have. -/
def Differ (a b : Path) : Prop := ∃ (i x y : Nat), a[i]? = some x ∧ b[i]? = some y ∧ x ≠ y

theorem agrees_differ : (a b : Path) → Differ a b → agrees a b = false
  | [], _, ⟨_, _, _, h, _, _⟩ => by cases h
  | _ :: _, [], ⟨_, _, _, _, h, _⟩ => by cases h
  | a :: as, b :: bs, ⟨i, x, y, h1, h2, h3⟩ => by
    rw [agrees]
    cases i with
    | zero =>
      simp only [List.getElem?_cons_zero, Option.some.injEq] at h1 h2
      have : ¬ a = b := by rw [h1, h2]; exact h3
      simp [this]
    | succ i => rw [agrees_differ as bs ⟨i, x, y, h1, h2, h3⟩, Bool.and_false]

/-- `#include_next` in a file of a system include directory searches in the directories after it, if no path of an earlier directory is the start of the path of
the file. (What is missing is this condition, see `C83_next_wrong`.) -/
theorem C83_next_partial (w : World) (hr : ∀ d ∈ w.directories, d.1.getLast? ≠ some 47) (before after : List Path) (d rel inc : Path)
    (hd : w.directories.map Prod.fst = before ++ d :: after) (hb : ∀ b ∈ before, Differ b (d ++ 47 :: rel)) (hi : Plain inc) :
    (includeNext w (d ++ 47 :: rel) inc).bind w.disk = first w.disk after inc := by
  unfold includeNext World.roots
  rw [hd, walkNext_skip _ _ _ _ _ (fun b h => agrees_differ _ _ (hb b h)), walkNext, agrees_self, if_pos rfl, walk_bind, first]
  have : ∀ l : List Path, (∀ d ∈ l, d.getLast? ≠ some 47) → l.findSome? (fun d => w.disk (concatenate d inc)) = l.findSome? (fun d => w.disk (d ++ 47 :: inc)) := by
    intro l hl
    induction l with
    | nil => rfl
    | cons d l ih =>
      rw [List.findSome?_cons, List.findSome?_cons, ih (fun d hd => hl d (List.mem_cons_of_mem _ hd)), concatenate_plain (hl d List.mem_cons_self) hi]
  apply this
  intro a ha
  have : a ∈ w.directories.map Prod.fst := by rw [hd]; exact List.mem_append_right _ (List.mem_cons_of_mem _ ha)
  obtain ⟨x, hx, rfl⟩ := List.mem_map.1 this
  exact hr x hx

/-! ## `#pragma once` -/

/-- The includes of a history, with what happened before. -/
def includes : List Event → List Event → List (Path × List Event)
  | _, [] => []
  | past, .include_ path :: es => (path, past) :: includes (past ++ [.include_ path]) es
  | past, .once path :: es => includes (past ++ [.once path]) es

theorem run_spec : (es past : List Event) → (list : List Path) → (∀ p, p ∈ list ↔ Event.once p ∈ past) →
    run list es = (includes past es).map (fun x => !decide (Event.once x.1 ∈ x.2))
  | [], _, _, _ => rfl
  | .include_ path :: es, past, list, h => by
    rw [run, includes, List.map_cons, run_spec es (past ++ [.include_ path]) list (by intro p; rw [h]; simp)]
    congr 2
    rw [Bool.eq_iff_iff]
    simp [h]
  | .once path :: es, past, list, h => by
    rw [run, includes, run_spec es (past ++ [.once path]) (list ++ [path]) (by intro p; simp [h])]

/-- An include of a path has an effect exactly if there was no `#pragma once` in the file with that path before. -/
theorem C83_once_partial (es : List Event) : run [] es = (includes [] es).map (fun x => !decide (Event.once x.1 ∈ x.2)) :=
  run_spec es [] [] (by simp)

/-! ## An example -/

theorem below_all {d : Path} {ns : List Node} (P : Path → List Node → Prop) (h0 : P d ns)
    (h : ∀ x ∈ ns, match x with | .directory n ks => ∀ e ms, Below (d ++ 47 :: n) ks e ms → P e ms | .file _ => True) : ∀ e ms, Below d ns e ms → P e ms := by
  intro e ms hb
  rcases below_split.1 hb with ⟨rfl, rfl⟩ | ⟨n, ks, hn, hb⟩
  · exact h0
  · exact h _ hn e ms hb

theorem faithful_of {ds : List (Path × List Node)} {disk : Path → Option Nat} (h1 : ∀ d ∈ ds, d.1.getLast? ≠ some 47)
    (h2 : ∀ d ∈ ds, ∀ e ms, Below d.1 d.2 e ms → e.length + 3 < 260 ∧ (∀ n, Node.file n ∈ ms → Name n) ∧ ∀ n ks, Node.directory n ks ∈ ms → Name n)
    (h3 : ∀ d ∈ ds, ∀ d' ∈ ds, ∀ p ∈ filesOf d', (disk (d.1 ++ 47 :: (p.drop (d'.1.length + 1)).map lower)).isSome =
      (filesOf d).any (fun q => decide ((q.drop (d.1.length + 1)).map lower = (p.drop (d'.1.length + 1)).map lower))) : Faithful ds disk where
  roots := h1
  named := fun d hd e ms hb => (h2 d hd e ms hb).2
  short := fun d hd e ms hb => (h2 d hd e ms hb).1
  listed := by
    intro d hd d' hd' s hs
    have hf : ∀ d ∈ ds, ∀ p, p ∈ filesOf d ↔ HasFile d.1 d.2 p := fun d hd => filesOf_spec (fun e ms hb => (h2 d hd e ms hb).1)
    have := h3 d hd d' hd' _ ((hf d' hd' _).2 hs)
    rw [drop_root] at this
    rw [this, List.any_eq_true]
    constructor
    · rintro ⟨q, hq, e⟩
      have hq := (hf d hd q).1 hq
      obtain ⟨s', rfl, -⟩ := file_path (fun e ms hb => (h2 d hd e ms hb).2) hq
      rw [drop_root] at e
      exact ⟨s', hq, by simpa using e⟩
    · rintro ⟨s', h, e⟩
      exact ⟨_, (hf d hd _).2 h, by rw [drop_root]; simpa using e⟩

/-- "C:/a" has "x.h" and "sys/T.h", "C:/b" has "X.h" and "y.h". -/
def sampleDirectories : List (Path × List Node) :=
  [([67, 58, 47, 97], [.file [120, 46, 104], .directory [115, 121, 115] [.file [84, 46, 104]]]), ([67, 58, 47, 98], [.file [88, 46, 104], .file [121, 46, 104]])]

def sample : World where
  directories := sampleDirectories
  disk := fun p =>
    if p = [67, 58, 47, 97, 47, 120, 46, 104] then some 1
    else if p = [67, 58, 47, 97, 47, 115, 121, 115, 47, 116, 46, 104] then some 2
    else if p = [67, 58, 47, 98, 47, 120, 46, 104] then some 3
    else if p = [67, 58, 47, 98, 47, 121, 46, 104] then some 4
    else if p = [67, 58, 47, 112, 47, 121, 46, 104] ∨ p = [67, 58, 47, 112, 47, 115, 47, 46, 46, 47, 121, 46, 104] then some 5
    else none

theorem sample_faithful : Faithful sample.directories sample.disk := by
  apply faithful_of
  · decide
  · intro d hd
    rcases List.mem_cons.1 hd with rfl | hd
    · apply below_all
      · exact ⟨by decide, by unfold Name; simp, by unfold Name; simp⟩
      · intro x hx
        simp only [List.mem_cons, List.not_mem_nil, or_false] at hx
        rcases hx with rfl | rfl
        · trivial
        · apply below_all
          · exact ⟨by decide, by unfold Name; simp, by unfold Name; simp⟩
          · intro x hx
            simp only [List.mem_cons, List.not_mem_nil, or_false] at hx
            subst hx; trivial
    · rw [List.mem_singleton.1 hd]
      apply below_all
      · exact ⟨by decide, by unfold Name; simp, by unfold Name; simp⟩
      · intro x hx
        simp only [List.mem_cons, List.not_mem_nil, or_false] at hx
        rcases hx with rfl | rfl <;> trivial
  · intro d hd d' hd'
    have hd := (List.mem_cons.1 hd).imp_right List.mem_singleton.1
    have hd' := (List.mem_cons.1 hd').imp_right List.mem_singleton.1
    rcases hd with rfl | rfl <;> rcases hd' with rfl | rfl <;> decide

-- "#include <X.h>", "#include <sys/t.h>", "#include <y.h>", "#include <z.h>"
example : (includeSystem stringHash sample [88, 46, 104]).bind sample.disk = some 1 := by
  rw [C83_system sample sample_faithful _ _ (by unfold Plain Name; decide)]; decide
example : (includeSystem stringHash sample [115, 121, 115, 47, 116, 46, 104]).bind sample.disk = some 2 := by
  rw [C83_system sample sample_faithful _ _ (by unfold Plain Name; decide)]; decide
example : (includeSystem stringHash sample [121, 46, 104]).bind sample.disk = some 4 := by
  rw [C83_system sample sample_faithful _ _ (by unfold Plain Name; decide)]; decide
example : (includeSystem stringHash sample [122, 46, 104]).bind sample.disk = none := by
  rw [C83_system sample sample_faithful _ _ (by unfold Plain Name; decide)]; decide
-- #include <sys/T.h>, by evaluation
example : includeSystem stringHash sample [115, 121, 115, 47, 84, 46, 104] = some [67, 58, 47, 97, 47, 115, 121, 115, 47, 116, 46, 104] := by decide +kernel
-- #include "y.h" in "C:/p/m.c", where there is one, and in "C:/q/m.c", where there is none
example : (includeQuoted stringHash sample ([67, 58, 47, 112] ++ 47 :: [109, 46, 99]) [121, 46, 104]).bind sample.disk = some 5 := by
  rw [C83_quoted sample sample_faithful _ _ _ _ (by decide) (by decide) (by decide) (by decide) (by unfold Plain Name; decide)]; decide
example : (includeQuoted stringHash sample ([67, 58, 47, 113] ++ 47 :: [109, 46, 99]) [121, 46, 104]).bind sample.disk = some 4 := by
  rw [C83_quoted sample sample_faithful _ _ _ _ (by decide) (by decide) (by decide) (by decide) (by unfold Plain Name; decide)]; decide
-- #include_next <x.h> in "C:/a/x.h"
example : (includeNext sample ([67, 58, 47, 97] ++ 47 :: [120, 46, 104]) [120, 46, 104]).bind sample.disk = some 3 := by
  rw [C83_next_partial sample (by decide) [] [[67, 58, 47, 98]] _ _ _ rfl (by simp) (by unfold Plain Name; decide)]; decide
-- the second include has no effect, the third has
example : run [] [.include_ [1], .once [1], .include_ [1], .include_ [2]] = [true, false, true] := by rw [C83_once_partial]; decide

/-- "C:/i", "C:/inc" and "C:/z", the second and the third have "x.h". -/
def confused : World where
  directories := [([67, 58, 47, 105], []), ([67, 58, 47, 105, 110, 99], [.file [120, 46, 104]]), ([67, 58, 47, 122], [.file [120, 46, 104]])]
  disk := fun p =>
    if p = [67, 58, 47, 105, 110, 99, 47, 120, 46, 104] then some 1 else if p = [67, 58, 47, 122, 47, 120, 46, 104] then some 2 else none

theorem confused_faithful : Faithful confused.directories confused.disk := by
  apply faithful_of
  · decide
  · intro d hd
    have hd : d ∈ [([67, 58, 47, 105], []), ([67, 58, 47, 105, 110, 99], [Node.file [120, 46, 104]]), ([67, 58, 47, 122], [Node.file [120, 46, 104]])] := hd
    simp only [List.mem_cons, List.not_mem_nil, or_false] at hd
    rcases hd with rfl | rfl | rfl <;>
    · apply below_all
      · exact ⟨by decide, by unfold Name; simp, by unfold Name; simp⟩
      · intro x hx
        simp only [List.mem_cons, List.not_mem_nil, or_false] at hx
        try (subst hx; trivial)
  · intro d hd d' hd'
    have hm : ∀ d ∈ confused.directories, d = ([67, 58, 47, 105], []) ∨ d = ([67, 58, 47, 105, 110, 99], [Node.file [120, 46, 104]]) ∨
        d = ([67, 58, 47, 122], [Node.file [120, 46, 104]]) := by
      intro d hd
      have hd : d ∈ [([67, 58, 47, 105], []), ([67, 58, 47, 105, 110, 99], [Node.file [120, 46, 104]]), ([67, 58, 47, 122], [Node.file [120, 46, 104]])] := hd
      simpa using hd
    rcases hm d hd with rfl | rfl | rfl <;> rcases hm d' hd' with rfl | rfl | rfl <;> decide

/-- **Finding.** `#include_next` takes a file of "C:/inc" for one of "C:/i", and the file includes itself. -/
theorem C83_next_wrong : ∃ (w : World) (before after : List Path) (d rel inc : Path), Faithful w.directories w.disk ∧ Plain inc ∧
    w.directories.map Prod.fst = before ++ d :: after ∧ d ∉ before ∧ (∃ ns, (d, ns) ∈ w.directories ∧ HasFile d ns (d ++ 47 :: rel)) ∧
    first w.disk after inc = some 2 ∧ includeNext w (d ++ 47 :: rel) inc = some (d ++ 47 :: rel) := by
  refine ⟨confused, [[67, 58, 47, 105]], [[67, 58, 47, 122]], [67, 58, 47, 105, 110, 99], [120, 46, 104], [120, 46, 104], confused_faithful, by unfold Plain Name; decide, rfl,
    by decide, ⟨_, List.mem_cons_of_mem _ List.mem_cons_self, _, _, _, .here, List.mem_cons_self, rfl⟩, by decide, by decide +kernel⟩

/-- **Finding.** A file with `#pragma once` is included again if the directive has another path for it: "y.h" and "s/../y.h" in the same file. -/
theorem C83_once_wrong : ∃ (w : World) (parent inc inc' path path' : Path), Faithful w.directories w.disk ∧ includeQuoted stringHash w parent inc = some path ∧
    includeQuoted stringHash w parent inc' = some path' ∧ w.disk path = w.disk path' ∧ (w.disk path).isSome ∧
    run [] [.include_ path, .once path, .include_ path'] = [true, true] := by
  refine ⟨sample, [67, 58, 47, 112, 47, 109, 46, 99], [121, 46, 104], [115, 47, 46, 46, 47, 121, 46, 104], [67, 58, 47, 112, 47, 121, 46, 104],
    [67, 58, 47, 112, 47, 115, 47, 46, 46, 47, 121, 46, 104], sample_faithful, by decide +kernel, by decide +kernel, by decide, by decide, by decide⟩

end Verif.Props.Include
