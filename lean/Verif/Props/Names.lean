import Verif.Spec.Names
import Verif.Model.Names
import Verif.Lemmas.PdbHash
import Verif.Lemmas.ImageLoad

/-!
# C89: names of files are found in PDB files
-/
namespace Verif.Props.Names
open Verif.Model.Names Verif.Model.DebugLines
open Verif.Model.BaseReloc (u32)
open Verif.Model.PdbSymbols (stringHash)
open Verif.Spec.Image (byte number Holds)
open Verif.Lemmas.Image (holds_append number_u32)
open Verif.Spec.PdbSymbols (untilZero)
open Verif.Spec.Names

/-- Offsets and names. -/
def items : Files → Nat → List (Nat × List Nat)
  | [], _ => []
  | none :: rest, p => items rest p
  | some f :: rest, p => (p, backslashes f.path) :: items rest (p + f.path.length + 1)

theorem items_length : ∀ (files : Files) (p : Nat), (items files p).length = stringCount files
  | [], _ => rfl
  | none :: rest, p => items_length rest p
  | some f :: rest, p => by
    show (items rest _).length + 1 = (List.filter _ rest).length + 1
    rw [items_length rest]; rfl

theorem backslashes_length (p : List Nat) : (backslashes p).length = p.length := by unfold backslashes; rw [List.length_map]

theorem backslashes_ne {p : List Nat} (h : ∀ c ∈ p, c ≠ 0) : ∀ c ∈ backslashes p, c ≠ 0 := by
  intro c hc
  obtain ⟨x, hx, rfl⟩ := List.mem_map.1 hc
  split
  · decide
  · exact h x hx

theorem takeWhile_name : ∀ (n rest : List Nat), (∀ c ∈ n, c ≠ 0) → (n ++ 0 :: rest).takeWhile (fun b => decide (b ≠ 0)) = n
  | [], rest, _ => List.takeWhile_cons_of_neg (by decide)
  | c :: n, rest, h => by
    rw [List.cons_append, List.takeWhile_cons_of_pos (by simpa using h c List.mem_cons_self), takeWhile_name n rest (fun x hx => h x (List.mem_cons_of_mem _ hx))]

/-- Paths are bytes, without zero bytes, and sizes fit into 32 bits. -/
structure Fits (files : Files) : Prop where
  bytes : ∀ f, some f ∈ files → ∀ c ∈ f.path, c ≠ 0 ∧ c < 256
  size : (names files).length < 2 ^ 32
  count : 2 * (files.filterMap id).length < 2 ^ 32

theorem fill_eq (count : Nat) : ∀ (files : Files) (pre : List Nat) (p n : Nat) (b : List Nat), p = pre.length → (∀ f, some f ∈ files → ∀ c ∈ f.path, c ≠ 0) →
    (strings files p).1.length ≤ n → fill count (pre ++ (strings files p).1) n p b = (items files p).foldl (fun b x => place count (stringHash x.2) x.1 count 0 b) b
  | [], pre, p, n, b, hp, _, _ => by
    show fill count (pre ++ []) n p b = b
    cases n with
    | zero => rfl
    | succ n =>
      show (if p < (pre ++ []).length then _ else b) = b
      rw [List.append_nil, if_neg (by omega)]
  | none :: rest, pre, p, n, b, hp, hb, hn => fill_eq count rest pre p n b hp (fun f hf => hb f (List.mem_cons_of_mem _ hf)) hn
  | some f :: rest, pre, p, n, b, hp, hb, hn => by
    have hl : (backslashes f.path ++ [0]).length = f.path.length + 1 := by rw [List.length_append, backslashes_length]; rfl
    have e : (strings (some f :: rest) p).1 = (backslashes f.path ++ [0]) ++ (strings rest (p + (backslashes f.path ++ [0]).length)).1 := rfl
    rw [hl] at e
    rw [e, List.length_append, hl] at hn
    rw [e]
    cases n with
    | zero => omega
    | succ n =>
      have hc : cstring (pre ++ (backslashes f.path ++ [0] ++ (strings rest (p + (f.path.length + 1))).1)) p = backslashes f.path := by
        unfold cstring
        rw [hp, List.drop_left, List.append_assoc]
        exact takeWhile_name _ _ (backslashes_ne (hb f List.mem_cons_self))
      have ih := fill_eq count rest (pre ++ (backslashes f.path ++ [0])) (p + (f.path.length + 1)) n (place count (stringHash (backslashes f.path)) p count 0 b)
        (by rw [List.length_append, hl, hp]) (fun f hf => hb f (List.mem_cons_of_mem _ hf)) (by omega)
      show (if p < (pre ++ (backslashes f.path ++ [0] ++ (strings rest (p + (f.path.length + 1))).1)).length then fill count _ n
        (p + (cstring (pre ++ (backslashes f.path ++ [0] ++ (strings rest (p + (f.path.length + 1))).1)) p).length + 1)
        (place count (stringHash (cstring (pre ++ (backslashes f.path ++ [0] ++ (strings rest (p + (f.path.length + 1))).1)) p)) p count 0 b) else _) = _
      rw [hc, if_pos (by rw [List.length_append, List.length_append, hl]; omega), backslashes_length, Nat.add_assoc, ← List.append_assoc, ih]
      rfl

/-! Probing -/

/-- What holds of the buckets when some names are in them. -/
structure Inv (count : Nat) (b : List Nat) (items : List (Nat × List Nat)) : Prop where
  length : b.length = count
  used : b.countP (fun o => decide (o ≠ 0)) ≤ items.length
  owned : ∀ i, b.getD i 0 ≠ 0 → ∃ x ∈ items, b.getD i 0 = x.1
  found : ∀ x ∈ items, x.1 ≠ 0 ∧ ∃ k, k < count ∧ b.getD ((Spec.PdbSymbols.hash x.2 + k) % count) 0 = x.1 ∧ ∀ j, j < k → b.getD ((Spec.PdbSymbols.hash x.2 + j) % count) 0 ≠ 0

theorem getD_in (b : List Nat) (i : Nat) (h : i < b.length) : b.getD i 0 = b[i] := by
  rw [List.getD_eq_getElem?_getD, List.getElem?_eq_getElem h]; rfl

theorem getD_set (b : List Nat) (i o j : Nat) (h : i < b.length) : (b.set i o).getD j 0 = if j = i then o else b.getD j 0 := by
  rw [List.getD_eq_getElem?_getD, List.getD_eq_getElem?_getD, List.getElem?_set]
  by_cases hj : i = j
  · rw [if_pos hj, if_pos hj.symm, if_pos h]; rfl
  · rw [if_neg hj, if_neg (fun hx => hj hx.symm)]

theorem place_eq (count h o : Nat) (hw : h + count ≤ 2 ^ 32) (b : List Nat) : ∀ (k i n : Nat), i + k < count → k < n → b.getD ((h + (i + k)) % count) 0 = 0 →
    (∀ j, j < k → b.getD ((h + (i + j)) % count) 0 ≠ 0) → place count h o n i b = b.set ((h + (i + k)) % count) o
  | 0, i, n + 1, hi, _, hz, _ => by
    show (if b.getD ((h + i) % 2 ^ 32 % count) 0 ≠ 0 then _ else b.set ((h + i) % 2 ^ 32 % count) o) = _
    rw [Nat.mod_eq_of_lt (show h + i < 2 ^ 32 by omega), if_neg (fun hx => hx hz)]
    rfl
  | k + 1, i, n + 1, hi, hn, hz, hnz => by
    show (if b.getD ((h + i) % 2 ^ 32 % count) 0 ≠ 0 then place count h o n (i + 1) b else _) = _
    rw [Nat.mod_eq_of_lt (show h + i < 2 ^ 32 by omega), if_pos (show b.getD ((h + i) % count) 0 ≠ 0 from hnz 0 (by omega)), place_eq count h o hw b k (i + 1) n (by omega) (by omega)
      (by rw [show i + 1 + k = i + (k + 1) by omega]; exact hz) (fun j hj => by rw [show i + 1 + j = i + (j + 1) by omega]; exact hnz (j + 1) (by omega)),
      show i + 1 + k = i + (k + 1) by omega]

theorem first_free {count : Nat} (f : Nat → Nat) (k : Nat) (h1 : k < count) (h2 : f k = 0) : ∃ k, k < count ∧ f k = 0 ∧ ∀ j, j < k → f j ≠ 0 := by
  induction k using Nat.strongRecOn with
  | _ k ih =>
    by_cases hx : ∃ j, j < k ∧ f j = 0
    · obtain ⟨j, hj, hz⟩ := hx
      exact ih j hj (by omega) hz
    · exact ⟨k, h1, h2, fun j hj hz => hx ⟨j, hj, hz⟩⟩

theorem exists_free {count : Nat} {b : List Nat} (h : Nat) (hl : b.length = count) (hu : b.countP (fun o => decide (o ≠ 0)) < count) :
    ∃ k, k < count ∧ b.getD ((h + k) % count) 0 = 0 ∧ ∀ j, j < k → b.getD ((h + j) % count) 0 ≠ 0 := by
  have hex : ∃ k, k < count ∧ b.getD ((h + k) % count) 0 = 0 := by
    apply Classical.byContradiction
    intro hno
    have hall : ∀ o ∈ b, decide (o ≠ 0) = true := by
      intro o ho
      obtain ⟨i, hi, rfl⟩ := List.mem_iff_getElem.1 ho
      apply decide_eq_true
      intro hz
      apply hno
      refine ⟨(i + (count - h % count)) % count, Nat.mod_lt _ (by omega), ?_⟩
      have hm := Nat.mod_lt h (show 0 < count by omega)
      have : (h + (i + (count - h % count)) % count) % count = i := by
        rw [Nat.add_mod_mod]
        have e : h + (i + (count - h % count)) = i + count * (h / count + 1) := by
          have := Nat.div_add_mod h count
          rw [Nat.mul_add, Nat.mul_one]; omega
        rw [e, Nat.add_mul_mod_self_left, Nat.mod_eq_of_lt (by omega)]
      rw [this, getD_in b i hi, hz]
    rw [List.countP_eq_length.2 hall] at hu
    omega
  obtain ⟨k, h1, h2⟩ := hex
  exact first_free (fun k => b.getD ((h + k) % count) 0) k h1 h2

theorem inv_step {count : Nat} {b : List Nat} {its : List (Nat × List Nat)} (hv : Inv count b its) (hc : its.length < count) {x : Nat × List Nat} (h0 : x.1 ≠ 0)
    (hw : Spec.PdbSymbols.hash x.2 + count ≤ 2 ^ 32) (hh : stringHash x.2 = Spec.PdbSymbols.hash x.2) : Inv count (place count (stringHash x.2) x.1 count 0 b) (its ++ [x]) := by
  obtain ⟨k, h1, h2, h3⟩ := exists_free (Spec.PdbSymbols.hash x.2) hv.length (Nat.lt_of_le_of_lt hv.used hc)
  have hp := place_eq count (Spec.PdbSymbols.hash x.2) x.1 hw b k 0 count (by omega) h1 (by rw [Nat.zero_add]; exact h2) (fun j hj => by rw [Nat.zero_add]; exact h3 j hj)
  rw [Nat.zero_add] at hp
  rw [hh, hp]
  have hi : (Spec.PdbSymbols.hash x.2 + k) % count < b.length := by rw [hv.length]; exact Nat.mod_lt _ (by omega)
  generalize hI : (Spec.PdbSymbols.hash x.2 + k) % count = I at *
  have hkeep : ∀ j, b.getD j 0 ≠ 0 → (b.set I x.1).getD j 0 = b.getD j 0 := by
    intro j hj
    rw [getD_set b I x.1 j hi, if_neg (fun hx => hj (by rw [hx]; exact h2))]
  refine ⟨by rw [List.length_set]; exact hv.length, ?_, ?_, ?_⟩
  · rw [List.countP_set hi, List.length_append]
    have := hv.used
    have : (if decide (b[I] ≠ 0) = true then 1 else 0) ≤ 1 := by split <;> omega
    have : (if decide (x.1 ≠ 0) = true then 1 else 0) ≤ 1 := by split <;> omega
    show _ ≤ its.length + 1
    omega
  · intro i hne
    rw [getD_set b I x.1 i hi] at hne ⊢
    by_cases hx : i = I
    · rw [if_pos hx]; exact ⟨x, List.mem_append_right _ List.mem_cons_self, rfl⟩
    · rw [if_neg hx] at hne ⊢
      obtain ⟨y, hy, e⟩ := hv.owned i hne
      exact ⟨y, List.mem_append_left _ hy, e⟩
  · intro y hy
    rcases List.mem_append.1 hy with hy | hy
    · obtain ⟨g0, k', g1, g2, g3⟩ := hv.found y hy
      exact ⟨g0, k', g1, by rw [hkeep _ (by rw [g2]; exact g0)]; exact g2, fun j hj => by rw [hkeep _ (g3 j hj)]; exact g3 j hj⟩
    · rw [List.mem_singleton.1 hy]
      refine ⟨h0, k, h1, ?_, fun j hj => by rw [hkeep _ (h3 j hj)]; exact h3 j hj⟩
      rw [hI, getD_set b I x.1 I hi, if_pos rfl]

theorem inv_fold {count : Nat} : ∀ (new its : List (Nat × List Nat)) (b : List Nat), Inv count b its → its.length + new.length ≤ count →
    (∀ x ∈ new, x.1 ≠ 0 ∧ Spec.PdbSymbols.hash x.2 + count ≤ 2 ^ 32 ∧ stringHash x.2 = Spec.PdbSymbols.hash x.2) →
    Inv count (new.foldl (fun b x => place count (stringHash x.2) x.1 count 0 b) b) (its ++ new)
  | [], its, b, h, _, _ => by rw [List.append_nil]; exact h
  | x :: new, its, b, h, hc, hx => by
    have hx0 := hx x List.mem_cons_self
    have hc : its.length + (new.length + 1) ≤ count := hc
    have := inv_fold new (its ++ [x]) _ (inv_step h (by omega) hx0.1 hx0.2.1 hx0.2.2) (by rw [List.length_append]; show its.length + 1 + _ ≤ _; omega)
      (fun y hy => hx y (List.mem_cons_of_mem _ hy))
    rw [List.append_assoc] at this
    exact this

theorem inv_start (count : Nat) : Inv count (List.replicate count 0) [] := by
  have hz : ∀ i, (List.replicate count 0).getD i 0 = 0 := by
    intro i
    rw [List.getD_eq_getElem?_getD, List.getElem?_replicate]
    split <;> rfl
  refine ⟨List.length_replicate, ?_, fun i h => absurd (hz i) h, (fun x hx => by cases hx)⟩
  rw [List.countP_replicate]
  split
  · rename_i h; exact absurd h (by decide)
  · exact Nat.le_refl _

/-! The strings -/

theorem items_facts : ∀ (files : Files) (p : Nat), ∀ x ∈ items files p, p ≤ x.1 ∧ ∃ f, some f ∈ files ∧ x.2 = backslashes f.path
  | [], _, x, h => by cases h
  | none :: rest, p, x, h => by
    obtain ⟨h1, f, h2, h3⟩ := items_facts rest p x h
    exact ⟨h1, f, List.mem_cons_of_mem _ h2, h3⟩
  | some f :: rest, p, x, h => by
    rcases List.mem_cons.1 h with rfl | h
    · exact ⟨Nat.le_refl _, f, List.mem_cons_self, rfl⟩
    · obtain ⟨h1, g, h2, h3⟩ := items_facts rest _ x h
      exact ⟨by omega, g, List.mem_cons_of_mem _ h2, h3⟩

theorem items_string : ∀ (files : Files) (pre : List Nat), ∀ x ∈ items files pre.length, ∃ post, (pre ++ (strings files pre.length).1).drop x.1 = x.2 ++ 0 :: post
  | [], _, x, h => by cases h
  | none :: rest, pre, x, h => items_string rest pre x h
  | some f :: rest, pre, x, h => by
    have hl : (backslashes f.path ++ [0]).length = f.path.length + 1 := by rw [List.length_append, backslashes_length]; rfl
    have e : (strings (some f :: rest) pre.length).1 = (backslashes f.path ++ [0]) ++ (strings rest (pre.length + (backslashes f.path ++ [0]).length)).1 := rfl
    rw [e]
    rcases List.mem_cons.1 h with rfl | h
    · refine ⟨(strings rest (pre.length + (backslashes f.path ++ [0]).length)).1, ?_⟩
      rw [List.drop_left, List.append_assoc]; rfl
    · have h' : x ∈ items rest (pre ++ (backslashes f.path ++ [0])).length := by
        rw [List.length_append, hl]; exact h
      obtain ⟨post, hp⟩ := items_string rest (pre ++ (backslashes f.path ++ [0])) x h'
      refine ⟨post, ?_⟩
      rw [List.length_append] at hp
      rw [← List.append_assoc]
      exact hp

theorem items_names : ∀ (files : Files) (p : Nat), (items files p).map (·.2) = (files.filterMap id).map (fun f => backslashes f.path)
  | [], _ => rfl
  | none :: rest, p => items_names rest p
  | some f :: rest, p => by
    show backslashes f.path :: (items rest _).map (·.2) = backslashes f.path :: _
    rw [items_names rest]

/-- The offsets are those that the line information has. -/
theorem items_offsets : ∀ (files : Files) (p i : Nat) (f : File), files[i]? = some (some f) → (((strings files p).2)[i]?.getD 0, backslashes f.path) ∈ items files p
  | [], _, _, _, h => by cases h
  | none :: rest, p, i, f, h => by
    cases i with
    | zero => cases h
    | succ i => exact items_offsets rest p i f h
  | some g :: rest, p, i, f, h => by
    cases i with
    | zero =>
      have : g = f := by
        have h := Option.some.inj h
        exact Option.some.inj h
      subst this
      exact List.mem_cons_self
    | succ i =>
      apply List.mem_cons_of_mem
      have := items_offsets rest (p + g.path.length + 1) i f h
      have e : (strings (some g :: rest) p).2 = p :: (strings rest (p + (backslashes g.path ++ [0]).length)).2 := rfl
      have hl : (backslashes g.path ++ [0]).length = g.path.length + 1 := by rw [List.length_append, backslashes_length]; rfl
      rw [e, hl, List.getElem?_cons_succ]
      exact this

/-! Reading the stream -/

theorem flat_u32 {m : Nat → Nat} : ∀ (l : List Nat) (a : Nat), Holds m a (l.flatMap u32) → ∀ i (h : i < l.length), Holds m (a + 4 * i) (u32 l[i])
  | [], _, _, i, h => by cases h
  | x :: l, a, hh, i, h => by
    have h1 := (holds_append (x := u32 x) (y := l.flatMap u32)).1 hh
    cases i with
    | zero => exact h1.1
    | succ i =>
      have := flat_u32 l (a + 4) h1.2 i (by simpa using h)
      rw [show a + 4 * (i + 1) = a + 4 + 4 * i by omega]
      exact this

theorem flat_length : ∀ (l : List Nat), (l.flatMap u32).length = 4 * l.length
  | [] => rfl
  | x :: l => by
    rw [List.flatMap_cons, List.length_append, flat_length l]
    show 4 + 4 * l.length = 4 * (l.length + 1)
    omega

theorem buckets_inv {files : Files} (hf : Fits files) (hw : ∀ f, some f ∈ files → Spec.PdbSymbols.hash (backslashes f.path) + 2 * stringCount files ≤ 2 ^ 32) :
    Inv (2 * stringCount files) (buckets files) (items files 1) := by
  unfold buckets
  have hn : names files = [0] ++ (strings files 1).1 := rfl
  rw [hn]
  simp only
  rw [fill_eq _ files [0] 1 _ _ rfl (fun f h c hc => (hf.bytes f h c hc).1) (by rw [List.length_append]; omega)]
  apply inv_fold (items files 1) [] _ (inv_start _)
  · rw [items_length]; show 0 + _ ≤ _; omega
  · intro x hx
    obtain ⟨h1, f, h2, h3⟩ := items_facts files 1 x hx
    refine ⟨by omega, by rw [h3]; exact hw f h2, ?_⟩
    apply Verif.Lemmas.PdbHash.hash_eq
    rw [h3]
    intro c hc
    obtain ⟨y, hy, rfl⟩ := List.mem_map.1 hc
    split
    · decide
    · exact (hf.bytes f h2 y hy).2

/-- The parts of the stream. -/
theorem stream_read {files : Files} (hf : Fits files) (hc : 2 * stringCount files < 2 ^ 32) (hl : (buckets files).length = 2 * stringCount files)
    (hb : ∀ o ∈ buckets files, o < 2 ^ 32) :
    valid (stream files) ∧ sizeOfStrings (stream files) = (names files).length ∧ bucketCount (stream files) = 2 * stringCount files ∧
      nameCount (stream files) = stringCount files ∧ (∀ i, i < 2 * stringCount files → bucket (stream files) i = (buckets files).getD i 0) ∧
      ∀ o, stringAt (stream files) o = untilZero ((names files).drop o) := by
  generalize hs : stream files = s
  have hh : Holds (byte s) 0 s := by
    intro i hi
    rw [Nat.zero_add]
    exact getD_in s i hi
  have hs' : s = u32 0xeffeeffe ++ (u32 1 ++ (u32 (names files).length ++ (names files ++ (u32 (2 * stringCount files) ++ ((buckets files).flatMap u32 ++ u32 (stringCount files)))))) := by
    rw [← hs]; unfold stream; simp only [List.append_assoc]
  conv at hh => rhs; rw [hs']
  have h1 := holds_append.1 hh
  have h2 := holds_append.1 h1.2
  have h3 := holds_append.1 h2.2
  have h4 := holds_append.1 h3.2
  have h5 := holds_append.1 h4.2
  have h6 := holds_append.1 h5.2
  have e1 : sizeOfStrings s = (names files).length := number_u32 h3.1 hf.size
  have e2 : bucketCount s = 2 * stringCount files := by
    unfold bucketCount; rw [e1]
    exact number_u32 h5.1 hc
  refine ⟨⟨number_u32 h1.1 (by decide), number_u32 h2.1 (by decide)⟩, e1, e2, ?_, ?_, ?_⟩
  · unfold nameCount
    rw [e1, e2]
    have := number_u32 h6.2 (by omega)
    rw [flat_length, hl] at this
    rw [← this]
    congr 1
    show _ = 12 + (names files).length + 4 + 4 * (2 * stringCount files)
    omega
  · intro i hi
    unfold bucket
    rw [e1]
    have hi' : i < (buckets files).length := by omega
    have := number_u32 (flat_u32 _ _ h6.1 i hi') (hb _ (List.getElem_mem hi'))
    rw [getD_in _ i hi', ← this]
    congr 1
    show _ = 12 + (names files).length + 4 + 4 * i
    omega
  · intro o
    unfold stringAt
    rw [e1]
    have e : (s.drop (12 + o)).take ((names files).length - o) = (names files).drop o := by
      have e3 : s = (u32 0xeffeeffe ++ u32 1 ++ u32 (names files).length) ++ (names files ++ (u32 (2 * stringCount files) ++ ((buckets files).flatMap u32 ++ u32 (stringCount files)))) := by
        rw [hs']; simp only [List.append_assoc]
      rw [e3, ← List.drop_drop]
      have e4 : ((u32 0xeffeeffe ++ u32 1 ++ u32 (names files).length) ++ (names files ++ (u32 (2 * stringCount files) ++ ((buckets files).flatMap u32 ++ u32 (stringCount files))))).drop 12 =
          names files ++ (u32 (2 * stringCount files) ++ ((buckets files).flatMap u32 ++ u32 (stringCount files))) := List.drop_left (l₁ := u32 0xeffeeffe ++ u32 1 ++ u32 (names files).length)
      rw [e4]
      by_cases ho : o ≤ (names files).length
      · rw [List.drop_append_of_le_length ho, ← List.length_drop, List.take_left]
      · rw [show (names files).length - o = 0 by omega, List.take_zero, List.drop_eq_nil_of_le (by omega)]
    rw [e]

theorem items_index : ∀ (files : Files) (p : Nat), ∀ x ∈ items files p, ∃ (i : Nat) (f : File), files[i]? = some (some f) ∧ ((strings files p).2)[i]?.getD 0 = x.1 ∧ backslashes f.path = x.2
  | [], _, x, h => by cases h
  | none :: rest, p, x, h => by
    obtain ⟨i, f, h1, h2, h3⟩ := items_index rest p x h
    exact ⟨i + 1, f, h1, h2, h3⟩
  | some g :: rest, p, x, h => by
    rcases List.mem_cons.1 h with rfl | h
    · exact ⟨0, g, rfl, rfl, rfl⟩
    · obtain ⟨i, f, h1, h2, h3⟩ := items_index rest _ x h
      refine ⟨i + 1, f, h1, ?_, h3⟩
      have e : (strings (some g :: rest) p).2 = p :: (strings rest (p + (backslashes g.path ++ [0]).length)).2 := rfl
      have hl : (backslashes g.path ++ [0]).length = g.path.length + 1 := by rw [List.length_append, backslashes_length]; rfl
      rw [e, hl, List.getElem?_cons_succ]
      exact h2

theorem searchFrom_some {s name : List Nat} {o : Nat} : ∀ (n i : Nat), searchFrom s name n i = some o →
    ∃ j, bucket s (j % bucketCount s) = o ∧ o ≠ 0 ∧ stringAt s o = name
  | 0, _, h => by cases h
  | n + 1, i, h => by
    have h : (if bucket s (i % bucketCount s) = 0 then none else if stringAt s (bucket s (i % bucketCount s)) = name then some (bucket s (i % bucketCount s))
      else searchFrom s name n (i + 1)) = some o := h
    split at h
    · cases h
    · rename_i h0
      split at h
      · rename_i h1
        have := Option.some.inj h
        exact ⟨i, this, by rw [← this]; exact h0, by rw [← this]; exact h1⟩
      · exact searchFrom_some n (i + 1) h

theorem searchFrom_isSome {s name : List Nat} : ∀ (k n i : Nat), k < n → (∀ j, j ≤ k → bucket s ((i + j) % bucketCount s) ≠ 0) →
    stringAt s (bucket s ((i + k) % bucketCount s)) = name → ∃ o, searchFrom s name n i = some o
  | k, 0, _, h, _, _ => by omega
  | k, n + 1, i, h, hb, hk => by
    show ∃ o, (if bucket s (i % bucketCount s) = 0 then none else if stringAt s (bucket s (i % bucketCount s)) = name then some (bucket s (i % bucketCount s))
      else searchFrom s name n (i + 1)) = some o
    rw [if_neg (show ¬bucket s (i % bucketCount s) = 0 from hb 0 (by omega))]
    by_cases hs : stringAt s (bucket s (i % bucketCount s)) = name
    · rw [if_pos hs]; exact ⟨_, rfl⟩
    · rw [if_neg hs]
      cases k with
      | zero => exact absurd hk hs
      | succ k =>
        exact searchFrom_isSome k n (i + 1) (by omega) (fun j hj => by rw [show i + 1 + j = i + (j + 1) by omega]; exact hb (j + 1) (by omega))
          (by rw [show i + 1 + k = i + (k + 1) by omega]; exact hk)

theorem stringCount_eq : ∀ (files : Files), stringCount files = (files.filterMap id).length
  | [] => rfl
  | none :: rest => stringCount_eq rest
  | some f :: rest => congrArg (· + 1) (stringCount_eq rest)

theorem all_read {files : Files} (hf : Fits files) (hw : ∀ f, some f ∈ files → Spec.PdbSymbols.hash (backslashes f.path) + 2 * stringCount files ≤ 2 ^ 32)
    (hc : 2 * stringCount files < 2 ^ 32) :
    valid (stream files) ∧ sizeOfStrings (stream files) = (names files).length ∧ bucketCount (stream files) = 2 * stringCount files ∧
      nameCount (stream files) = stringCount files ∧ (∀ i, i < 2 * stringCount files → bucket (stream files) i = (buckets files).getD i 0) ∧
      ∀ x ∈ items files 1, stringAt (stream files) x.1 = x.2 := by
  have hv := buckets_inv hf hw
  have hst : ∀ x ∈ items files 1, ∃ post, (names files).drop x.1 = x.2 ++ 0 :: post := items_string files [0]
  have hb : ∀ o ∈ buckets files, o < 2 ^ 32 := by
    intro o ho
    obtain ⟨i, hi, rfl⟩ := List.mem_iff_getElem.1 ho
    by_cases h0 : (buckets files).getD i 0 = 0
    · rw [getD_in _ i hi] at h0; omega
    · obtain ⟨x, hx, e⟩ := hv.owned i h0
      rw [getD_in _ i hi] at e
      rw [e]
      obtain ⟨post, hp⟩ := hst x hx
      have hl := congrArg List.length hp
      rw [List.length_drop, List.length_append, List.length_cons] at hl
      have := hf.size
      omega
  obtain ⟨h1, h2, h3, h4, h5, h6⟩ := stream_read hf hc hv.length hb
  refine ⟨h1, h2, h3, h4, h5, fun x hx => ?_⟩
  obtain ⟨post, hp⟩ := hst x hx
  obtain ⟨_, f, hm, e⟩ := items_facts files 1 x hx
  rw [h6, hp]
  exact takeWhile_name _ _ (by rw [e]; exact backslashes_ne (fun c hc => (hf.bytes f hm c hc).1))

/-- The name of a file, as Windows writes it. -/
def windows (path : List Nat) : List Nat := path.map (fun c => if c = 47 then 92 else c)

theorem windows_eq (path : List Nat) : windows path = backslashes path := rfl

/-- **C89 (partial)**: the stream `/names` has a valid header and the number of files; the name of every file is found, at an offset that a file with this name has in the line
information. Missing: names with a hash close to 2^32, see `C89_found_wrong`. -/
theorem C89_found_partial (files : Files) (hf : Fits files)
    (hw : ∀ f, some f ∈ files → Spec.PdbSymbols.hash (windows f.path) + 2 * (files.filterMap id).length ≤ 2 ^ 32) (i : Nat) (f : File) (hi : files[i]? = some (some f)) :
    valid (stream files) ∧ nameCount (stream files) = (files.filterMap id).length ∧ stringAt (stream files) ((nameOffsets files)[i]?.getD 0) = windows f.path ∧
      ∃ (j : Nat) (g : File), files[j]? = some (some g) ∧ windows g.path = windows f.path ∧ search (stream files) (windows f.path) = some ((nameOffsets files)[j]?.getD 0) := by
  rw [← stringCount_eq] at hw ⊢
  have hv := buckets_inv hf hw
  have hmem := items_offsets files 1 i f hi
  obtain ⟨h1, h2, h3, h4, h5, h6⟩ := all_read hf hw (by rw [stringCount_eq]; exact hf.count)
  obtain ⟨hne, k, g1, g2, g3⟩ := hv.found _ hmem
  refine ⟨h1, h4, h6 _ hmem, ?_⟩
  have hlt : ∀ j, j % (2 * stringCount files) < 2 * stringCount files := fun j => Nat.mod_lt _ (by omega)
  obtain ⟨o, ho⟩ := searchFrom_isSome (s := stream files) (name := windows f.path) k (bucketCount (stream files)) (Spec.PdbSymbols.hash (windows f.path)) (by rw [h3]; exact g1)
    (by
      intro j hj
      rw [h3, h5 _ (hlt _)]
      rcases Nat.lt_or_eq_of_le hj with hj | hj
      · exact g3 j hj
      · subst hj
        exact fun hx => hne (g2.symm.trans hx))
    (by
      rw [h3, h5 _ (hlt _)]
      exact (congrArg _ g2).trans (h6 _ hmem))
  obtain ⟨j, e1, e2, e3⟩ := searchFrom_some _ _ ho
  rw [h3, h5 _ (hlt _)] at e1
  obtain ⟨x, hx, e4⟩ := hv.owned _ (by rw [e1]; exact e2)
  obtain ⟨j', g, q1, q2, q3⟩ := items_index files 1 x hx
  have e5 : x.1 = o := e4.symm.trans e1
  refine ⟨j', g, q1, ?_, ?_⟩
  · have := h6 x hx
    rw [e5, e3] at this
    exact q3.trans this.symm
  · show searchFrom _ _ _ _ = some _
    rw [ho]
    exact congrArg some (e5.symm.trans q2.symm)

/-- **C89 (partial)**: when no two files have the same name, every name is found at the offset that its file has in the line information. -/
theorem C89_offset_partial (files : Files) (hf : Fits files) (hd : ∀ (i j : Nat) (f g : File), files[i]? = some (some f) → files[j]? = some (some g) → windows f.path = windows g.path → i = j)
    (hw : ∀ f, some f ∈ files → Spec.PdbSymbols.hash (windows f.path) + 2 * (files.filterMap id).length ≤ 2 ^ 32) (i : Nat) (f : File) (hi : files[i]? = some (some f)) :
    search (stream files) (windows f.path) = some ((nameOffsets files)[i]?.getD 0) := by
  obtain ⟨_, _, _, j, g, h1, h2, h3⟩ := C89_found_partial files hf hw i f hi
  have := hd j i g f h1 hi h2
  subst this
  exact h3

/-- **C89 (partial)**: other names are not found. -/
theorem C89_other_partial (files : Files) (hf : Fits files)
    (hw : ∀ f, some f ∈ files → Spec.PdbSymbols.hash (windows f.path) + 2 * (files.filterMap id).length ≤ 2 ^ 32) (name : List Nat) (hn : ∀ f, some f ∈ files → windows f.path ≠ name) :
    search (stream files) name = none := by
  rw [← stringCount_eq] at hw
  have hv := buckets_inv hf hw
  obtain ⟨h1, h2, h3, h4, h5, h6⟩ := all_read hf hw (by rw [stringCount_eq]; exact hf.count)
  cases ho : search (stream files) name with
  | none => rfl
  | some o =>
    exfalso
    have hpos : 0 < 2 * stringCount files := by
      rcases Nat.eq_zero_or_pos (2 * stringCount files) with h0 | h0
      · unfold search at ho
        rw [h3, h0] at ho
        cases ho
      · exact h0
    obtain ⟨j, e1, e2, e3⟩ := searchFrom_some _ _ ho
    rw [h3, h5 _ (Nat.mod_lt _ hpos)] at e1
    obtain ⟨x, hx, e4⟩ := hv.owned _ (by rw [e1]; exact e2)
    obtain ⟨_, f, q1, q2⟩ := items_facts files 1 x hx
    have e5 : x.1 = o := e4.symm.trans e1
    have := h6 x hx
    rw [e5, e3] at this
    exact hn f q1 (q2.symm.trans this.symm)

/-! Names of ASCII characters -/

theorem lane_lt (n i : Nat) : Spec.PdbSymbols.lane n i < 4 := by
  unfold Spec.PdbSymbols.lane
  split <;> omega

theorem hash_ascii {name : List Nat} (h : ∀ c ∈ name, c < 128) : Spec.PdbSymbols.hash name < 2 ^ 31 := by
  have hb : ∀ i, byte name i < 128 := by
    intro i
    by_cases hi : i < name.length
    · have : byte name i = name[i] := getD_in name i hi
      rw [this]
      exact h _ (List.getElem_mem hi)
    · have : byte name i = 0 := by
        show name.getD i 0 = 0
        rw [List.getD_eq_getElem?_getD, List.getElem?_eq_none (by omega)]; rfl
      omega
  have hmix : ∀ (l : List Nat) (a : Nat), a < 2 ^ 31 → l.foldl (fun h i => h ^^^ (byte name i <<< (8 * Spec.PdbSymbols.lane name.length i))) a < 2 ^ 31 := by
    intro l
    induction l with
    | nil => intro a ha; exact ha
    | cons i l ih =>
      intro a ha
      apply ih
      apply Nat.xor_lt_two_pow ha
      rw [Nat.shiftLeft_eq]
      have h1 := lane_lt name.length i
      have h2 : 2 ^ (8 * Spec.PdbSymbols.lane name.length i) ≤ 2 ^ 24 := Nat.pow_le_pow_right (by decide) (by omega)
      have h3 := hb i
      calc byte name i * 2 ^ (8 * Spec.PdbSymbols.lane name.length i) ≤ 127 * 2 ^ 24 := Nat.mul_le_mul (by omega) h2
        _ < 2 ^ 31 := by decide
  have hs : ∀ (a k : Nat), a < 2 ^ 31 → a >>> k < 2 ^ 31 := fun a k ha => Nat.lt_of_le_of_lt (Nat.shiftRight_le a k) ha
  have h1 : Spec.PdbSymbols.mix name ||| 0x20202020 < 2 ^ 31 := Nat.or_lt_two_pow (hmix _ _ (by decide)) (by decide)
  have h2 := Nat.xor_lt_two_pow h1 (hs _ 11 h1)
  exact Nat.xor_lt_two_pow h2 (hs _ 16 h2)

/-- **C89 (partial)**: names of ASCII characters are always found, and nothing else is. -/
theorem C89_ascii_partial (files : Files) (hf : Fits files) (ha : ∀ f, some f ∈ files → ∀ c ∈ f.path, c < 128) (hn : (files.filterMap id).length ≤ 2 ^ 30) (name : List Nat) :
    (∃ o, search (stream files) name = some o ∧ stringAt (stream files) o = name) ↔ ∃ f, some f ∈ files ∧ windows f.path = name := by
  have hw : ∀ f, some f ∈ files → Spec.PdbSymbols.hash (windows f.path) + 2 * (files.filterMap id).length ≤ 2 ^ 32 := by
    intro f hm
    have : Spec.PdbSymbols.hash (windows f.path) < 2 ^ 31 := by
      apply hash_ascii
      intro c hc
      obtain ⟨y, hy, rfl⟩ := List.mem_map.1 hc
      split
      · decide
      · exact ha f hm y hy
    omega
  constructor
  · rintro ⟨o, h1, _⟩
    apply Classical.byContradiction
    intro hx
    rw [C89_other_partial files hf hw name (fun f hm e => hx ⟨f, hm, e⟩)] at h1
    cases h1
  · rintro ⟨f, hm, rfl⟩
    obtain ⟨i, hi⟩ := List.mem_iff_getElem?.1 hm
    obtain ⟨_, _, _, j, g, h1, h2, h3⟩ := C89_found_partial files hf hw i f hi
    obtain ⟨_, _, h4, _⟩ := C89_found_partial files hf hw j g h1
    exact ⟨_, h3, h4.trans h2⟩

/-- Two files with the same hash: `a/b.c` and `A/B.C`, and a third one. -/
def three : Files := [some ⟨[97, 47, 98, 46, 99], [], []⟩, none, some ⟨[65, 47, 66, 46, 67], [], []⟩, some ⟨[120], [], []⟩]

example : Fits three ∧ (∀ f, some f ∈ three → ∀ c ∈ f.path, c < 128) ∧ Spec.PdbSymbols.hash (windows [97, 47, 98, 46, 99]) = Spec.PdbSymbols.hash (windows [65, 47, 66, 46, 67]) ∧
    search (stream three) [97, 92, 98, 46, 99] = some 1 ∧ search (stream three) [65, 92, 66, 46, 67] = some 7 ∧ search (stream three) [120] = some 13 ∧
    search (stream three) [88] = none := by
  refine ⟨⟨?_, by decide, by decide⟩, ?_, by decide, by decide +kernel, by decide +kernel, by decide +kernel, by decide +kernel⟩
  · intro f hm
    simp only [three, List.mem_cons, Option.some.injEq, List.not_mem_nil, or_false, reduceCtorEq, false_or] at hm
    rcases hm with rfl | rfl | rfl <;> decide
  · intro f hm
    simp only [three, List.mem_cons, Option.some.injEq, List.not_mem_nil, or_false, reduceCtorEq, false_or] at hm
    rcases hm with rfl | rfl | rfl <;> decide

/-- 35 files with the hash 0xffffffdf. -/
def close : Files := (List.range 35).map (fun k => some ⟨[0x3f, 0xfc, 0xe0, 0xff, k + 128, 1, 1, 1, k + 128, 1, 1, 1], [], []⟩)

/-- **C89 is wrong of the code**: when many names have a hash close to 2^32, the sum of the hash and the number of the step wraps, and readers that go on at the first bucket after
the last one do not find the name. -/
theorem C89_found_wrong : ∃ (files : Files) (f : File), Fits files ∧ some f ∈ files ∧ search (stream files) (windows f.path) = none := by
  refine ⟨close, ⟨[0x3f, 0xfc, 0xe0, 0xff, 34 + 128, 1, 1, 1, 34 + 128, 1, 1, 1], [], []⟩, ⟨?_, by decide +kernel, by decide +kernel⟩, ?_, by decide +kernel⟩
  · intro f hm
    obtain ⟨k, hk, e⟩ := List.mem_map.1 hm
    have hk := List.mem_range.1 hk
    have e := Option.some.inj e
    subst e
    intro c hc
    simp only [List.mem_cons, List.not_mem_nil, or_false] at hc
    omega
  · exact List.mem_map.2 ⟨34, List.mem_range.2 (by decide), rfl⟩

end Verif.Props.Names
