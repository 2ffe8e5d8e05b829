import Verif.Model.Include
import Verif.Lemmas.Probe

/-!
# Lemmas: the table of include files
-/
namespace Verif.Lemmas.Include
open Verif.Include Verif.Probe
open Verif.Spec.Include (Path Node)

/-- The table represents the map. -/
structure Rep (hash : Path → Nat) (t : Table) (m : Path → Option Path) : Prop where
  pos : 8 ≤ t.capacity
  chain : Chain hash t.capacity t.entries
  count : (occupied t.capacity t.entries).card = t.count
  load : 2 * t.count ≤ t.capacity + 2
  map : ∀ k v, m k = some v ↔ ∃ p, p < t.capacity ∧ t.entries p = some (k, v)

/-- The first value is kept. -/
def keep (m : Path → Option Path) (e : Path × Path) : Path → Option Path := fun x => if x = e.1 ∧ m x = none then some e.2 else m x

theorem place_spec {hash cap : Nat} {nodes : Entries} {kv : Path × Path} {f : Nat}
    (hn : nodes ((hash + f) % cap) = none) (hf : ∀ o' < f, nodes ((hash + o') % cap) ≠ none) (fuel o : Nat) (ho : o ≤ f) (hfuel : f - o < fuel) :
    place nodes cap kv hash o fuel = setEntry nodes ((hash + f) % cap) kv := by
  induction fuel generalizing o with
  | zero => omega
  | succ fuel ih =>
    simp only [place]
    by_cases he : o = f
    · subst he; rw [hn]
    · cases hx : nodes ((hash + o) % cap) with
      | none => exact absurd hx (hf o (by omega))
      | some y => exact ih (o + 1) (by omega) (by omega)

theorem rehash_spec {hash : Path → Nat} {old : Entries} {oldCap cap : Nat} (hold : Chain hash oldCap old) (hcap : oldCap < cap) (i : Nat) (hi : i ≤ oldCap) :
    Chain hash cap (rehash hash old cap i) ∧ (occupied cap (rehash hash old cap i)).card = (occupied i old).card ∧
      ∀ k v, (∃ p, p < cap ∧ rehash hash old cap i p = some (k, v)) ↔ ∃ p, p < i ∧ old p = some (k, v) := by
  induction i with
  | zero => exact ⟨fun p k v _ h => by simp [rehash] at h, by simp [occupied, rehash], fun k v => by simp [rehash]⟩
  | succ i ih =>
    obtain ⟨h1, h2, h3⟩ := ih (by omega)
    have hocc : (occupied (i + 1) old).card = (occupied i old).card + if (old i).isSome then 1 else 0 := by
      simp only [occupied, Finset.range_add_one, Finset.filter_insert]
      split
      · rw [Finset.card_insert_of_notMem (by simp)]
      · simp
    cases hx : old i with
    | none =>
      simp only [rehash, hx]
      refine ⟨h1, by rw [h2, hocc, hx]; simp, fun k v => ?_⟩
      rw [h3]
      constructor
      · rintro ⟨p, hp, he⟩; exact ⟨p, by omega, he⟩
      · rintro ⟨p, hp, he⟩
        refine ⟨p, ?_, he⟩
        rcases Nat.lt_succ_iff_lt_or_eq.mp hp with h | h
        · exact h
        · rw [h, hx] at he; cases he
    | some kv =>
      simp only [rehash, hx]
      have hlt : (occupied cap (rehash hash old cap i)).card < cap := by
        rw [h2]
        have : (occupied i old).card ≤ i := by
          have := Finset.card_filter_le (Finset.range i) fun p => (old p).isSome = true
          rwa [Finset.card_range] at this
        omega
      obtain ⟨f, hf, hfn, hfo⟩ := first_free hlt (hash kv.1)
      have hpl := place_spec (kv := kv) hfn hfo cap 0 (Nat.zero_le _) (by omega)
      rw [hpl]
      have hs : Searched hash cap (rehash hash old cap i) kv.1 f := by
        intro o' ho'
        cases hy : rehash hash old cap i ((hash kv.1 + o') % cap) with
        | none => exact absurd hy (hfo o' ho')
        | some kv' =>
          refine ⟨kv', rfl, fun e => ?_⟩
          obtain ⟨p, hp, he⟩ := (h3 kv'.1 kv'.2).mp ⟨_, Nat.mod_lt _ (by omega), hy⟩
          have hkv : old i = some (kv'.1, kv.2) := by rw [hx, e]
          have := hold.inj (by omega) (by omega) he hkv
          omega
      refine ⟨h1.insert kv.2 hf hs hfn, ?_, fun k v => ?_⟩
      · rw [hocc, hx, ← h2]
        exact occupied_insert (Nat.mod_lt _ (by omega)) hfn kv
      · constructor
        · rintro ⟨p, hp, he⟩
          simp only [setEntry] at he
          split at he
          · cases he; exact ⟨i, by omega, hx⟩
          · obtain ⟨q, hq, he⟩ := (h3 k v).mp ⟨p, hp, he⟩
            exact ⟨q, by omega, he⟩
        · rintro ⟨p, hp, he⟩
          rcases Nat.lt_succ_iff_lt_or_eq.mp hp with h | h
          · obtain ⟨q, hq, he'⟩ := (h3 k v).mpr ⟨p, h, he⟩
            refine ⟨q, hq, ?_⟩
            simp only [setEntry]
            rw [if_neg (show q ≠ _ from fun e => by rw [e, hfn] at he'; cases he')]; exact he'
          · rw [h, hx] at he
            cases he
            exact ⟨(hash k + f) % cap, Nat.mod_lt _ (by omega), by simp [setEntry]⟩

theorem grow_rep {hash : Path → Nat} {t : Table} {m : Path → Option Path} (h : Rep hash t m) : Rep hash (grow hash t) m ∧ 2 * (grow hash t).count ≤ (grow hash t).capacity := by
  have hp := h.pos
  have hl := h.load
  simp only [grow]
  split
  · obtain ⟨h1, h2, h3⟩ := rehash_spec h.chain (show t.capacity < 2 * t.capacity by omega) t.capacity (Nat.le_refl _)
    refine ⟨⟨by simp only; omega, h1, by simp only; rw [h2]; exact h.count, by simp only; omega, fun k v => ?_⟩, by simp only; omega⟩
    simp only
    rw [h.map, h3]
  · exact ⟨h, by omega⟩

theorem addEntry_spec {hash : Path → Nat} {t : Table} {m : Path → Option Path} (h : Rep hash t m) (hl : 2 * t.count ≤ t.capacity) (kv : Path × Path) :
    Rep hash (addEntry t kv (hash kv.1) 0 t.capacity) (keep m kv) := by
  obtain ⟨k, v⟩ := kv
  have hp := h.pos
  obtain ⟨f, hf, hfn, hfo⟩ := first_free (show (occupied t.capacity t.entries).card < t.capacity by rw [h.count]; omega) (hash k)
  have key : ∀ fuel o, o ≤ f → f - o < fuel → Searched hash t.capacity t.entries k o →
      Rep hash (addEntry t (k, v) (hash k) o fuel) (keep m (k, v)) := by
    intro fuel
    induction fuel with
    | zero => intro o ho hfu; omega
    | succ fuel ih =>
      intro o ho hfu hs
      simp only [addEntry]
      cases hx : t.entries ((hash k + o) % t.capacity) with
      | none =>
        have hnot := hs.unique h.chain hx
        have hm : m k = none := by
          cases hm : m k with
          | none => rfl
          | some w =>
            obtain ⟨p, hp', he⟩ := (h.map k w).mp hm
            exact absurd he (hnot p w hp')
        refine ⟨hp, h.chain.insert v (by omega) hs hx, ?_, by simp only; omega, ?_⟩
        · simp only
          rw [← h.count]
          exact occupied_insert (Nat.mod_lt _ (by omega)) hx (k, v)
        · intro k' v'
          simp only [keep, setEntry]
          by_cases hk : k' = k
          · subst hk
            rw [if_pos ⟨rfl, hm⟩]
            constructor
            · intro e
              cases e
              exact ⟨(hash k' + o) % t.capacity, Nat.mod_lt _ (by omega), by rw [if_pos rfl]⟩
            · rintro ⟨p, hp', he⟩
              split at he
              · cases he; rfl
              · exact absurd he (hnot p v' hp')
          · rw [if_neg (fun e => hk e.1), h.map]
            constructor
            · rintro ⟨p, hp', he⟩
              exact ⟨p, hp', by rw [if_neg (show p ≠ _ from fun e => by rw [e, hx] at he; cases he)]; exact he⟩
            · rintro ⟨p, hp', he⟩
              split at he
              · cases he; exact absurd rfl hk
              · exact ⟨p, hp', he⟩
      | some kv =>
        obtain ⟨k', v'⟩ := kv
        simp only
        by_cases hk : k' = k
        · subst hk
          have hm : m k' = some v' := (h.map _ _).mpr ⟨_, Nat.mod_lt _ (by omega), hx⟩
          rw [if_pos rfl]
          have : keep m (k', v) = m := by
            funext x
            simp only [keep]
            by_cases e : x = k'
            · subst e; rw [if_neg (fun e => by rw [hm] at e; cases e.2)]
            · rw [if_neg (fun e' => e e'.1)]
          rw [this]; exact h
        · rw [if_neg hk]
          have hne : o ≠ f := fun e => by rw [e, hfn] at hx; cases hx
          refine ih (o + 1) (by omega) (by omega) (fun o' ho' => ?_)
          rcases Nat.lt_succ_iff_lt_or_eq.mp ho' with h' | h'
          · exact hs o' h'
          · subst h'; exact ⟨_, hx, hk⟩
  exact key t.capacity 0 (Nat.zero_le _) (by omega) (fun o' ho' => absurd ho' (Nat.not_lt_zero _))

theorem find_spec {hash : Path → Nat} {t : Table} {m : Path → Option Path} (h : Rep hash t m) (k : Path) : find t k (hash k) 0 t.capacity = m k := by
  have hp := h.pos
  have hl := h.load
  obtain ⟨f, hf, hfn, hfo⟩ := first_free (show (occupied t.capacity t.entries).card < t.capacity by rw [h.count]; omega) (hash k)
  have key : ∀ fuel o, o ≤ f → f - o < fuel → Searched hash t.capacity t.entries k o → find t k (hash k) o fuel = m k := by
    intro fuel
    induction fuel with
    | zero => intro o ho hfu; omega
    | succ fuel ih =>
      intro o ho hfu hs
      simp only [find]
      cases hx : t.entries ((hash k + o) % t.capacity) with
      | none =>
        have hnot := hs.unique h.chain hx
        cases hm : m k with
        | none => rfl
        | some w =>
          obtain ⟨p, hp', he⟩ := (h.map k w).mp hm
          exact absurd he (hnot p w hp')
      | some kv =>
        obtain ⟨k', v'⟩ := kv
        simp only
        by_cases hk : k' = k
        · subst hk
          rw [if_pos rfl, (h.map _ _).mpr ⟨_, Nat.mod_lt _ (by omega), hx⟩]
        · rw [if_neg hk]
          have hne : o ≠ f := fun e => by rw [e, hfn] at hx; cases hx
          refine ih (o + 1) (by omega) (by omega) (fun o' ho' => ?_)
          rcases Nat.lt_succ_iff_lt_or_eq.mp ho' with h' | h'
          · exact hs o' h'
          · subst h'; exact ⟨_, hx, hk⟩
  exact key t.capacity 0 (Nat.zero_le _) (by omega) (fun o' ho' => absurd ho' (Nat.not_lt_zero _))

/-! ## All files -/

/-- What is added for a file. -/
def entry (root path : Path) : Path × Path := (fold (path.drop (root.length + 1)), path.take (root.length + 1) ++ fold (path.drop (root.length + 1)))

theorem addFile_rep {hash : Path → Nat} {t : Table} {m : Path → Option Path} (h : Rep hash t m) (root path : Path) :
    Rep hash (addFile hash root t path) (keep m (entry root path)) := by
  obtain ⟨h1, h2⟩ := grow_rep h
  exact addEntry_spec h1 h2 (entry root path)

theorem keep_all : (l : List (Path × Path)) → (m : Path → Option Path) → (x : Path) →
    (l.foldl keep m) x = match m x with | some v => some v | none => (l.find? (fun e => e.1 = x)).map Prod.snd
  | [], m, x => by simp only [List.foldl_nil, List.find?_nil, Option.map_none]; cases m x <;> rfl
  | e :: l, m, x => by
    rw [List.foldl_cons, keep_all l, List.find?_cons]
    unfold keep
    cases hm : m x with
    | some v => simp
    | none =>
      by_cases hx : x = e.1
      · simp [hx]
      · have : ¬ e.1 = x := fun e => hx e.symm
        simp [hx, this]

theorem files_rep {hash : Path → Nat} (root : Path) : (l : List Path) → {t : Table} → {m : Path → Option Path} → Rep hash t m →
    Rep hash (l.foldl (addFile hash root) t) ((l.map (entry root)).foldl keep m)
  | [], _, _, h => h
  | p :: l, _, _, h => files_rep root l (addFile_rep h root p)

/-- What is added for a directory. -/
def entriesOf (d : Path × List Node) : List (Path × Path) := (filesOf d).map (entry d.1)

theorem directories_rep {hash : Path → Nat} : (l : List (Path × List Node)) → {t : Table} → {m : Path → Option Path} → Rep hash t m →
    Rep hash (l.foldl (fun t d => (filesOf d).foldl (addFile hash d.1) t) t) ((l.flatMap entriesOf).foldl keep m)
  | [], _, _, h => h
  | d :: l, _, _, h => by
    rw [List.foldl_cons, List.flatMap_cons, List.foldl_append]
    exact directories_rep l (files_rep d.1 (filesOf d) h)

/-- A string is looked up in the table. -/
theorem find_table (hash : Path → Nat) (w : World) (inc : Path) : find (table hash w) inc (hash inc) 0 (table hash w).capacity =
    w.directories.findSome? (fun d => ((entriesOf d).find? (fun e => e.1 = inc)).map Prod.snd) := by
  have h0 : Rep hash ⟨fun _ => none, 8, 0⟩ (fun _ => none) := ⟨Nat.le_refl _, (fun p k v _ h => by cases h), by simp [occupied], by simp, fun k v => by simp⟩
  have hr : Rep hash (table hash w) _ := directories_rep w.directories h0
  rw [find_spec hr, keep_all, List.find?_flatMap, List.map_findSome?]
  rfl

end Verif.Lemmas.Include
