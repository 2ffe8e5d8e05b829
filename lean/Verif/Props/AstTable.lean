import Verif.Model.AstTable
import Verif.Spec.FirstWins
import Verif.Lemmas.Probe

/-!
# C27: the table of global declarations is a map in which the first insertion wins
-/
namespace Verif.Props.AstTable
open Verif.AstTable Verif.Probe
open Verif.Spec.FirstWins (Call Map results after)

/-- The table represents the map. -/
structure Rep (hash : Nat → Nat) (t : Table) (m : Map) : Prop where
  pos : 2 ≤ t.cap
  chain : Chain hash t.cap t.nodes
  count : (occupied t.cap t.nodes).card = t.amount
  load : t.amount ≤ t.cap / 2
  map : ∀ k v, m k = some v ↔ ∃ p, p < t.cap ∧ t.nodes p = some (k, v)

theorem next_index (h o cap : Nat) : ((h + o) % cap + 1) % cap = (h + (o + 1)) % cap := by
  rw [Nat.mod_add_mod]; rfl

theorem place_spec {hash : Nat → Nat} {cap : Nat} {nodes : Nodes} {kv : Nat × Nat} {f : Nat}
    (hn : nodes ((hash kv.1 + f) % cap) = none) (hf : ∀ o' < f, nodes ((hash kv.1 + o') % cap) ≠ none) (fuel o : Nat) (ho : o ≤ f) (hfuel : f - o < fuel) :
    place nodes cap (some kv) ((hash kv.1 + o) % cap) fuel = setNode nodes ((hash kv.1 + f) % cap) (some kv) := by
  induction fuel generalizing o with
  | zero => omega
  | succ fuel ih =>
    simp only [place]
    by_cases he : o = f
    · subst he; rw [hn]
    · cases hx : nodes ((hash kv.1 + o) % cap) with
      | none => exact absurd hx (hf o (by omega))
      | some y => simp only; rw [next_index]; exact ih (o + 1) (by omega) (by omega)

theorem rehash_spec {hash : Nat → Nat} {old : Nodes} {oldCap cap : Nat} (hold : Chain hash oldCap old) (hcap : oldCap < cap) (i : Nat) (hi : i ≤ oldCap) :
    Chain hash cap (rehash hash old cap i) ∧ (occupied cap (rehash hash old cap i)).card = (occupied i old).card ∧
      ∀ k v, (∃ p, p < cap ∧ rehash hash old cap i p = some (k, v)) ↔ ∃ p, p < i ∧ old p = some (k, v) := by
  induction i with
  | zero => exact ⟨fun p k v _ h => by simp [rehash] at h, by simp [occupied, rehash], fun k v => by simp [rehash]⟩
  | succ i ih =>
    obtain ⟨h1, h2, h3⟩ := ih (by omega)
    have hocc : (occupied (i + 1) old).card = (occupied i old).card + if (old i).isSome then 1 else 0 := by
      simp only [occupied, Finset.range_add_one, Finset.filter_insert]
      split
      · rw [Finset.card_insert_of_notMem (by simp)]
      · simp
    cases hx : old i with
    | none =>
      simp only [rehash, hx]
      refine ⟨h1, by rw [h2, hocc, hx]; simp, fun k v => ?_⟩
      rw [h3]
      constructor
      · rintro ⟨p, hp, he⟩; exact ⟨p, by omega, he⟩
      · rintro ⟨p, hp, he⟩
        refine ⟨p, ?_, he⟩
        rcases Nat.lt_succ_iff_lt_or_eq.mp hp with h | h
        · exact h
        · rw [h, hx] at he; cases he
    | some kv =>
      simp only [rehash, hx]
      have hlt : (occupied cap (rehash hash old cap i)).card < cap := by
        rw [h2]
        have : (occupied i old).card ≤ i := by
          have := Finset.card_filter_le (Finset.range i) fun p => (old p).isSome = true
          rwa [Finset.card_range] at this
        omega
      obtain ⟨f, hf, hfn, hfo⟩ := first_free hlt (hash kv.1)
      have hpl := place_spec (hash := hash) (kv := kv) hfn hfo cap 0 (Nat.zero_le _) (by omega)
      rw [Nat.add_zero] at hpl
      rw [hpl]
      have hs : Searched hash cap (rehash hash old cap i) kv.1 f := by
        intro o' ho'
        cases hy : rehash hash old cap i ((hash kv.1 + o') % cap) with
        | none => exact absurd hy (hfo o' ho')
        | some kv' =>
          refine ⟨kv', rfl, fun e => ?_⟩
          obtain ⟨p, hp, he⟩ := (h3 kv'.1 kv'.2).mp ⟨_, Nat.mod_lt _ (by omega), hy⟩
          have hkv : old i = some (kv'.1, kv.2) := by rw [hx, e]
          have := hold.inj (by omega) (by omega) he hkv
          omega
      refine ⟨h1.insert kv.2 hf hs hfn, ?_, fun k v => ?_⟩
      · rw [hocc, hx, ← h2]
        exact occupied_insert (Nat.mod_lt _ (by omega)) hfn kv
      · constructor
        · rintro ⟨p, hp, he⟩
          simp only [setNode] at he
          split at he
          · cases he; exact ⟨i, by omega, hx⟩
          · obtain ⟨q, hq, he⟩ := (h3 k v).mp ⟨p, hp, he⟩
            exact ⟨q, by omega, he⟩
        · rintro ⟨p, hp, he⟩
          rcases Nat.lt_succ_iff_lt_or_eq.mp hp with h | h
          · obtain ⟨q, hq, he'⟩ := (h3 k v).mpr ⟨p, h, he⟩
            refine ⟨q, hq, ?_⟩
            simp only [setNode]
            rw [if_neg (show q ≠ _ from fun e => by rw [e, hfn] at he'; cases he')]; exact he'
          · rw [h, hx] at he
            cases he
            exact ⟨(hash k + f) % cap, Nat.mod_lt _ (by omega), by simp [setNode]⟩

theorem maybeGrow_rep {hash : Nat → Nat} {t : Table} {m : Map} (h : Rep hash t m) : Rep hash (maybeGrow hash t) m ∧ (maybeGrow hash t).amount + 1 ≤ (maybeGrow hash t).cap / 2 := by
  have hp := h.pos
  have hl := h.load
  simp only [maybeGrow]
  split
  · obtain ⟨h1, h2, h3⟩ := rehash_spec h.chain (show t.cap < t.cap * 2 by omega) t.cap (Nat.le_refl _)
    refine ⟨⟨by simp only; omega, h1, by simp only; rw [h2]; exact h.count, by simp only; omega, fun k v => ?_⟩, by simp only; omega⟩
    simp only
    rw [h.map, h3]
  · exact ⟨h, by omega⟩

theorem probeAdd_spec {hash : Nat → Nat} {t : Table} {m : Map} (h : Rep hash t m) (hl : t.amount + 1 ≤ t.cap / 2) (k v : Nat) :
    ∃ t', probeAdd t k v (hash k % t.cap) t.cap = some (t', m k) ∧ Rep hash t' ((Call.add k v).effect m) := by
  have hp := h.pos
  obtain ⟨f, hf, hfn, hfo⟩ := first_free (show (occupied t.cap t.nodes).card < t.cap by rw [h.count]; omega) (hash k)
  have key : ∀ fuel o, o ≤ f → f - o < fuel → Searched hash t.cap t.nodes k o →
      ∃ t', probeAdd t k v ((hash k + o) % t.cap) fuel = some (t', m k) ∧ Rep hash t' ((Call.add k v).effect m) := by
    intro fuel
    induction fuel with
    | zero => intro o ho hfu; omega
    | succ fuel ih =>
      intro o ho hfu hs
      simp only [probeAdd]
      cases hx : t.nodes ((hash k + o) % t.cap) with
      | none =>
        have hnot := hs.unique h.chain hx
        have hm : m k = none := by
          cases hm : m k with
          | none => rfl
          | some w =>
            obtain ⟨p, hp', he⟩ := (h.map k w).mp hm
            exact absurd he (hnot p w hp')
        refine ⟨{ t with nodes := setNode t.nodes ((hash k + o) % t.cap) (some (k, v)), amount := t.amount + 1 }, by rw [hm], ⟨hp, h.chain.insert v (by omega) hs hx, ?_, by simp only; omega, ?_⟩⟩
        · simp only
          rw [← h.count]
          exact occupied_insert (Nat.mod_lt _ (by omega)) hx (k, v)
        · intro k' v'
          simp only [Call.effect, setNode]
          by_cases hk : k' = k
          · subst hk
            rw [if_pos ⟨rfl, hm⟩]
            constructor
            · intro e
              cases e
              exact ⟨(hash k' + o) % t.cap, Nat.mod_lt _ (by omega), by rw [if_pos rfl]⟩
            · rintro ⟨p, hp', he⟩
              split at he
              · cases he; rfl
              · exact absurd he (hnot p v' hp')
          · rw [if_neg (fun e => hk e.1), h.map]
            constructor
            · rintro ⟨p, hp', he⟩
              exact ⟨p, hp', by rw [if_neg (show p ≠ _ from fun e => by rw [e, hx] at he; cases he)]; exact he⟩
            · rintro ⟨p, hp', he⟩
              split at he
              · cases he; exact absurd rfl hk
              · exact ⟨p, hp', he⟩
      | some kv =>
        obtain ⟨k', v'⟩ := kv
        simp only
        by_cases hk : k' = k
        · subst hk
          have hm : m k' = some v' := (h.map _ _).mpr ⟨_, Nat.mod_lt _ (by omega), hx⟩
          rw [if_pos rfl]
          refine ⟨t, by rw [hm], ?_⟩
          have : (Call.add k' v).effect m = m := by
            funext x
            simp only [Call.effect]
            rw [if_neg (fun e => by rw [hm] at e; cases e.2)]
          rw [this]; exact h
        · rw [if_neg hk, next_index]
          have hne : o ≠ f := fun e => by rw [e, hfn] at hx; cases hx
          refine ih (o + 1) (by omega) (by omega) (fun o' ho' => ?_)
          rcases Nat.lt_succ_iff_lt_or_eq.mp ho' with h' | h'
          · exact hs o' h'
          · subst h'; exact ⟨_, hx, hk⟩
  have := key t.cap 0 (Nat.zero_le _) (by omega) (fun o' ho' => absurd ho' (Nat.not_lt_zero _))
  rwa [Nat.add_zero] at this

theorem get_spec {hash : Nat → Nat} {t : Table} {m : Map} (h : Rep hash t m) (k : Nat) : get hash t k = some (m k) := by
  have hp := h.pos
  have hl := h.load
  obtain ⟨f, hf, hfn, hfo⟩ := first_free (show (occupied t.cap t.nodes).card < t.cap by rw [h.count]; omega) (hash k)
  have key : ∀ fuel o, o ≤ f → f - o < fuel → Searched hash t.cap t.nodes k o → probeGet t k ((hash k + o) % t.cap) fuel = some (m k) := by
    intro fuel
    induction fuel with
    | zero => intro o ho hfu; omega
    | succ fuel ih =>
      intro o ho hfu hs
      simp only [probeGet]
      cases hx : t.nodes ((hash k + o) % t.cap) with
      | none =>
        have hnot := hs.unique h.chain hx
        cases hm : m k with
        | none => rfl
        | some w =>
          obtain ⟨p, hp', he⟩ := (h.map k w).mp hm
          exact absurd he (hnot p w hp')
      | some kv =>
        obtain ⟨k', v'⟩ := kv
        simp only
        by_cases hk : k' = k
        · subst hk
          rw [if_pos rfl, (h.map _ _).mpr ⟨_, Nat.mod_lt _ (by omega), hx⟩]
        · rw [if_neg hk, next_index]
          have hne : o ≠ f := fun e => by rw [e, hfn] at hx; cases hx
          refine ih (o + 1) (by omega) (by omega) (fun o' ho' => ?_)
          rcases Nat.lt_succ_iff_lt_or_eq.mp ho' with h' | h'
          · exact hs o' h'
          · subst h'; exact ⟨_, hx, hk⟩
  have := key t.cap 0 (Nat.zero_le _) (by omega) (fun o' ho' => absurd ho' (Nat.not_lt_zero _))
  rwa [Nat.add_zero] at this

/-- Runs a sequence of operations on the table; `none` if `invalid_code_path` is reached. -/
def run (hash : Nat → Nat) : Table → List Call → Option (List (Option Nat))
  | _, [] => some []
  | t, .add k v :: cs => (add hash t k v).bind fun r => (run hash r.1 cs).map (r.2 :: ·)
  | t, .get k :: cs => (get hash t k).bind fun r => (run hash t cs).map (r :: ·)

theorem run_spec {hash : Nat → Nat} (cs : List Call) : ∀ {t : Table} {m : Map}, Rep hash t m → run hash t cs = some (results m cs) := by
  induction cs with
  | nil => intro t m _; rfl
  | cons c cs ih =>
    intro t m h
    cases c with
    | add k v =>
      obtain ⟨hg, hl⟩ := maybeGrow_rep h
      obtain ⟨t', h1, h2⟩ := probeAdd_spec hg hl k v
      simp only [run, add, h1, Option.bind_some, ih h2, Option.map_some, results, Call.result]
    | get k =>
      simp only [run, get_spec h, Option.bind_some, ih h, Option.map_some, results, Call.result, Call.effect]

/-- C27: for every hash function, every initial capacity of at least 2 and every sequence of
insertions and lookups by one thread, the table gives the results of a map in which the first
insertion of a name wins. It never runs out of free nodes. -/
theorem C27_first_wins_map (hash : Nat → Nat) (cap : Nat) (hcap : 2 ≤ cap) (cs : List Call) :
    run hash (create cap) cs = some (results Spec.FirstWins.none cs) := by
  apply run_spec
  refine ⟨hcap, fun p k v _ h => by simp [create] at h, by simp [occupied, create], Nat.zero_le _, fun k v => ?_⟩
  simp [create, Spec.FirstWins.none]

-- all names collide; the table grows twice
example : run (fun _ => 7) (create 2) [.add 5 50, .add 6 60, .add 5 51, .get 6, .add 7 70, .get 8, .get 7] =
    some [none, none, some 50, some 60, none, none, some 70] := by decide

end Verif.Props.AstTable
