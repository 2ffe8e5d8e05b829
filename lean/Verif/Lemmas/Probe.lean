import Mathlib.Data.Finset.Card
import Mathlib.Data.Finset.Range
import Mathlib.Data.Nat.Find

/-!
# Open addressing with linear probing
-/
namespace Verif.Probe

/-- Every entry can be found: the nodes between the hash of its key and the entry are occupied by
other keys. -/
def Chain {K V : Type} (hash : K → Nat) (cap : Nat) (nodes : Nat → Option (K × V)) : Prop :=
  ∀ p k v, p < cap → nodes p = some (k, v) → ∃ o, o < cap ∧ p = (hash k + o) % cap ∧ ∀ o' < o, ∃ kv, nodes ((hash k + o') % cap) = some kv ∧ kv.1 ≠ k

/-- A search for `k` that has got to offset `o`. -/
def Searched {K V : Type} (hash : K → Nat) (cap : Nat) (nodes : Nat → Option (K × V)) (k : K) (o : Nat) : Prop :=
  ∀ o' < o, ∃ kv, nodes ((hash k + o') % cap) = some kv ∧ kv.1 ≠ k

theorem Searched.unique {K V : Type} {hash : K → Nat} {cap : Nat} {nodes : Nat → Option (K × V)} (hc : Chain hash cap nodes) {k : K} {o : Nat}
    (hs : Searched hash cap nodes k o) (hn : nodes ((hash k + o) % cap) = none) : ∀ p v, p < cap → nodes p ≠ some (k, v) := by
  intro p v hp he
  obtain ⟨o', _, hpo, hch⟩ := hc p k v hp he
  rcases Nat.lt_trichotomy o' o with h | h | h
  · obtain ⟨kv, h1, h2⟩ := hs o' h
    rw [← hpo, he] at h1
    cases h1
    exact h2 rfl
  · subst h
    rw [← hpo, he] at hn
    cases hn
  · obtain ⟨kv, h1, _⟩ := hch o h
    rw [hn] at h1
    cases h1

/-- No key is in the table twice. -/
theorem Chain.inj {K V : Type} {hash : K → Nat} {cap : Nat} {nodes : Nat → Option (K × V)} (hc : Chain hash cap nodes) {p q : Nat} {k : K} {v w : V} (hp : p < cap) (hq : q < cap)
    (h1 : nodes p = some (k, v)) (h2 : nodes q = some (k, w)) : p = q := by
  obtain ⟨o1, _, e1, c1⟩ := hc p k v hp h1
  obtain ⟨o2, _, e2, c2⟩ := hc q k w hq h2
  rcases Nat.lt_trichotomy o1 o2 with h | h | h
  · obtain ⟨kv, a, b⟩ := c2 o1 h
    rw [← e1, h1] at a
    cases a
    exact absurd rfl b
  · rw [e1, e2, h]
  · obtain ⟨kv, a, b⟩ := c1 o2 h
    rw [← e2, h2] at a
    cases a
    exact absurd rfl b

/-- A search that meets a free node may put the key there. -/
theorem Chain.insert {K V : Type} {hash : K → Nat} {cap : Nat} {nodes : Nat → Option (K × V)} (hc : Chain hash cap nodes) {k : K} {o : Nat} (v : V) (ho : o < cap)
    (hs : Searched hash cap nodes k o) (hn : nodes ((hash k + o) % cap) = none) :
    Chain hash cap (fun j => if j = (hash k + o) % cap then some (k, v) else nodes j) := by
  intro p k' v' hp he
  simp only at he
  have keep : ∀ q kv, nodes q = some kv → (if q = (hash k + o) % cap then some (k, v) else nodes q) = some kv := fun q kv hq => by
    rw [if_neg (show q ≠ _ from fun e => by rw [e, hn] at hq; cases hq)]; exact hq
  by_cases hpe : p = (hash k + o) % cap
  · rw [if_pos hpe] at he
    cases he
    exact ⟨o, ho, hpe, fun o' h' => (hs o' h').imp fun kv h => ⟨keep _ _ h.1, h.2⟩⟩
  · rw [if_neg hpe] at he
    obtain ⟨o', h1, h2, h3⟩ := hc p k' v' hp he
    exact ⟨o', h1, h2, fun o'' h' => (h3 o'' h').imp fun kv h => ⟨keep _ _ h.1, h.2⟩⟩

/-- The occupied nodes. -/
def occupied {K V : Type} (cap : Nat) (nodes : Nat → Option (K × V)) : Finset Nat := (Finset.range cap).filter fun p => (nodes p).isSome = true

theorem occupied_insert {K V : Type} {cap : Nat} {nodes : Nat → Option (K × V)} {i : Nat} (hi : i < cap) (hn : nodes i = none) (kv : K × V) :
    (occupied cap (fun j => if j = i then some kv else nodes j)).card = (occupied cap nodes).card + 1 := by
  have : occupied cap (fun j => if j = i then some kv else nodes j) = insert i (occupied cap nodes) := by
    ext p
    simp only [occupied, Finset.mem_filter, Finset.mem_range, Finset.mem_insert]
    by_cases hp : p = i
    · subst hp; simp [hi]
    · simp [hp]
  rw [this, Finset.card_insert_of_notMem]
  simp [occupied, hn]

theorem exists_free {K V : Type} {cap : Nat} {nodes : Nat → Option (K × V)} (h : (occupied cap nodes).card < cap) : ∃ p, p < cap ∧ nodes p = none := by
  apply Classical.byContradiction
  intro hne
  have : occupied cap nodes = Finset.range cap := by
    ext p
    simp only [occupied, Finset.mem_filter, Finset.mem_range]
    refine ⟨fun h => h.1, fun h => ⟨h, ?_⟩⟩
    cases hp : nodes p with
    | none => exact absurd ⟨p, h, hp⟩ hne
    | some _ => rfl
  rw [this, Finset.card_range] at h
  omega

/-- Probing from anywhere reaches every node. -/
theorem reaches {cap : Nat} (h p : Nat) (hp : p < cap) : ∃ o, o < cap ∧ (h + o) % cap = p := by
  have hpos : 0 < cap := by omega
  have hm := Nat.mod_lt h hpos
  by_cases hle : h % cap ≤ p
  · refine ⟨p - h % cap, by omega, ?_⟩
    rw [Nat.add_mod, Nat.mod_eq_of_lt (show p - h % cap < cap by omega), show h % cap + (p - h % cap) = p by omega, Nat.mod_eq_of_lt hp]
  · refine ⟨cap + p - h % cap, by omega, ?_⟩
    rw [Nat.add_mod, Nat.mod_eq_of_lt (show cap + p - h % cap < cap by omega), show h % cap + (cap + p - h % cap) = cap + p by omega,
      Nat.add_mod_left, Nat.mod_eq_of_lt hp]

/-- The first free node of a probe sequence. -/
theorem first_free {K V : Type} {cap : Nat} {nodes : Nat → Option (K × V)} (h : (occupied cap nodes).card < cap) (k : Nat) :
    ∃ o, o < cap ∧ nodes ((k + o) % cap) = none ∧ ∀ o' < o, nodes ((k + o') % cap) ≠ none := by
  obtain ⟨p, hp, hn⟩ := exists_free h
  obtain ⟨o, ho, hop⟩ := reaches k p hp
  have ex : ∃ o, o < cap ∧ nodes ((k + o) % cap) = none := ⟨o, ho, by rw [hop]; exact hn⟩
  classical
  refine ⟨Nat.find ex, (Nat.find_spec ex).1, (Nat.find_spec ex).2, fun o' ho' he => Nat.find_min ex ho' ⟨by have := (Nat.find_spec ex).1; omega, he⟩⟩

end Verif.Probe
