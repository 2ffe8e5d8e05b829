import Verif.Model.StaticTable
import Verif.Spec.Linkage
import Verif.Spec.Chunk
import Verif.Props.AstTable
import Verif.Props.Chunk

/-!
# C50: which names are local to a file
-/

namespace Verif.Props.StaticTable

open Verif.StaticTable Verif.Probe Verif.Chunk Verif.Spec.Linkage
open Verif.AstTable (Nodes setNode)
open Verif.Props.AstTable (rehash_spec)

/-- The table represents the map. -/
structure Rep (hash : Nat → Nat) (t : Table) (m : Nat → Option Nat) : Prop where
  pos : 2 ≤ t.cap
  chain : Chain hash t.cap t.nodes
  count : (occupied t.cap t.nodes).card = t.size
  load : 2 * t.size ≤ t.cap + 1
  map : ∀ k v, m k = some v ↔ ∃ p, p < t.cap ∧ t.nodes p = some (k, v)

/-- What registering a name does to the map. -/
def effect (r : Reg) (m : Nat → Option Nat) : Nat → Option Nat := fun x =>
  if x = r.name then
    match m x with
    | none => some (actuallyStatic r).toNat
    | some v => some (if v ≠ 0 then v else if r.isStatic = true then 1 else v)
  else m x

theorem grow_rep {hash : Nat → Nat} {t : Table} {m} (h : Rep hash t m) :
    Rep hash (grow hash t) m ∧ 2 * (grow hash t).size + 1 ≤ (grow hash t).cap := by
  have hp := h.pos
  have hl := h.load
  unfold grow
  split
  · obtain ⟨h1, h2, h3⟩ := rehash_spec h.chain (show t.cap < 2 * t.cap by omega) t.cap (Nat.le_refl _)
    refine ⟨⟨by simp only; omega, h1, by simp only; rw [h2]; exact h.count, by simp only; omega, fun k v => ?_⟩, by simp only; omega⟩
    simp only
    rw [h.map, h3]
  · exact ⟨h, by omega⟩

/-- Changing the value of an entry. -/
theorem chain_set {hash : Nat → Nat} {cap : Nat} {nodes : Nodes} (hc : Chain hash cap nodes) {i k v w} (hi : nodes i = some (k, v)) :
    Chain hash cap (setNode nodes i (some (k, w))) := by
  have keep : ∀ q kv, nodes q = some kv → ∃ kv', setNode nodes i (some (k, w)) q = some kv' ∧ kv'.1 = kv.1 := by
    intro q kv hq
    unfold setNode
    by_cases h : q = i
    · subst h; rw [hi] at hq; cases hq; exact ⟨(k, w), if_pos rfl, rfl⟩
    · exact ⟨kv, by rw [if_neg h]; exact hq, rfl⟩
  intro p k' v' hp he
  have hold : ∃ v'', nodes p = some (k', v'') := by
    unfold setNode at he
    split at he
    · rename_i h; subst h; cases he; exact ⟨v, hi⟩
    · exact ⟨v', he⟩
  obtain ⟨v'', hold⟩ := hold
  obtain ⟨o, h1, h2, h3⟩ := hc p k' v'' hp hold
  refine ⟨o, h1, h2, fun o' ho' => ?_⟩
  obtain ⟨kv, h4, h5⟩ := h3 o' ho'
  obtain ⟨kv', h6, h7⟩ := keep _ _ h4
  exact ⟨kv', h6, by rw [h7]; exact h5⟩

theorem occupied_set {cap : Nat} {nodes : Nodes} {i kv kv'} (hi : nodes i = some kv) :
    occupied cap (setNode nodes i (some kv')) = occupied cap nodes := by
  unfold occupied
  congr 1
  funext p
  unfold setNode
  by_cases h : p = i
  · subst h; rw [if_pos rfl, hi]; rfl
  · rw [if_neg h]

theorem insert_rep {hash : Nat → Nat} {t : Table} {m} (h : Rep hash t m) (hl : 2 * t.size + 1 ≤ t.cap) (r : Reg) :
    Rep hash (insertName t hash r 0 t.cap) (effect r m) := by
  have hp := h.pos
  obtain ⟨f, hf, hfn, hfo⟩ := first_free (show (occupied t.cap t.nodes).card < t.cap by rw [h.count]; omega) (hash r.name)
  have key : ∀ fuel o, o ≤ f → f - o < fuel → Searched hash t.cap t.nodes r.name o → Rep hash (insertName t hash r o fuel) (effect r m) := by
    intro fuel
    induction fuel with
    | zero => intro o ho hfu; omega
    | succ fuel ih =>
      intro o ho hfu hs
      unfold insertName
      dsimp only
      have hidx : (hash r.name + o) % t.cap < t.cap := Nat.mod_lt _ (by omega)
      cases hx : t.nodes ((hash r.name + o) % t.cap) with
      | none =>
        have hnot := hs.unique h.chain hx
        have hm : m r.name = none := by
          cases hm : m r.name with
          | none => rfl
          | some w =>
            obtain ⟨p, hp', he⟩ := (h.map r.name w).mp hm
            exact absurd he (hnot p w hp')
        refine ⟨hp, h.chain.insert _ (by omega) hs hx, ?_, by dsimp only; omega, ?_⟩
        · dsimp only
          rw [← h.count]
          exact occupied_insert hidx hx _
        · intro k' v'
          dsimp only
          unfold effect setNode
          by_cases hk : k' = r.name
          · subst hk
            rw [if_pos rfl, hm]
            dsimp only
            constructor
            · intro e
              cases e
              exact ⟨_, hidx, by rw [if_pos rfl]⟩
            · rintro ⟨p, hp', he⟩
              split at he
              · cases he; rfl
              · exact absurd he (hnot p v' hp')
          · rw [if_neg hk, h.map]
            constructor
            · rintro ⟨p, hp', he⟩
              exact ⟨p, hp', by rw [if_neg (show p ≠ _ from fun e => by rw [e, hx] at he; cases he)]; exact he⟩
            · rintro ⟨p, hp', he⟩
              split at he
              · cases he; exact absurd rfl hk
              · exact ⟨p, hp', he⟩
      | some kv =>
        obtain ⟨k, v⟩ := kv
        dsimp only
        by_cases hk : k = r.name
        · subst hk
          have hm : m r.name = some v := (h.map _ _).mpr ⟨_, hidx, hx⟩
          have same : (v ≠ 0 ∨ r.isStatic ≠ true) → Rep hash t (effect r m) := by
            intro hv
            have : effect r m = m := by
              funext x
              unfold effect
              split
              · rename_i hxr
                subst hxr
                rw [hm]
                dsimp only
                rcases hv with hv | hv
                · rw [if_pos hv]
                · rw [if_neg hv]; split <;> rfl
              · rfl
            rw [this]; exact h
          rw [if_pos rfl]
          by_cases hv : v ≠ 0
          · rw [if_pos hv]; exact same (.inl hv)
          · rw [if_neg hv]
            by_cases hst : r.isStatic = true
            · rw [if_pos hst]
              refine ⟨hp, chain_set h.chain hx, ?_, h.load, ?_⟩
              · dsimp only
                rw [occupied_set hx]; exact h.count
              · intro k' v'
                dsimp only
                unfold effect setNode
                by_cases hk : k' = r.name
                · subst hk
                  rw [if_pos rfl, hm]
                  dsimp only
                  rw [if_neg hv, if_pos hst]
                  constructor
                  · intro e
                    cases e
                    exact ⟨_, hidx, by rw [if_pos rfl]⟩
                  · rintro ⟨p, hp', he⟩
                    split at he
                    · cases he; rfl
                    · rename_i hne
                      exact absurd (h.chain.inj hp' hidx he hx) hne
                · rw [if_neg hk, h.map]
                  constructor
                  · rintro ⟨p, hp', he⟩
                    exact ⟨p, hp', by rw [if_neg (show p ≠ _ from fun e => by rw [e, hx] at he; cases he; exact hk rfl)]; exact he⟩
                  · rintro ⟨p, hp', he⟩
                    split at he
                    · cases he; exact absurd rfl hk
                    · exact ⟨p, hp', he⟩
            · rw [if_neg hst]; exact same (.inr hst)
        · rw [if_neg hk]
          have hne : o ≠ f := fun e => by rw [e, hfn] at hx; cases hx
          refine ih (o + 1) (by omega) (by omega) (fun o' ho' => ?_)
          rcases Nat.lt_succ_iff_lt_or_eq.mp ho' with h' | h'
          · exact hs o' h'
          · subst h'; exact ⟨_, hx, hk⟩
  exact key t.cap 0 (Nat.zero_le _) (by omega) (fun o' ho' => absurd ho' (Nat.not_lt_zero _))

theorem lookup_rep {hash : Nat → Nat} {t : Table} {m} (h : Rep hash t m) (n : Nat) :
    lookup hash t n = some (match m n with | none => .notDefined | some v => if v ≠ 0 then .static else .nonStatic) := by
  have hp := h.pos
  have hl := h.load
  obtain ⟨f, hf, hfn, hfo⟩ := first_free (show (occupied t.cap t.nodes).card < t.cap by rw [h.count]; omega) (hash n)
  have key : ∀ fuel o, o ≤ f → f - o < fuel → Searched hash t.cap t.nodes n o →
      probe t hash n o fuel = some (match m n with | none => .notDefined | some v => if v ≠ 0 then .static else .nonStatic) := by
    intro fuel
    induction fuel with
    | zero => intro o ho hfu; omega
    | succ fuel ih =>
      intro o ho hfu hs
      unfold probe
      cases hx : t.nodes ((hash n + o) % t.cap) with
      | none =>
        have hnot := hs.unique h.chain hx
        cases hm : m n with
        | none => rfl
        | some w =>
          obtain ⟨p, hp', he⟩ := (h.map n w).mp hm
          exact absurd he (hnot p w hp')
      | some kv =>
        obtain ⟨k, v⟩ := kv
        dsimp only
        by_cases hk : k = n
        · subst hk
          rw [if_pos rfl, (h.map _ _).mpr ⟨_, Nat.mod_lt _ (by omega), hx⟩]
        · rw [if_neg hk]
          have hne : o ≠ f := fun e => by rw [e, hfn] at hx; cases hx
          refine ih (o + 1) (by omega) (by omega) (fun o' ho' => ?_)
          rcases Nat.lt_succ_iff_lt_or_eq.mp ho' with h' | h'
          · exact hs o' h'
          · subst h'; exact ⟨_, hx, hk⟩
  exact key t.cap 0 (Nat.zero_le _) (by omega) (fun o' ho' => absurd ho' (Nat.not_lt_zero _))

/-- The map after a list of registrations. -/
def content (ds : List Reg) : Nat → Option Nat := ds.foldl (fun m r => effect r m) (fun _ => none)

theorem register_all {hash : Nat → Nat} (ds : List Reg) : ∀ {t : Table} {m}, Rep hash t m →
    Rep hash (ds.foldl (register hash) t) (ds.foldl (fun m r => effect r m) m) := by
  induction ds with
  | nil => intro t m h; exact h
  | cons r ds ih =>
    intro t m h
    obtain ⟨h1, h2⟩ := grow_rep h
    exact ih (insert_rep h1 h2 r)

theorem create_rep (hash : Nat → Nat) {cap : Nat} (h : 2 ≤ cap) : Rep hash (create cap) (fun _ => none) :=
  ⟨h, fun p k v _ he => (by cases he), by simp [create, occupied], by simp [create], fun k v => by simp [create]⟩

/-- The fold for one name. -/
theorem content_name (n : Nat) (ds : List Reg) (m : Nat → Option Nat) :
    (ds.foldl (fun m r => effect r m) m) n =
      match m n with
      | some v => some (if v ≠ 0 then v else if (ds.filter (·.name = n)).any (·.isStatic) = true then 1 else v)
      | none =>
        match ds.filter (·.name = n) with
        | [] => none
        | first :: rest => some ((first :: rest).any (·.isStatic) || (first.isInline && !first.isExtern)).toNat := by
  induction ds generalizing m with
  | nil =>
    rw [List.foldl_nil]
    cases h : m n with
    | none => rfl
    | some v => simp
  | cons r ds ih =>
    rw [List.foldl_cons, ih]
    by_cases hr : r.name = n
    · subst hr
      rw [List.filter_cons_of_pos (by simp)]
      unfold effect
      rw [if_pos rfl]
      cases hm : m r.name with
      | some v =>
        dsimp only
        by_cases hv : v ≠ 0
        · simp [hv]
        · have hv : v = 0 := by simpa using hv
          subst hv
          rw [List.any_cons]
          generalize (ds.filter (·.name = r.name)).any (·.isStatic) = b
          cases hs : r.isStatic <;> cases b <;> rfl
      | none =>
        dsimp only
        rw [List.any_cons]
        unfold actuallyStatic
        generalize (ds.filter (·.name = r.name)).any (·.isStatic) = b
        cases hs : r.isStatic <;> cases he : r.isExtern <;> cases hi : r.isInline <;>
          cases b <;> rfl
    · rw [List.filter_cons_of_neg (by simpa using hr)]
      unfold effect
      rw [if_neg (fun h => hr h.symm)]

/-- **C50, the table.** For every hash function, every capacity and every sequence of declarations, the lookup of a name says whether it
is declared in the file, and if so whether it is local to it. It always succeeds. -/
theorem C50_table (hash : Nat → Nat) (cap : Nat) (hcap : 2 ≤ cap) (ds : List Reg) (n : Nat) :
    lookup hash (ds.foldl (register hash) (create cap)) n =
      some (if declared ds n = false then .notDefined else if fileLocal ds n = true then .static else .nonStatic) := by
  rw [lookup_rep (register_all ds (create_rep hash hcap)) n, content_name]
  dsimp only
  unfold fileLocal declared
  cases hf : ds.filter (·.name = n) with
  | nil =>
    have : ds.any (·.name = n) = false := by
      rw [List.any_eq_false]
      intro r hr hn
      have : r ∈ ds.filter (·.name = n) := List.mem_filter.2 ⟨hr, hn⟩
      rw [hf] at this; cases this
    rw [if_pos this]
  | cons first rest =>
    have : ds.any (·.name = n) = true := by
      have hm : first ∈ ds.filter (·.name = n) := by rw [hf]; simp
      exact List.any_eq_true.2 ⟨first, (List.mem_filter.1 hm).1, (List.mem_filter.1 hm).2⟩
    rw [this]
    dsimp only
    have key : ∀ b : Bool, (if b.toNat ≠ 0 then Answer.static else .nonStatic) = if b = true then Answer.static else .nonStatic := by decide
    rw [if_neg (show ¬ true = false by decide)]
    exact congrArg some (key _)

/-- Names 1 and 9 have the same hash; 1 becomes static by its third declaration, 2 is inline first, 3 is inline after an external
declaration. -/
def sample : List Reg :=
  [⟨1, false, false, false⟩, ⟨9, false, true, false⟩, ⟨1, false, true, false⟩, ⟨1, true, false, false⟩, ⟨2, false, false, true⟩,
   ⟨2, false, true, true⟩, ⟨3, false, false, false⟩, ⟨3, false, false, true⟩]

example : [1, 9, 2, 3, 17].map (lookup (· % 8) (sample.foldl (register (· % 8)) (create 2))) =
    [some .static, some .nonStatic, some .static, some .nonStatic, some .notDefined] := by decide

/-- **C50, files.** After a file that consists of external declarations was split, the lookup of every name gives what the
declarations say. -/
theorem C50_file (hash : Nat → Nat) (cap : Nat) (hcap : 2 ≤ cap) (es : List Spec.Chunk.External) (h : ∀ e ∈ es, e.Wf) (n : Nat) :
    (split (es.flatMap Spec.Chunk.External.tokens)).bind (fun p => lookup hash (p.2.foldl (register hash) (create cap)) n) =
      some (if declared (es.flatMap Spec.Chunk.External.declared) n = false then .notDefined
        else if fileLocal (es.flatMap Spec.Chunk.External.declared) n = true then .static else .nonStatic) := by
  rw [Chunk.C48_declarations es h]
  exact C50_table hash cap hcap _ n

example : (split (Chunk.sample.flatMap Spec.Chunk.External.tokens)).bind (fun p => lookup id (p.2.foldl (register id) (create 32)) 1) =
    some .static := by decide

/-! ## The flag of declarations -/

theorem flags_get (f : Nat → Bool) : ∀ (ns : List Nat) (flag : Bool) (i : Nat) (hi : i < ns.length),
    (flags f flag ns)[i]? = some (flag || (ns.take (i + 1)).any f)
  | n :: ns, flag, 0, _ => by simp [flags]
  | n :: ns, flag, i + 1, hi => by
    rw [flags, List.getElem?_cons_succ, flags_get f ns _ i (by simpa using hi), List.take_succ_cons, List.any_cons, Bool.or_assoc]

theorem fileLocal_static {ds : List Reg} {r : Reg} (h : r ∈ ds) (hs : r.isStatic = true) : fileLocal ds r.name = true := by
  unfold fileLocal
  have hm : r ∈ ds.filter (·.name = r.name) := List.mem_filter.2 ⟨h, by simp⟩
  cases hf : ds.filter (·.name = r.name) with
  | nil => rw [hf] at hm; cases hm
  | cons a as =>
    rw [hf] at hm
    dsimp only
    rw [List.any_eq_true.2 ⟨r, hm, hs⟩]; rfl

/-- **C50, declarations, partial.** A declarator of a declaration at file scope gets the flag for local names exactly if its name is
local to the file, except when the name is not local and either the declaration is `inline` without `extern`, or an earlier declarator of the
same declaration declares a local name. Missing: these two cases, in which the flag is wrong. -/
theorem C50_flag_partial (ds : List Reg) (isStatic isExtern isInline : Bool) (ns : List Nat)
    (hds : ∀ n ∈ ns, (⟨n, isStatic, isExtern, isInline⟩ : Reg) ∈ ds) (i : Nat) (hi : i < ns.length) :
    (declaration (fileLocal ds) isStatic isExtern isInline ns)[i]? = some (fileLocal ds ns[i]) ↔
      ¬ (fileLocal ds ns[i] = false ∧
        ((isInline = true ∧ isExtern = false) ∨ ∃ j, ∃ h : j < i, fileLocal ds (ns[j]'(Nat.lt_trans h hi)) = true)) := by
  unfold declaration
  rw [flags_get _ _ _ i hi, List.take_succ_eq_append_getElem hi, List.any_append]
  have hst : isStatic = true → fileLocal ds ns[i] = true := fun h => fileLocal_static (hds _ (List.getElem_mem hi)) h
  have hex : (ns.take i).any (fileLocal ds) = true ↔ ∃ j, ∃ h : j < i, fileLocal ds (ns[j]'(Nat.lt_trans h hi)) = true := by
    rw [List.any_eq_true]
    constructor
    · rintro ⟨n, hn, hf⟩
      obtain ⟨j, hj, rfl⟩ := List.mem_iff_getElem.1 hn
      simp only [List.length_take] at hj
      exact ⟨j, by omega, by simpa using hf⟩
    · rintro ⟨j, hj, hf⟩
      exact ⟨_, List.mem_iff_getElem.2 ⟨j, by simp only [List.length_take]; omega, rfl⟩, by simpa using hf⟩
  rw [← hex]
  generalize (ns.take i).any (fileLocal ds) = b
  simp only [List.any_cons, List.any_nil, Bool.or_false, Option.some.injEq]
  generalize fileLocal ds ns[i] = l at hst
  cases isStatic <;> cases isExtern <;> cases isInline <;> cases b <;> cases l <;> simp_all

/-- A declaration of the names 9 and 1, of which only the second is local. -/
example : fileLocal sample 1 = true ∧ declaration (fileLocal sample) false false false [9, 1] = [false, true] := by decide

/-- **Finding.** `static int f(void); int f(void), g(void);`: `g` gets the flag for local names, because the flag is kept from one declarator to the
next, although it is external by the table. -/
theorem C50_later_declarator_wrong :
    let ds : List Reg := [⟨1, true, false, false⟩, ⟨1, false, false, false⟩, ⟨2, false, false, false⟩]
    fileLocal ds 2 = false ∧ declaration (fileLocal ds) false false false [1, 2] = [true, true] := by decide

/-- **Finding.** `int f(void); inline int f(void) { … }`: the second declaration gets the flag for local names, although `f` is external by the
table. Whether `f` is exported then depends on which of the two is parsed first. -/
theorem C50_inline_definition_wrong :
    let ds : List Reg := [⟨1, false, false, false⟩, ⟨1, false, false, true⟩]
    fileLocal ds 1 = false ∧ declaration (fileLocal ds) false false false [1] = [false] ∧
      declaration (fileLocal ds) false false true [1] = [true] := by decide

/-- **Finding.** `int y; static int _Alignas(sizeof(y)) x;`: the `y` in the second declaration counts as a declared name, so `y` becomes local to
the file. -/
theorem C50_alignas_wrong :
    (split [.basic, .ident 1, .semicolon,
        .static, .basic, .other 1, .openParen, .other 2, .openParen, .ident 1, .closedParen, .closedParen, .ident 2, .semicolon]).bind
      (fun p => lookup id (p.2.foldl (register id) (create 32)) 1) = some .static := by decide

end Verif.Props.StaticTable
