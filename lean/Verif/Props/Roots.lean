import Verif.Model.Roots
import Verif.Props.Reach

/-!
# C32: from the declarations of a program to the emitted functions
-/

namespace Verif.Props.Roots

open Verif.Roots Verif.Spec

/-! ## Specification -/

/-- The names used in the body of the definition of `n`; `none` if it is not defined. -/
def bodyOf (ds : List FunDecl) (n : Nat) : Option (List Nat) :=
  ds.findSome? (fun d => if d.name = n then d.body else none)

/-- `n` is declared `__declspec(dllexport)` somewhere. -/
def exports (ds : List FunDecl) : List Nat := (ds.filter (·.dllexport)).map (·.name)

/-- `n` is reachable from the entry point or an exported function. -/
def Needed (ds : List FunDecl) (entry n : Nat) : Prop :=
  Reachable (fun n => (bodyOf ds n).getD []) (entry :: exports ds) n

/-- The first definition of `n` is `__declspec(inline_asm)`. -/
def isAsm (ds : List FunDecl) (n : Nat) : Bool :=
  ((ds.find? (fun d => d.name == n && d.body.isSome)).map (·.inlineAsm)).getD false

/-- The name of the object number `i`. -/
def nameOf (ds : List FunDecl) (i : Nat) : Option Nat := ds[i]?.map (·.name)

/-! ## The state after some declarations -/

def firstOf (ds : List FunDecl) (n : Nat) : Option Nat := ds.findIdx? (·.name == n)

theorem firstOf_snoc (ds : List FunDecl) (d : FunDecl) (n : Nat) :
    firstOf (ds ++ [d]) n = (firstOf ds n).or (if d.name = n then some ds.length else none) := by
  unfold firstOf
  rw [List.findIdx?_append]
  by_cases h : d.name = n <;> simp [List.findIdx?_cons, h]

theorem bodyOf_snoc (ds : List FunDecl) (d : FunDecl) (n : Nat) :
    bodyOf (ds ++ [d]) n = (bodyOf ds n).or (if d.name = n then d.body else none) := by
  unfold bodyOf
  rw [List.findSome?_append]
  simp only [List.findSome?_cons, List.findSome?_nil]
  congr 1
  split <;> simp_all

theorem isAsm_snoc (ds : List FunDecl) (d : FunDecl) (n : Nat) :
    isAsm (ds ++ [d]) n = if (bodyOf ds n).isSome then isAsm ds n
      else (if d.name = n ∧ d.body.isSome then d.inlineAsm else false) := by
  unfold isAsm
  have hb : (bodyOf ds n).isSome = (ds.find? (fun d => d.name == n && d.body.isSome)).isSome := by
    unfold bodyOf
    induction ds with
    | nil => rfl
    | cons a ds ih =>
      rw [List.findSome?_cons, List.find?_cons]
      by_cases h : a.name = n
      · cases hbd : a.body <;> simp [h, hbd, ih]
      · have h' : (a.name == n) = false := by simpa using h
        simp [h, h', ih]
  rw [hb, List.find?_append]
  cases h1 : ds.find? (fun d => d.name == n && d.body.isSome) with
  | some x => simp
  | none =>
    by_cases h2 : d.name = n <;> cases h3 : d.body <;> simp [h2, h3]

theorem firstOf_lt {ds n i} (h : firstOf ds n = some i) : i < ds.length := by
  unfold firstOf at h
  rw [List.findIdx?_eq_some_iff_getElem] at h
  exact h.1

theorem nameOf_firstOf {ds n i} (h : firstOf ds n = some i) : nameOf ds i = some n := by
  unfold firstOf at h
  rw [List.findIdx?_eq_some_iff_getElem] at h
  obtain ⟨h1, h2, _⟩ := h
  unfold nameOf
  rw [List.getElem?_eq_getElem h1]
  simpa using h2

theorem firstOf_inj {ds n m i} (h : firstOf ds n = some i) (h' : firstOf ds m = some i) : n = m := by
  have h1 := nameOf_firstOf h
  rw [nameOf_firstOf h'] at h1
  exact (Option.some.inj h1).symm

theorem bodyOf_none_of_firstOf_none {ds n} (h : firstOf ds n = none) : bodyOf ds n = none := by
  unfold firstOf at h
  unfold bodyOf
  rw [List.findIdx?_eq_none_iff] at h
  rw [List.findSome?_eq_none_iff]
  intro d hd
  have := h d hd
  simp at this
  simp [this]

structure Inv (pre : List FunDecl) (s : State) : Prop where
  count : s.count = pre.length
  table : ∀ n, s.table.lookup n = firstOf pre n
  bodies : ∀ n i, firstOf pre n = some i → s.bodies.lookup i = bodyOf pre n
  only : ∀ i, (s.bodies.lookup i).isSome → ∃ n, firstOf pre n = some i
  asmsDef : ∀ i, s.asms.contains i = true → (s.bodies.lookup i).isSome
  asms : ∀ n i, firstOf pre n = some i → s.asms.contains i = isAsm pre n
  roots : ∀ i, i ∈ s.roots ↔ ∃ d, pre[i]? = some d ∧ d.dllexport = true ∧ d.body.isSome ∧
    bodyOf (pre.take i) d.name = none

theorem inv_nil : Inv [] {} where
  count := rfl
  table := fun _ => rfl
  bodies := by intro n i h; cases h
  only := by intro i h; cases h
  asmsDef := by intro i h; cases h
  asms := by intro n i h; cases h
  roots := by simp

theorem lookup_append_single (l : List (Nat × Nat)) (a b n : Nat) :
    (l ++ [(a, b)]).lookup n = (l.lookup n).or (if a = n then some b else none) := by
  induction l with
  | nil =>
    by_cases h : a = n
    · subst h; simp [List.lookup]
    · have : (n == a) = false := by simpa using Ne.symm h
      simp [List.lookup, this, h]
  | cons x l ih =>
    obtain ⟨p, q⟩ := x
    rw [List.cons_append]
    unfold List.lookup
    split
    · rfl
    · exact ih

theorem lookup_cons (l : List (Nat × List Nat)) (a : Nat) (b : List Nat) (i : Nat) :
    ((a, b) :: l).lookup i = if i = a then some b else l.lookup i := by
  by_cases h : i = a
  · subst h; simp [List.lookup]
  · have : (i == a) = false := by simpa using h
    simp [List.lookup, this, h]

theorem register_table (s : State) (d : FunDecl) : (register s d).table =
    if (s.table.lookup d.name).isNone then s.table ++ [(d.name, s.count)] else s.table := by
  unfold register; dsimp only; repeat' (first | rfl | split)

theorem register_count (s : State) (d : FunDecl) : (register s d).count = s.count + 1 := by
  unfold register; dsimp only; repeat' (first | rfl | split)

/-- The object that a declaration is about. -/
def target (s : State) (d : FunDecl) : Nat := (s.table.lookup d.name).getD s.count

/-- The declaration is the first definition of its name. -/
def defines (s : State) (d : FunDecl) : Bool := d.body.isSome && (s.bodies.lookup (target s d)).isNone

theorem register_bodies (s : State) (d : FunDecl) : (register s d).bodies =
    if defines s d then (target s d, d.body.getD []) :: s.bodies else s.bodies := by
  unfold register defines target
  cases h : d.body with
  | none => simp
  | some b =>
    cases h2 : List.lookup ((List.lookup d.name s.table).getD s.count) s.bodies with
    | none => simp only [h2]; cases d.dllexport <;> rfl
    | some b => simp [h2]

theorem register_asms (s : State) (d : FunDecl) : (register s d).asms =
    if defines s d && d.inlineAsm then target s d :: s.asms else s.asms := by
  unfold register defines target
  cases h : d.body with
  | none => simp
  | some b =>
    cases h2 : List.lookup ((List.lookup d.name s.table).getD s.count) s.bodies with
    | none => simp only [h2]; cases d.dllexport <;> cases d.inlineAsm <;> rfl
    | some b => simp [h2]

theorem register_roots (s : State) (d : FunDecl) : (register s d).roots =
    if defines s d && d.dllexport then s.count :: s.roots else s.roots := by
  unfold register defines target
  cases h : d.body with
  | none => simp
  | some b =>
    cases h2 : List.lookup ((List.lookup d.name s.table).getD s.count) s.bodies with
    | none => simp only [h2]; cases d.dllexport <;> rfl
    | some b => simp [h2]

theorem Inv.target_eq {pre s} (h : Inv pre s) (d : FunDecl) :
    firstOf (pre ++ [d]) d.name = some (target s d) := by
  rw [firstOf_snoc, if_pos rfl]
  unfold target
  rw [h.table, h.count]
  cases firstOf pre d.name <;> rfl

theorem Inv.defines_eq {pre s} (h : Inv pre s) (d : FunDecl) :
    defines s d = (d.body.isSome && (bodyOf pre d.name).isNone) := by
  unfold defines
  congr 1
  cases hf : firstOf pre d.name with
  | some i =>
    have : target s d = i := by unfold target; rw [h.table, hf]; rfl
    rw [this, h.bodies _ _ hf]
  | none =>
    rw [bodyOf_none_of_firstOf_none hf]
    have : target s d = pre.length := by unfold target; rw [h.table, hf, h.count]; rfl
    rw [this]
    cases hl : s.bodies.lookup pre.length with
    | none => rfl
    | some b =>
      obtain ⟨n, hn⟩ := h.only pre.length (by rw [hl]; rfl)
      have := firstOf_lt hn
      omega

theorem firstOf_mono {pre d n i} (h : firstOf pre n = some i) : firstOf (pre ++ [d]) n = some i := by
  rw [firstOf_snoc, h]; rfl

theorem inv_register {pre s} (h : Inv pre s) (d : FunDecl) : Inv (pre ++ [d]) (register s d) where
  count := by rw [register_count, h.count]; simp
  table := by
    intro n
    rw [register_table, firstOf_snoc, ← h.table n]
    cases hl : s.table.lookup d.name with
    | none =>
      rw [if_pos (by rfl), lookup_append_single, h.count]
    | some i =>
      rw [if_neg (by simp)]
      by_cases hn : d.name = n
      · subst hn; rw [hl]; rfl
      · simp [hn]
  bodies := by
    intro n i hi
    rw [register_bodies, bodyOf_snoc, h.defines_eq]
    have ht := h.target_eq d
    by_cases hn : d.name = n
    · subst hn
      rw [hi] at ht
      have ht := Option.some.inj ht
      subst ht
      cases hb : bodyOf pre d.name with
      | none =>
        cases hd : d.body with
        | none =>
          simp only [Option.isSome_none, Bool.false_and, Bool.false_eq_true, if_false, Option.or, if_true]
          cases hf : firstOf pre d.name with
          | some j =>
            have : target s d = j := by unfold target; rw [h.table, hf]; rfl
            rw [this, h.bodies _ _ hf, hb]
          | none =>
            have : target s d = pre.length := by unfold target; rw [h.table, hf, h.count]; rfl
            rw [this]
            cases hl : s.bodies.lookup pre.length with
            | none => rfl
            | some b =>
              obtain ⟨n, hn⟩ := h.only pre.length (by rw [hl]; rfl)
              have := firstOf_lt hn
              omega
        | some b =>
          simp
      | some b =>
        simp only [Option.isNone_some, Bool.and_false, Bool.false_eq_true, if_false, Option.or]
        cases hf : firstOf pre d.name with
        | some j =>
          have : target s d = j := by unfold target; rw [h.table, hf]; rfl
          rw [this, h.bodies _ _ hf, hb]
        | none => rw [bodyOf_none_of_firstOf_none hf] at hb; cases hb
    · have hne : i ≠ target s d := by
        intro he; subst he; exact hn (firstOf_inj ht hi)
      have hi' : firstOf pre n = some i := by
        rw [firstOf_snoc, if_neg hn] at hi
        simpa using hi
      rw [if_neg hn, ← h.bodies n i hi']
      simp only [Option.or_none]
      split
      · rw [lookup_cons, if_neg hne]
      · rfl
  only := by
    intro i hi
    rw [register_bodies] at hi
    split at hi
    · rw [lookup_cons] at hi
      split at hi
      · rename_i he
        exact ⟨d.name, he ▸ h.target_eq d⟩
      · obtain ⟨n, hn⟩ := h.only i hi
        exact ⟨n, firstOf_mono hn⟩
    · obtain ⟨n, hn⟩ := h.only i hi
      exact ⟨n, firstOf_mono hn⟩
  asmsDef := by
    intro i hi
    rw [register_asms] at hi
    rw [register_bodies]
    cases hd : defines s d with
    | false =>
      rw [hd] at hi
      simp only [Bool.false_and, Bool.false_eq_true, if_false] at hi ⊢
      exact h.asmsDef i hi
    | true =>
      rw [hd] at hi
      simp only [Bool.true_and] at hi
      rw [if_pos rfl, lookup_cons]
      by_cases he : i = target s d
      · rw [if_pos he]; rfl
      · rw [if_neg he]
        split at hi
        · rw [List.contains_cons] at hi
          have hne : (i == target s d) = false := by simpa using he
          rw [hne, Bool.false_or] at hi
          exact h.asmsDef i hi
        · exact h.asmsDef i hi
  asms := by
    intro n i hi
    rw [register_asms, isAsm_snoc, h.defines_eq]
    have ht := h.target_eq d
    by_cases hn : d.name = n
    · subst hn
      rw [hi] at ht
      have ht := Option.some.inj ht
      subst ht
      cases hb : bodyOf pre d.name with
      | none =>
        have hno : s.asms.contains (target s d) = false := by
          cases hc : s.asms.contains (target s d) with
          | false => rfl
          | true =>
            have h1 := h.asmsDef _ hc
            obtain ⟨m, hm⟩ := h.only _ h1
            have := firstOf_inj (firstOf_mono (d := d) hm) hi
            subst this
            rw [h.bodies _ _ hm, hb] at h1
            cases h1
        cases hd : d.body with
        | none => simpa using hno
        | some b =>
          cases ha : d.inlineAsm with
          | false => simpa using hno
          | true => simp
      | some b =>
        simp only [Option.isNone_some, Bool.and_false, Bool.false_and, Bool.false_eq_true, if_false, Option.isSome_some, if_true]
        cases hf : firstOf pre d.name with
        | some j =>
          have : target s d = j := by unfold target; rw [h.table, hf]; rfl
          rw [this, h.asms _ _ hf]
        | none => rw [bodyOf_none_of_firstOf_none hf] at hb; cases hb
    · have hne : i ≠ target s d := by
        intro he; subst he; exact hn (firstOf_inj ht hi)
      have hi' : firstOf pre n = some i := by
        rw [firstOf_snoc, if_neg hn] at hi
        simpa using hi
      have hr : (if (bodyOf pre n).isSome = true then isAsm pre n
          else if d.name = n ∧ d.body.isSome = true then d.inlineAsm else false) = isAsm pre n := by
        split
        · rfl
        · rename_i hx
          rw [if_neg (fun hy => hn hy.1), ← h.asms n i hi']
          cases hc : s.asms.contains i with
          | false => rfl
          | true =>
            have := h.asmsDef i hc
            rw [h.bodies n i hi'] at this
            exact absurd this hx
      rw [hr, ← h.asms n i hi']
      split
      · rw [List.contains_cons]
        have : (i == target s d) = false := by simpa using hne
        rw [this, Bool.false_or]
      · rfl
  roots := by
    intro i
    rw [register_roots, h.defines_eq]
    rcases Nat.lt_trichotomy i pre.length with hi | hi | hi
    · rw [List.getElem?_append_left hi, List.take_append_of_le_length (Nat.le_of_lt hi), ← h.roots i]
      split
      · rw [List.mem_cons, h.count]
        constructor
        · rintro (h1 | h1)
          · omega
          · exact h1
        · exact .inr
      · exact Iff.rfl
    · subst hi
      have hno : pre.length ∉ s.roots := by
        rw [h.roots]
        rintro ⟨e, he, _⟩
        rw [List.getElem?_eq_none (Nat.le_refl _)] at he
        cases he
      have he : (pre ++ [d])[pre.length]? = some d := by simp
      rw [he, List.take_left]
      constructor
      · intro hx
        split at hx
        · rename_i hc
          simp only [Bool.and_eq_true, Option.isNone_iff_eq_none] at hc
          exact ⟨d, rfl, hc.2, hc.1.1, hc.1.2⟩
        · exact absurd hx hno
      · rintro ⟨e, he, h1, h2, h3⟩
        cases he
        rw [if_pos (by simp [h1, h2, h3]), h.count]
        simp
    · have he : (pre ++ [d])[i]? = none := by
        apply List.getElem?_eq_none; simp; omega
      rw [he]
      constructor
      · intro hx
        have : i ∈ s.roots := by
          split at hx
          · rcases List.mem_cons.1 hx with h1 | h1
            · rw [h.count] at h1; omega
            · exact h1
          · exact hx
        rw [h.roots, List.getElem?_eq_none (Nat.le_of_lt hi)] at this
        obtain ⟨_, h1, _⟩ := this
        cases h1
      · rintro ⟨_, h1, _⟩; cases h1

theorem inv_foldl : ∀ (ds pre : List FunDecl) (s : State), Inv pre s → Inv (pre ++ ds) (ds.foldl register s) := by
  intro ds
  induction ds with
  | nil => intro pre s h; simpa using h
  | cons d ds ih =>
    intro pre s h
    have := ih (pre ++ [d]) _ (inv_register h d)
    simpa using this

theorem inv_all (ds : List FunDecl) : Inv ds (registerAll ds) := inv_foldl ds [] {} inv_nil

/-! ## C32 -/

theorem firstOf_of_mem {ds : List FunDecl} {d} (hd : d ∈ ds) : ∃ i, firstOf ds d.name = some i := by
  cases h : firstOf ds d.name with
  | some i => exact ⟨i, rfl⟩
  | none =>
    unfold firstOf at h
    rw [List.findIdx?_eq_none_iff] at h
    simpa using h d hd

/-- The first declaration is what `find?` finds. -/
theorem firstOf_find {ds : List FunDecl} {n i} (h : firstOf ds n = some i) :
    ds.find? (·.name == n) = ds[i]? := by
  unfold firstOf at h
  rw [List.findIdx?_eq_some_iff_getElem] at h
  obtain ⟨h1, h2, h3⟩ := h
  rw [List.getElem?_eq_getElem h1]
  rw [List.find?_eq_some_iff_getElem]
  exact ⟨h2, i, h1, rfl, fun k hk => by simpa using h3 k hk⟩

/-- A definition that comes first is the definition. -/
theorem bodyOf_first {ds : List FunDecl} {n e} (h : ds.find? (·.name == n) = some e) (hb : e.body.isSome) :
    bodyOf ds n = e.body ∧ isAsm ds n = e.inlineAsm := by
  unfold bodyOf isAsm
  induction ds with
  | nil => cases h
  | cons a ds ih =>
    rw [List.find?_cons] at h
    rw [List.findSome?_cons, List.find?_cons]
    by_cases ha : a.name = n
    · have ha' : (a.name == n) = true := by simpa using ha
      rw [ha'] at h
      cases h
      cases hbd : e.body with
      | none => rw [hbd] at hb; cases hb
      | some b => simp [ha]
    · have ha' : (a.name == n) = false := by simpa using ha
      rw [ha'] at h
      simp only [ha, ha', if_false, Bool.false_and]
      exact ih h

theorem find_take {ds : List FunDecl} {n i j} (h : firstOf ds n = some i) (hij : i < j) :
    (ds.take j).find? (·.name == n) = ds[i]? := by
  unfold firstOf at h
  rw [List.findIdx?_eq_some_iff_getElem] at h
  obtain ⟨h1, h2, h3⟩ := h
  rw [List.getElem?_eq_getElem h1, List.find?_eq_some_iff_getElem]
  refine ⟨h2, i, by simp; omega, by simp, ?_⟩
  intro k hk
  simp only [List.getElem_take]
  simpa using h3 k hk

/-- **C32** (partial). For every program — a list of declarations of functions in the order in which they are registered — in which
every exported function is defined by its first declaration, the functions that code is generated for are
exactly those that have a definition and are reachable from the entry point or from an exported function, each
once. Missing: exported functions with an earlier declaration
(`C32_exported_after_prototype_wrong`), exported `inline_asm` functions
(`C32_exported_inline_asm_wrong`). -/
theorem C32_program_partial (ds : List FunDecl) (entry : Nat)
    (hentry : ∃ d ∈ ds, d.name = entry) (hasm : isAsm ds entry = false)
    (hrefs : ∀ d ∈ ds, ∀ b, d.body = some b → ∀ m ∈ b, ∃ e ∈ ds, e.name = m)
    (hexp : ∀ d ∈ ds, d.dllexport = true → ∃ e, ds.find? (·.name == d.name) = some e ∧
      e.dllexport = true ∧ e.body.isSome ∧ e.inlineAsm = false) :
    let s := registerAll ds
    ∃ k, let r := Reach.run false (graph s) k (Reach.start (roots s entry))
      Reach.step false (graph s) r = none ∧
      (r.queue.map (nameOf ds)).Nodup ∧
      ∀ n, some n ∈ r.queue.map (nameOf ds) ↔ Needed ds entry n ∧ (bodyOf ds n).isSome ∧ isAsm ds n = false := by
  intro s
  have h : Inv ds s := inv_all ds
  -- roots are objects of names
  have hroot : ∀ i ∈ roots s entry, ∃ n, firstOf ds n = some i ∧ n ∈ entry :: exports ds ∧ isAsm ds n = false := by
    intro i hi
    unfold roots at hi
    rw [List.mem_append] at hi
    rcases hi with hi | hi
    · rw [h.table] at hi
      cases hf : firstOf ds entry with
      | none => rw [hf] at hi; cases hi
      | some j =>
        rw [hf] at hi
        simp at hi
        subst hi
        exact ⟨entry, hf, by simp, hasm⟩
    · obtain ⟨d, hd, hx, hb, hno⟩ := (h.roots i).1 hi
      have hdm : d ∈ ds := List.mem_of_getElem? hd
      obtain ⟨e, he, _, heb, hea⟩ := hexp d hdm hx
      obtain ⟨j, hj⟩ := firstOf_of_mem hdm
      have hle : j ≤ i := by
        unfold firstOf at hj
        rw [List.findIdx?_eq_some_iff_getElem] at hj
        obtain ⟨_, _, h3⟩ := hj
        by_cases hji : j ≤ i
        · exact hji
        · have h4 := h3 i (by omega)
          obtain ⟨hlt, hge⟩ := List.getElem?_eq_some_iff.1 hd
          rw [hge] at h4
          simp at h4
      have hij : j = i := by
        by_cases hlt : j < i
        · have h4 := find_take hj hlt
          rw [← firstOf_find hj, he] at h4
          rw [(bodyOf_first h4 heb).1] at hno
          rw [hno] at heb
          cases heb
        · omega
      subst hij
      refine ⟨d.name, hj, ?_, ?_⟩
      · refine List.mem_cons.2 (.inr ?_)
        unfold exports
        exact List.mem_map.2 ⟨d, List.mem_filter.2 ⟨hdm, hx⟩, rfl⟩
      · rw [(bodyOf_first he heb).2]; exact hea
  have hroot' : ∀ n ∈ entry :: exports ds, ∃ i ∈ roots s entry, firstOf ds n = some i := by
    intro n hn
    rcases List.mem_cons.1 hn with rfl | hn
    · obtain ⟨d, hd, rfl⟩ := hentry
      obtain ⟨i, hi⟩ := firstOf_of_mem hd
      refine ⟨i, ?_, hi⟩
      unfold roots
      rw [h.table, hi]
      simp
    · unfold exports at hn
      obtain ⟨d, hd, rfl⟩ := List.mem_map.1 hn
      obtain ⟨hdm, hx⟩ := List.mem_filter.1 hd
      obtain ⟨e, he, hex, heb, _⟩ := hexp d hdm hx
      obtain ⟨i, hi⟩ := firstOf_of_mem hdm
      refine ⟨i, ?_, hi⟩
      have hge : ds[i]? = some e := by rw [← firstOf_find hi, he]
      have hen : e.name = d.name := by
        have := nameOf_firstOf hi
        unfold nameOf at this
        rw [hge] at this
        simpa using this
      unfold roots
      refine List.mem_append.2 (.inr ((h.roots i).2 ⟨e, hge, hex, heb, ?_⟩))
      unfold bodyOf
      rw [List.findSome?_eq_none_iff]
      intro a ha
      unfold firstOf at hi
      rw [List.findIdx?_eq_some_iff_getElem] at hi
      obtain ⟨k, hk, rfl⟩ := List.getElem_of_mem ha
      have hki : k < i := by simp at hk; omega
      have := hi.2.2 k hki
      rw [List.getElem_take]
      rw [hen]
      simp at this
      simp [this]
  have hbody : ∀ n b, bodyOf ds n = some b → ∀ m ∈ b, ∃ j, firstOf ds m = some j := by
    intro n b hb m hm
    unfold bodyOf at hb
    obtain ⟨d, hd, hdb⟩ := List.exists_of_findSome?_eq_some hb
    split at hdb
    · obtain ⟨e, he, rfl⟩ := hrefs d hd b hdb m hm
      exact firstOf_of_mem he
    · cases hdb
  have hgrefs : ∀ n i, firstOf ds n = some i →
      (graph s i).refs = ((bodyOf ds n).getD []).filterMap (fun m => firstOf ds m) := by
    intro n i hi
    show ((s.bodies.lookup i).getD []).filterMap (fun n => s.table.lookup n) = _
    rw [h.bodies n i hi]
    congr 1
    funext m
    exact h.table m
  -- objects and names correspond
  have hto : ∀ i, Reachable (fun d => (graph s d).refs) (roots s entry) i →
      ∃ n, firstOf ds n = some i ∧ Needed ds entry n := by
    intro i hi
    induction hi with
    | root hr =>
      obtain ⟨n, h1, h2, _⟩ := hroot _ hr
      exact ⟨n, h1, .root h2⟩
    | ref _ he ih =>
      obtain ⟨n, h1, h2⟩ := ih
      rw [hgrefs n _ h1, List.mem_filterMap] at he
      obtain ⟨m, hm, hmf⟩ := he
      exact ⟨m, hmf, .ref h2 hm⟩
  have hfrom : ∀ n, Needed ds entry n →
      ∃ i, firstOf ds n = some i ∧ Reachable (fun d => (graph s d).refs) (roots s entry) i := by
    intro n hn
    unfold Needed at hn
    induction hn with
    | root hr =>
      obtain ⟨i, h1, h2⟩ := hroot' _ hr
      exact ⟨i, h2, .root h1⟩
    | @ref d e _ he ih =>
      obtain ⟨i, h1, h2⟩ := ih
      cases hb : bodyOf ds d with
      | none => rw [hb] at he; cases he
      | some b =>
        rw [hb] at he
        obtain ⟨j, hj⟩ := hbody d b hb e he
        refine ⟨j, hj, .ref h2 ?_⟩
        rw [hgrefs d i h1, hb, List.mem_filterMap]
        exact ⟨e, he, hj⟩
  have hgood : ∀ r ∈ roots s entry, (graph s r).isFunction = true → (graph s r).defined = true →
      (graph s r).intrinsic = false ∧ (graph s r).inlineAsm = false := by
    intro r hr _ _
    obtain ⟨n, h1, _, h3⟩ := hroot r hr
    exact ⟨rfl, (h.asms n r h1).trans h3⟩
  obtain ⟨k, h1, h2, h3, _, _⟩ := Reach.C32_exactly_once_partial false (graph s) (roots s entry)
    (List.range ds.length)
    ⟨fun r hr => by obtain ⟨n, hn, _⟩ := hroot r hr; exact List.mem_range.2 (firstOf_lt hn),
     fun d _ e he => by
      have he : e ∈ ((s.bodies.lookup d).getD []).filterMap (fun n => s.table.lookup n) := he
      rw [List.mem_filterMap] at he
      obtain ⟨m, _, hm⟩ := he
      rw [h.table] at hm
      exact List.mem_range.2 (firstOf_lt hm)⟩
    hgood
  refine ⟨k, h1, ?_, ?_⟩
  · rw [List.nodup_iff_pairwise_ne] at h2 ⊢
    rw [List.pairwise_map]
    refine List.Pairwise.imp_of_mem ?_ h2
    intro a b ha hb hab he
    obtain ⟨n, hn, _⟩ := hto a ((h3 a).1 ha).1
    obtain ⟨m, hm, _⟩ := hto b ((h3 b).1 hb).1
    rw [nameOf_firstOf hn, nameOf_firstOf hm] at he
    cases he
    rw [hn] at hm
    exact hab (Option.some.inj hm)
  · intro n
    rw [List.mem_map]
    constructor
    · rintro ⟨i, hi, hin⟩
      obtain ⟨h4, _, h6, _, h8⟩ := (h3 i).1 hi
      obtain ⟨m, hm, hmn⟩ := hto i h4
      rw [nameOf_firstOf hm] at hin
      cases hin
      refine ⟨hmn, ?_, ?_⟩
      · rw [← h.bodies n i hm]; exact h6
      · rw [← h.asms n i hm]; exact h8
    · rintro ⟨hn, hb, ha⟩
      obtain ⟨i, hi, hr⟩ := hfrom n hn
      refine ⟨i, (h3 i).2 ⟨hr, rfl, ?_, rfl, ?_⟩, nameOf_firstOf hi⟩
      · show (s.bodies.lookup i).isSome = true
        rw [h.bodies n i hi]; exact hb
      · show s.asms.contains i = false
        rw [h.asms n i hi]; exact ha

/-- A program that meets the hypotheses: `main` (0) calls 1, declared before; 2 is exported and calls 3; 4 is dead. -/
def exampleProgram : List FunDecl :=
  [ { name := 1 }, { name := 0, body := some [1, 1] }, { name := 4, body := some [1] },
    { name := 2, dllexport := true, body := some [3, 2] }, { name := 2 }, { name := 3, body := some [] },
    { name := 1, body := some [0] } ]

example : (∃ d ∈ exampleProgram, d.name = 0) ∧ isAsm exampleProgram 0 = false := by decide
example : ∀ d ∈ exampleProgram, ∀ b, d.body = some b → ∀ m ∈ b, ∃ e ∈ exampleProgram, e.name = m := by
  intro d hd b hb m hm
  simp only [exampleProgram, List.mem_cons, List.not_mem_nil, or_false] at hd
  rcases hd with rfl | rfl | rfl | rfl | rfl | rfl | rfl <;> cases hb <;>
    (simp at hm; try rcases hm with rfl | rfl) <;> (try subst hm) <;> decide
example : ∀ d ∈ exampleProgram, d.dllexport = true →
    ((exampleProgram.find? (·.name == d.name)).map (fun e => e.dllexport && e.body.isSome && !e.inlineAsm))
      = some true := by decide
example : ((Reach.run false (graph (registerAll exampleProgram)) 100
    (Reach.start (roots (registerAll exampleProgram) 0))).queue.map (nameOf exampleProgram)) =
      [some 0, some 1, some 2, some 3] := by decide

/-- **C32**, violated: an exported function with a prototype in front of its definition is not emitted
(`__declspec(dllexport) int f(void); __declspec(dllexport) int f(void){ ... }` next to a `main` that does not call it): the
reference that is added (`src/parse.c:8843`) is to the object made for the definition, not to the one that has been defined. -/
theorem C32_exported_after_prototype_wrong :
    ∃ ds : List FunDecl, ∃ k, let s := registerAll ds
      let r := Reach.run false (graph s) k (Reach.start (roots s 0))
      Reach.step false (graph s) r = none ∧ s.errors = 0 ∧
      Needed ds 0 1 ∧ (bodyOf ds 1).isSome ∧ isAsm ds 1 = false ∧
      some 1 ∉ r.queue.map (nameOf ds) := by
  refine ⟨[{ name := 0, body := some [] }, { name := 1, dllexport := true },
    { name := 1, dllexport := true, body := some [] }], 5, ?_⟩
  refine ⟨by rfl, by decide, .root (by decide), by decide, by decide, by decide⟩

/-- **C32**, violated: an exported `__declspec(inline_asm)` function is emitted, although such functions, which are expanded in place,
are not when they are reached otherwise. -/
theorem C32_exported_inline_asm_wrong :
    ∃ ds : List FunDecl, ∃ k, let s := registerAll ds
      let r := Reach.run false (graph s) k (Reach.start (roots s 0))
      Reach.step false (graph s) r = none ∧ s.errors = 0 ∧
      isAsm ds 1 = true ∧ some 1 ∈ r.queue.map (nameOf ds) := by
  refine ⟨[{ name := 0, body := some [] }, { name := 1, dllexport := true, inlineAsm := true, body := some [] }], 5, ?_⟩
  exact ⟨by rfl, by decide, by decide, by decide⟩

end Verif.Props.Roots
