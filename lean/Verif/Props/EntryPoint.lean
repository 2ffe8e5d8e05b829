import Verif.Model.EntryPoint
import Verif.Spec.EntryPoint

/-!
# C33: entry point selection
-/

namespace Verif.Props.EntryPoint

open Verif.EntryPoint Verif.Spec.EntryPoint

/-- `name` is a function with a body. -/
def Defined (decls : String → Option Decl) (name : String) : Prop :=
  ∃ d, decls name = some d ∧ d.isFunction = true ∧ d.defined = true

/-- The candidate `c` is of the requested file type and subsystem, if these have been requested. -/
def Admissible (t : Option FileType) (sub : Option Subsystem) (c : String × FileType × Subsystem) : Prop :=
  (t = none ∨ t = some c.2.1) ∧ (sub = none ∨ sub = some c.2.2)

/-- `c` is at place `i` of the canonical entry points, can be chosen, and nothing in front of it can. -/
def First (t : Option FileType) (sub : Option Subsystem) (decls : String → Option Decl)
    (i : Nat) (c : String × FileType × Subsystem) : Prop :=
  canonical[i]? = some c ∧ Admissible t sub c ∧ Defined decls c.1 ∧
    ∀ j, j < i → ∀ c', canonical[j]? = some c' → ¬ (Admissible t sub c' ∧ Defined decls c'.1)

/-! ## The loop -/

def usable (decls : String → Option Decl) (name : String) : Bool :=
  match decls name with
  | none => false
  | some d => d.isFunction && d.defined

theorem usable_iff (decls name) : usable decls name = true ↔ Defined decls name := by
  unfold usable Defined
  cases h : decls name with
  | none => simp
  | some d => simp

/-- What happens for the row that is chosen. -/
def Chosen (decls : String → Option Decl) (exists_ : String → Bool) (r : Row) (g : Globals) (out : Except Error Globals) : Prop :=
  ∃ d, decls r.name = some d ∧
    ((∃ f, r.preMain.isSome ∧ preMainFile r d.argumentCount = some f ∧ exists_ f = false ∧ out = .error (.preMainMissing f)) ∨
    (∃ g' , out = .ok g' ∧ g'.fileType = some r.fileType ∧ g'.subsystem = some r.subsystem ∧ g'.noEntry = g.noEntry ∧
      ((r.preMain = none ∧ g'.entryPoint = some r.name ∧ g'.preMain = none) ∨
       (∃ f, r.preMain.isSome ∧ preMainFile r d.argumentCount = some f ∧ exists_ f = true ∧
          g'.entryPoint = some "_start" ∧ g'.preMain = some f))))

theorem preMainFile_isSome (r : Row) (n : Nat) (h : r.preMain.isSome) : ∃ f, preMainFile r n = some f := by
  obtain ⟨p, hp⟩ := Option.isSome_iff_exists.1 h
  unfold preMainFile
  dsimp only
  rw [hp]
  split
  · cases r.preMainNoArgs with
    | none => exact ⟨p, rfl⟩
    | some f => exact ⟨f, rfl⟩
  · exact ⟨p, rfl⟩
  · cases r.preMainEnvp with
    | none => exact ⟨p, rfl⟩
    | some f => exact ⟨f, rfl⟩
  · exact ⟨p, rfl⟩
  · exact ⟨p, rfl⟩

theorem allowed_attempt (o : Options) (g : Globals) (q r) : allowed o (attempt o q g) r = allowed o g r := by
  unfold attempt; split <;> rfl

theorem attempt_eq (o : Options) (g : Globals) (r) : ∃ at_, attempt o r g = { g with attempted := at_ } := by
  unfold attempt; split
  · exact ⟨_, rfl⟩
  · exact ⟨g.attempted, rfl⟩

theorem tryRow_spec (o : Options) (decls exists_) (r : Row) (g : Globals) (ho : o.entry = none) :
    (allowed o g r && usable decls r.name) = true ∧ (∃ x, tryRow o decls exists_ r g = some x ∧ Chosen decls exists_ r g x) ∨
    (allowed o g r && usable decls r.name) = false ∧ tryRow o decls exists_ r g = none := by
  unfold tryRow
  dsimp only
  cases ha : allowed o g r with
  | false => exact .inr ⟨rfl, by simp⟩
  | true =>
    simp only [Bool.not_true, Bool.false_eq_true, if_false, ho, Option.isNone_none, if_true, Bool.true_and]
    unfold usable
    cases hd : decls r.name with
    | none => exact .inr ⟨rfl, rfl⟩
    | some d =>
      dsimp only
      cases hde : d.defined with
      | false => exact .inr ⟨by simp, by simp⟩
      | true =>
        cases hfu : d.isFunction with
        | false => exact .inr ⟨rfl, by simp⟩
        | true =>
          refine .inl ⟨rfl, ?_⟩
          simp only [Bool.not_true, Bool.or_self, Bool.false_eq_true, if_false]
          cases hp : r.preMain with
          | none => exact ⟨_, rfl, d, hd, .inr ⟨_, rfl, rfl, rfl, rfl, .inl ⟨hp, rfl, rfl⟩⟩⟩
          | some p =>
            obtain ⟨f, hf⟩ := preMainFile_isSome r d.argumentCount (by rw [hp]; rfl)
            simp only [hf, Option.isNone_some, Bool.false_eq_true, if_false]
            cases hx : exists_ f with
            | false => exact ⟨_, rfl, d, hd, .inl ⟨f, by rw [hp]; rfl, hf, hx, rfl⟩⟩
            | true => exact ⟨_, rfl, d, hd, .inr ⟨_, rfl, rfl, rfl, rfl, .inr ⟨f, by rw [hp]; rfl, hf, hx, rfl, rfl⟩⟩⟩

theorem loop_spec (o : Options) (decls exists_) (ho : o.entry = none) : ∀ (rows : List Row) (g : Globals),
    (∃ r, rows.find? (fun r => allowed o g r && usable decls r.name) = some r ∧
      Chosen decls exists_ r g (loop o decls exists_ rows g)) ∨
    (rows.find? (fun r => allowed o g r && usable decls r.name) = none ∧
      ∃ at_, loop o decls exists_ rows g = .ok { g with attempted := at_ }) := by
  intro rows
  induction rows with
  | nil => intro g; exact .inr ⟨rfl, g.attempted, rfl⟩
  | cons r rows ih =>
    intro g
    rw [List.find?_cons, loop]
    obtain ⟨at_, hat⟩ := attempt_eq o g r
    rcases tryRow_spec o decls exists_ r (attempt o r g) ho with ⟨h1, x, h2, h3⟩ | ⟨h1, h2⟩
    · rw [allowed_attempt] at h1
      rw [h1, h2]
      rw [hat] at h3
      exact .inl ⟨r, rfl, h3⟩
    · rw [allowed_attempt] at h1
      rw [h1, h2, hat]
      rcases ih { g with attempted := at_ } with ⟨q, h3, h4⟩ | ⟨h3, at', h4⟩
      · exact .inl ⟨q, h3, h4⟩
      · exact .inr ⟨h3, at', h4⟩

theorem loop_entry (o : Options) (decls exists_ e) (ho : o.entry = some e) : ∀ (rows : List Row) (g : Globals),
    g.entryPoint = none → ∃ g', loop o decls exists_ rows g = .ok g' ∧ (g'.entryPoint = none ∨ g'.entryPoint = some e) ∧
      g'.noEntry = g.noEntry ∧
      (∀ t, g.fileType = some t → g'.fileType = some t) ∧ (∀ t, g.subsystem = some t → g'.subsystem = some t) := by
  intro rows
  induction rows with
  | nil => intro g hg; exact ⟨g, rfl, .inl hg, rfl, fun _ h => h, fun _ h => h⟩
  | cons r rows ih =>
    intro g hg
    rw [loop]
    obtain ⟨at_, hat⟩ := attempt_eq o g r
    unfold tryRow
    dsimp only
    rw [allowed_attempt]
    cases ha : allowed o g r with
    | false =>
      simp only [Bool.not_false, if_true]
      rw [hat]
      exact ih { g with attempted := at_ } hg
    | true =>
      simp only [Bool.not_true, Bool.false_eq_true, if_false, ho, Option.isNone_some]
      unfold allowed at ha
      rw [ho] at ha
      simp only [Bool.and_eq_true, Bool.or_eq_true, Option.isNone_some, Bool.false_eq_true, false_or,
        decide_eq_true_eq, Option.isNone_iff_eq_none] at ha
      refine ⟨_, rfl, .inr ha.2.symm, by rw [hat], ?_, ?_⟩
      · intro t ht
        rcases ha.1.1 with h | h
        · rw [h] at ht; cases ht
        · dsimp only; rw [← h, ht]
      · intro t ht
        rcases ha.1.2 with h | h
        · rw [h] at ht; cases ht
        · dsimp only; rw [← h, ht]

/-! ## C33 -/

theorem table_canonical : table.map (fun r => (r.name, r.fileType, r.subsystem)) = canonical := rfl

theorem table_startCode : ∀ r ∈ table, (r.preMain.isSome = true ↔ r.name ∈ needsStartCode) := by decide

theorem rows_dll_windows : ∀ r ∈ table, r.fileType = .dll → r.subsystem = .windows := by decide

/-- The subsystem that is asked for in the loop. -/
def effective (o : Options) : Option Subsystem :=
  if o.subsystem.isNone && outputType o = some .dll then some .windows else o.subsystem

theorem options_ok {o : Options} {g} (h : options o = .ok g) :
    g = { fileType := outputType o, subsystem := effective o, noEntry := o.noEntry || outputType o = some .obj } ∧
    (o.dll && o.obj) = false ∧ (o.entry.isSome && o.noEntry) = false := by
  unfold options at h
  dsimp only at h
  split at h
  · cases h
  · rename_i h1
    split at h
    · cases h
    · rename_i h2
      cases h
      exact ⟨rfl, by simpa using h1, by simpa using h2⟩

theorem allowed_iff {o : Options} {at_ : List String} {r : Row} (hr : r ∈ table) (ho : o.entry = none) (b : Bool) :
    allowed o { fileType := outputType o, subsystem := effective o, noEntry := b, attempted := at_ } r = true ↔
      Admissible (outputType o) o.subsystem (r.name, r.fileType, r.subsystem) := by
  unfold allowed Admissible effective
  rw [ho]
  simp only [Option.isNone_none, Bool.true_or, Bool.and_true, Bool.and_eq_true, Bool.or_eq_true, decide_eq_true_eq,
    Option.isNone_iff_eq_none]
  refine and_congr_right fun ht => ?_
  cases hs : o.subsystem with
  | some s => simp
  | none =>
    by_cases hd : outputType o = some .dll
    · have : r.fileType = .dll := by
        rcases ht with h | h
        · rw [h] at hd; cases hd
        · rw [hd] at h; exact (Option.some.inj h).symm
      simp [hd, rows_dll_windows r hr this]
    · simp [hd]

theorem first_find {o : Options} {decls} {b : Bool} {at_ : List String} (ho : o.entry = none) {i c}
    (h : First (outputType o) o.subsystem decls i c) :
    ∃ r ∈ table, (r.name, r.fileType, r.subsystem) = c ∧
      table.find? (fun r => allowed o { fileType := outputType o, subsystem := effective o, noEntry := b, attempted := at_ } r
        && usable decls r.name) = some r := by
  obtain ⟨h1, h2, h3, h4⟩ := h
  rw [← table_canonical, List.getElem?_map] at h1
  obtain ⟨r, hr, rfl⟩ := Option.map_eq_some_iff.1 h1
  have hm : r ∈ table := List.mem_of_getElem? hr
  refine ⟨r, hm, rfl, ?_⟩
  obtain ⟨hi, hri⟩ := List.getElem?_eq_some_iff.1 hr
  rw [List.find?_eq_some_iff_getElem]
  refine ⟨?_, i, hi, hri, ?_⟩
  · rw [Bool.and_eq_true]
    exact ⟨(allowed_iff hm ho b).2 h2, (usable_iff _ _).2 h3⟩
  · intro j hj
    have hjt : j < table.length := by omega
    have := h4 j hj ((table[j]).name, (table[j]).fileType, (table[j]).subsystem)
      (by rw [← table_canonical, List.getElem?_map, List.getElem?_eq_getElem hjt]; rfl)
    cases hx : (allowed o { fileType := outputType o, subsystem := effective o, noEntry := b, attempted := at_ } table[j]
        && usable decls (table[j]).name) with
    | false => rfl
    | true =>
      rw [Bool.and_eq_true] at hx
      exact absurd ⟨(allowed_iff (List.getElem_mem hjt) ho b).1 hx.1, (usable_iff _ _).1 hx.2⟩ this

/-- **C33**: without `-entry` and `-no_entry`, and if the file that is linked in front can be found, the entry point is the first of the canonical
ones that is of the requested kind and has a definition; file type and subsystem become those of the candidate. `main`, `wmain`, `WinMain` and
`wWinMain` are entered through the `_start` of a file in front of them. -/
theorem C33_first_candidate (o : Options) (decls : String → Option Decl) (exists_ : String → Bool)
    (hopt : (o.dll && o.obj) = false) (hentry : o.entry = none) (hno : o.noEntry = false) (hobj : outputType o ≠ some .obj)
    (hfiles : ∀ f, exists_ f = true)
    (i : Nat) (c : String × FileType × Subsystem) (hc : First (outputType o) o.subsystem decls i c) :
    ∃ g, choose o decls exists_ = .ok g ∧
      g.entryPoint = some (if c.1 ∈ needsStartCode then "_start" else c.1) ∧
      (g.preMain.isSome ↔ c.1 ∈ needsStartCode) ∧
      g.fileType = some c.2.1 ∧ g.subsystem = some c.2.2 ∧ g.noEntry = false := by
  have ho : options o = .ok { fileType := outputType o, subsystem := effective o, noEntry := false } := by
    unfold options effective
    simp [hopt, hentry, hno, hobj]
  obtain ⟨r, hr, rfl, hfind⟩ := first_find (b := false) (at_ := []) hentry hc
  unfold choose
  rw [ho]
  simp only [bind, Except.bind, Bool.false_eq_true, if_false]
  rcases loop_spec o decls exists_ hentry table
    { fileType := outputType o, subsystem := effective o, noEntry := false } with ⟨q, h1, h2⟩ | ⟨h1, _⟩
  · rw [hfind] at h1
    cases h1
    obtain ⟨d, _, h3 | h3⟩ := h2
    · obtain ⟨f, _, _, hf, _⟩ := h3
      rw [hfiles f] at hf; cases hf
    · obtain ⟨g', h4, h5, h6, h7, h8⟩ := h3
      have hep : g'.entryPoint.isNone = false := by
        rcases h8 with ⟨_, h, _⟩ | ⟨_, _, _, _, h, _⟩ <;> rw [h] <;> rfl
      have e1 : afterLoop o g' = g' := by
        unfold afterLoop
        rw [hep]
        simp [h5]
      have e2 : defaultSubsystem g' = g' := by
        unfold defaultSubsystem
        simp [h6]
      rw [h4]
      refine ⟨g', by simp [e1, e2], ?_, ?_, h5, h6, h7⟩
      · rcases h8 with ⟨hp, he, _⟩ | ⟨f, hp, _, _, he, _⟩
        · rw [if_neg (fun hx => by have := (table_startCode _ hr).2 hx; rw [hp] at this; cases this), he]
        · rw [if_pos ((table_startCode _ hr).1 hp), he]
      · rcases h8 with ⟨hp, _, he⟩ | ⟨f, hp, _, _, _, he⟩
        · rw [he]
          constructor
          · intro h; cases h
          · intro hx; have := (table_startCode _ hr).2 hx; rw [hp] at this; cases this
        · rw [he]
          exact ⟨fun _ => (table_startCode _ hr).1 hp, fun _ => rfl⟩
  · rw [hfind] at h1; cases h1

/-- **C33**, the requested file type: `-dll` and `-obj` decide, then the extension of the output file; with none of these it is
left open, or, with `-no_entry`, a dynamic library. -/
theorem C33_output_type (o : Options) (hopt : (o.dll && o.obj) = false) :
    (o.dll = true → outputType o = some .dll) ∧
    (o.obj = true → outputType o = some .obj) ∧
    (o.dll = false → o.obj = false →
      (∀ e t, (e, t) ∈ [(".exe", FileType.exe), (".dll", .dll), (".obj", .obj), (".efi", .efi)] →
        o.outExtension = some e → outputType o = some t) ∧
      ((∀ e, o.outExtension = some e → e ∉ [".exe", ".dll", ".obj", ".efi"]) →
        outputType o = if o.noEntry then some .dll else none)) := by
  refine ⟨?_, ?_, ?_⟩
  · intro h
    have ho : o.obj = false := by rw [h] at hopt; simpa using hopt
    unfold outputType
    simp [h, ho]
  · intro h
    unfold outputType
    simp [h]
  · intro h1 h2
    refine ⟨?_, ?_⟩
    · intro e t he ho
      unfold outputType
      simp only [List.mem_cons, List.not_mem_nil, or_false, Prod.mk.injEq] at he
      rcases he with ⟨rfl, rfl⟩ | ⟨rfl, rfl⟩ | ⟨rfl, rfl⟩ | ⟨rfl, rfl⟩ <;> simp [h1, h2, ho]
    · intro hx
      unfold outputType
      cases ho : o.outExtension with
      | none => cases hn : o.noEntry <;> simp [h1, h2]
      | some e =>
        have := hx e ho
        simp only [List.mem_cons, List.not_mem_nil, or_false, not_or] at this
        cases hn : o.noEntry <;> simp [h1, h2, this]

/-- **C33**: if there is no candidate, nothing is chosen: a dynamic library is made without an entry point, anything
else is an error. -/
theorem C33_no_candidate (o : Options) (decls : String → Option Decl) (exists_ : String → Bool)
    (hopt : (o.dll && o.obj) = false) (hentry : o.entry = none) (hno : o.noEntry = false) (hobj : outputType o ≠ some .obj)
    (hnone : ∀ c ∈ canonical, ¬ (Admissible (outputType o) o.subsystem c ∧ Defined decls c.1)) :
    ∃ g, choose o decls exists_ = .ok g ∧ g.entryPoint = none ∧
      (g.noEntry = true ↔ outputType o = some .dll) ∧
      (∀ decls', accepted g decls' = true ↔ outputType o = some .dll) := by
  have ho : options o = .ok { fileType := outputType o, subsystem := effective o, noEntry := false } := by
    unfold options effective
    simp [hopt, hentry, hno, hobj]
  unfold choose
  rw [ho]
  simp only [bind, Except.bind, Bool.false_eq_true, if_false]
  rcases loop_spec o decls exists_ hentry table
    { fileType := outputType o, subsystem := effective o, noEntry := false } with ⟨q, h1, h2⟩ | ⟨h1, at_, h2⟩
  · obtain ⟨hq, hq'⟩ := List.find?_some h1 |> fun h => Bool.and_eq_true _ _ ▸ h
    have hm := List.mem_of_find?_eq_some h1
    have := hnone (q.name, q.fileType, q.subsystem)
      (by rw [← table_canonical]; exact List.mem_map.2 ⟨q, hm, rfl⟩)
    exact absurd ⟨(allowed_iff hm hentry false).1 hq, (usable_iff _ _).1 hq'⟩ this
  · rw [h2]
    have key : ∀ g : Globals, g = defaultSubsystem (afterLoop o { fileType := outputType o, subsystem := effective o, noEntry := false, attempted := at_ }) →
        g.entryPoint = none ∧ (g.noEntry = true ↔ outputType o = some .dll) := by
      rintro g rfl
      unfold afterLoop defaultSubsystem
      rw [hentry]
      cases ht : outputType o with
      | none => cases hs : effective o <;> simp
      | some t => cases t <;> cases hs : effective o <;> simp
    refine ⟨_, rfl, (key _ rfl).1, (key _ rfl).2, ?_⟩
    intro decls'
    rw [← (key _ rfl).2]
    unfold accepted
    rw [(key _ rfl).1]
    cases (defaultSubsystem (afterLoop o { fileType := outputType o, subsystem := effective o, noEntry := false, attempted := at_ })).noEntry <;> simp

/-- **C33**: with `-entry name` the entry point is `name`, whatever is defined, and a requested file type or subsystem is kept. -/
theorem C33_explicit (o : Options) (decls : String → Option Decl) (exists_ : String → Bool) (e : String)
    (hopt : (o.dll && o.obj) = false) (hentry : o.entry = some e) (hno : o.noEntry = false) (hobj : outputType o ≠ some .obj) :
    ∃ g, choose o decls exists_ = .ok g ∧ g.entryPoint = some e ∧ g.noEntry = false ∧
      (∀ t, outputType o = some t → g.fileType = some t) ∧
      (∀ s, o.subsystem = some s → g.subsystem = some s) := by
  have ho : options o = .ok { fileType := outputType o, subsystem := effective o, noEntry := false } := by
    unfold options effective
    simp [hopt, hentry, hno, hobj]
  unfold choose
  rw [ho]
  simp only [bind, Except.bind, Bool.false_eq_true, if_false]
  obtain ⟨g', h1, h2, h3, h4, h5⟩ := loop_entry o decls exists_ e hentry table
    { fileType := outputType o, subsystem := effective o, noEntry := false } rfl
  rw [h1]
  have hn : g'.noEntry = false := h3
  have ha : (afterLoop o g').entryPoint = some e ∧ (afterLoop o g').noEntry = false ∧
      (∀ t, g'.fileType = some t → (afterLoop o g').fileType = some t) ∧
      (afterLoop o g').subsystem = g'.subsystem := by
    unfold afterLoop
    rw [hentry]
    rcases h2 with h2 | h2 <;> cases hf : g'.fileType <;> simp [h2, hf, hn]
  have hd : ∀ g : Globals, (defaultSubsystem g).entryPoint = g.entryPoint ∧ (defaultSubsystem g).noEntry = g.noEntry ∧
      (defaultSubsystem g).fileType = g.fileType ∧ (∀ s, g.subsystem = some s → (defaultSubsystem g).subsystem = some s) := by
    intro g
    unfold defaultSubsystem
    cases hs : g.subsystem with
    | some s => simp [hs]
    | none => cases hf : g.fileType with
      | none => simp [hf]
      | some t => cases t <;> simp [hf]
  refine ⟨_, rfl, ?_, ?_, ?_, ?_⟩
  · rw [(hd _).1]; exact ha.1
  · rw [(hd _).2.1]; exact ha.2.1
  · intro t ht
    rw [(hd _).2.2.1]
    exact ha.2.2.1 t (h4 t ht)
  · intro s hs
    refine (hd _).2.2.2 s ?_
    rw [ha.2.2.2]
    exact h5 s (by unfold effective; rw [hs]; rfl)

/-- **C33**: what is accepted in the end is a defined function that is visible outside and has code of its own. -/
theorem C33_accepted (g : Globals) (decls : String → Option Decl) (hg : g.noEntry = false) :
    accepted g decls = true ↔ ∃ e d, g.entryPoint = some e ∧ decls e = some d ∧ d.isFunction = true ∧ d.defined = true ∧
      d.isDllimport = false ∧ d.isStatic = false ∧ d.isIntrinsic = false ∧ d.isInlineAsm = false := by
  unfold accepted
  rw [hg]
  cases he : g.entryPoint with
  | none => simp
  | some e =>
    cases hd : decls e with
    | none => simp [hd]
    | some d =>
      simp only [Option.some.injEq, Bool.false_eq_true, if_false]
      constructor
      · intro h
        refine ⟨e, d, rfl, hd, ?_⟩
        cases h1 : d.isFunction <;> cases h2 : d.isDllimport <;> cases h3 : d.isStatic <;> cases h4 : d.isIntrinsic <;>
          cases h5 : d.isInlineAsm <;> cases h6 : d.defined <;> simp_all
      · rintro ⟨e', d', rfl, hd', h1, h2, h3, h4, h5, h6⟩
        rw [hd] at hd'
        cases hd'
        simp [hd, h1, h2, h3, h4, h5, h6]

/-- **C33**, violated: `hlc a.c -dll -subsystem:console` with a `DllMain` gives a library that never runs it, without any message: `DllMain` is
only looked for if the subsystem is `windows`. -/
theorem C33_dll_subsystem_wrong :
    ∃ (o : Options) (decls : String → Option Decl), o.dll = true ∧ Defined decls "DllMain" ∧
      ∃ g, choose o decls (fun _ => true) = .ok g ∧ g.noEntry = true ∧ g.entryPoint = none ∧ accepted g decls = true := by
  refine ⟨{ dll := true, subsystem := some .console },
    fun n => if n = "DllMain" then some { isFunction := true, defined := true, argumentCount := 3 } else none,
    rfl, ⟨_, rfl, rfl, rfl⟩, { fileType := some .dll, subsystem := some .console, noEntry := true }, ?_, rfl, rfl, rfl⟩
  rfl

/-! ## Concrete cases -/

/-- A program with `main` and `WinMain`. -/
def exampleDecls : String → Option Decl := fun n =>
  if n = "main" then some { isFunction := true, defined := true, argumentCount := 2 }
  else if n = "WinMain" then some { isFunction := true, defined := true, argumentCount := 4 }
  else none

example : First (outputType {}) none exampleDecls 1 ("main", .exe, .console) := by
  refine ⟨rfl, ⟨.inl rfl, .inl rfl⟩, ⟨_, rfl, rfl, rfl⟩, ?_⟩
  intro j hj c' hc' h
  have : j = 0 := by omega
  subst this
  cases hc'
  obtain ⟨_, d, hd, _⟩ := h
  cases hd

example : outputType { outExtension := some ".efi", noEntry := true } = some .efi := by decide

/-- With `-subsystem windows` it is `WinMain`. -/
example : (choose { subsystem := some .windows } exampleDecls (fun _ => true)).toOption.bind (·.preMain) =
    some "implicit/pre_WinMain.c" := by decide
example : (choose {} exampleDecls (fun _ => true)).toOption.bind (·.preMain) = some "implicit/pre_main.c" := by decide
example : (choose { entry := some "start_here" } exampleDecls (fun _ => true)).toOption.bind (·.entryPoint) =
    some "start_here" := by decide

end Verif.Props.EntryPoint
