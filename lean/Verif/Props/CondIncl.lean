import Verif.Model.CondIncl

/-!
# C09: conditional inclusion
-/
namespace Verif.CondIncl
open Verif.Spec.CondIncl

variable {S T C : Type} {ev : C → S → Option Bool}

theorem run_append (s : State S T) (ls ms : List (Line S T C)) : run ev s (ls ++ ms) = (run ev s ls).bind fun s' => run ev s' ms := by
  induction ls generalizing s with
  | nil => rfl
  | cons l ls ih =>
    simp only [List.cons_append, run]
    cases step ev s l with
    | none => rfl
    | some s' => exact ih s'

theorem enabled_cons (n : Node) (stack : List Node) : enabled (n :: stack) = n.isTrue := rfl

/-- The state in a disabled block. -/
def off (env : S) (out : List (S × T)) (node : Node) (stack : List Node) : State S T :=
  { stack := { node with isTrue := false } :: stack, emitting := false, env := env, out := out }

/-- The state in an enabled block. -/
def on (env : S) (out : List (S × T)) (stack : List Node) : State S T := { stack := stack, emitting := true, env := env, out := out }

mutual
/-- A disabled group has no effect. -/
theorem group_off (g : Group S T C) (h : g.noNull) (env : S) (out : List (S × T)) (node : Node) (stack : List Node) :
    run ev (off env out node stack) g.lines = some (off env out node stack) := by
  match g with
  | .nil => rfl
  | .text t rest => exact group_off rest h env out node stack
  | .null rest => exact absurd h id
  | .dir f rest => exact group_off rest h env out node stack
  | .sect c g tail rest =>
    obtain ⟨h1, h2, h3⟩ := h
    simp only [Group.lines, run]
    show run ev (off env out {} ({ node with isTrue := false } :: stack)) _ = _
    rw [run_append, group_off g h1, Option.bind_some, run_append, tail_off tail h2 env out {} rfl, Option.bind_some]
    exact group_off rest h3 env out node stack

/-- Nothing is enabled in a section that is itself in a disabled group. -/
theorem tail_off (tail : Tail S T C) (h : tail.noNull) (env : S) (out : List (S × T)) (inner : Node) (hi : inner.isElse = false) (node : Node)
    (stack : List Node) :
    run ev (off env out inner ({ node with isTrue := false } :: stack)) tail.lines = some (off env out node stack) := by
  match tail with
  | .endif => rfl
  | .els g =>
    simp only [Tail.lines, run]
    have e : step ev (off env out inner ({ node with isTrue := false } :: stack) : State S T) (.els : Line S T C) =
        some (off env out { inner with isElse := true } ({ node with isTrue := false } :: stack)) := by
      simp [step, off, hi, enabled_cons, after]
    rw [e, Option.bind_some, run_append, group_off g h]
    rfl
  | .elif c g tail =>
    obtain ⟨h1, h2⟩ := h
    simp only [Tail.lines, run]
    have e : step ev (off env out inner ({ node with isTrue := false } :: stack) : State S T) (.elif (some c) : Line S T C) =
        some (off env out inner ({ node with isTrue := false } :: stack)) := by
      simp [step, off, hi, enabled_cons, after]
    rw [e, Option.bind_some, run_append, group_off g h1]
    exact tail_off tail h2 env out inner hi node stack
end

/-- After a group that was processed, the rest of the section is skipped. -/
theorem tail_done (tail : Tail S T C) (h : tail.noNull) (env : S) (out : List (S × T)) (node : Node) (hi : node.isElse = false)
    (hd : node.isTrue = true ∨ node.isDisabledElif = true) (stack : List Node) (he : enabled stack = true) (em : Bool) :
    run ev { stack := node :: stack, emitting := em, env := env, out := out } tail.lines = some (on env out stack) := by
  match tail with
  | .endif =>
    simp only [Tail.lines, run, step, after, he, Option.bind_some]
    rfl
  | .els g =>
    have hb : (node.isTrue || node.isDisabledElif) = true := by simpa using hd
    simp only [Tail.lines, run, step, hi, he, hb, if_true, Bool.false_eq_true, if_false, Option.bind_some]
    have e : (after { stack := node :: stack, emitting := em, env := env, out := out : State S T } ({ node with isElse := true, isTrue := false } :: stack) env) =
        off env out { node with isElse := true } stack := rfl
    rw [e, run_append, group_off g h, Option.bind_some]
    simp only [run, step, off, after, he, Option.bind_some]
    rfl
  | .elif c g tail =>
    obtain ⟨h1, h2⟩ := h
    have hb : (node.isTrue || node.isDisabledElif) = true := by simpa using hd
    simp only [Tail.lines, run, step, hi, he, hb, if_true, Bool.false_eq_true, if_false, Option.bind_some]
    have e : (after { stack := node :: stack, emitting := em, env := env, out := out : State S T } ({ isDisabledElif := true } :: stack) env) =
        off env out { node with isDisabledElif := true } stack := by
      simp [after, off, enabled_cons, hi]
    rw [e, run_append, group_off g h1, Option.bind_some]
    exact tail_done tail h2 env out { node with isDisabledElif := true, isTrue := false } hi (.inr rfl) stack he _

mutual
/-- An enabled group is processed. -/
theorem group_on (g : Group S T C) (h : g.noNull) (env : S) (out : List (S × T)) (stack : List Node) (he : enabled stack = true) :
    run ev (on env out stack) g.lines = (g.run ev env).map fun r => on r.1 (out ++ r.2) stack := by
  match g with
  | .nil => simp [Group.lines, Group.run, run]
  | .text t rest =>
    simp only [Group.lines, run, Group.run]
    show run ev (on env (out ++ [(env, t)]) stack) rest.lines = _
    rw [group_on rest h env _ stack he]
    cases rest.run ev env with
    | none => rfl
    | some r => simp
  | .null rest => exact absurd h id
  | .dir f rest =>
    simp only [Group.lines, run, Group.run, step]
    simp only [on, he, if_true]
    cases f env with
    | none => rfl
    | some env' =>
      simp only [Option.map_some, Option.bind_some, after, he]
      exact group_on rest h env' out stack he
  | .sect c g tail rest =>
    obtain ⟨h1, h2, h3⟩ := h
    simp only [Group.lines, run, Group.run, step]
    simp only [on, he, if_true]
    cases ev c env with
    | none => rfl
    | some b =>
      simp only [Option.map_some, Option.bind_some, after]
      cases b with
      | true =>
        show run ev (on env out ({ isTrue := true } :: stack)) _ = _
        rw [run_append, group_on g h1 env out _ rfl]
        cases g.run ev env with
        | none => rfl
        | some r =>
          simp only [Option.map_some, Option.bind_some]
          rw [run_append]
          show (run ev { stack := { isTrue := true } :: stack, emitting := true, env := r.1, out := out ++ r.2 } tail.lines).bind _ = _
          rw [tail_done tail h2 r.1 (out ++ r.2) { isTrue := true } rfl (.inl rfl) stack he, Option.bind_some, group_on rest h3 r.1 _ stack he]
          cases hr : rest.run ev r.1 with
          | none => simp [hr]
          | some q => simp [hr, on]
      | false =>
        show run ev (off env out {} stack) _ = _
        rw [run_append, group_off g h1, Option.bind_some, run_append, tail_on tail h2 env out {} rfl rfl stack he]
        cases tail.run ev env with
        | none => rfl
        | some r =>
          simp only [Option.map_some, Option.bind_some]
          rw [group_on rest h3 r.1 _ stack he]
          cases hr : rest.run ev r.1 with
          | none => simp [hr]
          | some q => simp [hr, on]

/-- If no group was processed yet, the rest of the section is. -/
theorem tail_on (tail : Tail S T C) (h : tail.noNull) (env : S) (out : List (S × T)) (node : Node) (hi : node.isElse = false)
    (hd : node.isDisabledElif = false) (stack : List Node) (he : enabled stack = true) :
    run ev (off env out node stack) tail.lines = (tail.run ev env).map fun r => on r.1 (out ++ r.2) stack := by
  match tail with
  | .endif =>
    simp only [Tail.lines, run, step, off, after, he, Option.bind_some, Tail.run, Option.map_some, List.append_nil]
    rfl
  | .els g =>
    simp only [Tail.lines, Tail.run, run]
    have e : step ev (off env out node stack : State S T) (.els : Line S T C) = some (on env out ({ node with isElse := true, isTrue := true } :: stack)) := by
      simp [step, off, on, hi, he, hd, enabled_cons, after]
    rw [e, Option.bind_some, run_append, group_on g h env out _ rfl]
    cases g.run ev env with
    | none => rfl
    | some r => simp [run, step, on, after, he]
  | .elif c g tail =>
    obtain ⟨h1, h2⟩ := h
    simp only [Tail.lines, Tail.run, run]
    have e : step ev (off env out node stack : State S T) (.elif (some c) : Line S T C) =
        (ev c env).map fun b => { stack := { node with isTrue := b } :: stack, emitting := b, env := env, out := out } := by
      simp [step, off, hi, he, hd, enabled_cons, after]
    rw [e]
    cases ev c env with
    | none => rfl
    | some b =>
      simp only [Option.map_some, Option.bind_some]
      cases b with
      | true =>
        show run ev (on env out ({ node with isTrue := true } :: stack)) _ = _
        rw [run_append, group_on g h1 env out _ rfl]
        cases g.run ev env with
        | none => rfl
        | some r =>
          simp only [Option.map_some, Option.bind_some]
          exact tail_done tail h2 r.1 (out ++ r.2) { node with isTrue := true } hi (.inl rfl) stack he true
      | false =>
        show run ev (off env out node stack) _ = _
        rw [run_append, group_off g h1, Option.bind_some]
        exact tail_on tail h2 env out node hi hd stack he
end

/-- **C09** (partial): of every well-nested file, exactly the lines C11 6.10.1 selects are processed, with the
definitions then in force, and errors in conditions and directives are reported exactly if these are
processed. Missing: files in which a line has nothing but `#`; see `C09_null_directive_wrong`. -/
theorem C09_selects_partial (g : Group S T C) (h : g.noNull) (env : S) : preprocess ev env g.lines = g.run ev env := by
  unfold preprocess
  have := group_on (ev := ev) g h env [] [] rfl
  unfold on at this
  rw [this]
  cases g.run ev env with
  | none => rfl
  | some r => simp

/-- A line with nothing but `#` in a group that is not selected turns the output back on. The section
`#if 0`, `#`, `text`, `#endif` has no output, but `text` is compiled. -/
theorem C09_null_directive_wrong :
    let g : Group Unit Nat Bool := .sect false (.null (.text 7 .nil)) .endif .nil
    g.run (fun c _ => some c) () = some ((), []) ∧ preprocess (fun c _ => some c) () g.lines = some ((), [((), 7)]) :=
  ⟨rfl, rfl⟩

/-! ## Unbalanced directives -/

/-- What the open sections need to be closed: the flags say whether `#else` was seen. -/
def Closes : List Bool → List (Line S T C) → Prop
  | [], ls => ∃ g : Group S T C, ls = g.lines
  | false :: fs, ls => ∃ (g : Group S T C) (tail : Tail S T C) (rest : List (Line S T C)), ls = g.lines ++ (tail.lines ++ rest) ∧ Closes fs rest
  | true :: fs, ls => ∃ (g : Group S T C) (rest : List (Line S T C)), ls = g.lines ++ (.endif :: rest) ∧ Closes fs rest

/-- Something is put in front of the first group. -/
theorem Closes.cons {fs : List Bool} {ls ms : List (Line S T C)} (h : Closes fs ls)
    (f : Group S T C → Group S T C) (hf : ∀ g, (f g).lines = ms ++ g.lines) : Closes fs (ms ++ ls) := by
  cases fs with
  | nil =>
    obtain ⟨g, rfl⟩ := h
    exact ⟨f g, (hf g).symm⟩
  | cons b fs =>
    cases b with
    | false =>
      obtain ⟨g, tail, rest, rfl, hr⟩ := h
      exact ⟨f g, tail, rest, by rw [hf, List.append_assoc], hr⟩
    | true =>
      obtain ⟨g, rest, rfl, hr⟩ := h
      exact ⟨f g, rest, by rw [hf, List.append_assoc], hr⟩

theorem accepted_closes : ∀ (ls : List (Line S T C)) (s s' : State S T), run ev s ls = some s' → s'.stack = [] →
    Closes (s.stack.map (·.isElse)) ls
  | [], s, s', h, he => by
    cases h
    rw [he]
    exact ⟨.nil, rfl⟩
  | l :: ls, s, s', h, he => by
    simp only [run] at h
    cases hs : step ev s l with
    | none => rw [hs] at h; cases h
    | some s1 =>
      rw [hs] at h
      have ih := accepted_closes ls s1 s' h he
      cases l with
      | text t =>
        have e : s1.stack = s.stack := by
          simp only [step] at hs
          cases hs
          split <;> rfl
        rw [e] at ih
        exact ih.cons (ms := [.text t]) (.text t) (fun _ => rfl)
      | null =>
        cases hs
        exact ih.cons (ms := [.null]) .null (fun _ => rfl)
      | dir f =>
        have e : s1.stack = s.stack := by
          simp only [step] at hs
          split at hs
          · cases hf : f s.env with
            | none => rw [hf] at hs; cases hs
            | some v => rw [hf] at hs; cases hs; rfl
          · cases hs; rfl
        rw [e] at ih
        exact ih.cons (ms := [.dir f]) (.dir f) (fun _ => rfl)
      | cond c =>
        cases c with
        | none => cases hs
        | some c =>
          have e : s1.stack.map (·.isElse) = false :: s.stack.map (·.isElse) := by
            simp only [step] at hs
            split at hs
            · cases hf : ev c s.env with
              | none => rw [hf] at hs; cases hs
              | some v => rw [hf] at hs; cases hs; rfl
            · cases hs; rfl
          rw [e] at ih
          obtain ⟨g, tail, rest, rfl, hr⟩ := ih
          have := hr.cons (ms := .cond (some c) :: (g.lines ++ tail.lines)) (.sect c g tail) (fun _ => by simp [Group.lines])
          simpa using this
      | elif c =>
        cases c with
        | none => cases hs
        | some c =>
          simp only [step] at hs
          cases hst : s.stack with
          | nil => rw [hst] at hs; cases hs
          | cons node rest =>
            rw [hst] at hs
            simp only at hs
            split at hs
            · cases hs
            · rename_i hne
              have hf : node.isElse = false := by simpa using hne
              have e : s1.stack.map (·.isElse) = false :: rest.map (·.isElse) := by
                split at hs
                · split at hs
                  · cases hs; simp [after, hf]
                  · cases hv : ev c s.env with
                    | none => rw [hv] at hs; cases hs
                    | some v => rw [hv] at hs; cases hs; simp [after, hf]
                · cases hs; simp [after, hf]
              rw [e] at ih
              obtain ⟨g, tail, rs, rfl, hr⟩ := ih
              simp only [List.map_cons, hf]
              exact ⟨.nil, .elif c g tail, rs, by simp [Group.lines, Tail.lines], hr⟩
      | els =>
        simp only [step] at hs
        cases hst : s.stack with
        | nil => rw [hst] at hs; cases hs
        | cons node rest =>
          rw [hst] at hs
          simp only at hs
          split at hs
          · cases hs
          · rename_i hne
            have hf : node.isElse = false := by simpa using hne
            have e : s1.stack.map (·.isElse) = true :: rest.map (·.isElse) := by
              split at hs
              · split at hs
                · cases hs; simp [after]
                · cases hs; simp [after]
              · cases hs; simp [after]
            rw [e] at ih
            obtain ⟨g, rs, rfl, hr⟩ := ih
            simp only [List.map_cons, hf]
            exact ⟨.nil, .els g, rs, by simp [Group.lines, Tail.lines], hr⟩
      | endif =>
        simp only [step] at hs
        cases hst : s.stack with
        | nil => rw [hst] at hs; cases hs
        | cons node rest =>
          rw [hst] at hs
          cases hs
          simp only [List.map_cons]
          simp only [after] at ih
          cases node.isElse with
          | false => exact ⟨.nil, .endif, ls, by simp [Group.lines, Tail.lines], ih⟩
          | true => exact ⟨.nil, ls, by simp [Group.lines], ih⟩

/-- **C09**: a file that is accepted is well nested: unbalanced `#if`, `#elif`, `#else` and `#endif`, and those
without the argument they need, are diagnosed. -/
theorem C09_unbalanced_diagnosed (env : S) (ls : List (Line S T C)) (r : S × List (S × T)) (h : preprocess ev env ls = some r) :
    ∃ g : Group S T C, ls = g.lines := by
  unfold preprocess at h
  cases hr : run ev { stack := [], emitting := true, env := env, out := [] } ls with
  | none => rw [hr] at h; cases h
  | some s =>
    rw [hr] at h
    simp only [Option.bind_some] at h
    split at h
    · rename_i he
      exact accepted_closes ls _ s hr (by simpa using he)
    · cases h

/-- A case with all kinds of lines: the condition is whether the number of definitions so far is `c`. -/
example :
    let g : Group Nat Nat Nat := .dir (fun n => some (n + 1)) (.sect 0 (.text 1 .nil) (.elif 1 (.dir (fun n => some (n + 1)) (.text 2 (.sect 1 (.text 3 .nil)
      (.els (.text 4 .nil)) .nil))) (.elif 2 (.text 5 .nil) (.els (.text 6 .nil)))) (.text 7 .nil))
    g.noNull ∧ preprocess (fun c s => some (c == s)) 0 g.lines = some (2, [(2, 2), (2, 4), (2, 7)]) := by
  refine ⟨by simp [Group.noNull, Tail.noNull], rfl⟩

end Verif.CondIncl
