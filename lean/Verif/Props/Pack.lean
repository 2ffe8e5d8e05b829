import Verif.Spec.Pack

/-!
# C14: `#pragma pack` behaves as a stack
-/
namespace Verif.Props.Pack
open Verif.Pack Verif.Spec.Pack

theorem run_append (a b : List Directive) (s : State) :
    run (a ++ b) s = ((run b (run a s).1).1, (run a s).2 ++ (run b (run a s).1).2) := by
  induction a generalizing s with
  | nil => simp [run]
  | cons d ds ih => simp [run, ih, List.append_assoc]

theorem nested_stack {ds : List (List Arg)} (h : Nested ds) (s : State) :
    ((run (ds.map parseArgs) s).1).stack = s.stack ∧ (run (ds.map parseArgs) s).2 = [] := by
  induction h generalizing s with
  | nil => simp [run]
  | reset => simp [run, exec, parseArgs]
  | set n => simp [run, exec, parseArgs, parseArg]
  | «show» => simp [run, exec, parseArgs, parseArg]
  | seq _ _ iha ihb =>
    rw [List.map_append, run_append]
    simp [iha, ihb]
  | block _ ih | blockValue _ _ ih | blockNamed _ _ ih | blockNamedValue _ _ _ ih =>
    simp only [List.cons_append, List.map_cons, List.map_append, run, run_append, parseArgs, List.foldl,
      parseArg, exec, setValue, List.map_nil]
    simp [ih]

theorem exec_pop_unnamed {d : Directive} {s : State} {v : Nat} {i : String} {rest : List (Nat × String)}
    (h1 : d.op = .pop) (h2 : d.ident = "") (h3 : s.stack = (v, i) :: rest) :
    exec d s = (setValue d.value { align := v, stack := rest }, []) := by
  simp [exec, h1, h2, h3]

theorem exec_pop_named {d : Directive} {s : State} {v : Nat} {rest : List (Nat × String)}
    (h1 : d.op = .pop) (h2 : d.ident ≠ "") (h3 : findNode d.ident s.stack = some (v, rest)) :
    exec d s = (setValue d.value { align := v, stack := rest }, []) := by
  simp [exec, h1, h2, h3]

/-- A block `push ... pop` around a well-nested sequence restores the whole state. -/
theorem block_restores (p : Directive) (hp : p.op = .push) (pop : Directive) (hop : pop.op = .pop)
    (hi : pop.ident = "") (a : List (List Arg)) (h : Nested a) (s : State) :
    run (p :: a.map parseArgs ++ [pop]) s = (setValue pop.value s, []) := by
  have hn := nested_stack h (exec p s).1
  simp only [List.cons_append, run, run_append]
  have he : (exec p s).1.stack = (s.align, p.ident) :: s.stack := by
    simp only [exec, hp]; cases p.value <;> simp [setValue]
  have hw : (exec p s).2 = [] := by simp [exec, hp]
  rw [he] at hn
  rw [exec_pop_unnamed hop hi hn.1, hw, hn.2]
  rfl

/-- C14: a well-nested block restores the packing in force before it (and everything
else), without a warning, for each form of push. -/
theorem C14_block_restores (a : List (List Arg)) (h : Nested a) (push : List Arg)
    (hp : push = [.push] ∨ (∃ n, push = [.push, .value n]) ∨ (∃ i, push = [.push, .ident i]) ∨
      ∃ i n, push = [.push, .ident i, .value n]) (s : State) :
    run ((push :: a ++ [[Arg.pop]]).map parseArgs) s = (s, []) := by
  have : (parseArgs push).op = .push := by
    rcases hp with rfl | ⟨n, rfl⟩ | ⟨i, rfl⟩ | ⟨i, n, rfl⟩ <;> rfl
  have := block_restores (parseArgs push) this (parseArgs [.pop]) rfl rfl a h s
  simpa [setValue, parseArgs, parseArg] using this

/-- C14: after a push with a value that value is in force, after one without a value the
previous one stays in force. -/
theorem C14_push_value (s : State) (i : String) (n : Nat) :
    (run [parseArgs [.push]] s).1.align = s.align ∧
    (run [parseArgs [.push, .ident i]] s).1.align = s.align ∧
    (run [parseArgs [.push, .value n]] s).1.align = n ∧
    (run [parseArgs [.push, .ident i, .value n]] s).1.align = n := by
  simp [run, exec, parseArgs, parseArg, setValue]

/-- C14: `pack(n)` sets the packing, `pack()` resets it to 16, `pack(show)` changes
nothing; none of them touches the stack. -/
theorem C14_set (s : State) (n : Nat) :
    run [parseArgs [.value n]] s = ({ s with align := n }, []) ∧
    run [parseArgs []] s = ({ s with align := 16 }, []) ∧
    run [parseArgs [.show]] s = (s, []) := by
  simp [run, exec, parseArgs, parseArg]

theorem findNode_skip (name : String) (p : List (Nat × String)) (hp : ∀ n ∈ p, n.2 ≠ name)
    (v : Nat) (rest : List (Nat × String)) : findNode name (p ++ (v, name) :: rest) = some (v, rest) := by
  induction p with
  | nil => simp [findNode]
  | cons n p ih =>
    have h1 := hp n (by simp)
    simp [findNode, h1]
    exact ih (fun m hm => hp m (by simp [hm]))

theorem between_stack {name : String} (hne : name ≠ "") {a : List (List Arg)} (h : Between name a) (s : State) :
    (∃ p, ((run (a.map parseArgs) s).1).stack = p ++ s.stack ∧ ∀ n ∈ p, n.2 ≠ name) ∧
    (run (a.map parseArgs) s).2 = [] := by
  induction h generalizing s with
  | nested hn =>
    have := nested_stack hn s
    exact ⟨⟨[], by simp [this.1], by simp⟩, this.2⟩
  | push | pushValue n =>
    exact ⟨⟨[(s.align, "")], by simp [run, exec, parseArgs, parseArg, setValue], by simp [Ne.symm hne]⟩,
      by simp [run, exec, parseArgs, parseArg]⟩
  | pushNamed other ho | pushNamedValue other n ho =>
    exact ⟨⟨[(s.align, other)], by simp [run, exec, parseArgs, parseArg, setValue], by simpa using ho⟩,
      by simp [run, exec, parseArgs, parseArg]⟩
  | @seq a b _ _ iha ihb =>
    obtain ⟨⟨p, hp, hpn⟩, hw⟩ := iha s
    rw [List.map_append, run_append]
    obtain ⟨⟨q, hq, hqn⟩, hw2⟩ := ihb (run (a.map parseArgs) s).1
    refine ⟨⟨q ++ p, by simp [hq, hp], ?_⟩, by simp [hw, hw2]⟩
    intro n hn
    rcases List.mem_append.1 hn with h | h
    · exact hqn n h
    · exact hpn n h

/-- C14: a named pop restores the state before the push of that name, discarding all
pushes in between. -/
theorem C14_named_pop (name : String) (hne : name ≠ "") (a : List (List Arg)) (h : Between name a)
    (push : List Arg) (hp : push = [.push, .ident name] ∨ ∃ n, push = [.push, .ident name, .value n]) (s : State) :
    run ((push :: a ++ [[Arg.pop, Arg.ident name]]).map parseArgs) s = (s, []) := by
  have he : (exec (parseArgs push) s).1.stack = (s.align, name) :: s.stack ∧ (exec (parseArgs push) s).2 = [] := by
    rcases hp with rfl | ⟨n, rfl⟩ <;> simp [exec, parseArgs, parseArg, setValue]
  obtain ⟨⟨p, hst, hpn⟩, hw⟩ := between_stack hne h (exec (parseArgs push) s).1
  rw [he.1] at hst
  have hf : findNode (parseArgs [Arg.pop, Arg.ident name]).ident
      (run (a.map parseArgs) (exec (parseArgs push) s).1).1.stack = some (s.align, s.stack) := by
    rw [hst]; exact findNode_skip name p hpn _ _
  simp only [List.cons_append, List.map_cons, List.map_append, run, run_append, List.map_nil, hw, he.2]
  rw [exec_pop_named rfl hne hf]
  rfl

/-- C14: a pop with a value sets that value after restoring the stack. -/
theorem C14_pop_value (a : List (List Arg)) (h : Nested a) (n : Nat) (s : State) :
    run (([Arg.push] :: a ++ [[Arg.pop, Arg.value n]]).map parseArgs) s = ({ s with align := n }, []) := by
  have := block_restores (parseArgs [.push]) rfl (parseArgs [.pop, .value n]) rfl rfl a h s
  simpa [setValue, parseArgs, parseArg] using this

/-- C14: a pop that has nothing to pop is diagnosed and changes nothing. -/
theorem C14_failed_pop (s : State) :
    (s.stack = [] → run [parseArgs [.pop]] s = (s, [.emptyStack])) ∧
    (∀ name, name ≠ "" → (∀ n ∈ s.stack, n.2 ≠ name) →
      run [parseArgs [.pop, .ident name]] s = (s, [.unknownIdentifier])) := by
  constructor
  · intro h; simp [run, exec, parseArgs, parseArg, setValue, h]
  · intro name hne h
    have : findNode name s.stack = none := by
      generalize s.stack = st at h
      induction st with
      | nil => rfl
      | cons n st ih =>
        have h1 := h n (by simp)
        simp [findNode, h1]
        exact ih (fun m hm => h m (by simp [hm]))
    simp [run, exec, parseArgs, parseArg, setValue, hne, this]

/-- A concrete non-trivial nested sequence:
`push,1 | push,x | (2) | pop | () | show | pop`. -/
example : Nested ([[.push, .value 1], [.push, .ident "x"], [.value 2], [.pop], [], [.show], [.pop]]) :=
  .blockValue 1 (.seq (.blockNamed "x" (.set 2)) (.seq .reset .show))
example : Between "a" [[.push, .ident "b", .value 4], [.push], [.value 2]] :=
  .seq (.pushNamedValue "b" 4 (by decide)) (.seq .push (.nested (.set 2)))
example : run ([[.push, .ident "a", .value 2], [.push, .ident "b", .value 4], [.pop, .ident "a"]].map parseArgs)
    { align := 8, stack := [(16, "")] } = ({ align := 8, stack := [(16, "")] }, []) := by decide

end Verif.Props.Pack
