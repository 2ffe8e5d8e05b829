import Verif.Model.Stringize

/-!
# C67: the operator `#`
-/
namespace Verif.Props.Stringize
open Verif.Spec.Stringize
open Verif.Stringize

/-- The characters that the code puts a backslash before. -/
def special : List Char := ['\'', '"', '\\']

/-- What the text becomes. -/
def grown (c : Config) (arg : Nat) (old new : List Char) : List Char := match c.index arg with
  | none => old
  | some _ => old ++ new

theorem grown_grown (c : Config) (arg : Nat) (a b d : List Char) : grown c arg (grown c arg a b) d = grown c arg a (b ++ d) := by
  unfold grown
  cases c.index arg with
  | none => rfl
  | some k => simp

theorem grown_nil (c : Config) (arg : Nat) (a : List Char) : grown c arg a [] = a := by
  unfold grown
  cases c.index arg with
  | none => rfl
  | some k => simp

theorem add_text (c : Config) (s : State) (t : Tok) : (s.add c t).text = grown c s.arg s.text (if t.isSpace then [] else (if s.lastSpace then [' '] else []) ++ t.spell special) := by
  unfold State.add grown
  dsimp only
  cases c.index s.arg with
  | none => rfl
  | some k =>
    dsimp only
    split
    · simp
    · simp [special, List.append_assoc]

/-- The tokens of an argument. -/
theorem run_arg (c : Config) (va : Bool) (ts tl : List Tok) : ∀ (d : Nat) (s : State), argument va d ts = true → s.depth = d + 1 → s.eating = false → (va = true → c.variadic = true ∧ ¬ s.arg + 1 < c.params) →
    ∃ s', run c s (ts ++ tl) = run c s' tl ∧ s'.depth = 1 ∧ s'.arg = s.arg ∧ s'.strings = s.strings ∧ s'.text = grown c s.arg s.text (text special s.lastSpace ts) := by
  induction ts with
  | nil =>
    intro d s h hd _ _
    have : d = 0 := by simpa [argument] using h
    exact ⟨s, rfl, by omega, rfl, rfl, (grown_nil _ _ _).symm⟩
  | cons t ts ih =>
    intro d s h hd he hva
    -- a token that becomes part of the argument
    have key : ∀ (d' : Nat) (s0 : State), step c s t = .more (s0.add c t) → argument va d' ts = true → s0.depth = d' + 1 → s0.arg = s.arg → s0.strings = s.strings → s0.text = s.text → s0.lastSpace = s.lastSpace →
        ∃ s', run c s (t :: ts ++ tl) = run c s' tl ∧ s'.depth = 1 ∧ s'.arg = s.arg ∧ s'.strings = s.strings ∧ s'.text = grown c s.arg s.text (text special s.lastSpace (t :: ts)) := by
      intro d' s0 h1 h2 h3 h4 h5 h6 h7
      obtain ⟨s', r1, r2, r3, r4, r5⟩ := ih d' (s0.add c t) h2 h3 rfl (fun hv => by show _ ∧ ¬ s0.arg + 1 < _; rw [h4]; exact hva hv)
      refine ⟨s', ?_, r2, r3.trans h4, r4.trans h5, ?_⟩
      · rw [← r1]
        show (match step c s t with | .more s => run c s (ts ++ tl) | .fin s => .fin s.strings (ts ++ tl) | .bad => .error) = _
        rw [h1]
      · rw [r5, add_text]
        show grown c s0.arg _ _ = _
        rw [grown_grown, h4, h6, h7]
        congr 1
        show _ ++ text special t.isSpace ts = text special s.lastSpace (t :: ts)
        rw [text]
        cases t.isSpace <;> simp
    have hstep : ∀ t', (s.eating && Tok.isSpace t') = false := fun t' => by rw [he]; rfl
    cases t with
    | space => exact key d s (by simp [step, hstep]) h hd rfl rfl rfl rfl
    | literal x => exact key d s (by simp [step, hstep]) h hd rfl rfl rfl rfl
    | word x => exact key d s (by simp [step, hstep]) h hd rfl rfl rfl rfl
    | lparen => exact key (d + 1) { s with depth := s.depth + 1 } (by simp [step, hstep]) h (by show s.depth + 1 = _; omega) rfl rfl rfl rfl
    | rparen =>
      cases d with
      | zero => cases h
      | succ d =>
        have : ¬ s.depth = 1 := by omega
        exact key d { s with depth := s.depth - 1 } (by simp [step, hstep, this]) h (by show s.depth - 1 = _; omega) rfl rfl rfl rfl
    | comma =>
      have h' : (va || d != 0) = true ∧ argument va d ts = true := by
        cases d <;> simpa [argument] using h
      refine key d s ?_ h'.2 hd rfl rfl rfl rfl
      by_cases h1 : s.depth = 1
      · have hv : va = true := by
          have : d = 0 := by omega
          simpa [this] using h'.1
        simp [step, hstep, h1, (hva hv).1, (hva hv).2]
      · simp [step, hstep, h1]

/-- An argument from its beginning. -/
theorem run_whole (c : Config) (va : Bool) (ts tl : List Tok) (s : State) (h : argument va 0 ts = true) (hd : s.depth = 1) (he : s.eating = true) (hl : s.lastSpace = false) (hva : va = true → c.variadic = true ∧ ¬ s.arg + 1 < c.params)
    (htl : ∃ t tl', tl = t :: tl' ∧ t.isSpace = false) :
    ∃ s', run c s (ts ++ tl) = run c s' tl ∧ s'.depth = 1 ∧ s'.arg = s.arg ∧ s'.strings = s.strings ∧ s'.text = grown c s.arg s.text (text special false (ts.dropWhile Tok.isSpace)) := by
  have noeat : ∀ (s : State) (t : Tok) (r : List Tok), t.isSpace = false → run c s (t :: r) = run c { s with eating := false } (t :: r) := by
    intro s t r ht
    by_cases h1 : s.depth = 1 <;> by_cases h2 : s.arg + 1 < c.params <;> by_cases h3 : (c.variadic = true ∧ s.arg + 2 = c.params) <;> cases hk : c.index s.arg <;> cases t <;>
      first | (cases ht; done) | (simp [run, step, Tok.isSpace, State.add, State.close, hk, h1, h2, h3]; done)
  induction ts with
  | nil =>
    obtain ⟨t, tl', rfl, ht⟩ := htl
    exact ⟨{ s with eating := false }, noeat s t tl' ht, hd, rfl, rfl, (grown_nil _ _ _).symm⟩
  | cons t ts ih =>
    cases ht : t.isSpace with
    | true =>
      have htt : t = .space := by cases t <;> first | rfl | cases ht
      subst htt
      obtain ⟨s', r1, r2⟩ := ih h
      refine ⟨s', ?_, r2⟩
      rw [← r1]
      show (match step c s .space with | .more s => run c s (ts ++ tl) | .fin s => .fin s.strings (ts ++ tl) | .bad => .error) = _
      have : step c s .space = .more s := by simp [step, he, Tok.isSpace]
      rw [this]
    | false =>
      obtain ⟨s', r1, r2⟩ := run_arg c va (t :: ts) tl 0 { s with eating := false } h hd rfl hva
      refine ⟨s', ?_, ?_⟩
      · rw [← r1]; exact noeat s t (ts ++ tl) ht
      · have hdw : (t :: ts).dropWhile Tok.isSpace = t :: ts := by simp [List.dropWhile, ht]
        rw [hdw, ← hl]
        exact r2

/-- The strings after the arguments from number `k` on. -/
theorem run_args (c : Config) (hinj : ∀ i j k, c.index i = some k → c.index j = some k → i = j) (args : List (List Tok)) (rest : List Tok) : ∀ (s : State), args ≠ [] →
    (∀ i, i < args.length → argument (c.variadic && decide (s.arg + i + 1 = c.params)) 0 (args.getD i []) = true) →
    (s.arg + args.length = c.params ∨ c.variadic = true ∧ s.arg + args.length + 1 = c.params) →
    s.depth = 1 → s.eating = true → s.lastSpace = false → s.text = ['"'] →
    ∃ strings, run c s (join args ++ .rparen :: rest) = .fin strings rest ∧ (∀ i k, i < args.length → c.index (s.arg + i) = some k → strings k = some (literal special (args.getD i []))) ∧
      ∀ k, (∀ i, i < args.length → c.index (s.arg + i) ≠ some k) → strings k = s.strings k := by
  induction args with
  | nil => exact fun s h => absurd rfl h
  | cons a as ih =>
    intro s _ harg hn hd he hl ht
    have ha := harg 0 (by simp)
    have ha : argument (c.variadic && decide (s.arg + 1 = c.params)) 0 a = true := ha
    have hva : (c.variadic && decide (s.arg + 1 = c.params)) = true → c.variadic = true ∧ ¬ s.arg + 1 < c.params := by
      intro h
      have h := (Bool.and_eq_true _ _).mp h
      have h2 := of_decide_eq_true h.2
      exact ⟨h.1, by omega⟩
    have hclose : ∀ s' : State, s'.arg = s.arg → s'.strings = s.strings → s'.text = grown c s.arg s.text (text special false (a.dropWhile Tok.isSpace)) →
        (s'.close c).text = ['"'] ∧ (∀ k, c.index s.arg = some k → (s'.close c).strings k = some (literal special a)) ∧ (∀ k, c.index s.arg ≠ some k → (s'.close c).strings k = s.strings k) := by
      intro s' h1 h2 h3
      unfold State.close
      rw [h1]
      cases hk : c.index s.arg with
      | none =>
        dsimp only
        refine ⟨?_, (fun k h => by cases h), (fun k _ => by rw [h2])⟩
        rw [h3, ht]; unfold grown; rw [hk]
      | some k =>
        dsimp only
        refine ⟨rfl, fun k' h => ?_, fun k' h => ?_⟩
        · injection h with h
          subst h
          rw [if_pos rfl, h3, ht]
          unfold grown literal
          rw [hk]
          rfl
        · rw [if_neg (fun e => h (by rw [e])), h2]
    cases as with
    | nil =>
      obtain ⟨s', r1, r2, r3, r4, r5⟩ := run_whole c _ a (.rparen :: rest) s ha hd he hl hva ⟨_, _, rfl, rfl⟩
      obtain ⟨c1, c2, c3⟩ := hclose s' r3 r4 r5
      refine ⟨(s'.close c).strings, ?_, ?_, ?_⟩
      · show run c s (a ++ .rparen :: rest) = _
        rw [r1, run]
        have hstep : step c s' .rparen = .fin (s'.close c) := by
          unfold step
          rw [if_neg (by simp [Tok.isSpace])]
          dsimp only
          rw [if_pos r2, r3]
          rcases hn with hn | ⟨hv, hn⟩
          · rw [if_neg (by simp at hn; omega)]
          · rw [if_pos (by simp at hn; omega), if_pos (by simp [hv]; simp at hn; omega)]
        rw [hstep]
      · intro i k hi hk
        have : i = 0 := by simp at hi; exact hi
        subst this
        exact c2 k hk
      · intro k hk
        exact c3 k (hk 0 (by simp))
    | cons b bs =>
      obtain ⟨s', r1, r2, r3, r4, r5⟩ := run_whole c _ a (.comma :: (join (b :: bs) ++ .rparen :: rest)) s ha hd he hl hva ⟨_, _, rfl, rfl⟩
      obtain ⟨c1, c2, c3⟩ := hclose s' r3 r4 r5
      have hlt : s.arg + 1 < c.params := by rcases hn with hn | ⟨_, hn⟩ <;> (simp at hn; omega)
      obtain ⟨strings, i1, i2, i3⟩ := ih { s'.close c with arg := s'.arg + 1, lastSpace := false, eating := true } (by simp)
        (fun i hi => by
          have := harg (i + 1) (by simp at hi ⊢; omega)
          have e : s.arg + (i + 1) + 1 = s'.arg + 1 + i + 1 := by rw [r3]; omega
          rw [e] at this
          exact this)
        (by
          show s'.arg + 1 + _ = _ ∨ _ ∧ s'.arg + 1 + _ + 1 = _
          rw [r3]
          rcases hn with hn | ⟨hv, hn⟩
          · exact .inl (by simp at hn ⊢; omega)
          · exact .inr ⟨hv, by simp at hn ⊢; omega⟩)
        (by show (s'.close c).depth = 1; unfold State.close; split <;> exact r2) rfl rfl c1
      refine ⟨strings, ?_, ?_, ?_⟩
      · show run c s ((a ++ .comma :: join (b :: bs)) ++ .rparen :: rest) = _
        rw [List.append_assoc, List.cons_append, r1, run]
        have hstep : step c s' .comma = .more { s'.close c with arg := s'.arg + 1, lastSpace := false, eating := true } := by
          unfold step
          rw [if_neg (by simp [Tok.isSpace])]
          dsimp only
          rw [if_pos r2, if_pos (by rw [r3]; exact hlt)]
        rw [hstep]
        exact i1
      · intro i k hi hk
        cases i with
        | zero =>
          rw [i3 k ?_]
          · exact c2 k hk
          · intro j hj hjk
            have := hinj _ _ k hk hjk
            have : s.arg + 0 = s'.arg + 1 + j := this
            omega
        | succ i =>
          exact i2 i k (by simp at hi ⊢; omega) (by show c.index (s'.arg + 1 + i) = _; rw [r3, ← hk]; congr 1; omega)
      · intro k hk
        rw [i3 k ?_]
        · exact c3 k (hk 0 (by simp))
        · intro i hi h
          refine hk (i + 1) (by simp at hi ⊢; omega) ?_
          rw [← h]
          show c.index (s.arg + (i + 1)) = c.index (s'.arg + 1 + i)
          rw [r3]; congr 1; omega

/-! ## The contents of the strings -/

theorem contents_cons {c : Char} (h : c ≠ '\\') (cs : List Char) : contents (c :: cs) = c :: contents cs := by
  rw [contents]
  intro c' cs' hc
  exact absurd hc h

theorem contents_escape (sp : List Char) (h1 : '\\' ∈ sp) (h2 : ∀ c ∈ sp, c = '"' ∨ c = '\\' ∨ c = '\'') (s tl : List Char) : contents (escape sp s ++ tl) = s ++ contents tl := by
  induction s with
  | nil => rfl
  | cons c s ih =>
    unfold escape
    split
    · rename_i hc
      show contents ('\\' :: c :: (escape sp s ++ tl)) = _
      rw [contents, if_pos (h2 c hc), ih]
      rfl
    · rename_i hc
      show contents (c :: (escape sp s ++ tl)) = _
      rw [contents_cons (c := c) (fun e => hc (by rw [e]; exact h1)), ih]
      rfl

theorem contents_word {s : List Char} (h : '\\' ∉ s) (tl : List Char) : contents (s ++ tl) = s ++ contents tl := by
  induction s with
  | nil => rfl
  | cons c s ih =>
    rw [List.cons_append, contents_cons (fun e => h (e ▸ List.mem_cons_self)), ih fun h' => h (List.mem_cons_of_mem _ h')]
    rfl

/-- Words have no backslashes. -/
def Clean (ts : List Tok) : Prop := ∀ s, Tok.word s ∈ ts → '\\' ∉ s

theorem contents_spell (sp sp' : List Char) (h1 : '\\' ∈ sp) (h2 : ∀ c ∈ sp, c = '"' ∨ c = '\\' ∨ c = '\'') (h1' : '\\' ∈ sp') (h2' : ∀ c ∈ sp', c = '"' ∨ c = '\\' ∨ c = '\'') {t : Tok} (ht : ∀ s, t = .word s → '\\' ∉ s)
    {tl tl' : List Char} (h : contents tl = contents tl') : contents (t.spell sp ++ tl) = contents (t.spell sp' ++ tl') := by
  cases t with
  | space => exact h
  | literal s => simp only [Tok.spell]; rw [contents_escape sp h1 h2, contents_escape sp' h1' h2', h]
  | word s => simp only [Tok.spell]; rw [contents_word (ht s rfl), contents_word (ht s rfl), h]
  | comma => simp only [Tok.spell, List.cons_append, List.nil_append]; rw [contents_cons (by decide), contents_cons (by decide), h]
  | lparen => simp only [Tok.spell, List.cons_append, List.nil_append]; rw [contents_cons (by decide), contents_cons (by decide), h]
  | rparen => simp only [Tok.spell, List.cons_append, List.nil_append]; rw [contents_cons (by decide), contents_cons (by decide), h]

theorem contents_text (sp sp' : List Char) (h1 : '\\' ∈ sp) (h2 : ∀ c ∈ sp, c = '"' ∨ c = '\\' ∨ c = '\'') (h1' : '\\' ∈ sp') (h2' : ∀ c ∈ sp', c = '"' ∨ c = '\\' ∨ c = '\'') {ts : List Tok} (hc : Clean ts) (p : Bool) (tl : List Char) :
    contents (text sp p ts ++ tl) = contents (text sp' p ts ++ tl) := by
  induction ts generalizing p with
  | nil => rfl
  | cons t ts ih =>
    have ih := ih fun s hs => hc s (List.mem_cons_of_mem _ hs)
    rw [text, text]
    split
    · exact ih true
    · rw [List.append_assoc, List.append_assoc, List.append_assoc, List.append_assoc]
      have hs := contents_spell sp sp' h1 h2 h1' h2' (t := t) (fun s e => hc s (by rw [e]; exact List.mem_cons_self)) (ih false)
      split
      · show contents (' ' :: (t.spell sp ++ (text sp false ts ++ tl))) = contents (' ' :: (t.spell sp' ++ (text sp' false ts ++ tl)))
        rw [contents_cons (by decide), contents_cons (by decide), hs]
      · exact hs

theorem clean_dropWhile {ts : List Tok} (h : Clean ts) : Clean (ts.dropWhile Tok.isSpace) := fun s hs => h s ((List.dropWhile_suffix _).subset hs)

/-- **C67**: for all arguments of a macro, every parameter after `#` gives a string literal with exactly the contents that C prescribes. Left out
is an argument for `...` that is not there (`C67_omitted_wrong`). -/
theorem C67_contents_partial (c : Config) (hinj : ∀ i j k, c.index i = some k → c.index j = some k → i = j) (args : List (List Tok)) (rest : List Tok) (hne : args ≠ [])
    (harg : ∀ i, i < args.length → argument (c.variadic && decide (i + 1 = c.params)) 0 (args.getD i []) = true) (hn : args.length = c.params ∨ c.variadic = true ∧ args.length + 1 = c.params) :
    ∃ strings, run c start (join args ++ .rparen :: rest) = .fin strings rest ∧ ∀ i k, i < args.length → c.index i = some k →
      ∃ s, strings k = some s ∧ (Clean (args.getD i []) → contents s = contents (stringize (args.getD i []))) := by
  obtain ⟨strings, h1, h2, _⟩ := run_args c hinj args rest start hne (fun i hi => by have := harg i hi; show argument (c.variadic && decide (0 + i + 1 = c.params)) 0 _ = true; rw [Nat.zero_add]; exact this)
    (by show 0 + _ = _ ∨ _ ∧ 0 + _ + 1 = _; rw [Nat.zero_add]; exact hn) rfl rfl rfl rfl
  refine ⟨strings, h1, fun i k hi hk => ⟨_, h2 i k hi (by show c.index (0 + i) = _; rw [Nat.zero_add]; exact hk), fun hc => ?_⟩⟩
  show contents ('"' :: _) = contents ('"' :: _)
  rw [contents_cons (by decide), contents_cons (by decide)]
  congr 1
  exact contents_text special ['"', '\\'] (by decide) (by decide) (by decide) (by decide) (clean_dropWhile hc) false ['"']

theorem escape_same {s : List Char} (h : '\'' ∉ s) : escape special s = escape ['"', '\\'] s := by
  induction s with
  | nil => rfl
  | cons c s ih =>
    have hc : c ≠ '\'' := fun e => h (e ▸ List.mem_cons_self)
    rw [escape, escape, ih fun h' => h (List.mem_cons_of_mem _ h')]
    simp [special, hc]

/-- **C67**: also the spelling of the string literal is the one of C, if no literal in the argument has a `'`. -/
theorem C67_spelling_partial (c : Config) (hinj : ∀ i j k, c.index i = some k → c.index j = some k → i = j) (args : List (List Tok)) (rest : List Tok) (hne : args ≠ [])
    (harg : ∀ i, i < args.length → argument (c.variadic && decide (i + 1 = c.params)) 0 (args.getD i []) = true) (hn : args.length = c.params ∨ c.variadic = true ∧ args.length + 1 = c.params)
    (hq : ∀ a ∈ args, ∀ s, Tok.literal s ∈ a → '\'' ∉ s) :
    ∃ strings, run c start (join args ++ .rparen :: rest) = .fin strings rest ∧ ∀ i k, i < args.length → c.index i = some k → strings k = some (stringize (args.getD i [])) := by
  obtain ⟨strings, h1, h2, _⟩ := run_args c hinj args rest start hne (fun i hi => by have := harg i hi; show argument (c.variadic && decide (0 + i + 1 = c.params)) 0 _ = true; rw [Nat.zero_add]; exact this)
    (by show 0 + _ = _ ∨ _ ∧ 0 + _ + 1 = _; rw [Nat.zero_add]; exact hn) rfl rfl rfl rfl
  refine ⟨strings, h1, fun i k hi hk => (h2 i k hi (by show c.index (0 + i) = _; rw [Nat.zero_add]; exact hk)).trans ?_⟩
  have hmem : args.getD i [] ∈ args := by rw [List.getD_eq_getElem?_getD, List.getElem?_eq_getElem hi]; exact List.getElem_mem hi
  have key : ∀ (ts : List Tok) (p : Bool), (∀ s, Tok.literal s ∈ ts → '\'' ∉ s) → text special p ts = text ['"', '\\'] p ts := by
    intro ts
    induction ts with
    | nil => exact fun _ _ => rfl
    | cons t ts ih =>
      intro p h
      have ih := fun p => ih p fun s hs => h s (List.mem_cons_of_mem _ hs)
      rw [text, text, ih, ih]
      have : t.spell special = t.spell ['"', '\\'] := by
        cases t with
        | literal s => exact escape_same (h s List.mem_cons_self)
        | _ => rfl
      rw [this]
  unfold stringize literal
  rw [key _ _ fun s hs => hq _ hmem s ((List.dropWhile_suffix _).subset hs)]

/-! ## What is wrong -/

/-- **C67**, a defect: with `#define V(x, ...) #__VA_ARGS__`, the string for `V(1)` is never initialized. C gives `""`. -/
theorem C67_omitted_wrong : ∃ strings, run ⟨2, true, fun i => if i = 1 then some 0 else none⟩ start [.word ['1'], .rparen] = .fin strings [] ∧ strings 0 = none ∧ stringize [] = ['"', '"'] :=
  ⟨_, rfl, rfl, rfl⟩

/-- **C67**, a defect: a `'` in a literal also gets a backslash. The contents of the string are the same, but the
contents of the string made of this string are not: with `#define S(x) #x` and `#define X(x) S(x)`, `X(S('a'))` has the contents `"\'a\'"`. -/
theorem C67_quote_wrong : ∃ strings s, run ⟨1, false, fun i => if i = 0 then some 0 else none⟩ start [.literal ['\'', 'a', '\''], .rparen] = .fin strings [] ∧ strings 0 = some s
    ∧ s = ['"', '\\', '\'', 'a', '\\', '\'', '"'] ∧ contents (stringize [.literal s]) ≠ contents (stringize [.literal (stringize [.literal ['\'', 'a', '\'']])]) := by
  refine ⟨_, _, rfl, rfl, rfl, ?_⟩
  decide

/-- `#define F(x, ...) #x #__VA_ARGS__` and `F( a  "b\n" , c, (d,e) )`. -/
example : ∃ strings, run ⟨2, true, fun i => if i = 0 then some 0 else if i = 1 then some 1 else none⟩ start
    (join [[.space, .word ['a'], .space, .space, .literal ['"', 'b', '\\', 'n', '"'], .space], [.space, .word ['c'], .comma, .space, .lparen, .word ['d'], .comma, .word ['e'], .rparen, .space]] ++ [.rparen]) = .fin strings []
    ∧ strings 0 = some ['"', 'a', ' ', '\\', '"', 'b', '\\', '\\', 'n', '\\', '"', '"'] ∧ strings 1 = some ['"', 'c', ',', ' ', '(', 'd', ',', 'e', ')', '"'] := by
  obtain ⟨strings, h1, h2⟩ := C67_spelling_partial ⟨2, true, fun i => if i = 0 then some 0 else if i = 1 then some 1 else none⟩ (fun i j k h1 h2 => by
      dsimp only at h1 h2
      split at h1
      · split at h2
        · omega
        · split at h2
          · cases h1; cases h2
          · cases h2
      · split at h1
        · split at h2
          · cases h1; cases h2
          · split at h2
            · omega
            · cases h2
        · cases h1)
    [[.space, .word ['a'], .space, .space, .literal ['"', 'b', '\\', 'n', '"'], .space], [.space, .word ['c'], .comma, .space, .lparen, .word ['d'], .comma, .word ['e'], .rparen, .space]] []
    (by simp) (by decide) (.inl rfl) (by
      intro a ha s hs
      simp only [List.mem_cons, List.not_mem_nil, or_false] at ha
      rcases ha with rfl | rfl
      · simp at hs; subst hs; decide
      · simp at hs)
  exact ⟨strings, h1, h2 0 0 (by decide) rfl, h2 1 1 (by decide) rfl⟩

end Verif.Props.Stringize
