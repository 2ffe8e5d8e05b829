import Verif.Model.CommandLine
import Verif.Spec.CommandLine

/-!
# C43: command line splitting
-/
namespace Verif.Props.CommandLine
open Verif.CommandLine Verif.Spec.CommandLine

theorem isSpace_iff (c : Nat) : isSpace c = true ↔ IsSpace c := by
  simp [isSpace, IsSpace, or_assoc]

theorem isSpace_false (c : Nat) : isSpace c = false ↔ ¬ IsSpace c := by
  rw [← isSpace_iff]; simp

theorem slashes_cons (s : List Nat) : slashes (92 :: s) = slashes s + 1 := rfl

theorem slashes_of_ne (s : List Nat) (h : s.head? ≠ some 92) : slashes s = 0 ∧ afterSlashes s = s := by
  cases s with
  | nil => exact ⟨rfl, rfl⟩
  | cons c s =>
    have hc : c ≠ 92 := fun e => h (by rw [e]; rfl)
    constructor
    · rw [slashes]; intro s' e; exact hc (by injection e)
    · rw [afterSlashes]; intro s' e; exact hc (by injection e)

theorem slashes_replicate (n : Nat) (s : List Nat) (h : s.head? ≠ some 92) :
    slashes (List.replicate n 92 ++ s) = n ∧ afterSlashes (List.replicate n 92 ++ s) = s := by
  induction n with
  | zero => simpa using slashes_of_ne s h
  | succ n ih =>
    simp only [List.replicate_succ, List.cons_append, slashes, afterSlashes]
    exact ⟨by rw [ih.1], ih.2⟩

theorem slashes_split (s : List Nat) :
    s = List.replicate (slashes s) 92 ++ afterSlashes s ∧ (afterSlashes s).head? ≠ some 92 := by
  fun_induction afterSlashes s with
  | case1 s ih =>
    simp only [slashes, List.replicate_succ, List.cons_append]
    exact ⟨by rw [← ih.1], ih.2⟩
  | case2 s h =>
    have hh : s.head? ≠ some 92 := by
      cases s with
      | nil => simp
      | cons c s => intro e; injection e with e; subst e; exact h _ rfl
    rw [(slashes_of_ne s hh).1]
    exact ⟨rfl, hh⟩

/-! ## the loop step by step -/

theorem loop_run (q a : Bool) (n : Nat) (hn : 0 < n) (s : List Nat) (h : s.head? ≠ some 92) :
    loop q a (List.replicate n 92 ++ s) =
      if s.head? = some 34 then
        if n % 2 = 1 then (List.replicate (n / 2) 92 ++ 34 :: (loop q true s.tail).1, begins a + (loop q true s.tail).2)
        else (List.replicate (n / 2) 92 ++ (loop q true s).1, begins a + (loop q true s).2)
      else (List.replicate n 92 ++ (loop q true s).1, begins a + (loop q true s).2) := by
  obtain ⟨m, rfl⟩ : ∃ m, n = m + 1 := ⟨n - 1, by omega⟩
  obtain ⟨h1, h2⟩ := slashes_replicate m s h
  have e : List.replicate (m + 1) 92 ++ s = 92 :: (List.replicate m 92 ++ s) := by
    rw [List.replicate_succ, List.cons_append]
  rw [e, loop]
  simp only [if_true, h1, h2]

theorem loop_quote_open (a : Bool) (s : List Nat) :
    loop false a (34 :: s) = ((loop true true s).1, begins a + (loop true true s).2) := by
  rw [loop]; simp

theorem loop_quote_close (a : Bool) (s : List Nat) (h : s.head? ≠ some 34) : loop true a (34 :: s) = loop false a s := by
  rw [loop]; simp [h]

theorem loop_quote_doubled (a : Bool) (s : List Nat) :
    loop true a (34 :: 34 :: s) = (34 :: (loop true a s).1, (loop true a s).2) := by
  rw [loop]; simp

theorem loop_space_quoted (a : Bool) (c : Nat) (s : List Nat) (h : IsSpace c) :
    loop true a (c :: s) = (c :: (loop true a s).1, (loop true a s).2) := by
  have h' := (isSpace_iff c).2 h
  have h1 : c ≠ 92 := fun e => by rw [e] at h'; exact absurd h' (by decide)
  have h2 : c ≠ 34 := fun e => by rw [e] at h'; exact absurd h' (by decide)
  rw [loop]; simp [h1, h2, h']

theorem loop_space (a : Bool) (c : Nat) (s : List Nat) (h : IsSpace c) :
    loop false a (c :: s) = if a then (0 :: (loop false false s).1, (loop false false s).2) else loop false false s := by
  have h' := (isSpace_iff c).2 h
  have h1 : c ≠ 92 := fun e => by rw [e] at h'; exact absurd h' (by decide)
  have h2 : c ≠ 34 := fun e => by rw [e] at h'; exact absurd h' (by decide)
  rw [loop]; cases a <;> simp [h1, h2, h']

theorem loop_char (q a : Bool) (c : Nat) (s : List Nat) (h1 : c ≠ 92) (h2 : c ≠ 34) (h3 : ¬ IsSpace c) :
    loop q a (c :: s) = (c :: (loop q true s).1, begins a + (loop q true s).2) := by
  have h' := (isSpace_false c).2 h3
  rw [loop]; simp [h1, h2, h']

/-! ## from the rules to the loop -/

theorem head_quote (s : List Nat) : (quote :: s).head? ≠ some 92 := by simp [quote]

/-- `loop` in an argument, on what the rules read as one argument. -/
theorem arg_loop {q s v r} (h : Arg q s v r) :
    loop q true s = (v ++ (loop false true r).1, (loop false true r).2) := by
  induction h with
  | atEnd => rfl
  | atSpace h => rfl
  | unclosed => rw [loop, loop]; rfl
  | @char q c s v r h1 h2 h3 _ ih =>
    by_cases hs : IsSpace c
    · have hq : q = true := by rcases h3 with h | h; exact h; exact absurd hs h
      subst hq
      rw [loop_space_quoted _ _ _ hs, ih]; rfl
    · rw [loop_char _ _ _ _ h1 h2 hs, ih]; simp [begins]
  | @backslashes q n s v r hn h1 h2 _ ih =>
    rw [show backslash = 92 from rfl, loop_run _ _ _ hn _ h1, if_neg (show ¬ s.head? = some 34 from h2), ih]; simp [begins]
  | @escaped q n s v r _ ih =>
    rw [show backslash = 92 from rfl, loop_run _ _ _ (by omega) _ (head_quote s), if_pos (show (quote :: s).head? = some 34 from rfl), if_pos (by omega),
      show (2 * n + 1) / 2 = n by omega]
    simp only [List.tail_cons, ih, quote]; simp [begins]
  | @paired q n s v r hn _ ih =>
    rw [show backslash = 92 from rfl, loop_run _ _ _ (by omega) _ (head_quote s), if_pos (show (quote :: s).head? = some 34 from rfl), if_neg (by omega),
      show 2 * n / 2 = n by omega, ih]
    simp [begins]
  | opening _ ih => rw [show quote = 34 from rfl, loop_quote_open, ih]; simp [begins]
  | closing h _ ih => rw [show quote = 34 from rfl, loop_quote_close _ _ h, ih]
  | doubled _ ih => rw [show quote = 34 from rfl, loop_quote_doubled, ih]; rfl

/-- Beginning an argument or being in it makes no difference but for the count, outside of white space. -/
theorem loop_begin (c : Nat) (s : List Nat) (h : ¬ IsSpace c) :
    loop false false (c :: s) = ((loop false true (c :: s)).1, 1 + (loop false true (c :: s)).2) := by
  by_cases h1 : c = 92
  · subst h1
    obtain ⟨e1, e2⟩ := slashes_split s
    have e : 92 :: s = List.replicate (slashes s + 1) 92 ++ afterSlashes s := by
      rw [List.replicate_succ, List.cons_append, ← e1]
    rw [e, loop_run _ _ _ (by omega) _ e2, loop_run _ _ _ (by omega) _ e2]
    split
    · split <;> simp [begins]
    · simp [begins]
  · by_cases h2 : c = 34
    · subst h2; rw [loop_quote_open, loop_quote_open]; simp [begins]
    · rw [loop_char _ _ _ _ h1 h2 h, loop_char _ _ _ _ h1 h2 h]; simp [begins]

/-- What is left after an argument. -/
theorem arg_rest {q s v r} (h : Arg q s v r) : r = [] ∨ ∃ c t, r = c :: t ∧ IsSpace c := by
  induction h with
  | atEnd => exact Or.inl rfl
  | atSpace h => exact Or.inr ⟨_, _, rfl, h⟩
  | unclosed => exact Or.inl rfl
  | _ => assumption

theorem split_loop {s vs} (h : Split s vs) :
    ∃ tail, loop false false s = (vs.flatMap (fun v => v ++ [0]) ++ tail, vs.length) := by
  induction h with
  | nil => exact ⟨[0], by rw [loop]; rfl⟩
  | @space c s vs hc _ ih =>
    obtain ⟨t, e⟩ := ih
    exact ⟨t, by rw [loop_space _ _ _ hc]; simpa using e⟩
  | @arg c s v r vs hc ha _ ih =>
    obtain ⟨t, e⟩ := ih
    rw [loop_begin c s hc, arg_loop ha]
    rcases arg_rest ha with rfl | ⟨d, u, rfl, hd⟩
    · have : vs = [] := by
        rename_i hs; cases hs; rfl
      subst this
      exact ⟨[], by rw [loop]; simp⟩
    · rw [loop_space _ _ _ hd] at e ⊢
      simp only [if_true, Bool.false_eq_true, if_false] at e ⊢
      rw [e]
      exact ⟨t, by simp [Nat.add_comm]⟩

theorem arg_nonzero {q s v r} (h : Arg q s v r) : (∀ x ∈ s, x ≠ 0) → (∀ x ∈ v, x ≠ 0) ∧ ∀ x ∈ r, x ≠ 0 := by
  induction h with
  | atEnd => simp
  | atSpace _ => intro h; exact ⟨by simp, h⟩
  | unclosed => simp
  | char _ _ _ _ ih =>
    intro h
    obtain ⟨i1, i2⟩ := ih (fun x hx => h x (by simp [hx]))
    refine ⟨fun x hx => ?_, i2⟩
    rcases List.mem_cons.1 hx with rfl | hx
    · exact h _ (by simp)
    · exact i1 x hx
  | backslashes _ _ _ _ ih =>
    intro h
    obtain ⟨i1, i2⟩ := ih (fun x hx => h x (by simp [hx]))
    refine ⟨fun x hx => ?_, i2⟩
    rcases List.mem_append.1 hx with hx | hx
    · rw [List.eq_of_mem_replicate hx]; decide
    · exact i1 x hx
  | escaped _ ih =>
    intro h
    obtain ⟨i1, i2⟩ := ih (fun x hx => h x (by simp [hx]))
    refine ⟨fun x hx => ?_, i2⟩
    rcases List.mem_append.1 hx with hx | hx
    · rw [List.eq_of_mem_replicate hx]; decide
    · rcases List.mem_cons.1 hx with rfl | hx
      · decide
      · exact i1 x hx
  | paired _ _ ih =>
    intro h
    obtain ⟨i1, i2⟩ := ih (fun x hx => h x (List.mem_append_right _ hx))
    refine ⟨fun x hx => ?_, i2⟩
    rcases List.mem_append.1 hx with hx | hx
    · rw [List.eq_of_mem_replicate hx]; decide
    · exact i1 x hx
  | opening _ ih => intro h; exact ih (fun x hx => h x (by simp [hx]))
  | closing _ _ ih => intro h; exact ih (fun x hx => h x (by simp [hx]))
  | doubled _ ih =>
    intro h
    obtain ⟨i1, i2⟩ := ih (fun x hx => h x (by simp [hx]))
    refine ⟨fun x hx => ?_, i2⟩
    rcases List.mem_cons.1 hx with rfl | hx
    · decide
    · exact i1 x hx

theorem split_nonzero {s vs} (h : Split s vs) : (∀ x ∈ s, x ≠ 0) → ∀ v ∈ vs, ∀ x ∈ v, x ≠ 0 := by
  induction h with
  | nil => simp
  | space _ _ ih => intro h; exact ih (fun x hx => h x (by simp [hx]))
  | arg _ ha _ ih =>
    intro h v hv
    obtain ⟨i1, i2⟩ := arg_nonzero ha h
    rcases List.mem_cons.1 hv with rfl | hv
    · exact i1
    · exact ih i2 v hv

theorem argvLoop_flatMap (vs : List (List Nat)) (tail : List Nat) (h : ∀ v ∈ vs, ∀ x ∈ v, x ≠ 0) :
    argvLoop vs.length (vs.flatMap (fun v => v ++ [0]) ++ tail) = some vs := by
  induction vs with
  | nil => rfl
  | cons v vs ih =>
    have hv : ∀ x ∈ v, (decide (x ≠ 0)) = true := fun x hx => by simpa using h v (by simp) x hx
    have e : List.flatMap (fun v => v ++ [0]) (v :: vs) ++ tail = v ++ 0 :: (List.flatMap (fun v => v ++ [0]) vs ++ tail) := by
      simp
    rw [List.length_cons, e, argvLoop, List.dropWhile_append_of_pos hv, List.takeWhile_append_of_pos hv]
    simp only [List.dropWhile_cons, List.takeWhile_cons, ne_eq, not_true_eq_false, decide_false, Bool.false_eq_true, if_false,
      List.append_nil]
    rw [ih (fun w hw => h w (by simp [hw]))]
    rfl

/-! ## the rules cover every command line -/

theorem arg_total (N : Nat) : ∀ (q : Bool) (s : List Nat), s.length ≤ N → ∃ v r, Arg q s v r ∧ r.length ≤ s.length := by
  induction N with
  | zero =>
    intro q s hs
    have : s = [] := List.length_eq_zero_iff.1 (by omega)
    subst this
    cases q
    · exact ⟨[], [], .atEnd, Nat.le_refl _⟩
    · exact ⟨[], [], .unclosed, Nat.le_refl _⟩
  | succ N ih =>
    -- at a quote
    have quoted : ∀ (q : Bool) (s : List Nat), s.length ≤ N → ∃ v r, Arg q (quote :: s) v r ∧ r.length ≤ s.length := by
      intro q s hs
      cases q
      · obtain ⟨v, r, h, hl⟩ := ih true s hs
        exact ⟨v, r, .opening h, hl⟩
      · by_cases hq : s.head? = some quote
        · cases s with
          | nil => simp at hq
          | cons d s =>
            simp only [List.head?_cons, Option.some.injEq] at hq
            subst hq
            obtain ⟨v, r, h, hl⟩ := ih true s (by simp at hs; omega)
            exact ⟨_, r, .doubled h, by simp; omega⟩
        · obtain ⟨v, r, h, hl⟩ := ih false s hs
          exact ⟨v, r, .closing hq h, hl⟩
    intro q s hs
    cases s with
    | nil =>
      cases q
      · exact ⟨[], [], .atEnd, Nat.le_refl _⟩
      · exact ⟨[], [], .unclosed, Nat.le_refl _⟩
    | cons c s =>
      simp only [List.length_cons, Nat.succ_le_succ_iff] at hs
      by_cases h1 : c = backslash
      · subst h1
        obtain ⟨e1, e2⟩ := slashes_split s
        have e : backslash :: s = List.replicate (slashes s + 1) backslash ++ afterSlashes s := by
          rw [List.replicate_succ, List.cons_append]; exact congrArg _ e1
        have hl := afterSlashes_length s
        have hl2 := congrArg List.length e1
        simp only [List.length_append, List.length_replicate] at hl2
        rw [e]
        by_cases hq : (afterSlashes s).head? = some quote
        · cases ha : afterSlashes s with
          | nil => rw [ha] at hq; simp at hq
          | cons d t =>
            rw [ha] at hq hl hl2
            simp only [List.head?_cons, Option.some.injEq] at hq
            subst hq
            simp only [List.length_cons] at hl hl2
            by_cases hp : (slashes s + 1) % 2 = 1
            · obtain ⟨v, r, h, hr⟩ := ih q t (by omega)
              have := Arg.escaped (n := (slashes s + 1) / 2) h
              rw [show 2 * ((slashes s + 1) / 2) + 1 = slashes s + 1 by omega] at this
              exact ⟨_, r, this, by simp; omega⟩
            · obtain ⟨v, r, h, hr⟩ := quoted q t (by omega)
              have := Arg.paired (n := (slashes s + 1) / 2) (by omega) h
              rw [show 2 * ((slashes s + 1) / 2) = slashes s + 1 by omega] at this
              exact ⟨_, r, this, by simp; omega⟩
        · obtain ⟨v, r, h, hr⟩ := ih q (afterSlashes s) (by omega)
          exact ⟨_, r, .backslashes (by omega) e2 hq h, by simp; omega⟩
      · by_cases h2 : c = quote
        · subst h2
          obtain ⟨v, r, h, hr⟩ := quoted q s hs
          exact ⟨v, r, h, by simp; omega⟩
        · by_cases h3 : IsSpace c ∧ q = false
          · rw [h3.2]
            exact ⟨[], _, .atSpace h3.1, Nat.le_refl _⟩
          · obtain ⟨v, r, h, hr⟩ := ih q s hs
            refine ⟨_, r, .char h1 h2 ?_ h, by simp; omega⟩
            cases q
            · exact Or.inr (fun e => h3 ⟨e, rfl⟩)
            · exact Or.inl rfl

/-- An argument that does not start at white space takes at least one character. -/
theorem arg_shorter {c s v r} (hc : ¬ IsSpace c) (h : Arg false (c :: s) v r) : r.length < (c :: s).length := by
  have hle : ∀ {q s v r}, Arg q s v r → r.length ≤ s.length := by
    intro q s v r h
    induction h <;> simp_all <;> omega
  generalize hs : c :: s = t at h
  generalize hq : false = q at h
  cases h with
  | atEnd => cases hs
  | atSpace h => injection hs with h1 h2; subst h1; exact absurd h hc
  | unclosed => cases hs
  | char _ _ _ h => have := hle h; simp; omega
  | backslashes _ _ _ h => have := hle h; simp; omega
  | escaped h => have := hle h; simp; omega
  | paired _ h => have := hle h; simp at this ⊢; omega
  | opening h => have := hle h; simp; omega
  | closing => cases hq
  | doubled => cases hq

theorem split_total (N : Nat) : ∀ s : List Nat, s.length ≤ N → ∃ vs, Split s vs := by
  induction N with
  | zero =>
    intro s hs
    have : s = [] := List.length_eq_zero_iff.1 (by omega)
    exact ⟨[], this ▸ .nil⟩
  | succ N ih =>
    intro s hs
    cases s with
    | nil => exact ⟨[], .nil⟩
    | cons c s =>
      by_cases hc : IsSpace c
      · obtain ⟨vs, h⟩ := ih s (by simpa using hs)
        exact ⟨vs, .space hc h⟩
      · obtain ⟨v, r, h, _⟩ := arg_total _ false (c :: s) (Nat.le_refl _)
        have := arg_shorter hc h
        obtain ⟨vs, h'⟩ := ih r (by omega)
        exact ⟨v :: vs, .arg hc h h'⟩

/-- C43 (rules): for every command line, `argv` is exactly the list of arguments that Microsoft's rules give. In
particular filling `argv` never reads past the bytes written. -/
theorem C43_rules (s : List Nat) (hz : ∀ x ∈ s, x ≠ 0) (vs : List (List Nat)) : argv s = some vs ↔ Split s vs := by
  have key : ∀ vs, Split s vs → argv s = some vs := by
    intro vs h
    obtain ⟨t, e⟩ := split_loop h
    simp only [argv, parse, e]
    exact argvLoop_flatMap vs t (split_nonzero h hz)
  refine ⟨fun h => ?_, key vs⟩
  obtain ⟨ws, hw⟩ := split_total s.length s (Nat.le_refl _)
  have := key ws hw
  rw [h] at this
  injection this with this
  exact this ▸ hw

/-! ## quoting -/

theorem arg_encode (a : List Nat) (r : List Nat) (hr : r = [] ∨ ∃ t, r = 32 :: t) : ∀ n,
    Arg true (encode n a ++ quote :: r) (List.replicate n backslash ++ a) r := by
  have hclose : Arg true (quote :: r) [] r := by
    refine .closing ?_ ?_
    · rcases hr with rfl | ⟨t, rfl⟩ <;> simp [quote]
    · rcases hr with rfl | ⟨t, rfl⟩
      · exact .atEnd
      · exact .atSpace (Or.inl rfl)
  induction a with
  | nil =>
    intro n
    rw [encode]
    cases n with
    | zero => simpa using hclose
    | succ n => exact .paired (by omega) hclose
  | cons c a ih =>
    intro n
    rw [encode]
    split
    · rename_i h
      have := ih (n + 1)
      rw [h]
      rw [List.replicate_succ', List.append_assoc] at this
      exact this
    · rename_i h1
      split
      · rename_i h2
        rw [h2, List.append_assoc]
        exact .escaped (by simpa using ih 0)
      · rename_i h2
        have h3 : Arg true (c :: (encode 0 a ++ quote :: r)) (c :: a) r :=
          .char h1 h2 (Or.inl rfl) (by simpa using ih 0)
        cases n with
        | zero => simpa using h3
        | succ n =>
          rw [List.append_assoc]
          exact .backslashes (by omega) (by simpa using h1) (by simpa using h2) h3

theorem split_join (as : List (List Nat)) : Split (join as) as := by
  induction as with
  | nil => exact .nil
  | cons a as ih =>
    have hq : ¬ IsSpace quote := by simp [IsSpace, quote]
    cases as with
    | nil => exact .arg hq (.opening (by simpa using arg_encode a [] (Or.inl rfl) 0)) .nil
    | cons b bs =>
      rw [join]
      · exact .arg hq (.opening (by simpa using arg_encode a _ (Or.inr ⟨_, rfl⟩) 0)) (.space (Or.inl rfl) ih)
      · simp

theorem encode_nonzero (a : List Nat) (h : ∀ x ∈ a, x ≠ 0) : ∀ n, ∀ x ∈ encode n a, x ≠ 0 := by
  induction a with
  | nil => intro n x hx; rw [encode] at hx; rw [List.eq_of_mem_replicate hx]; decide
  | cons c a ih =>
    intro n x hx
    have iha := ih (fun x hx => h x (by simp [hx]))
    rw [encode] at hx
    split at hx
    · exact iha _ x hx
    · split at hx
      · rcases List.mem_append.1 hx with hx | hx
        · rw [List.eq_of_mem_replicate hx]; decide
        · rcases List.mem_cons.1 hx with rfl | hx
          · decide
          · exact iha _ x hx
      · rcases List.mem_append.1 hx with hx | hx
        · rw [List.eq_of_mem_replicate hx]; decide
        · rcases List.mem_cons.1 hx with rfl | hx
          · exact h _ (by simp)
          · exact iha _ x hx

theorem join_nonzero (as : List (List Nat)) (h : ∀ a ∈ as, ∀ x ∈ a, x ≠ 0) : ∀ x ∈ join as, x ≠ 0 := by
  have q : quote ≠ 0 := by decide
  induction as with
  | nil => simp [join]
  | cons a as ih =>
    have ha := encode_nonzero a (h a (by simp)) 0
    have ih := ih (fun b hb => h b (by simp [hb]))
    cases as with
    | nil =>
      intro x hx
      simp only [join, List.mem_cons, List.mem_append, List.not_mem_nil, or_false] at hx
      rcases hx with rfl | hx | rfl
      · exact q
      · exact ha x hx
      · exact q
    | cons b bs =>
      intro x hx
      rw [join] at hx
      · simp only [List.mem_cons, List.mem_append] at hx
        rcases hx with rfl | hx | rfl | rfl | hx
        · exact q
        · exact ha x hx
        · exact q
        · decide
        · exact ih x hx
      · simp

/-- C43 (round trip): for every list of arguments without zero bytes, quoting and joining them and splitting the
command line gives the list back. -/
theorem C43_round_trip (as : List (List Nat)) (h : ∀ a ∈ as, ∀ x ∈ a, x ≠ 0) : argv (join as) = some as :=
  (C43_rules _ (join_nonzero as h) as).2 (split_join as)

/-- C43 (buffer): at most one byte more than the command line has is written, the size of the buffer
(`src/windows.c:927`), for every command line. -/
theorem C43_buffer (s : List Nat) : (parse s).1.length ≤ s.length + 1 := by
  have key : ∀ (N : Nat) (q a : Bool) (s : List Nat), s.length ≤ N → (loop q a s).1.length ≤ s.length + 1 := by
    intro N
    induction N with
    | zero =>
      intro q a s hs
      rw [List.length_eq_zero_iff.1 (Nat.le_zero.1 hs), loop]
      simp
    | succ N ih =>
      intro q a s hs
      cases s with
      | nil => rw [loop]; simp
      | cons c s =>
        simp only [List.length_cons, Nat.succ_le_succ_iff] at hs
        have hs1 := ih q true s hs
        by_cases h1 : c = 92
        · subst h1
          obtain ⟨e1, e2⟩ := slashes_split s
          have e : 92 :: s = List.replicate (slashes s + 1) 92 ++ afterSlashes s := by
            rw [List.replicate_succ, List.cons_append, ← e1]
          have hl := congrArg List.length e1
          simp only [List.length_append, List.length_replicate] at hl
          have i1 := ih q true (afterSlashes s) (by omega)
          have i2 := ih q true (afterSlashes s).tail (by rw [List.length_tail]; omega)
          rw [List.length_tail] at i2
          rw [e, loop_run _ _ _ (by omega) _ e2]
          split
          · rename_i hq
            have hne : (afterSlashes s).length ≠ 0 := by
              intro h0; rw [List.length_eq_zero_iff.1 h0] at hq; simp at hq
            split <;> simp only [List.length_append, List.length_replicate, List.length_cons] <;> omega
          · simp only [List.length_append, List.length_replicate]; omega
        · by_cases h2 : c = 34
          · subst h2
            cases q
            · have := ih true true s hs
              rw [loop_quote_open]; simp only [List.length_cons]; omega
            · by_cases hq : s.head? = some 34
              · cases s with
                | nil => simp at hq
                | cons d s =>
                  simp only [List.head?_cons, Option.some.injEq] at hq
                  subst hq
                  have := ih true a s (by simp at hs; omega)
                  rw [loop_quote_doubled]; simp only [List.length_cons]; omega
              · have := ih false a s hs
                rw [loop_quote_close _ _ hq]; simp only [List.length_cons]; omega
          · by_cases h3 : IsSpace c
            · cases q
              · have := ih false false s hs
                rw [loop_space _ _ _ h3]
                split <;> simp only [List.length_cons] <;> omega
              · have := ih true a s hs
                rw [loop_space_quoted _ _ _ h3]; simp only [List.length_cons]; omega
            · rw [loop_char _ _ _ _ h1 h2 h3]; simp only [List.length_cons]; omega
  exact key _ _ _ _ (Nat.le_refl _)

/-- `hlc "a b"c \\"x y\\" z\y` -/
example : argv [104, 108, 99, 32, 34, 97, 32, 98, 34, 99, 32, 92, 34, 120, 32, 121, 92, 34, 32, 122, 92, 121] =
    some [[104, 108, 99], [97, 32, 98, 99], [34, 120], [121, 34], [122, 92, 121]] := by
  refine (C43_rules _ (by decide) _).2 ?_
  have ns : ∀ c : Nat, c ≠ 32 → c ≠ 9 → c ≠ 11 → c ≠ 12 → c ≠ 10 → c ≠ 13 → ¬ IsSpace c := by
    intro c; simp only [IsSpace]; omega
  have sp : IsSpace 32 := Or.inl rfl
  have ch : ∀ {q s v r} (c : Nat), c ≠ 92 → c ≠ 34 → (q = true ∨ ¬ IsSpace c) → Arg q s v r → Arg q (c :: s) (c :: v) r :=
    fun c h1 h2 h3 h => .char h1 h2 h3 h
  have nsp : ∀ c : Nat, 33 ≤ c → ¬ IsSpace c := by intro c; simp only [IsSpace]; omega
  refine .arg (nsp 104 (by decide)) (ch _ (by decide) (by decide) (Or.inr (nsp _ (by decide)))
    (ch _ (by decide) (by decide) (Or.inr (nsp _ (by decide))) (ch _ (by decide) (by decide) (Or.inr (nsp _ (by decide)))
      (.atSpace sp)))) (.space sp ?_)
  refine .arg (nsp 34 (by decide)) (.opening (ch _ (by decide) (by decide) (Or.inl rfl) (ch _ (by decide) (by decide) (Or.inl rfl)
    (ch _ (by decide) (by decide) (Or.inl rfl) (.closing (by decide) (ch _ (by decide) (by decide) (Or.inr (nsp _ (by decide)))
      (.atSpace sp))))))) (.space sp ?_)
  refine .arg (nsp 92 (by decide)) (.escaped (n := 0) (ch _ (by decide) (by decide) (Or.inr (nsp _ (by decide))) (.atSpace sp)))
    (.space sp ?_)
  refine .arg (nsp 121 (by decide)) (ch _ (by decide) (by decide) (Or.inr (nsp _ (by decide))) (.escaped (n := 0) (.atSpace sp)))
    (.space sp ?_)
  exact .arg (nsp 122 (by decide)) (ch _ (by decide) (by decide) (Or.inr (nsp _ (by decide)))
    (.backslashes (n := 1) (by decide) (by decide) (by decide) (ch _ (by decide) (by decide) (Or.inr (nsp _ (by decide))) .atEnd))) .nil

/-- Arguments with spaces, quotes and trailing backslashes. -/
example : argv (join [[97, 32, 98], [], [92, 92], [92, 34]]) = some [[97, 32, 98], [], [92, 92], [92, 34]] :=
  C43_round_trip _ (by decide)

end Verif.Props.CommandLine
