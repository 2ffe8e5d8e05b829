import Verif.Props.Tokenize

/-!
# C62: line numbers of tokens
-/
namespace Verif.Props.Tokenize
open Verif.Tokenize Verif.Spec.Token

/-- Every carriage return is followed by a newline. -/
def Crlf (m : List Nat) : Prop := ∀ (i : Nat), m[i]? = some 13 → m[i + 1]? = some 10

theorem Crlf.at' {m : List Nat} (h : Crlf m) {i : Nat} (e : at' m i = 13) : at' m (i + 1) = 10 := by
  have hl := at'_lt (m := m) (i := i) (by omega)
  have : m[i]? = some 13 := by
    simp only [Verif.Tokenize.at', List.getD, List.getElem?_eq_getElem hl, Option.getD_some] at e
    rw [List.getElem?_eq_getElem hl, e]
  have := h i this
  simp only [Verif.Tokenize.at', List.getD, this, Option.getD_some]

theorem Crlf.drop {m : List Nat} (h : Crlf m) (n : Nat) : Crlf (m.drop n) := by
  intro i hi
  rw [List.getElem?_drop] at hi ⊢
  exact h (n + i) hi

/-- The newlines in the first bytes. -/
def newlines (m : List Nat) (n : Nat) : Nat := (m.take n).count 10

theorem newlines_succ (m : List Nat) (n : Nat) :
    newlines m (n + 1) = newlines m n + (if at' m n = 10 then 1 else 0) := by
  by_cases h : n < m.length
  · have e : at' m n = m[n] := by simp only [at', List.getD, List.getElem?_eq_getElem h, Option.getD_some]
    rw [newlines, List.take_succ_eq_append_getElem h, List.count_append, newlines, e, List.count_singleton]
    simp only [beq_iff_eq]
  · have h1 : m.length ≤ n := by omega
    have e : at' m n = 0 := by simp only [at', List.getD, List.getElem?_eq_none h1, Option.getD_none]
    rw [newlines, newlines, List.take_of_length_le (by omega), List.take_of_length_le h1, e]
    rfl

theorem newlines_zero (m : List Nat) : newlines m 0 = 0 := rfl

theorem newlines_cons (c : Nat) (m : List Nat) (n : Nat) :
    newlines (c :: m) (n + 1) = (if c = 10 then 1 else 0) + newlines m n := by
  simp only [newlines, List.take_succ_cons, List.count_cons, beq_iff_eq]
  omega

theorem newlines_add (m : List Nat) (n k : Nat) : newlines m (n + k) = newlines m n + newlines (m.drop n) k := by
  simp only [newlines, List.take_add, List.count_append]

theorem newlines_const (m : List Nat) (i j : Nat) (h : i ≤ j) (hn : ∀ k, i ≤ k → k < j → at' m k ≠ 10) :
    newlines m j = newlines m i := by
  obtain ⟨d, rfl⟩ := Nat.le.dest h
  induction d with
  | zero => rfl
  | succ d ih =>
    rw [← Nat.add_assoc, newlines_succ, ih (by omega) (fun k h1 h2 => hn k h1 (by omega)),
      if_neg (hn (i + d) (by omega) (by omega))]
    rfl

theorem newlines_eat (p : Nat → Bool) (hp : p 10 = false) (m : List Nat) (i : Nat) :
    newlines m (eat p m i) = newlines m i :=
  newlines_const m i _ (eat_ge p m i) (fun k h1 h2 e => by
    have := eat_all p m i k h1 h2
    rw [e, hp] at this
    cases this)

theorem newlines_sign (m : List Nat) (i : Nat) : newlines m (eatSign m i) = newlines m i := by
  unfold eatSign
  split
  · rw [newlines_succ, if_neg (by omega)]
    rfl
  · rfl

theorem newlines_one (m : List Nat) : newlines m 1 = if at' m 0 = 10 then 1 else 0 := by
  rw [newlines_succ, newlines_zero, Nat.zero_add]

theorem or32_ne {c k : Nat} (h : c ||| 32 = k) (hk : k ≠ 42) : c ≠ 10 := by
  rintro rfl
  exact hk (by rw [← h]; rfl)

theorem numbers_newlines (m : List Nat) (i : Nat) (k : Kind) : newlines m (numbers m i k).2 = newlines m i := by
  have h0 := newlines_eat numberOrQuote (by decide) m i
  simp only [numbers]
  have s1 : ∀ (j : Nat) (k : Kind), newlines m (if at' m j = 46 then (Kind.floatLiteral, eat numberOrQuote m (j + 1))
      else (k, j)).2 = newlines m j := by
    intro j k
    split
    · rw [newlines_eat _ (by decide), newlines_succ, if_neg (by omega)]
      rfl
    · rfl
  have s2 : ∀ (j : Nat) (k : Kind), newlines m (if at' m j ||| 32 = 101 then
      (Kind.floatLiteral, eat numberOrQuote m (eatSign m (j + 1))) else (k, j)).2 = newlines m j := by
    intro j k
    split
    · rename_i h
      rw [newlines_eat _ (by decide), newlines_sign, newlines_succ, if_neg (or32_ne h (by omega))]
      rfl
    · rfl
  rw [newlines_eat _ (by decide), s2, s1, h0]

theorem hexNumbers_newlines (m : List Nat) : newlines m (hexNumbers m).2 = newlines m 2 := by
  have h0 := newlines_eat hexOrQuote (by decide) m 2
  simp only [hexNumbers]
  split
  · rw [newlines_eat _ (by decide)]
    split
    · rename_i h
      rw [newlines_sign, newlines_succ, if_neg (or32_ne h (by omega)), newlines_eat _ (by decide), newlines_succ,
        if_neg (by omega), h0]
      rfl
    · rw [newlines_eat _ (by decide), newlines_succ, if_neg (by omega), h0]
      rfl
  · split
    · rename_i h
      rw [newlines_eat _ (by decide), newlines_sign, newlines_succ, if_neg (or32_ne h (by omega)), h0]
      rfl
    · rw [newlines_eat _ (by decide), h0]

theorem blockComment_newlines (m : List Nat) : newlines m (blockComment m).length = (blockComment m).lines := by
  induction m with
  | nil => rfl
  | cons c m ih =>
    simp only [blockComment]
    split
    · rfl
    · split
      · rfl
      · simp only [Comment.after, newlines_cons, ih, beq_iff_eq]
        omega

theorem blockComment_end (m : List Nat) (h : (blockComment m).found = true) :
    at' m (blockComment m).length = 42 ∧ at' m ((blockComment m).length + 1) = 47 := by
  induction m with
  | nil => simp [blockComment] at h
  | cons c m ih =>
    simp only [blockComment] at h ⊢
    split
    · rename_i hc; rw [if_pos hc] at h; cases h
    · rename_i hc
      rw [if_neg hc] at h
      split
      · rename_i h'
        exact ⟨h'.2, by simpa [at'_cons_succ] using h'.1⟩
      · rename_i h'
        rw [if_neg h'] at h
        exact ih h

theorem quoted_newlines (q : Nat) (hq : q ≠ 10) (m : List Nat) (h : Crlf m) :
    newlines m (quoted q m).1 = (quoted q m).2.1 := by
  fun_induction quoted q m with
  | case1 => rfl
  | case2 => rfl
  | case3 => rw [newlines_one, at'_cons_zero, if_neg hq]
  | case4 => rfl
  | case5 c h1 h2 h3 => rw [newlines_one, at'_cons_zero, if_neg (by omega)]
  | case6 d m h2 r ih =>
    have er : r = quoted q m.tail := rfl
    match m, h2 with
    | e :: m, h2 =>
      simp only [at'_cons_zero] at h2
      obtain ⟨h1, h2⟩ := h2
      have := ih (h.drop 3)
      rw [← er] at this
      simp only [newlines_cons, List.tail_cons] at this ⊢
      rw [this, h2, h1]
      simp only [if_true, show ¬ (92 = 10) from by omega, show ¬ (13 = 10) from by omega, if_false]
      omega
    | [], h2 => simp [at'] at h2
  | case7 d m h2 r ih =>
    have er : r = quoted q m := rfl
    have := ih (h.drop 2)
    rw [← er] at this
    simp only [newlines_cons, this, show ¬ (92 = 10) from by omega, if_false]
    omega
  | case8 c d m => rw [newlines_one, at'_cons_zero, if_neg hq]
  | case9 => rfl
  | case10 c d m h1 h2 h3 r ih =>
    have er : r = quoted q (d :: m) := rfl
    have := ih (h.drop 1)
    rw [← er] at this
    rw [newlines_cons, this, if_neg (fun e => h3 (Or.inr e)), Nat.zero_add]

/-- The line is advanced by the newlines in the token. -/
def LineOk (line : Nat) (m : List Nat) (t : Token) : Prop := t.line = line + newlines m t.size

theorem lineOk_plain {line column : Nat} {m : List Nat} {k : Kind} {n : Nat} (h : newlines m n = 0) :
    LineOk line m (plain line column k n) := by
  simp only [LineOk, plain, h, Nat.add_zero]

theorem zero_lines {line column : Nat} {m : List Nat} (h0 : at' m 0 = 48) : LineOk line m (zero line column m) := by
  have n1 : newlines m 1 = 0 := by rw [newlines_one, if_neg (by omega)]
  have n2 : at' m 1 ≠ 10 → newlines m 2 = 0 := fun h => by rw [newlines_succ, if_neg h, n1]
  simp only [zero]
  split
  · rename_i h
    exact lineOk_plain (by rw [hexNumbers_newlines]; exact n2 (or32_ne h (by omega)))
  · split
    · rename_i h
      exact lineOk_plain (by rw [newlines_eat _ (by decide), newlines_eat _ (by decide)]; exact n2 (or32_ne h (by omega)))
    · split
      · rename_i h
        exact lineOk_plain (by rw [newlines_eat _ (by decide), newlines_eat _ (by decide)]; exact n2 (or32_ne h (by omega)))
      · split
        · exact lineOk_plain (by rw [numbers_newlines]; exact n1)
        · exact lineOk_plain (by rw [numbers_newlines]; rfl)

theorem backslash_lines {line column : Nat} {m : List Nat} (hc : Crlf m) (h0 : at' m 0 = 92) :
    LineOk line m (backslash line column m) := by
  have n1 : newlines m (eat isWhitespace m 1) = 0 := by
    rw [newlines_eat _ (by decide), newlines_one, if_neg (by omega)]
  simp only [backslash]
  split
  · rename_i h
    split
    · simp only [LineOk, newlines_succ, n1, h]
      rename_i h'
      simp [h']
    · simp only [LineOk, newlines_succ, n1, h, if_true]
  · split
    · rename_i h
      have h' := hc.at' h
      simp only [LineOk, h', if_true, newlines_succ, n1, h]
      rfl
    · exact lineOk_plain n1

theorem comment_lines {line column : Nat} {m : List Nat} (h0 : at' m 0 = 47) (h1 : at' m 1 = 42)
    (he : (commentToken line column m).error = false) : LineOk line m (commentToken line column m) := by
  simp only [commentToken, Bool.not_eq_false'] at he
  have hb := blockComment_end _ he
  have hn := blockComment_newlines (m.drop 2)
  have n2 : newlines m 2 = 0 := by rw [newlines_succ, newlines_one, if_neg (by omega), if_neg (by omega)]
  simp only [LineOk, commentToken]
  rw [Nat.add_assoc, newlines_add, n2, newlines_succ, newlines_succ, hn, hb.1, hb.2]
  simp

theorem string_lines {line column : Nat} {m : List Nat} (hc : Crlf m) {n : Nat} (hn : newlines m (n + 1) = 0) :
    LineOk line m (stringLiteral line column m n) := by
  have := quoted_newlines 34 (by omega) (m.drop (n + 1)) (hc.drop _)
  simp only [LineOk, stringLiteral, newlines_add m (n + 1), this, hn]
  omega

theorem scan_lines (line column : Nat) (m : List Nat) (hc : Crlf m) (he : (scan line column m).error = false)
    (hk : (scan line column m).kind = .characterLiteral → newlines m (scan line column m).size = 0) :
    LineOk line m (scan line column m) := by
  have n1 : at' m 0 ≠ 10 → newlines m 1 = 0 := fun h => by rw [newlines_one, if_neg h]
  have n2 : at' m 0 ≠ 10 → at' m 1 ≠ 10 → newlines m 2 = 0 := fun h h' => by rw [newlines_succ, if_neg h', n1 h]
  have n3 : at' m 0 ≠ 10 → at' m 1 ≠ 10 → at' m 2 ≠ 10 → newlines m 3 = 0 := fun h h' h'' => by
    rw [newlines_succ, if_neg h'', n2 h h']
  have char : ∀ n, newlines m (characterLiteral line column m n).size = 0 →
      LineOk line m (characterLiteral line column m n) := by
    intro n h
    simp only [LineOk, h]
    rfl
  have ident : at' m 0 ≠ 10 → LineOk line m (identifier line column m) := by
    intro h
    simp only [LineOk, identifier, plain]
    rw [newlines_eat _ (by decide), n1 h]
    rfl
  revert he hk
  unfold scan
  dsimp only
  split
  · rename_i h0
    intro _ _
    exact backslash_lines hc h0
  iterate 4
    rename_i h0
    intro _ _
    exact lineOk_plain (by rw [newlines_eat _ (by decide)]; exact n1 (by omega))
  · rename_i h0
    intro _ _
    simp only [LineOk]
    split
    · rename_i h1
      rw [newlines_succ, newlines_one, h0, h1]; rfl
    · rw [newlines_one, h0]; rfl
  · rename_i h0
    intro _ _
    have h1 := hc.at' h0
    simp only [LineOk, h1, if_true]
    rw [newlines_succ, newlines_one, h0, h1]; rfl
  all_goals rename_i h0
  all_goals try (intro _ _; exact zero_lines h0)
  all_goals try (intro _ _; exact lineOk_plain (by rw [numbers_newlines]; rfl))
  all_goals try (intro _ _; exact lineOk_plain (n1 (by omega)))
  all_goals (repeat' split)
  all_goals intro he hk
  all_goals
    first
    | exact lineOk_plain (n1 (by omega))
    | exact lineOk_plain (n2 (by omega) (by omega))
    | exact lineOk_plain (n3 (by omega) (by omega) (by omega))
    | exact lineOk_plain (by rw [numbers_newlines]; rfl)
    | exact char _ (hk rfl)
    | exact string_lines hc (n1 (by omega))
    | exact string_lines hc (n2 (by omega) (by omega))
    | exact string_lines hc (n3 (by omega) (by omega) (by omega))
    | exact ident (by omega)
    | exact comment_lines h0 (by omega) he
    | exact lineOk_plain (by rw [newlines_eat _ (by decide)]; exact n2 (by omega) (by omega))
    | (cases he)

theorem loop_lines (fuel line column : Nat) (m : List Nat) (hc : Crlf m) (pre : List Out) (t : Out) (post : List Out)
    (h : loop fuel line column m = pre ++ t :: post) (he : ∀ x ∈ pre, x.error = false)
    (hk : ∀ x ∈ pre, x.kind = .characterLiteral → 10 ∉ x.spelling) :
    t.line = line + (spellings pre).count 10 := by
  induction pre generalizing fuel line column m with
  | nil =>
    cases fuel with
    | zero => simp [loop] at h
    | succ fuel =>
      by_cases hm : m = []
      · subst hm; rw [loop_nil] at h; simp at h
      · rw [loop_cons _ _ _ hm] at h
        simp only [List.nil_append, List.cons.injEq] at h
        rw [← h.1]
        rfl
  | cons x pre ih =>
    cases fuel with
    | zero => simp [loop] at h
    | succ fuel =>
      by_cases hm : m = []
      · subst hm; rw [loop_nil] at h; simp at h
      · rw [loop_cons _ _ _ hm] at h
        simp only [List.cons_append, List.cons.injEq] at h
        have hx := h.1
        have := ih _ _ _ _ (hc.drop _) h.2 (fun y hy => he y (List.mem_cons_of_mem _ hy))
          (fun y hy => hk y (List.mem_cons_of_mem _ hy))
        have he' := he x List.mem_cons_self
        have hk' := hk x List.mem_cons_self
        rw [← hx] at he' hk'
        have sp : x.spelling.count 10 = newlines m (scan line column m).size := by
          rw [← hx]
          simp only [List.count_append, newlines, List.count_replicate]
          simp
        have hl := scan_lines line column m hc he' (fun e => by
          rw [← sp]
          apply List.count_eq_zero_of_not_mem
          rw [← hx]
          exact hk' e)
        rw [this, hl, ← sp]
        simp only [spellings, List.flatMap_cons, List.count_append]
        omega

/-- C62 (partial): in a text whose carriage returns are all followed by a newline, the line of every token is one more than
the number of newlines before it, if no error was reported before it and no character literal before it contains a
(spliced) newline. Missing: the last condition, see `C62_character_literal_wrong`; and columns, see
`C62_comment_column_wrong`. -/
theorem C62_line_partial (text : List Nat) (hc : Crlf text) (pre : List Out) (t : Out) (post : List Out)
    (h : tokenize text = pre ++ t :: post) (he : ∀ x ∈ pre, x.error = false)
    (hk : ∀ x ∈ pre, x.kind = .characterLiteral → 10 ∉ x.spelling) :
    t.line = 1 + (spellings pre).count 10 :=
  loop_lines _ _ _ _ hc pre t post h he hk

/-- A newline in a string is counted: in `"a\<newline>"<newline>b` the `b` is on line 3. -/
example : ((tokenize [34, 97, 92, 10, 34, 10, 98]).map (fun t => (t.kind, t.line)))
    = [(.stringLiteral, 1), (.newline, 2), (.identifier, 3)] := by decide +kernel

example : Crlf [34, 97, 92, 13, 10, 34, 10, 98] := by
  intro i h
  match i with
  | 0 | 1 | 2 | 4 | 5 | 6 | 7 => simp at h
  | 3 => rfl
  | i + 8 => simp at h

/-- C62 does not hold after a character literal with a spliced newline: in `'\<newline>a'<newline>b` the `b`, after two
newlines, is reported on line 2. -/
theorem C62_character_literal_wrong :
    ∃ text pre t post, tokenize text = pre ++ t :: post ∧ Crlf text ∧ (∀ x ∈ pre, x.error = false) ∧
      t.line = 2 ∧ (spellings pre).count 10 = 2 := by
  refine ⟨[39, 92, 10, 97, 39, 10, 98], (tokenize [39, 92, 10, 97, 39, 10, 98]).take 2,
    (tokenize [39, 92, 10, 97, 39, 10, 98])[2]'(by decide +kernel), [], by decide +kernel, ?_, by decide +kernel,
    by decide +kernel, by decide +kernel⟩
  intro i h
  match i with
  | 0 | 1 | 2 | 3 | 4 | 5 | 6 => simp at h
  | i + 7 => simp at h

/-- After a block comment on one line the columns are too small: in `/**/b` the `b` is the fifth character, but its column is
reported as 3. -/
theorem C62_comment_column_wrong :
    (tokenize [47, 42, 42, 47, 98]).map (fun t => (t.kind, t.column)) = [(.comment, 1), (.identifier, 3)] := by
  decide +kernel

end Verif.Props.Tokenize
