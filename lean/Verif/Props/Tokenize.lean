import Verif.Model.Tokenize

/-!
# C05, C06, C62, C63: the tokenizer
-/
namespace Verif.Props.Tokenize
open Verif.Tokenize Verif.Spec.Token

/-! ## reading memory -/

theorem at'_lt {m : List Nat} {i : Nat} (h : at' m i ≠ 0) : i < m.length := by
  apply Nat.lt_of_not_le
  intro hle
  exact h (by simp [at', List.getD, List.getElem?_eq_none hle])

theorem at'_drop (m : List Nat) (n i : Nat) : at' (m.drop n) i = at' m (n + i) := by
  simp [at', List.getD, List.getElem?_drop]

theorem at'_cons_zero (c : Nat) (m : List Nat) : at' (c :: m) 0 = c := rfl

theorem at'_cons_succ (c : Nat) (m : List Nat) (i : Nat) : at' (c :: m) (i + 1) = at' m i := rfl

theorem takeWhile_length_le (p : Nat → Bool) (l : List Nat) : (l.takeWhile p).length ≤ l.length :=
  (List.takeWhile_sublist p).length_le

theorem eat_ge (p : Nat → Bool) (m : List Nat) (i : Nat) : i ≤ eat p m i := Nat.le_add_right _ _

theorem eat_le (p : Nat → Bool) {m : List Nat} {i : Nat} (h : i ≤ m.length) : eat p m i ≤ m.length := by
  have := takeWhile_length_le p (m.drop i)
  rw [List.length_drop] at this
  simp only [eat]
  omega

theorem eat_one {p : Nat → Bool} {m : List Nat} {i : Nat} (hi : i < m.length) (h : p (at' m i) = true) :
    i + 1 ≤ eat p m i := by
  have : m.drop i = at' m i :: m.drop (i + 1) := by
    rw [List.drop_eq_getElem_cons hi]
    simp [at', List.getD, hi]
  rw [eat, this, List.takeWhile_cons_of_pos h, List.length_cons]
  omega

/-- All that was eaten satisfies the condition. -/
theorem eat_all (p : Nat → Bool) (m : List Nat) (i j : Nat) (h1 : i ≤ j) (h2 : j < eat p m i) : p (at' m j) = true := by
  simp only [eat] at h2
  have e : at' m j = at' ((m.drop i).takeWhile p) (j - i) := by
    have hp := List.takeWhile_prefix (l := m.drop i) p
    obtain ⟨t, ht⟩ := hp
    have e1 : at' m j = at' (m.drop i) (j - i) := by rw [at'_drop]; congr 1; omega
    rw [e1, ← ht]
    simp only [at', List.getD]
    rw [List.getElem?_append_left (by omega), ht]
  have hl : j - i < ((m.drop i).takeWhile p).length := by omega
  have : at' ((m.drop i).takeWhile p) (j - i) ∈ (m.drop i).takeWhile p := by
    simp only [at', List.getD, List.getElem?_eq_getElem hl, Option.getD_some]
    exact List.getElem_mem hl
  rw [e]
  have := List.all_takeWhile (l := m.drop i) (p := p)
  rw [List.all_eq_true] at this
  apply this
  assumption

/-! ## sizes -/

/-- The token is not empty, and inside the text or an error was reported for it. -/
def Sized (m : List Nat) (t : Token) : Prop :=
  1 ≤ t.size ∧ (t.size ≤ m.length ∨ (t.error = true ∧ t.size ≤ m.length + 2))

theorem sized_plain {line column : Nat} {m : List Nat} {k : Kind} {n : Nat} (h1 : 1 ≤ n) (h2 : n ≤ m.length) :
    Sized m (plain line column k n) := ⟨h1, Or.inl h2⟩

theorem eatSign_le {m : List Nat} {i : Nat} (h : i ≤ m.length) : i ≤ eatSign m i ∧ eatSign m i ≤ m.length := by
  unfold eatSign
  split
  · rename_i h'
    have := at'_lt (m := m) (i := i) (by omega)
    omega
  · omega

theorem or32_ne_zero {c k : Nat} (h : c ||| 32 = k) (hk : k ≠ 32) : c ≠ 0 := by
  rintro rfl
  exact hk (by rw [← h]; rfl)

theorem numbers_size {m : List Nat} {i : Nat} {k : Kind} (h : i ≤ m.length) :
    i ≤ (numbers m i k).2 ∧ (numbers m i k).2 ≤ m.length ∧ eat numberOrQuote m i ≤ (numbers m i k).2 ∧
    (at' m (eat numberOrQuote m i) = 46 → eat numberOrQuote m i + 1 ≤ (numbers m i k).2) := by
  have step1 : ∀ (j : Nat), j ≤ m.length → ∀ k : Kind,
      let r := if at' m j = 46 then (Kind.floatLiteral, eat numberOrQuote m (j + 1)) else (k, j)
      j ≤ r.2 ∧ r.2 ≤ m.length ∧ (at' m j = 46 → j + 1 ≤ r.2) := by
    intro j hj k
    by_cases h46 : at' m j = 46
    · have := at'_lt (m := m) (i := j) (by omega)
      rw [if_pos h46]
      have a := eat_ge numberOrQuote m (j + 1)
      have b := eat_le numberOrQuote (m := m) (i := j + 1) (by omega)
      exact ⟨by simp only; omega, b, fun _ => a⟩
    · rw [if_neg h46]
      exact ⟨Nat.le_refl _, hj, fun h => absurd h h46⟩
  have step2 : ∀ (j : Nat), j ≤ m.length → ∀ k : Kind,
      let r := if at' m j ||| 32 = 101 then (Kind.floatLiteral, eat numberOrQuote m (eatSign m (j + 1))) else (k, j)
      j ≤ r.2 ∧ r.2 ≤ m.length := by
    intro j hj k
    by_cases he : at' m j ||| 32 = 101
    · have := at'_lt (m := m) (i := j) (or32_ne_zero he (by omega))
      rw [if_pos he]
      have s := eatSign_le (m := m) (i := j + 1) (by omega)
      have a := eat_ge numberOrQuote m (eatSign m (j + 1))
      have b := eat_le numberOrQuote s.2
      exact ⟨by simp only; omega, b⟩
    · rw [if_neg he]
      exact ⟨Nat.le_refl _, hj⟩
  have h0 := eat_le numberOrQuote h
  have g0 := eat_ge numberOrQuote m i
  have h1 := step1 _ h0 k
  simp only at h1
  simp only [numbers]
  revert h1
  generalize (if at' m (eat numberOrQuote m i) = 46 then
    (Kind.floatLiteral, eat numberOrQuote m (eat numberOrQuote m i + 1)) else (k, eat numberOrQuote m i)) = r1
  intro h1
  have h2 := step2 r1.2 h1.2.1 r1.1
  simp only at h2
  revert h2
  generalize (if at' m r1.2 ||| 32 = 101 then
    (Kind.floatLiteral, eat numberOrQuote m (eatSign m (r1.2 + 1))) else (r1.1, r1.2)) = r2
  intro h2
  have h3 := eat_le isIdent h2.2
  have g3 := eat_ge isIdent m r2.2
  refine ⟨by omega, h3, by omega, fun h46 => ?_⟩
  have := h1.2.2 h46
  omega

theorem hexNumbers_size {m : List Nat} (h : 2 ≤ m.length) : 2 ≤ (hexNumbers m).2 ∧ (hexNumbers m).2 ≤ m.length := by
  have h0 := eat_le hexOrQuote h
  have g0 := eat_ge hexOrQuote m 2
  simp only [hexNumbers]
  split
  · rename_i h46
    have := at'_lt (m := m) (i := eat hexOrQuote m 2) (by omega)
    have h1 := eat_le hexOrQuote (m := m) (i := eat hexOrQuote m 2 + 1) (by omega)
    have g1 := eat_ge hexOrQuote m (eat hexOrQuote m 2 + 1)
    split
    · rename_i hp
      have := at'_lt (or32_ne_zero hp (by omega))
      have s := eatSign_le (m := m) (i := eat hexOrQuote m (eat hexOrQuote m 2 + 1) + 1) (by omega)
      have := eat_le isIdent s.2
      have := eat_ge isIdent m (eatSign m (eat hexOrQuote m (eat hexOrQuote m 2 + 1) + 1))
      simp only
      omega
    · have := eat_le isIdent h1
      have := eat_ge isIdent m (eat hexOrQuote m (eat hexOrQuote m 2 + 1))
      simp only
      omega
  · split
    · rename_i hp
      have := at'_lt (or32_ne_zero hp (by omega))
      have s := eatSign_le (m := m) (i := eat hexOrQuote m 2 + 1) (by omega)
      have := eat_le isIdent s.2
      have := eat_ge isIdent m (eatSign m (eat hexOrQuote m 2 + 1))
      simp only
      omega
    · have := eat_le isIdent h0
      have := eat_ge isIdent m (eat hexOrQuote m 2)
      simp only
      omega

theorem blockComment_size (m : List Nat) :
    (blockComment m).length ≤ m.length ∧ ((blockComment m).found = true → (blockComment m).length + 2 ≤ m.length) := by
  induction m with
  | nil => simp [blockComment]
  | cons c m ih =>
    simp only [blockComment]
    split
    · simp
    · split
      · rename_i h
        have := at'_lt (m := m) (i := 0) (by omega)
        simp only [List.length_cons]
        exact ⟨by omega, fun _ => by omega⟩
      · simp only [Comment.after, List.length_cons]
        exact ⟨by omega, fun hf => by have := ih.2 hf; omega⟩

theorem quoted_size (q : Nat) (m : List Nat) :
    ((quoted q m).2.2 = false → (quoted q m).1 ≤ m.length) ∧ (quoted q m).1 ≤ m.length + 1 := by
  fun_induction quoted q m with
  | case1 => simp
  | case2 => simp
  | case3 => simp
  | case4 => simp
  | case5 => simp
  | case6 d m h2 r ih =>
    have := at'_lt (m := m) (i := 0) (by omega)
    have er : r = quoted q m.tail := rfl
    rw [← er] at ih
    simp only [List.length_tail, List.length_cons] at ih ⊢
    exact ⟨fun hf => by have := ih.1 hf; omega, by omega⟩
  | case7 d m h2 r ih =>
    have er : r = quoted q m := rfl
    rw [← er] at ih
    simp only [List.length_cons] at ih ⊢
    exact ⟨fun hf => by have := ih.1 hf; omega, by omega⟩
  | case8 => simp
  | case9 => simp
  | case10 c d m h1 h2 h3 r ih =>
    have er : r = quoted q (d :: m) := rfl
    rw [← er] at ih
    simp only [List.length_cons] at ih ⊢
    exact ⟨fun hf => by have := ih.1 hf; omega, by omega⟩

theorem stringLiteral_size {line column : Nat} {m : List Nat} {n : Nat} (h : n + 1 ≤ m.length) :
    Sized m (stringLiteral line column m n) := by
  have := quoted_size 34 (m.drop (n + 1))
  rw [List.length_drop] at this
  simp only [Sized, stringLiteral]
  cases hq : (quoted 34 (m.drop (n + 1))).2.2
  · have := this.1 hq
    exact ⟨by omega, Or.inl (by omega)⟩
  · exact ⟨by omega, Or.inr ⟨rfl, by omega⟩⟩

theorem characterLiteral_size {line column : Nat} {m : List Nat} {n : Nat} (h : n + 1 ≤ m.length) :
    Sized m (characterLiteral line column m n) := by
  have := quoted_size 39 (m.drop (n + 1))
  rw [List.length_drop] at this
  simp only [Sized, characterLiteral]
  cases hq : (quoted 39 (m.drop (n + 1))).2.2
  · have := this.1 hq
    exact ⟨by omega, Or.inl (by omega)⟩
  · exact ⟨by omega, Or.inr ⟨rfl, by omega⟩⟩

theorem identifier_size {line column : Nat} {m : List Nat} (h : 1 ≤ m.length) : Sized m (identifier line column m) := by
  have := eat_le isIdent h
  have := eat_ge isIdent m 1
  exact ⟨by simp only [identifier, plain]; omega, Or.inl (by simp only [identifier, plain]; omega)⟩

theorem backslash_size {line column : Nat} {m : List Nat} (h : 1 ≤ m.length) : Sized m (backslash line column m) := by
  have h1 := eat_le isWhitespace h
  have g1 := eat_ge isWhitespace m 1
  simp only [backslash]
  split
  · rename_i h'
    have := at'_lt (m := m) (i := eat isWhitespace m 1) (by omega)
    split
    · rename_i h''
      have := at'_lt (m := m) (i := eat isWhitespace m 1 + 1) (by omega)
      exact ⟨by simp only; omega, Or.inl (by simp only; omega)⟩
    · exact ⟨by simp only; omega, Or.inl (by simp only; omega)⟩
  · split
    · rename_i h'
      have := at'_lt (m := m) (i := eat isWhitespace m 1) (by omega)
      split
      · rename_i h''
        have := at'_lt (m := m) (i := eat isWhitespace m 1 + 1) (by omega)
        exact ⟨by simp only; omega, Or.inl (by simp only; omega)⟩
      · exact ⟨by simp only; omega, Or.inl (by simp only; omega)⟩
    · exact sized_plain g1 h1

theorem comment_size {line column : Nat} {m : List Nat} (h : 2 ≤ m.length) : Sized m (commentToken line column m) := by
  have := blockComment_size (m.drop 2)
  rw [List.length_drop] at this
  simp only [Sized, commentToken]
  cases hf : (blockComment (m.drop 2)).found
  · exact ⟨by omega, Or.inr ⟨rfl, by omega⟩⟩
  · have := this.2 hf
    exact ⟨by omega, Or.inl (by omega)⟩

theorem zero_size {line column : Nat} {m : List Nat} (h0 : at' m 0 = 48) : Sized m (zero line column m) := by
  have hl := at'_lt (m := m) (i := 0) (by omega)
  simp only [zero]
  split
  · rename_i h
    have := at'_lt (or32_ne_zero h (by omega))
    have := hexNumbers_size (m := m) (by omega)
    exact sized_plain (by omega) this.2
  · split
    · rename_i h
      have := at'_lt (or32_ne_zero h (by omega))
      have a := eat_le (fun c => c == 48 || c == 49 || c == 39) (m := m) (i := 2) (by omega)
      have b := eat_ge (fun c => c == 48 || c == 49 || c == 39) m 2
      have c := eat_le isIdent a
      have d := eat_ge isIdent m (eat (fun c => c == 48 || c == 49 || c == 39) m 2)
      exact sized_plain (by omega) c
    · split
      · rename_i h
        have := at'_lt (or32_ne_zero h (by omega))
        have a := eat_le (fun c => (decide (48 ≤ c) && decide (c ≤ 55)) || c == 39) (m := m) (i := 2) (by omega)
        have b := eat_ge (fun c => (decide (48 ≤ c) && decide (c ≤ 55)) || c == 39) m 2
        have c := eat_le isIdent a
        have d := eat_ge isIdent m (eat (fun c => (decide (48 ≤ c) && decide (c ≤ 55)) || c == 39) m 2)
        exact sized_plain (by omega) c
      · split
        · have := numbers_size (m := m) (i := 1) (k := .octalLiteral) (by omega)
          exact sized_plain this.1 this.2.1
        · have := numbers_size (m := m) (i := 0) (k := .base10Literal) (by omega)
          have e := eat_one (p := numberOrQuote) hl (by rw [h0]; decide)
          exact sized_plain (by omega) this.2.1

/-- Every token is not empty and inside the text, or ends at most two bytes after it and is reported as an error. -/
theorem scan_size (line column : Nat) (m : List Nat) (h : m ≠ []) : Sized m (scan line column m) := by
  have hl : 1 ≤ m.length := List.length_pos_iff.2 h
  have l1 : at' m 1 ≠ 0 → 2 ≤ m.length := fun h => at'_lt h
  have l2 : at' m 2 ≠ 0 → 3 ≤ m.length := fun h => at'_lt h
  have num : ∀ c, at' m 0 = c → numberOrQuote c = true → Sized m (plain line column (numbers m 0 .base10Literal).1
      (numbers m 0 .base10Literal).2) := by
    intro c hc hp
    have := numbers_size (m := m) (i := 0) (k := .base10Literal) (by omega)
    have e := eat_one (p := numberOrQuote) (m := m) (i := 0) (by omega) (by rw [hc]; exact hp)
    exact sized_plain (by omega) this.2.1
  unfold scan
  dsimp only
  split
  · exact backslash_size hl
  iterate 4 exact sized_plain (eat_ge _ _ _) (eat_le _ hl)
  iterate 2
    refine ⟨by simp only; split <;> omega, Or.inl ?_⟩
    simp only
    split
    · exact l1 (by omega)
    · exact hl
  all_goals rename_i h0
  all_goals
    first
    | exact num _ h0 (by decide)
    | exact zero_size h0
    | (repeat' split) <;> first
      | exact sized_plain (Nat.le_refl 1) hl
      | exact sized_plain (by omega) (l1 (by omega))
      | exact sized_plain (by omega) (l2 (by omega))
      | exact characterLiteral_size hl
      | exact stringLiteral_size hl
      | exact characterLiteral_size (l1 (by omega))
      | exact stringLiteral_size (l1 (by omega))
      | exact stringLiteral_size (l2 (by omega))
      | exact identifier_size hl
      | exact comment_size (l1 (by omega))
      | exact sized_plain (Nat.le_trans (by omega) (eat_ge _ _ _)) (eat_le _ (l1 (by omega)))
      | exact ⟨Nat.le_refl 1, Or.inl hl⟩
      | (have hn := numbers_size (m := m) (i := 0) (k := .base10Literal) (by omega)
         refine sized_plain ?_ hn.2.1
         by_cases he : eat numberOrQuote m 0 = 0
         · have := hn.2.2.2 (by rw [he]; exact h0)
           omega
         · omega)

/-! ## C05 -/

/-- The text of the tokens. -/
def spellings (ts : List Out) : List Nat := ts.flatMap (·.spelling)

theorem loop_cons (fuel line column : Nat) {m : List Nat} (h : m ≠ []) :
    loop (fuel + 1) line column m =
      { kind := (scan line column m).kind, line := line, column := column,
        spelling := m.take (scan line column m).size ++ List.replicate ((scan line column m).size - m.length) 0,
        error := (scan line column m).error, hash := (scan line column m).hash } ::
      loop fuel (scan line column m).line (scan line column m).column (m.drop (scan line column m).size) := by
  cases m with
  | nil => exact absurd rfl h
  | cons c m => rfl

theorem loop_nil (fuel line column : Nat) : loop fuel line column [] = [] := by cases fuel <;> rfl

theorem loop_lossless (fuel line column : Nat) (m : List Nat) (h : m.length ≤ fuel) :
    (∃ k, k ≤ 2 ∧ spellings (loop fuel line column m) = m ++ List.replicate k 0 ∧
      (k = 0 ∨ ∃ t ∈ loop fuel line column m, t.error = true)) ∧
    (∀ t ∈ loop fuel line column m, t.spelling ≠ []) ∧ (loop fuel line column m).length ≤ m.length := by
  induction fuel generalizing line column m with
  | zero =>
    have : m = [] := List.length_eq_zero_iff.1 (by omega)
    subst this
    exact ⟨⟨0, by omega, rfl, Or.inl rfl⟩, by simp [loop], Nat.le_refl _⟩
  | succ fuel ih =>
    by_cases hm : m = []
    · subst hm
      rw [loop_nil]
      exact ⟨⟨0, by omega, rfl, Or.inl rfl⟩, by simp, Nat.le_refl _⟩
    · rw [loop_cons _ _ _ hm]
      have hs := scan_size line column m hm
      have hl : 1 ≤ m.length := List.length_pos_iff.2 hm
      generalize scan line column m = t at hs ⊢
      obtain ⟨h1, h2⟩ := hs
      have hd : (m.drop t.size).length ≤ fuel := by rw [List.length_drop]; omega
      obtain ⟨⟨k, k1, k2, k3⟩, i2, i3⟩ := ih t.line t.column (m.drop t.size) hd
      refine ⟨?_, ?_, ?_⟩
      · by_cases hle : t.size ≤ m.length
        · refine ⟨k, k1, ?_, k3.imp id (fun ⟨x, hx, e⟩ => ⟨x, List.mem_cons_of_mem _ hx, e⟩)⟩
          have e : t.size - m.length = 0 := by omega
          simp only [spellings, List.flatMap_cons, e, List.replicate_zero, List.append_nil] at k2 ⊢
          rw [k2, ← List.append_assoc, List.take_append_drop]
        · have h2 := h2.resolve_left hle
          have e : m.drop t.size = [] := List.drop_eq_nil_of_le (by omega)
          refine ⟨t.size - m.length, by omega, ?_, Or.inr ⟨_, List.mem_cons_self, h2.1⟩⟩
          rw [e, loop_nil]
          simp only [spellings, List.flatMap_cons, List.flatMap_nil, List.append_nil]
          rw [List.take_of_length_le (by omega)]
      · intro x hx
        rcases List.mem_cons.1 hx with rfl | hx
        · intro e
          have := congrArg List.length e
          simp only [List.length_append, List.length_take, List.length_replicate, List.length_nil] at this
          omega
        · exact i2 x hx
      · rw [List.length_cons]
        rw [List.length_drop] at i3
        omega

/-- C05: for every text, no token is empty, and the tokens together are the text, except that the last token may be
followed by at most two bytes of padding when an error was reported. -/
theorem C05_lossless (text : List Nat) :
    (∀ t ∈ tokenize text, t.spelling ≠ []) ∧
    ((∀ t ∈ tokenize text, t.error = false) → spellings (tokenize text) = text) ∧
    ∃ k, k ≤ 2 ∧ spellings (tokenize text) = text ++ List.replicate k 0 := by
  obtain ⟨⟨k, k1, k2, k3⟩, h2, _⟩ := loop_lossless text.length 1 1 text (Nat.le_refl _)
  refine ⟨h2, fun he => ?_, k, k1, k2⟩
  rcases k3 with rfl | ⟨t, ht, e⟩
  · have k2' := k2
    rw [List.replicate_zero, List.append_nil] at k2'
    exact k2'
  · rw [he t ht] at e
    cases e

/-- C05: there are at most as many tokens as bytes, which is the number for which memory is reserved. -/
theorem C05_tokens_fit (text : List Nat) : (tokenize text).length ≤ text.length :=
  (loop_lossless text.length 1 1 text (Nat.le_refl _)).2.2

/-- C05: the eight tokens reserved for the result of `##` are not always enough. Pasting `1` and the character literal
`'+a+b+c+d'`, both single tokens, gives nine tokens, as the quote is taken for a digit separator. -/
theorem C05_paste_too_many :
    (tokenize [49]).length = 1 ∧ (tokenize (bytes "'+a+b+c+d'".toList)).length = 1 ∧
    (tokenize ([49] ++ bytes "'+a+b+c+d'".toList)).length > 8 := by
  decide +kernel

/-- `int x = 0x1f; // a` with a string. -/
example : ((tokenize (fileText (bytes "a+=L\"x\\\"\"; // c".toList))).map (fun t => (t.kind, t.spelling.length))) =
    [(.identifier, 1), (.plusEquals, 2), (.stringLiteral, 6), (.semicolon, 1), (.whitespace, 1), (.comment, 4),
      (.newline, 1), (.newline, 1)] := by
  decide +kernel

/-- The last token of an unterminated comment ends two bytes after the text. -/
example : (tokenize (bytes "/*".toList)).map (fun t => (t.kind, t.spelling, t.error)) = [(.comment, [47, 42, 0, 0], true)] := by
  decide +kernel

/-! ## any token -/

/-- The first token of a text. -/
def first (line column : Nat) (m : List Nat) : Out :=
  { kind := (scan line column m).kind, line := line, column := column,
    spelling := m.take (scan line column m).size ++ List.replicate ((scan line column m).size - m.length) 0,
    error := (scan line column m).error, hash := (scan line column m).hash }

theorem loop_split (fuel line column : Nat) (m : List Nat) (pre : List Out) (t : Out) (post : List Out)
    (h : loop fuel line column m = pre ++ t :: post) :
    ∃ r l c, m = spellings pre ++ r ∧ r ≠ [] ∧ t = first l c r := by
  induction pre generalizing fuel line column m with
  | nil =>
    cases fuel with
    | zero => simp [loop] at h
    | succ fuel =>
      by_cases hm : m = []
      · subst hm; rw [loop_nil] at h; simp at h
      · rw [loop_cons _ _ _ hm] at h
        simp only [List.nil_append, List.cons.injEq] at h
        exact ⟨m, line, column, rfl, hm, h.1.symm⟩
  | cons x pre ih =>
    cases fuel with
    | zero => simp [loop] at h
    | succ fuel =>
      by_cases hm : m = []
      · subst hm; rw [loop_nil] at h; simp at h
      · rw [loop_cons _ _ _ hm] at h
        simp only [List.cons_append, List.cons.injEq] at h
        obtain ⟨r, l, c, e1, e2, e3⟩ := ih _ _ _ _ h.2
        refine ⟨r, l, c, ?_, e2, e3⟩
        rw [← h.1]
        have hle : (scan line column m).size ≤ m.length := by
          apply Nat.le_of_not_lt
          intro hlt
          rw [List.drop_eq_nil_of_le (by omega), loop_nil] at h
          simp at h
        have e : (scan line column m).size - m.length = 0 := by omega
        simp only [spellings, List.flatMap_cons, e, List.replicate_zero, List.append_nil, List.append_assoc] at e1 ⊢
        rw [← e1, List.take_append_drop]

/-! ## C06 -/

/-- The text starts a comment. -/
def StartsComment (r : List Nat) : Prop := bytes ['/', '/'] <+: r ∨ bytes ['/', '*'] <+: r

/-- The text starts a number with a dot. -/
def StartsDotNumber (r : List Nat) : Prop := ∃ d r', r = 46 :: d :: r' ∧ 48 ≤ d ∧ d ≤ 57

/-- The numbers of the characters in the table. -/
theorem punctuators_bytes : punctuators.map (fun p => (p.1, bytes p.2)) =
    [(.openIndex, [91]), (.closedIndex, [93]), (.openParen, [40]), (.closedParen, [41]), (.openCurly, [123]),
     (.closedCurly, [125]), (.dot, [46]), (.arrow, [45, 62]), (.increment, [43, 43]), (.decrement, [45, 45]),
     (.and, [38]), (.times, [42]), (.plus, [43]), (.minus, [45]), (.bitwiseNot, [126]), (.logicalNot, [33]),
     (.slash, [47]), (.mod, [37]), (.leftShift, [60, 60]), (.rightShift, [62, 62]), (.smaller, [60]),
     (.bigger, [62]), (.smallerEquals, [60, 61]), (.biggerEquals, [62, 61]), (.logicalEquals, [61, 61]),
     (.logicalUnequals, [33, 61]), (.xor, [94]), (.or, [124]), (.logicalAnd, [38, 38]), (.logicalOr, [124, 124]),
     (.questionMark, [63]), (.colon, [58]), (.semicolon, [59]), (.dotdotdot, [46, 46, 46]), (.equals, [61]),
     (.timesEquals, [42, 61]), (.divEquals, [47, 61]), (.modEquals, [37, 61]), (.plusEquals, [43, 61]),
     (.minusEquals, [45, 61]), (.leftShiftEquals, [60, 60, 61]), (.rightShiftEquals, [62, 62, 61]),
     (.andEquals, [38, 61]), (.xorEquals, [94, 61]), (.orEquals, [124, 61]), (.comma, [44]), (.hash, [35]),
     (.hashhash, [35, 35])] := by
  decide

theorem pre1 (r : List Nat) {a : Nat} (ha : a ≠ 0) : [a] <+: r ↔ at' r 0 = a := by
  cases r with
  | nil => simp [at']; omega
  | cons x r => simp [at', eq_comm]

theorem pre2 (r : List Nat) {a b : Nat} (ha : a ≠ 0) (hb : b ≠ 0) : [a, b] <+: r ↔ at' r 0 = a ∧ at' r 1 = b := by
  cases r with
  | nil => simp [at']; omega
  | cons x r =>
    rw [List.cons_prefix_cons, pre1 r hb, at'_cons_zero, at'_cons_succ, eq_comm]

theorem pre3 (r : List Nat) {a b c : Nat} (ha : a ≠ 0) (hb : b ≠ 0) (hc : c ≠ 0) :
    [a, b, c] <+: r ↔ at' r 0 = a ∧ at' r 1 = b ∧ at' r 2 = c := by
  cases r with
  | nil => simp [at']; omega
  | cons x r =>
    rw [List.cons_prefix_cons, pre2 r hb hc, at'_cons_zero, at'_cons_succ, at'_cons_succ, eq_comm]

/-- Enough for a token to be the longest punctuator. -/
theorem longest_intro {r : List Nat} {line column : Nat} {k : Kind} {n : Nat} (s : List Nat)
    (hm : (k, s) ∈ punctuators.map (fun p => (p.1, bytes p.2))) (hl : s.length = n) (hp : s <+: r)
    (hall : ∀ p ∈ punctuators.map (fun p => (p.1, bytes p.2)), p.2 <+: r → p.2.length ≤ n)
    (hs : scan line column r = plain line column k n) :
    Longest punctuators (first line column r).kind (first line column r).spelling r := by
  have e1 : (first line column r).kind = k := by simp only [first, hs, plain]
  have e2 : (first line column r).spelling = s := by
    have := hp.length_le
    have e : n - r.length = 0 := by omega
    simp only [first, hs, plain, e, List.replicate_zero, List.append_nil]
    rw [← hl]
    exact List.prefix_iff_eq_take.1 hp |>.symm
  rw [e1, e2]
  refine ⟨?_, hp, fun k' cs' hm' hp' => ?_⟩
  · simp only [List.mem_map, Prod.mk.injEq] at hm
    obtain ⟨⟨k', cs⟩, h1, h2, h3⟩ := hm
    simp only at h2 h3
    subst h2
    exact ⟨cs, h1, h3.symm⟩
  · rw [hl]
    exact hall (k', bytes cs') (List.mem_map.2 ⟨(k', cs'), hm', rfl⟩) hp'

set_option linter.unusedSimpArgs false in
set_option maxHeartbeats 2000000 in
theorem first_longest (line column : Nat) (r : List Nat) (hp : ∃ p ∈ punctuators, bytes p.2 <+: r)
    (hc : ¬ StartsComment r) (hd : ¬ StartsDotNumber r) :
    Longest punctuators (first line column r).kind (first line column r).spelling r := by
  have hc1 : ¬ (at' r 0 = 47 ∧ at' r 1 = 47) := fun h => hc (Or.inl ((pre2 (a := 47) (b := 47) r (by omega) (by omega)).2 h))
  have hc2 : ¬ (at' r 0 = 47 ∧ at' r 1 = 42) := fun h => hc (Or.inr ((pre2 (a := 47) (b := 42) r (by omega) (by omega)).2 h))
  have hd1 : at' r 0 = 46 → isNumber (at' r 1) = false := by
    intro h0
    cases hn : isNumber (at' r 1) with
    | false => rfl
    | true =>
      exfalso
      simp only [isNumber, Bool.and_eq_true, decide_eq_true_eq] at hn
      have l1 := at'_lt (m := r) (i := 1) (by omega)
      match r, l1 with
      | a :: b :: r', _ =>
        simp only [at'_cons_zero] at h0
        exact hd ⟨b, r', by rw [h0], by simpa [at'] using hn.2, by simpa [at'] using hn.1⟩
  have h1 : ∃ p ∈ punctuators.map (fun p => (p.1, bytes p.2)), p.2 <+: r := by
    obtain ⟨p, hp1, hp2⟩ := hp
    exact ⟨(p.1, bytes p.2), List.mem_map.2 ⟨p, hp1, rfl⟩, hp2⟩
  have hchar : at' r 0 ∈ [91, 93, 40, 41, 123, 125, 46, 45, 43, 38, 42, 126, 33, 47, 37, 60, 62, 61, 94, 124, 63, 58, 59,
      44, 35] := by
    obtain ⟨p, hp1, hp2⟩ := h1
    have hall : ∀ p ∈ punctuators.map (fun p => (p.1, bytes p.2)), p.2 ≠ [] ∧ p.2.headD 0 ∈ [91, 93, 40, 41, 123, 125, 46, 45,
        43, 38, 42, 126, 33, 47, 37, 60, 62, 61, 94, 124, 63, 58, 59, 44, 35] := by
      rw [punctuators_bytes]; decide
    have hh := hall p hp1
    obtain ⟨t, ht⟩ := hp2
    have : at' r 0 = p.2.headD 0 := by
      rw [← ht]
      cases hq : p.2 with
      | nil => exact absurd hq hh.1
      | cons x xs => rfl
    rw [this]
    exact hh.2
  simp only [List.mem_cons, List.not_mem_nil, or_false] at hchar
  rcases hchar with h0 | h0 | h0 | h0 | h0 | h0 | h0 | h0 | h0 | h0 | h0 | h0 | h0 | h0 | h0 | h0 | h0 | h0 | h0 | h0 | h0 | h0 | h0 | h0 | h0
  · exact longest_intro (k := .openIndex) [91] (by rw [punctuators_bytes]; decide) rfl ((pre1 r (by decide)).2 h0)
      (by rw [punctuators_bytes]; simp [pre1, pre2, pre3, h0]) (by unfold scan; dsimp only; rw [h0]; rfl)
  · exact longest_intro (k := .closedIndex) [93] (by rw [punctuators_bytes]; decide) rfl ((pre1 r (by decide)).2 h0)
      (by rw [punctuators_bytes]; simp [pre1, pre2, pre3, h0]) (by unfold scan; dsimp only; rw [h0]; rfl)
  · exact longest_intro (k := .openParen) [40] (by rw [punctuators_bytes]; decide) rfl ((pre1 r (by decide)).2 h0)
      (by rw [punctuators_bytes]; simp [pre1, pre2, pre3, h0]) (by unfold scan; dsimp only; rw [h0]; rfl)
  · exact longest_intro (k := .closedParen) [41] (by rw [punctuators_bytes]; decide) rfl ((pre1 r (by decide)).2 h0)
      (by rw [punctuators_bytes]; simp [pre1, pre2, pre3, h0]) (by unfold scan; dsimp only; rw [h0]; rfl)
  · exact longest_intro (k := .openCurly) [123] (by rw [punctuators_bytes]; decide) rfl ((pre1 r (by decide)).2 h0)
      (by rw [punctuators_bytes]; simp [pre1, pre2, pre3, h0]) (by unfold scan; dsimp only; rw [h0]; rfl)
  · exact longest_intro (k := .closedCurly) [125] (by rw [punctuators_bytes]; decide) rfl ((pre1 r (by decide)).2 h0)
      (by rw [punctuators_bytes]; simp [pre1, pre2, pre3, h0]) (by unfold scan; dsimp only; rw [h0]; rfl)
  · have hn := hd1 h0
    by_cases a1 : at' r 1 = 46
    · by_cases a2 : at' r 2 = 46
      · exact longest_intro (k := .dotdotdot) [46, 46, 46] (by rw [punctuators_bytes]; decide) rfl ((pre3 r (by decide) (by decide) (by decide)).2 ⟨h0, a1, a2⟩)
          (by rw [punctuators_bytes]; simp [pre1, pre2, pre3, h0, a1, a2]) (by unfold scan; dsimp only; rw [h0]; simp [a1, a2])
      exact longest_intro (k := .dot) [46] (by rw [punctuators_bytes]; decide) rfl ((pre1 r (by decide)).2 h0)
        (by rw [punctuators_bytes]; simp [pre1, pre2, pre3, h0, a1, a2, hn, isNumber]) (by unfold scan; dsimp only; rw [h0]; simp [a1, a2, hn, isNumber])
    exact longest_intro (k := .dot) [46] (by rw [punctuators_bytes]; decide) rfl ((pre1 r (by decide)).2 h0)
      (by rw [punctuators_bytes]; simp [pre1, pre2, pre3, h0, a1, hn]) (by unfold scan; dsimp only; rw [h0]; simp [a1, hn])
  · by_cases a1 : at' r 1 = 45
    · exact longest_intro (k := .decrement) [45, 45] (by rw [punctuators_bytes]; decide) rfl ((pre2 r (by decide) (by decide)).2 ⟨h0, a1⟩)
        (by rw [punctuators_bytes]; simp [pre1, pre2, pre3, h0, a1]) (by unfold scan; dsimp only; rw [h0]; simp [a1])
    have c0 := a1
    clear a1
    by_cases a1 : at' r 1 = 62
    · exact longest_intro (k := .arrow) [45, 62] (by rw [punctuators_bytes]; decide) rfl ((pre2 r (by decide) (by decide)).2 ⟨h0, a1⟩)
        (by rw [punctuators_bytes]; simp [pre1, pre2, pre3, h0, c0, a1]) (by unfold scan; dsimp only; rw [h0]; simp [c0, a1])
    have c1 := a1
    clear a1
    by_cases a1 : at' r 1 = 61
    · exact longest_intro (k := .minusEquals) [45, 61] (by rw [punctuators_bytes]; decide) rfl ((pre2 r (by decide) (by decide)).2 ⟨h0, a1⟩)
        (by rw [punctuators_bytes]; simp [pre1, pre2, pre3, h0, c0, c1, a1]) (by unfold scan; dsimp only; rw [h0]; simp [c0, c1, a1])
    have c2 := a1
    clear a1
    exact longest_intro (k := .minus) [45] (by rw [punctuators_bytes]; decide) rfl ((pre1 r (by decide)).2 h0)
      (by rw [punctuators_bytes]; simp [pre1, pre2, pre3, h0, c0, c1, c2]) (by unfold scan; dsimp only; rw [h0]; simp [c0, c1, c2])
  · by_cases a1 : at' r 1 = 43
    · exact longest_intro (k := .increment) [43, 43] (by rw [punctuators_bytes]; decide) rfl ((pre2 r (by decide) (by decide)).2 ⟨h0, a1⟩)
        (by rw [punctuators_bytes]; simp [pre1, pre2, pre3, h0, a1]) (by unfold scan; dsimp only; rw [h0]; simp [a1])
    have c0 := a1
    clear a1
    by_cases a1 : at' r 1 = 61
    · exact longest_intro (k := .plusEquals) [43, 61] (by rw [punctuators_bytes]; decide) rfl ((pre2 r (by decide) (by decide)).2 ⟨h0, a1⟩)
        (by rw [punctuators_bytes]; simp [pre1, pre2, pre3, h0, c0, a1]) (by unfold scan; dsimp only; rw [h0]; simp [c0, a1])
    have c1 := a1
    clear a1
    exact longest_intro (k := .plus) [43] (by rw [punctuators_bytes]; decide) rfl ((pre1 r (by decide)).2 h0)
      (by rw [punctuators_bytes]; simp [pre1, pre2, pre3, h0, c0, c1]) (by unfold scan; dsimp only; rw [h0]; simp [c0, c1])
  · by_cases a1 : at' r 1 = 38
    · exact longest_intro (k := .logicalAnd) [38, 38] (by rw [punctuators_bytes]; decide) rfl ((pre2 r (by decide) (by decide)).2 ⟨h0, a1⟩)
        (by rw [punctuators_bytes]; simp [pre1, pre2, pre3, h0, a1]) (by unfold scan; dsimp only; rw [h0]; simp [a1])
    have c0 := a1
    clear a1
    by_cases a1 : at' r 1 = 61
    · exact longest_intro (k := .andEquals) [38, 61] (by rw [punctuators_bytes]; decide) rfl ((pre2 r (by decide) (by decide)).2 ⟨h0, a1⟩)
        (by rw [punctuators_bytes]; simp [pre1, pre2, pre3, h0, c0, a1]) (by unfold scan; dsimp only; rw [h0]; simp [c0, a1])
    have c1 := a1
    clear a1
    exact longest_intro (k := .and) [38] (by rw [punctuators_bytes]; decide) rfl ((pre1 r (by decide)).2 h0)
      (by rw [punctuators_bytes]; simp [pre1, pre2, pre3, h0, c0, c1]) (by unfold scan; dsimp only; rw [h0]; simp [c0, c1])
  · by_cases a1 : at' r 1 = 61
    · exact longest_intro (k := .timesEquals) [42, 61] (by rw [punctuators_bytes]; decide) rfl ((pre2 r (by decide) (by decide)).2 ⟨h0, a1⟩)
        (by rw [punctuators_bytes]; simp [pre1, pre2, pre3, h0, a1]) (by unfold scan; dsimp only; rw [h0]; simp [a1])
    have c0 := a1
    clear a1
    exact longest_intro (k := .times) [42] (by rw [punctuators_bytes]; decide) rfl ((pre1 r (by decide)).2 h0)
      (by rw [punctuators_bytes]; simp [pre1, pre2, pre3, h0, c0]) (by unfold scan; dsimp only; rw [h0]; simp [c0])
  · exact longest_intro (k := .bitwiseNot) [126] (by rw [punctuators_bytes]; decide) rfl ((pre1 r (by decide)).2 h0)
      (by rw [punctuators_bytes]; simp [pre1, pre2, pre3, h0]) (by unfold scan; dsimp only; rw [h0]; rfl)
  · by_cases a1 : at' r 1 = 61
    · exact longest_intro (k := .logicalUnequals) [33, 61] (by rw [punctuators_bytes]; decide) rfl ((pre2 r (by decide) (by decide)).2 ⟨h0, a1⟩)
        (by rw [punctuators_bytes]; simp [pre1, pre2, pre3, h0, a1]) (by unfold scan; dsimp only; rw [h0]; simp [a1])
    have c0 := a1
    clear a1
    exact longest_intro (k := .logicalNot) [33] (by rw [punctuators_bytes]; decide) rfl ((pre1 r (by decide)).2 h0)
      (by rw [punctuators_bytes]; simp [pre1, pre2, pre3, h0, c0]) (by unfold scan; dsimp only; rw [h0]; simp [c0])
  · have n1 : ¬ at' r 1 = 47 := fun h => hc1 ⟨h0, h⟩
    have n2 : ¬ at' r 1 = 42 := fun h => hc2 ⟨h0, h⟩
    by_cases a1 : at' r 1 = 61
    · exact longest_intro (k := .divEquals) [47, 61] (by rw [punctuators_bytes]; decide) rfl ((pre2 r (by decide) (by decide)).2 ⟨h0, a1⟩)
        (by rw [punctuators_bytes]; simp [pre1, pre2, pre3, h0, n1, n2, a1]) (by unfold scan; dsimp only; rw [h0]; simp [n1, n2, a1])
    have c0 := a1
    clear a1
    exact longest_intro (k := .slash) [47] (by rw [punctuators_bytes]; decide) rfl ((pre1 r (by decide)).2 h0)
      (by rw [punctuators_bytes]; simp [pre1, pre2, pre3, h0, n1, n2, c0]) (by unfold scan; dsimp only; rw [h0]; simp [n1, n2, c0])
  · by_cases a1 : at' r 1 = 61
    · exact longest_intro (k := .modEquals) [37, 61] (by rw [punctuators_bytes]; decide) rfl ((pre2 r (by decide) (by decide)).2 ⟨h0, a1⟩)
        (by rw [punctuators_bytes]; simp [pre1, pre2, pre3, h0, a1]) (by unfold scan; dsimp only; rw [h0]; simp [a1])
    have c0 := a1
    clear a1
    exact longest_intro (k := .mod) [37] (by rw [punctuators_bytes]; decide) rfl ((pre1 r (by decide)).2 h0)
      (by rw [punctuators_bytes]; simp [pre1, pre2, pre3, h0, c0]) (by unfold scan; dsimp only; rw [h0]; simp [c0])
  · by_cases a1 : at' r 1 = 60
    · by_cases a2 : at' r 2 = 61
      · exact longest_intro (k := .leftShiftEquals) [60, 60, 61] (by rw [punctuators_bytes]; decide) rfl ((pre3 r (by decide) (by decide) (by decide)).2 ⟨h0, a1, a2⟩)
          (by rw [punctuators_bytes]; simp [pre1, pre2, pre3, h0, a1, a2]) (by unfold scan; dsimp only; rw [h0]; simp [a1, a2])
      exact longest_intro (k := .leftShift) [60, 60] (by rw [punctuators_bytes]; decide) rfl ((pre2 r (by decide) (by decide)).2 ⟨h0, a1⟩)
        (by rw [punctuators_bytes]; simp [pre1, pre2, pre3, h0, a1, a2]) (by unfold scan; dsimp only; rw [h0]; simp [a1, a2])
    have c0 := a1
    clear a1
    by_cases a1 : at' r 1 = 61
    · exact longest_intro (k := .smallerEquals) [60, 61] (by rw [punctuators_bytes]; decide) rfl ((pre2 r (by decide) (by decide)).2 ⟨h0, a1⟩)
        (by rw [punctuators_bytes]; simp [pre1, pre2, pre3, h0, c0, a1]) (by unfold scan; dsimp only; rw [h0]; simp [c0, a1])
    exact longest_intro (k := .smaller) [60] (by rw [punctuators_bytes]; decide) rfl ((pre1 r (by decide)).2 h0)
      (by rw [punctuators_bytes]; simp [pre1, pre2, pre3, h0, c0, a1]) (by unfold scan; dsimp only; rw [h0]; simp [c0, a1])
  · by_cases a1 : at' r 1 = 62
    · by_cases a2 : at' r 2 = 61
      · exact longest_intro (k := .rightShiftEquals) [62, 62, 61] (by rw [punctuators_bytes]; decide) rfl ((pre3 r (by decide) (by decide) (by decide)).2 ⟨h0, a1, a2⟩)
          (by rw [punctuators_bytes]; simp [pre1, pre2, pre3, h0, a1, a2]) (by unfold scan; dsimp only; rw [h0]; simp [a1, a2])
      exact longest_intro (k := .rightShift) [62, 62] (by rw [punctuators_bytes]; decide) rfl ((pre2 r (by decide) (by decide)).2 ⟨h0, a1⟩)
        (by rw [punctuators_bytes]; simp [pre1, pre2, pre3, h0, a1, a2]) (by unfold scan; dsimp only; rw [h0]; simp [a1, a2])
    have c0 := a1
    clear a1
    by_cases a1 : at' r 1 = 61
    · exact longest_intro (k := .biggerEquals) [62, 61] (by rw [punctuators_bytes]; decide) rfl ((pre2 r (by decide) (by decide)).2 ⟨h0, a1⟩)
        (by rw [punctuators_bytes]; simp [pre1, pre2, pre3, h0, c0, a1]) (by unfold scan; dsimp only; rw [h0]; simp [c0, a1])
    exact longest_intro (k := .bigger) [62] (by rw [punctuators_bytes]; decide) rfl ((pre1 r (by decide)).2 h0)
      (by rw [punctuators_bytes]; simp [pre1, pre2, pre3, h0, c0, a1]) (by unfold scan; dsimp only; rw [h0]; simp [c0, a1])
  · by_cases a1 : at' r 1 = 61
    · exact longest_intro (k := .logicalEquals) [61, 61] (by rw [punctuators_bytes]; decide) rfl ((pre2 r (by decide) (by decide)).2 ⟨h0, a1⟩)
        (by rw [punctuators_bytes]; simp [pre1, pre2, pre3, h0, a1]) (by unfold scan; dsimp only; rw [h0]; simp [a1])
    have c0 := a1
    clear a1
    exact longest_intro (k := .equals) [61] (by rw [punctuators_bytes]; decide) rfl ((pre1 r (by decide)).2 h0)
      (by rw [punctuators_bytes]; simp [pre1, pre2, pre3, h0, c0]) (by unfold scan; dsimp only; rw [h0]; simp [c0])
  · by_cases a1 : at' r 1 = 61
    · exact longest_intro (k := .xorEquals) [94, 61] (by rw [punctuators_bytes]; decide) rfl ((pre2 r (by decide) (by decide)).2 ⟨h0, a1⟩)
        (by rw [punctuators_bytes]; simp [pre1, pre2, pre3, h0, a1]) (by unfold scan; dsimp only; rw [h0]; simp [a1])
    have c0 := a1
    clear a1
    exact longest_intro (k := .xor) [94] (by rw [punctuators_bytes]; decide) rfl ((pre1 r (by decide)).2 h0)
      (by rw [punctuators_bytes]; simp [pre1, pre2, pre3, h0, c0]) (by unfold scan; dsimp only; rw [h0]; simp [c0])
  · by_cases a1 : at' r 1 = 124
    · exact longest_intro (k := .logicalOr) [124, 124] (by rw [punctuators_bytes]; decide) rfl ((pre2 r (by decide) (by decide)).2 ⟨h0, a1⟩)
        (by rw [punctuators_bytes]; simp [pre1, pre2, pre3, h0, a1]) (by unfold scan; dsimp only; rw [h0]; simp [a1])
    have c0 := a1
    clear a1
    by_cases a1 : at' r 1 = 61
    · exact longest_intro (k := .orEquals) [124, 61] (by rw [punctuators_bytes]; decide) rfl ((pre2 r (by decide) (by decide)).2 ⟨h0, a1⟩)
        (by rw [punctuators_bytes]; simp [pre1, pre2, pre3, h0, c0, a1]) (by unfold scan; dsimp only; rw [h0]; simp [c0, a1])
    have c1 := a1
    clear a1
    exact longest_intro (k := .or) [124] (by rw [punctuators_bytes]; decide) rfl ((pre1 r (by decide)).2 h0)
      (by rw [punctuators_bytes]; simp [pre1, pre2, pre3, h0, c0, c1]) (by unfold scan; dsimp only; rw [h0]; simp [c0, c1])
  · exact longest_intro (k := .questionMark) [63] (by rw [punctuators_bytes]; decide) rfl ((pre1 r (by decide)).2 h0)
      (by rw [punctuators_bytes]; simp [pre1, pre2, pre3, h0]) (by unfold scan; dsimp only; rw [h0]; rfl)
  · exact longest_intro (k := .colon) [58] (by rw [punctuators_bytes]; decide) rfl ((pre1 r (by decide)).2 h0)
      (by rw [punctuators_bytes]; simp [pre1, pre2, pre3, h0]) (by unfold scan; dsimp only; rw [h0]; rfl)
  · exact longest_intro (k := .semicolon) [59] (by rw [punctuators_bytes]; decide) rfl ((pre1 r (by decide)).2 h0)
      (by rw [punctuators_bytes]; simp [pre1, pre2, pre3, h0]) (by unfold scan; dsimp only; rw [h0]; rfl)
  · exact longest_intro (k := .comma) [44] (by rw [punctuators_bytes]; decide) rfl ((pre1 r (by decide)).2 h0)
      (by rw [punctuators_bytes]; simp [pre1, pre2, pre3, h0]) (by unfold scan; dsimp only; rw [h0]; rfl)
  · by_cases a1 : at' r 1 = 35
    · exact longest_intro (k := .hashhash) [35, 35] (by rw [punctuators_bytes]; decide) rfl ((pre2 r (by decide) (by decide)).2 ⟨h0, a1⟩)
        (by rw [punctuators_bytes]; simp [pre1, pre2, pre3, h0, a1]) (by unfold scan; dsimp only; rw [h0]; simp [a1])
    have c0 := a1
    clear a1
    exact longest_intro (k := .hash) [35] (by rw [punctuators_bytes]; decide) rfl ((pre1 r (by decide)).2 h0)
      (by rw [punctuators_bytes]; simp [pre1, pre2, pre3, h0, c0]) (by unfold scan; dsimp only; rw [h0]; simp [c0])

/-- C06, part: at every token, if the rest of the text starts with a punctuator, not with a comment, not with a dot and a
digit (a number) and not with a digraph, then the token is the longest punctuator the rest of the text starts with.
Missing: digraphs, see `C06_digraph_wrong`. -/
theorem C06_maximal_munch_partial (text : List Nat) (pre : List Out) (t : Out) (post : List Out)
    (h : tokenize text = pre ++ t :: post) :
    ∃ r, text = spellings pre ++ r ∧ ((∃ p ∈ punctuators, bytes p.2 <+: r) → ¬ StartsComment r → ¬ StartsDotNumber r →
      (∀ d ∈ digraphs, ¬ bytes d.2 <+: r) → Longest (punctuators ++ digraphs) t.kind t.spelling r) := by
  obtain ⟨r, l, c, e1, e2, rfl⟩ := loop_split _ _ _ _ _ _ _ h
  refine ⟨r, e1, fun hp hc hd hg => ?_⟩
  obtain ⟨⟨cs, h1, h2⟩, h3, h4⟩ := first_longest l c r hp hc hd
  refine ⟨⟨cs, List.mem_append_left _ h1, h2⟩, h3, fun k' cs' hm hp' => ?_⟩
  rcases List.mem_append.1 hm with hm | hm
  · exact h4 k' cs' hm hp'
  · exact absurd hp' (hg _ hm)

/-- C06, counterexample: the digraph `<:` is two tokens. -/
theorem C06_digraph_wrong :
    ((tokenize (bytes ['<', ':'])).map (·.kind)) = [.smaller, .colon] ∧
    Longest (punctuators ++ digraphs) .openIndex (bytes ['<', ':']) (bytes ['<', ':']) := by
  refine ⟨by decide +kernel, ⟨['<', ':'], by decide, rfl⟩, List.prefix_rfl, fun _ _ _ hp => hp.length_le⟩

/-- `>>=` in a text. -/
example : (tokenize (bytes "a>>=b".toList)).map (·.kind) = [.identifier, .rightShiftEquals, .identifier] ∧
    ¬ StartsComment (bytes ">>=b".toList) ∧ (∀ d ∈ digraphs, ¬ bytes d.2 <+: bytes ">>=b".toList) := by
  refine ⟨by decide +kernel, ?_, by decide⟩
  unfold StartsComment
  decide

/-! ## C63 -/

theorem isIdent_iff (c : Nat) : isIdent c = true ↔ IdentChar c := by
  simp only [isIdent, isNumber, IdentChar, Bool.or_eq_true, Bool.and_eq_true, decide_eq_true_eq, beq_iff_eq]
  omega

theorem hash_eq (s : List Nat) (h : Nat) : s.foldl (fun h c => (h * 2 ^ 5 % 2 ^ 64 + h + c) % 2 ^ 64) h =
    s.foldl (fun h c => (h * 33 + c) % 2 ^ 64) h := by
  congr 1
  funext h c
  omega

/-- The token is one of the prefixes of string and character literals, followed by the quote. -/
def LiteralPrefix (s rest : List Nat) : Prop :=
  (s = bytes ['L'] ∨ s = bytes ['U'] ∨ s = bytes ['u']) ∧ (rest.head? = some 34 ∨ rest.head? = some 39) ∨
  s = bytes ['u', '8'] ∧ rest.head? = some 34

theorem eat_ident (s rest : List Nat) (h : ∀ c ∈ s, IdentChar c) (hs : s ≠ [])
    (hr : ∀ c, rest.head? = some c → ¬ IdentChar c) : eat isIdent (s ++ rest) 1 = s.length := by
  cases s with
  | nil => exact absurd rfl hs
  | cons a s =>
    simp only [eat, List.cons_append, List.drop_succ_cons, List.drop_zero, List.length_cons]
    rw [List.takeWhile_append_of_pos (fun c hc => (isIdent_iff c).2 (h c (List.mem_cons_of_mem _ hc)))]
    have : rest.takeWhile isIdent = [] := by
      cases rest with
      | nil => rfl
      | cons b rest =>
        apply List.takeWhile_cons_of_neg
        rw [isIdent_iff]
        exact hr b rfl
    rw [this, List.append_nil]
    omega

/-- The first byte decides that an identifier is scanned. -/
theorem scan_identifier (line column : Nat) (s rest : List Nat) (h : ∀ c ∈ s, IdentChar c) (hs : s ≠ [])
    (hd : ∀ c, s.head? = some c → ¬ (48 ≤ c ∧ c ≤ 57)) (hp : ¬ LiteralPrefix s rest)
    (hr : ∀ c, rest.head? = some c → ¬ IdentChar c) :
    scan line column (s ++ rest) = identifier line column (s ++ rest) := by
  cases s with
  | nil => exact absurd rfl hs
  | cons a s =>
    have ha := h a List.mem_cons_self
    have hd := hd a rfl
    have h0 : at' (a :: s ++ rest) 0 = a := rfl
    -- a quote after the first byte comes from the rest
    have q1 : ∀ q, q = 34 ∨ q = 39 → at' (a :: s ++ rest) 1 = q → s = [] ∧ rest.head? = some q := by
      intro q hq e
      cases s with
      | cons b s =>
        have hb := h b (by simp)
        simp only [at', List.cons_append, List.getD_cons_succ, List.getD_cons_zero] at e
        subst e
        simp only [IdentChar] at hb
        omega
      | nil =>
        refine ⟨rfl, ?_⟩
        cases rest with
        | nil => simp [at'] at e; omega
        | cons b rest => simpa [at'] using e
    have q2 : at' (a :: s ++ rest) 1 = 56 → at' (a :: s ++ rest) 2 = 34 → s = [56] ∧ rest.head? = some 34 := by
      intro e1 e2
      cases s with
      | nil =>
        exfalso
        cases rest with
        | nil => simp [at'] at e1
        | cons b rest =>
          have : b = 56 := by simpa [at'] using e1
          exact hr b rfl (by rw [this]; decide)
      | cons b s =>
        have hb : b = 56 := by simpa [at'] using e1
        cases s with
        | cons c s =>
          have hc := h c (by simp)
          have : c = 34 := by simpa [at'] using e2
          subst this
          simp only [IdentChar] at hc
          omega
        | nil =>
          cases rest with
          | nil => simp [at'] at e2
          | cons c rest => exact ⟨by rw [hb], by simpa [at'] using e2⟩
    unfold scan
    dsimp only
    rw [h0]
    have hinv : ¬ isInvalid a = true := by
      simp only [IdentChar] at ha
      simp only [isInvalid, Bool.or_eq_true, Bool.and_eq_true, decide_eq_true_eq, beq_iff_eq]
      omega
    split
    all_goals try exact absurd ha (by decide)
    all_goals try exact absurd (by decide) hd
    · rw [if_neg (fun e => hp (Or.inl ⟨by simp [bytes, (q1 34 (by omega) e).1], Or.inl (q1 34 (by omega) e).2⟩)),
        if_neg (fun e => hp (Or.inl ⟨by simp [bytes, (q1 39 (by omega) e).1], Or.inr (q1 39 (by omega) e).2⟩))]
    · rw [if_neg (fun e => hp (Or.inl ⟨by simp [bytes, (q1 34 (by omega) e).1], Or.inl (q1 34 (by omega) e).2⟩)),
        if_neg (fun e => hp (Or.inl ⟨by simp [bytes, (q1 39 (by omega) e).1], Or.inr (q1 39 (by omega) e).2⟩))]
    · rw [if_neg (fun e => hp (Or.inl ⟨by simp [bytes, (q1 34 (by omega) e).1], Or.inl (q1 34 (by omega) e).2⟩)),
        if_neg (fun e => hp (Or.inl ⟨by simp [bytes, (q1 39 (by omega) e).1], Or.inr (q1 39 (by omega) e).2⟩)),
        if_neg (fun e => hp (Or.inr ⟨by simp [bytes, (q2 e.1 e.2).1], (q2 e.1 e.2).2⟩))]
    · rw [if_neg hinv]

/-- C63: at every token, if the rest of the text starts with a longest run of identifier characters that does not start
with a digit and is not the prefix of a literal, the token is an identifier with exactly this spelling, no error is reported,
and its hash is the hash the tables of keywords, macros and declarations use for this spelling. -/
theorem C63_identifier (text : List Nat) (pre : List Out) (t : Out) (post : List Out)
    (h : tokenize text = pre ++ t :: post) (s rest : List Nat) (he : text = spellings pre ++ (s ++ rest))
    (hi : ∀ c ∈ s, IdentChar c) (hs : s ≠ []) (hd : ∀ c, s.head? = some c → ¬ (48 ≤ c ∧ c ≤ 57))
    (hp : ¬ LiteralPrefix s rest) (hr : ∀ c, rest.head? = some c → ¬ IdentChar c) :
    t.kind = .identifier ∧ t.spelling = s ∧ t.error = false ∧ t.hash = djb2 s := by
  obtain ⟨r, l, c, e1, e2, rfl⟩ := loop_split _ _ _ _ _ _ _ h
  have : r = s ++ rest := List.append_cancel_left (e1.symm.trans he)
  subst this
  have hsc := scan_identifier l c s rest hi hs hd hp hr
  have he := eat_ident s rest hi hs hr
  simp only [first, hsc, identifier, plain, he]
  refine ⟨trivial, ?_, trivial, ?_⟩
  · rw [List.take_left' rfl]
    simp
  · cases s with
    | nil => exact absurd rfl hs
    | cons a s =>
      have e : ((a :: s ++ rest).drop 1).take ((a :: s).length - 1) = s := by
        simp only [List.cons_append, List.drop_succ_cons, List.drop_zero, List.length_cons, Nat.add_sub_cancel]
        exact List.take_left' rfl
      have h0 : at' (a :: s ++ rest) 0 = a := rfl
      have e2 : (5381 * 2 ^ 5 + 5381 + a) % 2 ^ 64 = (5381 * 33 + a) % 2 ^ 64 := by omega
      rw [e, hash_eq, djb2, List.foldl_cons, h0, e2]

example : ¬ LiteralPrefix (bytes "u8x".toList) (bytes "\"a\"".toList) ∧
    (tokenize (bytes "u8x\"a\"".toList)).map (·.kind) = [.identifier, .stringLiteral] ∧
    (tokenize (bytes "u8\"a\"".toList)).map (·.kind) = [.stringLiteral] := by
  refine ⟨?_, by decide +kernel, by decide +kernel⟩
  unfold LiteralPrefix
  decide

end Verif.Props.Tokenize
