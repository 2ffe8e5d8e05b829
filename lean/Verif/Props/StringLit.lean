import Verif.Model.StringLit
import Verif.Props.Tokenize

/-!
# C03, C04: string literals
-/
namespace Verif.Props.StringLit
open Verif.StringLit Verif.Spec.StringLit Verif.Spec.Utf

/-! ## C04 -/

theorem parseHex_suffix (v : Nat) (o : Bool) (s : List Nat) :
    ∃ p, s = p ++ (parseHex v o s).2.2 ∧ ∀ c ∈ p, HexDigit c := by
  induction s generalizing v o with
  | nil => exact ⟨[], rfl, by simp⟩
  | cons c s ih =>
    simp only [parseHex]
    have go : ∀ v o, HexDigit c → ∃ p, c :: s = p ++ (parseHex v o s).2.2 ∧ ∀ c ∈ p, HexDigit c := by
      intro v o hc
      obtain ⟨p, h1, h2⟩ := ih v o
      refine ⟨c :: p, by rw [List.cons_append, ← h1], ?_⟩
      intro d hd
      rcases List.mem_cons.1 hd with rfl | hd
      · exact hc
      · exact h2 d hd
    split
    · rename_i h
      exact go _ _ (Or.inl ⟨h.2, h.1⟩)
    · split
      · rename_i h
        exact go _ _ (Or.inr (Or.inl ⟨h.2, h.1⟩))
      · split
        · rename_i h
          exact go _ _ (Or.inr (Or.inr ⟨h.2, h.1⟩))
        · exact ⟨[], rfl, by simp⟩

theorem octal_suffix (k v : Nat) (s : List Nat) : ∃ p, s = p ++ (octal k v s).2 ∧ ∀ c ∈ p, OctalDigit c := by
  induction k generalizing v s with
  | zero => exact ⟨[], rfl, by simp⟩
  | succ k ih =>
    cases s with
    | nil => exact ⟨[], rfl, by simp⟩
    | cons c s =>
      simp only [octal]
      split
      · rename_i h
        obtain ⟨p, h1, h2⟩ := ih (8 * v + (c - 48)) s
        refine ⟨c :: p, by rw [List.cons_append, ← h1], ?_⟩
        intro d hd
        rcases List.mem_cons.1 hd with rfl | hd
        · exact h
        · exact h2 d hd
      · exact ⟨[], rfl, by simp⟩

/-- What the rest of an escape sequence can be. -/
theorem escape_cases (max : Nat) (c : Nat) (s : List Nat) (e : Esc) (h : escape max (c :: s) = some e) :
    (c ||| 32 ≠ 117 ∧ ∃ p, s = p ++ e.rest ∧ (∀ d ∈ p, d ≠ 92)) ∨
    (c = 117 ∧ e = ucn 4 s) ∨ (c = 85 ∧ e = ucn 8 s) := by
  have oct : ∀ d, d ∈ [48, 49, 50, 51, 52, 53, 54, 55] → d ||| 32 ≠ 117 := by decide
  unfold escape at h
  dsimp only at h
  split at h
  all_goals try (rename_i c; cases h; exact Or.inl ⟨by decide, [], rfl, by simp⟩)
  all_goals try (cases h; exact Or.inl ⟨by decide, [], rfl, by simp⟩)
  · simp only [Option.some.injEq] at h
    subst h
    refine Or.inl ⟨by decide, ?_⟩
    simp only [hex]
    split
    · exact ⟨[], rfl, by simp⟩
    · obtain ⟨p, h1, h2⟩ := parseHex_suffix 0 false s
      refine ⟨p, h1, ?_⟩
      rintro d hd rfl
      exact absurd (h2 92 hd) (by decide)
  · simp only [Option.some.injEq] at h
    exact Or.inr (Or.inl ⟨rfl, h.symm⟩)
  · simp only [Option.some.injEq] at h
    exact Or.inr (Or.inr ⟨rfl, h.symm⟩)
  · split at h
    · rename_i hd
      simp only [Option.some.injEq] at h
      subst h
      refine Or.inl ⟨oct c (by simp; omega), ?_⟩
      obtain ⟨p, h1, h2⟩ := octal_suffix 2 (c - 48) s
      refine ⟨p, h1, ?_⟩
      rintro d hd rfl
      exact absurd (h2 92 hd) (by decide)
    · rename_i n1 n2 n3 n4 n5 n6 n7 n8 n9 n10 n11 n12 n13 nu nU hd
      simp only [Option.some.injEq] at h
      subst h
      refine Or.inl ⟨?_, [], rfl, by simp⟩
      intro e
      have hlt : c < 128 := by
        apply Nat.lt_of_not_le
        intro hge
        have : c ≤ c ||| 32 := Nat.left_le_or
        omega
      have : ∀ d < 128, d ||| 32 = 117 → d = 117 ∨ d = 85 := by decide
      rcases this c hlt e with rfl | rfl
      · exact nu rfl
      · exact nU rfl

theorem ucn_length (n : Nat) (s : List Nat) :
    (s.length < n ∧ (ucn n s).rest = [] ∧ (ucn n s).value = 0 ∧ (ucn n s).error = true) ∨
    (n ≤ s.length ∧ (ucn n s).rest = s.drop n) := by
  simp only [ucn]
  split
  · exact Or.inl ⟨by omega, rfl, rfl, rfl⟩
  · exact Or.inr ⟨by omega, rfl⟩

theorem encodeUtf8_length (cp : Nat) (us : List Nat) (h : encodeUtf8 cp = some us) :
    us.length ≤ 6 ∧ (cp < 128 → us.length = 1) := by
  unfold encodeUtf8 at h
  by_cases hc : cp < 128
  · rw [if_pos hc] at h
    simp only [Option.some.injEq] at h
    subst h
    exact ⟨by simp, by simp⟩
  · rw [if_neg hc] at h
    dsimp only at h
    split at h
    · cases h
    · rename_i hn
      simp only [Option.some.injEq] at h
      subst h
      refine ⟨?_, fun h => absurd h hc⟩
      simp only [List.length_cons, List.length_map, List.length_range]
      omega

theorem encodeUtf16_length (cp : Nat) (us : List Nat) (e : Bool) (h : encodeUtf16 cp = some (us, e)) :
    us.length ≤ 2 ∧ (cp < 0x10000 → us.length = 1) := by
  unfold encodeUtf16 at h
  dsimp only at h
  split at h
  · simp only [Option.some.injEq, Prod.mk.injEq] at h
    rw [← h.1]
    exact ⟨by simp, by simp⟩
  · split at h
    · simp only [Option.some.injEq, Prod.mk.injEq] at h
      rw [← h.1]
      exact ⟨by simp, fun h => by omega⟩
    · cases h

theorem continuation_suffix (k cp : Nat) (s : List Nat) (r : Nat × List Nat) (h : continuation k cp s = some r) :
    ∃ p, s = p ++ r.2 ∧ p.length = k ∧ ∀ c ∈ p, c ≠ 92 := by
  induction k generalizing cp s with
  | zero =>
    simp only [continuation, Option.some.injEq] at h
    subst h
    exact ⟨[], rfl, rfl, by simp⟩
  | succ k ih =>
    cases s with
    | nil => simp [continuation] at h
    | cons c s =>
      simp only [continuation] at h
      split at h
      · cases h
      · rename_i hc
        obtain ⟨p, h1, h2, h3⟩ := ih _ _ h
        refine ⟨c :: p, by rw [List.cons_append, ← h1], by simp [h2], ?_⟩
        intro d hd
        rcases List.mem_cons.1 hd with rfl | hd
        · rintro rfl
          exact hc (by decide)
        · exact h3 d hd

theorem readCodepoint_suffix (c : Nat) (hc : c < 256) (s : List Nat) (e : Esc) (h : readCodepoint c s = some e) :
    ∃ p, s = p ++ e.rest ∧ (∀ d ∈ p, d ≠ 92) ∧ (p = [] → e.value < 0x10000) := by
  unfold readCodepoint at h
  dsimp only at h
  split at h
  · simp only [Option.some.injEq] at h
    subst h
    exact ⟨[], rfl, by simp, fun _ => by show c < _; omega⟩
  · split at h
    · simp only [Option.some.injEq] at h
      subst h
      exact ⟨[], rfl, by simp, fun _ => by show 0 < _; omega⟩
    · split at h
      · cases h
      · split at h
        · rename_i r hr
          simp only [Option.some.injEq] at h
          subst h
          obtain ⟨p, h1, h2, h3⟩ := continuation_suffix _ _ _ _ hr
          refine ⟨p, h1, h3, ?_⟩
          rintro rfl
          rw [← h2] at hr
          simp only [List.length_nil, continuation, Option.some.injEq] at hr
          rw [Prod.mk.injEq] at hr
          rw [← hr.1]
          have : c &&& (2 ^ (8 - (0 + 1)) - 1) ≤ c := Nat.and_le_left
          have h5 := Nat.mod_le (2 ^ (6 * 0) * (c &&& (2 ^ (8 - (0 + 1)) - 1))) (2 ^ 32)
          rw [Nat.mul_zero, Nat.pow_zero, Nat.one_mul] at h5
          rw [Nat.mul_zero, Nat.pow_zero, Nat.one_mul]
          exact Nat.lt_of_le_of_lt h5 (by omega)
        · simp only [Option.some.injEq] at h
          subst h
          exact ⟨[], rfl, by simp, fun _ => by show 0 < _; omega⟩

theorem eatNewline_length (s s' : List Nat) (h : eatNewline s = some s') : s'.length < s.length := by
  unfold eatNewline at h
  split at h
  · cases h; simp
  · cases h; simp; omega
  · cases h; simp
  · cases h

/-- An iteration consumes at least one byte, and at least as many bytes as it writes units. -/
theorem step_consumes (k : Enc) (c : Nat) (hc : c < 256) (s : List Nat) (us rest : List Nat) (e : Bool)
    (h : step k (c :: s) = .out us rest e) : us.length + rest.length ≤ s.length + 1 ∧ rest.length ≤ s.length := by
  have hch : ∀ r, readCodepoint c s = some r → r.rest.length ≤ s.length ∧
      (0x10000 ≤ r.value → r.rest.length + 1 ≤ s.length) := by
    intro r hr
    obtain ⟨p, h1, _, h3⟩ := readCodepoint_suffix c hc s r hr
    have := congrArg List.length h1
    rw [List.length_append] at this
    refine ⟨by omega, fun hv => ?_⟩
    cases p with
    | nil => exact absurd (h3 rfl) (by omega)
    | cons a p => simp only [List.length_cons] at this; omega
  have hesc : ∀ max d s' r, s = d :: s' → escape max (d :: s') = some r → r.rest.length ≤ s'.length ∧
      (d ||| 32 = 117 → (r.value < 128 ∧ r.rest.length ≤ s'.length) ∨ r.rest.length + 4 ≤ s'.length) := by
    intro max d s' r hs hr
    rcases escape_cases max d s' r hr with ⟨h1, p, h2, _⟩ | ⟨rfl, h2⟩ | ⟨rfl, h2⟩
    · have := congrArg List.length h2
      rw [List.length_append] at this
      exact ⟨by omega, fun h => absurd h h1⟩
    · have := ucn_length 4 s'
      rw [← h2] at this
      rcases this with ⟨_, h3, h4, _⟩ | ⟨h3, h4⟩
      · rw [h3, h4]; simp
      · rw [h4, List.length_drop]; omega
    · have := ucn_length 8 s'
      rw [← h2] at this
      rcases this with ⟨_, h3, h4, _⟩ | ⟨h3, h4⟩
      · rw [h3, h4]; simp
      · rw [h4, List.length_drop]; omega
  simp only [step] at h
  split at h
  · unfold stepChar at h
    split at h
    · simp only [Step.out.injEq] at h
      obtain ⟨rfl, rfl, _⟩ := h
      simp; omega
    · split at h
      · cases h
      · rename_i r hr
        split at h
        · cases h
        · rename_i us' err hu
          simp only [Step.out.injEq] at h
          obtain ⟨rfl, rfl, _⟩ := h
          have h1 := hch r hr
          have h2 := encodeUtf16_length _ _ _ hu
          by_cases hv : r.value < 0x10000
          · have := h2.2 hv; omega
          · have := h1.2 (by omega); omega
    · split at h
      · cases h
      · rename_i r hr
        simp only [Step.out.injEq] at h
        obtain ⟨rfl, rfl, _⟩ := h
        have h1 := hch r hr
        simp only [List.length_cons, List.length_nil]
        omega
  · unfold stepEscape at h
    split at h
    · rename_i s' hn
      simp only [Step.out.injEq] at h
      obtain ⟨rfl, rfl, _⟩ := h
      have := eatNewline_length _ _ hn
      simp only [List.length_nil]
      omega
    · cases s with
      | nil =>
        split at h <;> simp [escape] at h
      | cons d s =>
        simp only [List.length_cons]
        split at h
        · split at h
          · cases h
          · rename_i r hr
            have h1 := hesc _ _ _ _ rfl hr
            split at h
            · rename_i hd
              have hd : d ||| 32 = 117 := by simpa [needsEncoding] using hd
              split at h
              · cases h
              · rename_i us' hu
                simp only [Step.out.injEq] at h
                obtain ⟨rfl, rfl, _⟩ := h
                have h2 := encodeUtf8_length _ _ hu
                rcases h1.2 hd with ⟨a, b⟩ | b
                · have := h2.2 a; omega
                · omega
            · simp only [Step.out.injEq] at h
              obtain ⟨rfl, rfl, _⟩ := h
              simp only [List.length_cons, List.length_nil]
              omega
        · split at h
          · cases h
          · rename_i r hr
            have h1 := hesc _ _ _ _ rfl hr
            split at h
            · rename_i hd
              have hd : d ||| 32 = 117 := by simpa [needsEncoding] using hd
              split at h
              · cases h
              · rename_i us' err hu
                simp only [Step.out.injEq] at h
                obtain ⟨rfl, rfl, _⟩ := h
                have h2 := encodeUtf16_length _ _ _ hu
                omega
            · simp only [Step.out.injEq] at h
              obtain ⟨rfl, rfl, _⟩ := h
              simp only [List.length_cons, List.length_nil]
              omega
        · split at h
          · cases h
          · rename_i r hr
            have h1 := hesc _ _ _ _ rfl hr
            simp only [Step.out.injEq] at h
            obtain ⟨rfl, rfl, _⟩ := h
            simp only [List.length_cons, List.length_nil]
            omega

theorem parseHex_all (v : Nat) (o : Bool) (s : List Nat) (h : (parseHex v o s).2.2 = []) : ∀ c ∈ s, HexDigit c := by
  obtain ⟨p, h1, h2⟩ := parseHex_suffix v o s
  rw [h, List.append_nil] at h1
  rw [h1]
  exact h2

/-- What an iteration leaves. -/
theorem step_rest (k : Enc) (c : Nat) (hc : c < 256) (s : List Nat) (us rest : List Nat) (e : Bool)
    (h : step k (c :: s) = .out us rest e) :
    (c ≠ 92 ∧ ∃ p, s = p ++ rest ∧ ∀ d ∈ p, d ≠ 92) ∨
    (c = 92 ∧ eatNewline s = some rest) ∨
    (c = 92 ∧ eatNewline s = none ∧ ∃ d s' p, s = d :: s' ∧ s' = p ++ rest ∧ (e = false → ∀ d ∈ p, d ≠ 92)) := by
  have hch : ∀ r, readCodepoint c s = some r → ∃ p, s = p ++ r.rest ∧ ∀ d ∈ p, d ≠ 92 := by
    intro r hr
    obtain ⟨p, h1, h2, _⟩ := readCodepoint_suffix c hc s r hr
    exact ⟨p, h1, h2⟩
  have hesc : ∀ max d s' r, escape max (d :: s') = some r →
      ∃ p, s' = p ++ r.rest ∧ (r.error = false → ∀ d ∈ p, d ≠ 92) := by
    intro max d s' r hr
    have hu : ∀ n, r = ucn n s' → ∃ p, s' = p ++ r.rest ∧ (r.error = false → ∀ d ∈ p, d ≠ 92) := by
      rintro n rfl
      rcases ucn_length n s' with ⟨_, h3, _, h5⟩ | ⟨h3, h4⟩
      · exact ⟨s', by rw [h3, List.append_nil], fun h => by rw [h5] at h; cases h⟩
      · refine ⟨s'.take n, by rw [h4, List.take_append_drop], fun he => ?_⟩
        rw [ucn, if_neg (by omega)] at he
        have := parseHex_all 0 false (s'.take n) (by simpa using he)
        rintro d hd rfl
        exact absurd (this 92 hd) (by decide)
    rcases escape_cases max d s' r hr with ⟨_, p, h1, h2⟩ | ⟨_, h2⟩ | ⟨_, h2⟩
    · exact ⟨p, h1, fun _ => h2⟩
    · exact hu 4 h2
    · exact hu 8 h2
  simp only [step] at h
  split at h
  · rename_i hc92
    refine Or.inl ⟨hc92, ?_⟩
    unfold stepChar at h
    split at h
    · simp only [Step.out.injEq] at h
      obtain ⟨rfl, rfl, _⟩ := h
      exact ⟨[], rfl, by simp⟩
    · split at h
      · cases h
      · rename_i r hr
        split at h
        · cases h
        · rename_i us' err hu
          simp only [Step.out.injEq] at h
          obtain ⟨rfl, rfl, _⟩ := h
          exact hch r hr
    · split at h
      · cases h
      · rename_i r hr
        simp only [Step.out.injEq] at h
        obtain ⟨rfl, rfl, _⟩ := h
        exact hch r hr
  · rename_i hc92
    have hc92 : c = 92 := by omega
    unfold stepEscape at h
    split at h
    · rename_i s' hn
      simp only [Step.out.injEq] at h
      obtain ⟨rfl, rfl, _⟩ := h
      exact Or.inr (Or.inl ⟨hc92, hn⟩)
    · rename_i hn
      refine Or.inr (Or.inr ⟨hc92, hn, ?_⟩)
      cases s with
      | nil => split at h <;> simp [escape] at h
      | cons d s =>
        have fin : ∀ r : Esc, (∃ p, s = p ++ r.rest ∧ (r.error = false → ∀ d ∈ p, d ≠ 92)) → r.rest = rest →
            (e = false → r.error = false) →
            ∃ d' s' p, d :: s = d' :: s' ∧ s' = p ++ rest ∧ (e = false → ∀ d ∈ p, d ≠ 92) := by
          rintro r ⟨p, h1, h2⟩ rfl h4
          exact ⟨d, s, p, rfl, h1, fun he => h2 (h4 he)⟩
        split at h
        · split at h
          · cases h
          · rename_i r hr
            have h1 := hesc _ _ _ _ hr
            split at h
            · split at h
              · cases h
              · simp only [Step.out.injEq] at h
                exact fin r h1 h.2.1 (fun he => h.2.2.trans he)
            · simp only [Step.out.injEq] at h
              exact fin r h1 h.2.1 (fun he => h.2.2.trans he)
        · split at h
          · cases h
          · rename_i r hr
            have h1 := hesc _ _ _ _ hr
            split at h
            · split at h
              · cases h
              · simp only [Step.out.injEq] at h
                refine fin r h1 h.2.1 (fun he => ?_)
                have := h.2.2.trans he
                simp only [Bool.or_eq_false_iff] at this
                exact this.1
            · simp only [Step.out.injEq] at h
              exact fin r h1 h.2.1 (fun he => h.2.2.trans he)
        · split at h
          · cases h
          · rename_i r hr
            have h1 := hesc _ _ _ _ hr
            simp only [Step.out.injEq] at h
            exact fin r h1 h.2.1 (fun he => h.2.2.trans he)

theorem eatNewline_suffix (s s' : List Nat) (h : eatNewline s = some s') : ∃ p, s = p ++ s' := by
  unfold eatNewline at h
  split at h
  · cases h; exact ⟨[10], rfl⟩
  · cases h; exact ⟨[13, 10], rfl⟩
  · cases h; exact ⟨[13], rfl⟩
  · cases h

theorem step_suffix (k : Enc) (c : Nat) (hc : c < 256) (s : List Nat) (us rest : List Nat) (e : Bool)
    (h : step k (c :: s) = .out us rest e) : ∃ p, c :: s = p ++ rest := by
  rcases step_rest k c hc s us rest e h with ⟨_, p, h1, _⟩ | ⟨_, h1⟩ | ⟨_, _, d, s', p, h1, h2, _⟩
  · exact ⟨c :: p, by rw [List.cons_append, ← h1]⟩
  · obtain ⟨p, h2⟩ := eatNewline_suffix _ _ h1
    exact ⟨c :: p, by rw [List.cons_append, ← h2]⟩
  · exact ⟨c :: d :: p, by rw [h1, h2]; rfl⟩

theorem run_bounds (k : Enc) (size fuel : Nat) (out : List Nat) (e : Bool) (s : List Nat) (hb : ∀ c ∈ s, c < 256)
    (hf : s.length ≤ fuel) (hs : out.length + s.length ≤ size) :
    run k size fuel out e s ≠ .overrun ∧ run k size fuel out e s ≠ .running ∧
    ∀ out' e', run k size fuel out e s = .ok out' e' → out'.length ≤ out.length + s.length := by
  induction fuel generalizing out e s with
  | zero =>
    cases s with
    | nil => simp [run]
    | cons c s => simp at hf
  | succ fuel ih =>
    cases s with
    | nil => simp [run]
    | cons c s =>
      rw [run]
      · cases hst : step k (c :: s) with
        | out us rest e1 =>
          have hl := step_consumes k c (hb c List.mem_cons_self) s us rest e1 hst
          obtain ⟨p, hp⟩ := step_suffix k c (hb c List.mem_cons_self) s us rest e1 hst
          simp only [List.length_cons] at hf hs ⊢
          rw [if_neg (by omega)]
          obtain ⟨h1, h2, h3⟩ := ih (out ++ us) (e || e1) rest
            (fun d hd => hb d (by rw [hp]; exact List.mem_append_right _ hd)) (by omega)
            (by rw [List.length_append]; omega)
          refine ⟨h1, h2, fun out' e' h => ?_⟩
          have := h3 out' e' h
          rw [List.length_append] at this
          omega
        | pastEnd => simp
        | assertion => simp
        | ub => simp
      · simp

theorem runAll_bounds (k : Enc) (size : Nat) (out : List Nat) (e : Bool) (strings : List (List Nat))
    (hb : ∀ s ∈ strings, ∀ c ∈ s, c < 256) (hs : out.length + (strings.map List.length).sum ≤ size) :
    runAll k size out e strings ≠ .overrun ∧ runAll k size out e strings ≠ .running := by
  induction strings generalizing out e with
  | nil => simp [runAll]
  | cons s strings ih =>
    simp only [List.map_cons, List.sum_cons] at hs
    obtain ⟨h1, h2, h3⟩ := run_bounds k size s.length out e s (hb s List.mem_cons_self) (Nat.le_refl _) (by omega)
    rw [runAll]
    cases hr : run k size s.length out e s with
    | ok out' e' =>
      have := h3 _ _ hr
      exact ih out' e' (fun s hs => hb s (List.mem_cons_of_mem _ hs)) (by omega)
    | overrun => exact absurd hr h1
    | running => exact absurd hr h2
    | pastEnd => simp
    | assertion => simp
    | ub => simp

/-- C04: whatever bytes the strings consist of, the conversion ends, and it never writes behind the buffer, which has one
element per source byte. -/
theorem C04_in_bounds (k : Enc) (strings : List (List Nat)) (hb : ∀ s ∈ strings, ∀ c ∈ s, c < 256) :
    convert k strings ≠ .overrun ∧ convert k strings ≠ .running :=
  runAll_bounds k _ [] false strings hb (by simp)

/-- The buffer is used to the last element. -/
example : convert .utf16 [[97, 98], [0xC3, 0xA9]] = .ok [97, 98, 233] false := by decide +kernel

example : convert .utf8 [[92, 85, 48, 48, 48, 49, 70, 54, 48, 48]] = .ok [0xF0, 0x9F, 0x98, 0x80] false := by decide +kernel

/-! ### Strings do not end in a backslash -/

/-- No backslash is the last character, if a backslash and the character after it belong together. -/
inductive Closed : List Nat → Prop where
  | nil : Closed []
  | char (c : Nat) (s : List Nat) : c ≠ 92 → Closed s → Closed (c :: s)
  | crlf (s : List Nat) : Closed s → Closed (92 :: 13 :: 10 :: s)
  | escape (c : Nat) (s : List Nat) : c ≠ 13 ∨ s.head? ≠ some 10 → Closed s → Closed (92 :: c :: s)

theorem Closed.drop {p s : List Nat} (h : Closed (p ++ s)) (hp : ∀ c ∈ p, c ≠ 92) : Closed s := by
  induction p with
  | nil => exact h
  | cons c p ih =>
    have hc := hp c List.mem_cons_self
    rw [List.cons_append] at h
    refine ih ?_ (fun d hd => hp d (List.mem_cons_of_mem _ hd))
    generalize p ++ s = x at h
    cases h with
    | char _ _ _ h => exact h
    | crlf => exact absurd rfl hc
    | escape => exact absurd rfl hc

theorem Closed.newline {s s' : List Nat} (h : Closed (92 :: s)) (hn : eatNewline s = some s') : Closed s' := by
  cases h with
  | char _ _ h => exact absurd rfl h
  | crlf s h =>
    simp only [eatNewline, Option.some.injEq] at hn
    rwa [← hn]
  | escape c s hc h =>
    unfold eatNewline at hn
    split at hn
    · rename_i e
      simp only [List.cons.injEq] at e
      rw [e.2] at h
      cases hn
      exact h
    · rename_i e
      simp only [List.cons.injEq] at e
      rw [e.2] at hc
      rcases hc with hc | hc
      · exact absurd e.1 hc
      · exact absurd rfl hc
    · rename_i e
      simp only [List.cons.injEq] at e
      rw [e.2] at h
      cases hn
      exact h
    · cases hn

theorem Closed.step {k : Enc} {c : Nat} {s : List Nat} (hc : c < 256) {us rest : List Nat}
    (h : step k (c :: s) = .out us rest false) (hcl : Closed (c :: s)) : Closed rest := by
  rcases step_rest k c hc s us rest false h with ⟨h1, p, rfl, h2⟩ | ⟨rfl, h1⟩ | ⟨rfl, hn, d, s', p, rfl, rfl, h2⟩
  · exact Closed.drop (p := c :: p) hcl (fun d hd => by
      rcases List.mem_cons.1 hd with rfl | hd
      · exact h1
      · exact h2 d hd)
  · exact hcl.newline h1
  · have h2 := h2 rfl
    generalize hx : p ++ rest = x at hcl hn
    cases hcl with
    | char _ _ h => exact absurd rfl h
    | crlf => simp [eatNewline] at hn
    | escape _ _ _ h =>
      rw [← hx] at h
      exact h.drop h2

theorem Closed.not_pastEnd {k : Enc} {c : Nat} {s : List Nat} (h : Verif.StringLit.step k (c :: s) = .pastEnd) :
    ¬ Closed (c :: s) := by
  have : c = 92 ∧ s = [] := by
    simp only [Verif.StringLit.step] at h
    split at h
    · unfold stepChar at h
      split at h
      · cases h
      · split at h
        · cases h
        · split at h <;> cases h
      · split at h <;> cases h
    · refine ⟨by omega, ?_⟩
      unfold stepEscape at h
      split at h
      · cases h
      · have hsome : ∀ max d s', Verif.StringLit.escape max (d :: s') ≠ none := by
          intro max d s'
          unfold Verif.StringLit.escape
          dsimp only
          split
          all_goals try simp
          split <;> simp
        cases s with
        | nil => rfl
        | cons d s =>
          exfalso
          split at h
          · split at h
            · rename_i hn; exact hsome _ _ _ hn
            · split at h
              · split at h <;> cases h
              · cases h
          · split at h
            · rename_i hn; exact hsome _ _ _ hn
            · split at h
              · split at h <;> cases h
              · cases h
          · split at h
            · rename_i hn; exact hsome _ _ _ hn
            · cases h
  rintro hcl
  obtain ⟨rfl, rfl⟩ := this
  cases hcl with
  | char _ _ h => exact absurd rfl h

theorem run_pastEnd (k : Enc) (size fuel : Nat) (out : List Nat) (e : Bool) (s : List Nat) (hb : ∀ c ∈ s, c < 256)
    (hc : e = false → Closed s) : run k size fuel out e s ≠ .pastEnd false := by
  induction fuel generalizing out e s with
  | zero =>
    cases s with
    | nil => simp [run]
    | cons c s => simp [run]
  | succ fuel ih =>
    cases s with
    | nil => simp [run]
    | cons c s =>
      rw [run]
      · cases hst : step k (c :: s) with
        | out us rest e1 =>
          obtain ⟨p, hp⟩ := step_suffix k c (hb c List.mem_cons_self) s us rest e1 hst
          dsimp only
          split
          · simp
          · refine ih _ _ _ (fun d hd => hb d (by rw [hp]; exact List.mem_append_right _ hd)) (fun he => ?_)
            simp only [Bool.or_eq_false_iff] at he
            rw [he.2] at hst
            exact Closed.step (hb c List.mem_cons_self) hst (hc he.1)
        | pastEnd =>
          dsimp only
          intro h
          simp only [Outcome.pastEnd.injEq] at h
          exact Closed.not_pastEnd hst (hc h)
        | assertion => simp
        | ub => simp
      · simp

theorem runAll_pastEnd (k : Enc) (size : Nat) (out : List Nat) (e : Bool) (strings : List (List Nat))
    (hb : ∀ s ∈ strings, ∀ c ∈ s, c < 256) (hc : ∀ s ∈ strings, Closed s) :
    runAll k size out e strings ≠ .pastEnd false := by
  induction strings generalizing out e with
  | nil => simp [runAll]
  | cons s strings ih =>
    have h1 := run_pastEnd k size s.length out e s (hb s List.mem_cons_self) (fun _ => hc s List.mem_cons_self)
    rw [runAll]
    cases hr : run k size s.length out e s with
    | ok out' e' =>
      exact ih out' e' (fun s hs => hb s (List.mem_cons_of_mem _ hs)) (fun s hs => hc s (List.mem_cons_of_mem _ hs))
    | pastEnd e' =>
      dsimp only
      rw [hr] at h1
      exact h1
    | overrun => simp
    | running => simp
    | assertion => simp
    | ub => simp

open Verif.Tokenize in
theorem quoted_closed (q : Nat) (hq : q ≠ 92) (m : List Nat) (n l : Nat) (h : quoted q m = (n, l, false)) :
    ∃ body rest, m = body ++ q :: rest ∧ n = body.length + 1 ∧ Closed body := by
  induction hm : m.length using Nat.strongRecOn generalizing m n l with
  | ind len ih =>
    subst hm
    rw [quoted.eq_def] at h
    split at h
    · simp at h
    · rename_i c
      split at h
      · simp at h
      · split at h
        · rename_i hc
          simp only [Prod.mk.injEq] at h
          exact ⟨[], [], by simp [hc], by simp [← h.1], .nil⟩
        · split at h <;> simp at h
    · rename_i c d m
      split at h
      · rename_i hc
        subst hc
        split at h
        · rename_i hd
          match m, hd with
          | e :: m, hd =>
            simp only [List.tail_cons] at h
            simp only [at', List.getD_cons_zero] at hd
            simp only [Prod.mk.injEq] at h
            obtain ⟨body, rest, h1, h2, h3⟩ := ih m.length (by simp; omega) m (quoted q m).1 (quoted q m).2.1
              (by rw [← h.2.2]) rfl
            refine ⟨92 :: 13 :: 10 :: body, rest, ?_, ?_, .crlf _ h3⟩
            · rw [hd.1, hd.2, h1]; rfl
            · simp only [List.length_cons]
              rw [← h.1, h2]
          | [], hd => simp [at'] at hd
        · rename_i hd
          simp only [Prod.mk.injEq] at h
          obtain ⟨body, rest, h1, h2, h3⟩ := ih m.length (by simp; omega) m (quoted q m).1 (quoted q m).2.1
            (by rw [← h.2.2]) rfl
          refine ⟨92 :: d :: body, rest, ?_, ?_, .escape _ _ ?_ h3⟩
          · rw [h1]; rfl
          · simp only [List.length_cons]
            rw [← h.1, h2]
          · by_cases hd1 : d = 13
            · refine Or.inr (fun hb => hd ⟨hd1, ?_⟩)
              cases body with
              | nil => simp at hb
              | cons b body =>
                simp only [List.head?_cons, Option.some.injEq] at hb
                rw [h1, hb]
                rfl
            · exact Or.inl hd1
      · rename_i hc
        split at h
        · rename_i hc
          simp only [Prod.mk.injEq] at h
          exact ⟨[], d :: m, by simp [hc], by simp [← h.1], .nil⟩
        · split at h
          · simp at h
          · simp only [Prod.mk.injEq] at h
            obtain ⟨body, rest, h1, h2, h3⟩ := ih (d :: m).length (by simp) (d :: m) (quoted q (d :: m)).1
              (quoted q (d :: m)).2.1 (by rw [← (Prod.mk.inj h.2).2]) rfl
            refine ⟨c :: body, rest, ?_, ?_, .char _ _ hc h3⟩
            · rw [h1]; rfl
            · simp only [List.length_cons]
              rw [← h.1, h2]

section
open Verif.Tokenize Verif.Spec.Token Verif.Props.Tokenize

theorem numbers_kind (m : List Nat) (i : Nat) (k : Kind) : (numbers m i k).1 = k ∨ (numbers m i k).1 = .floatLiteral := by
  simp only [numbers]
  split <;> split <;> simp

theorem hexNumbers_kind (m : List Nat) : (hexNumbers m).1 ≠ .stringLiteral := by
  simp only [hexNumbers]
  split
  · simp
  · split <;> simp

theorem zero_kind (l c : Nat) (m : List Nat) : (zero l c m).kind ≠ .stringLiteral := by
  simp only [zero]
  split
  · exact hexNumbers_kind m
  · split
    · simp [plain]
    · split
      · simp [plain]
      · split
        · rcases numbers_kind m 1 .octalLiteral with h | h <;> simp [plain, h]
        · rcases numbers_kind m 0 .base10Literal with h | h <;> simp [plain, h]

theorem backslash_kind (l c : Nat) (m : List Nat) : (backslash l c m).kind ≠ .stringLiteral := by
  simp only [backslash]
  split
  · split <;> simp
  · split
    · simp
    · simp [plain]

theorem split1 {m : List Nat} {a : Nat} (h : at' m 0 = a) (ha : a ≠ 0) : ∃ r, m = a :: r := by
  cases m with
  | nil => simp [at'] at h; omega
  | cons x m => exact ⟨m, by rw [at'_cons_zero] at h; rw [h]⟩

theorem split2 {m : List Nat} {a b : Nat} (h : at' m 0 = a) (ha : a ≠ 0) (h1 : at' m 1 = b) (hb : b ≠ 0) :
    ∃ r, m = a :: b :: r := by
  obtain ⟨r, rfl⟩ := split1 h ha
  obtain ⟨r, rfl⟩ := split1 (m := r) (a := b) (by simpa [at'] using h1) hb
  exact ⟨r, rfl⟩

theorem split3 {m : List Nat} {a b c : Nat} (h : at' m 0 = a) (ha : a ≠ 0) (h1 : at' m 1 = b) (hb : b ≠ 0)
    (h2 : at' m 2 = c) (hc : c ≠ 0) : ∃ r, m = a :: b :: c :: r := by
  obtain ⟨r, rfl⟩ := split2 h ha h1 hb
  obtain ⟨r, rfl⟩ := split1 (m := r) (a := c) (by simpa [at'] using h2) hc
  exact ⟨r, rfl⟩

theorem scan_string (l c : Nat) (m : List Nat) (h : (scan l c m).kind = .stringLiteral) :
    ∃ p : Prefix, scan l c m = stringLiteral l c m p.spelling.length ∧ ∃ r, m = p.spelling ++ 34 :: r := by
  revert h
  unfold scan
  dsimp only
  split
  all_goals rename_i h0
  all_goals try (intro h; exact absurd h (backslash_kind l c m))
  all_goals try (intro h; exact absurd h (zero_kind l c m))
  all_goals try (intro h; cases h; done)
  all_goals try (intro _; exact ⟨.none, rfl, split1 h0 (by omega)⟩)
  all_goals
    try (intro h; rcases numbers_kind m 0 .base10Literal with e | e <;> simp [plain, e] at h <;> done)
  all_goals (repeat' split)
  all_goals try (intro h; cases h; done)
  all_goals try (intro h; rcases numbers_kind m 0 .base10Literal with e | e <;> simp [plain, e] at h <;> done)
  all_goals intro _
  · rename_i h1 _
    exact ⟨.L, rfl, split2 h0 (by decide) h1 (by decide)⟩
  · rename_i h1 _
    exact ⟨.U, rfl, split2 h0 (by decide) h1 (by decide)⟩
  · rename_i h1 _
    exact ⟨.u, rfl, split2 h0 (by decide) h1 (by decide)⟩
  · rename_i h1 _
    exact ⟨.u8, rfl, split3 h0 (by decide) h1.1 (by decide) h1.2 (by decide)⟩

/-- A string literal without error is a prefix, a quote, a body and a quote. -/
theorem token_string (text : List Nat) (t : Out) (ht : t ∈ tokenize text) (hk : t.kind = .stringLiteral)
    (he : t.error = false) :
    ∃ (p : Prefix) (body : List Nat), t.spelling = p.spelling ++ 34 :: body ++ [34] ∧ Closed body ∧
      ∀ c ∈ body, c ∈ text := by
  obtain ⟨pre, post, h⟩ := List.append_of_mem ht
  obtain ⟨m, l, c, e1, e2, rfl⟩ := loop_split _ _ _ _ _ _ _ h
  simp only [first] at hk he ⊢
  obtain ⟨p, h1, r, h2⟩ := scan_string l c m hk
  rw [h1] at he ⊢
  simp only [stringLiteral] at he ⊢
  have hd : m.drop (p.spelling.length + 1) = r := by
    rw [h2]
    cases p <;> rfl
  rw [hd] at he ⊢
  obtain ⟨body, rest, h3, h4, h5⟩ := quoted_closed 34 (by decide) r (quoted 34 r).1 (quoted 34 r).2.1 (by rw [← he])
  refine ⟨p, body, ?_, h5, fun c hc => by
    rw [e1, h2, h3]
    simp [hc]⟩
  rw [h4, h2, h3]
  have e : p.spelling.length + 1 + (body.length + 1) = (p.spelling ++ 34 :: body ++ [34]).length := by simp; omega
  have e' : p.spelling ++ 34 :: (body ++ 34 :: rest) = (p.spelling ++ 34 :: body ++ [34]) ++ rest := by simp
  rw [e, e', List.take_left, Nat.sub_eq_zero_of_le (by rw [List.length_append (bs := rest)]; exact Nat.le_add_right _ _)]
  simp

end

theorem stripToken_spell (p : Prefix) (body : List Nat) :
    stripToken 34 (p.spelling ++ 34 :: body ++ [34]) = (some p.enc, body) := by
  cases p <;> simp [stripToken, Prefix.spelling, Prefix.enc, prefixToKind]

/-- C04: the character after the end of a string is only read when an error was reported before, if the strings are string
literals of the tokenizer. -/
theorem C04_not_past_end (text : List Nat) (hb : ∀ c ∈ text, c < 256) (tokens : List Verif.Tokenize.Out)
    (ht : ∀ t ∈ tokens, t ∈ Verif.Tokenize.tokenize text ∧ t.kind = .stringLiteral ∧ t.error = false) (k : Enc) :
    literal (tokens.map (·.spelling)) ≠ some (k, .pastEnd false) := by
  intro h
  unfold literal at h
  dsimp only at h
  split at h
  · cases h
  · simp only [Option.some.injEq, Prod.mk.injEq] at h
    refine runAll_pastEnd _ _ [] false _ ?_ ?_ h.2
    all_goals
      intro s hs
      simp only [List.map_map, List.mem_map, Function.comp] at hs
      obtain ⟨t, ht', rfl⟩ := hs
      obtain ⟨h1, h2, h3⟩ := ht t ht'
      obtain ⟨p, body, h4, h5, h6⟩ := token_string text t h1 h2 h3
      rw [h4, stripToken_spell]
    · exact fun c hc => hb c (h6 c hc)
    · exact h5

end Verif.Props.StringLit
