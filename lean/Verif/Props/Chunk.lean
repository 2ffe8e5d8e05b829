import Verif.Model.Chunk
import Verif.Spec.Chunk

/-!
# C48: splitting a file into top-level declarations
-/

namespace Verif.Props.Chunk

open Verif.Chunk Verif.Spec.Chunk

/-! ## Nothing is lost -/

/-- The token that is parsed for a token of the file. -/
def Same (out inp : Tok) : Prop := out = inp ∨ (inp = .func ∧ ∃ f, out = .nameLiteral f)

theorem skip_split {o c} : ∀ (ts : List Tok) (n : Nat) (w r), skip o c n ts = some (w, r) → ts = w ++ r ∧ w ≠ []
  | [], _, _, _, h => by cases h
  | t :: ts, n, w, r, h => by
    have key : ∀ m, (skip o c m ts).map (fun (w, r) => (t :: w, r)) = some (w, r) → t :: ts = w ++ r ∧ w ≠ [] := by
      intro m hm
      obtain ⟨⟨w', r'⟩, h1, h2⟩ := Option.map_eq_some_iff.1 hm
      cases h2
      rw [(skip_split ts m _ _ h1).1]
      exact ⟨rfl, List.cons_ne_nil _ _⟩
    unfold skip at h
    split at h
    · split at h
      · cases h; exact ⟨rfl, List.cons_ne_nil _ _⟩
      · exact key _ h
    · split at h
      · exact key _ h
      · exact key _ h

/-- Two lists of the same length that are equal up to `Same`. -/
inductive Sames : List Tok → List Tok → Prop
  | nil : Sames [] []
  | cons {a b as bs} : Same a b → Sames as bs → Sames (a :: as) (b :: bs)

theorem Sames.refl : ∀ ts, Sames ts ts
  | [] => .nil
  | _ :: ts => .cons (.inl rfl) (Sames.refl ts)

theorem Sames.append {a b c d} (h : Sames a b) (h' : Sames c d) : Sames (a ++ c) (b ++ d) := by
  induction h with
  | nil => exact h'
  | cons h _ ih => exact .cons h ih

theorem body_split {name} : ∀ (ts : List Tok) (n : Nat) (w r), body name n ts = some (w, r) → ∃ w', ts = w' ++ r ∧ Sames w w' ∧ w' ≠ []
  | [], _, _, _, h => by cases h
  | t :: ts, n, w, r, h => by
    have key : ∀ m t', Same t' t → (body name m ts).map (fun (w, r) => (t' :: w, r)) = some (w, r) →
        ∃ w', t :: ts = w' ++ r ∧ Sames w w' ∧ w' ≠ [] := by
      intro m t' ht hm
      obtain ⟨⟨w', r'⟩, h1, h2⟩ := Option.map_eq_some_iff.1 hm
      cases h2
      obtain ⟨w'', h3, h4, _⟩ := body_split ts m _ _ h1
      exact ⟨t :: w'', by rw [h3]; rfl, .cons ht h4, List.cons_ne_nil _ _⟩
    unfold body at h
    split at h
    · split at h
      · cases h; exact ⟨[t], rfl, Sames.refl _, List.cons_ne_nil _ _⟩
      · exact key _ t (.inl rfl) h
    · split at h
      · exact key _ t (.inl rfl) h
      · split at h
        · rename_i ht
          split at h
          · exact key _ _ (.inr ⟨ht, _, rfl⟩) h
          · cases h
        · exact key _ t (.inl rfl) h

theorem maybeParens_split {ts w r} (h : maybeParens ts = some (w, r)) : ts = w ++ r := by
  unfold maybeParens at h
  split at h
  · obtain ⟨⟨w', r'⟩, h1, h2⟩ := Option.map_eq_some_iff.1 h
    cases h2
    rw [(skip_split _ _ _ _ h1).1]; rfl
  · cases h; rfl

theorem maybeCurly_split {ts w r} (h : maybeCurly ts = some (w, r)) : ts = w ++ r := by
  unfold maybeCurly at h
  split at h
  · obtain ⟨⟨w', r'⟩, h1, h2⟩ := Option.map_eq_some_iff.1 h
    cases h2
    rw [(skip_split _ _ _ _ h1).1]; rfl
  · cases h; rfl

theorem maybeIdent_split (ts : List Tok) : ts = (maybeIdent ts).1 ++ (maybeIdent ts).2 := by
  unfold maybeIdent; split <;> rfl

theorem declspecs_split : ∀ (f : Nat) (ts w r), declspecs f ts = some (w, r) → ts = w ++ r
  | 0, ts, w, r, h => by unfold declspecs at h; cases h; rfl
  | f + 1, ts, w, r, h => by
    unfold declspecs at h
    split at h
    · rename_i f' ts' hf
      cases hf
      split at h
      · cases h
      · rename_i w1 r1 h1
        obtain ⟨⟨w', r'⟩, h2, h3⟩ := Option.map_eq_some_iff.1 h
        cases h3
        rw [maybeParens_split h1, declspecs_split f _ _ _ h2]
        simp
    · cases h; rfl

theorem afterTag_split {ts w r} (h : afterTag ts = some (w, r)) : ts = w ++ r := by
  unfold afterTag at h
  split at h
  · cases h
  · rename_i w1 r1 h1
    dsimp only at h
    obtain ⟨⟨w', r'⟩, h2, h3⟩ := Option.map_eq_some_iff.1 h
    cases h3
    rw [declspecs_split _ _ _ _ h1]
    conv => lhs; rw [maybeIdent_split r1, maybeCurly_split h2]
    simp

theorem init_split : ∀ (f : Nat) (ts w b r), Verif.Chunk.init f ts = some (w, b, r) → ts = w ++ r
  | 0, ts, w, b, r, h => by unfold Verif.Chunk.init at h; cases h; rfl
  | f + 1, [], w, b, r, h => by unfold Verif.Chunk.init at h; cases h; rfl
  | f + 1, t :: ts, w, b, r, h => by
    unfold Verif.Chunk.init at h
    split at h
    · split at h
      · cases h
      · rename_i w1 r1 h1
        obtain ⟨⟨w', b', r'⟩, h2, h3⟩ := Option.map_eq_some_iff.1 h
        cases h3
        rw [(skip_split _ _ _ _ h1).1, init_split f _ _ _ _ h2]
        simp
    · split at h
      · cases h; rfl
      · split at h
        · cases h; rfl
        · obtain ⟨⟨w', b', r'⟩, h2, h3⟩ := Option.map_eq_some_iff.1 h
          cases h3
          rw [init_split f _ _ _ _ h2]; rfl

theorem scan_split : ∀ (f : Nat) (fl : Flags) (ts w g r), scan f fl ts = some (w, g, r) →
    ∃ w', ts = w' ++ r ∧ Sames w w' ∧ (0 < f → ts ≠ [] → w' ≠ [])
  | 0, fl, ts, w, g, r, h => by unfold scan at h; cases h; exact ⟨[], rfl, .nil, fun h => absurd h (by omega)⟩
  | f + 1, fl, [], w, g, r, h => by unfold scan at h; cases h; exact ⟨[], rfl, .nil, fun _ h => absurd rfl h⟩
  | f + 1, fl, t :: ts, w, g, r, h => by
    have pre : ∀ w1 g1 fl' r1, ts = w1 ++ r1 → prepend (t :: w1) g1 (scan f fl' r1) = some (w, g, r) →
        ∃ w', t :: ts = w' ++ r ∧ Sames w w' ∧ (0 < f + 1 → t :: ts ≠ [] → w' ≠ []) := by
      intro w1 g1 fl' r1 h1 h2
      obtain ⟨⟨w2, g2, r2⟩, h3, h4⟩ := Option.map_eq_some_iff.1 h2
      cases h4
      obtain ⟨w3, h5, h6, _⟩ := scan_split f fl' r1 _ _ _ h3
      refine ⟨t :: w1 ++ w3, ?_, Sames.append (Sames.refl _) h6, fun _ _ => by simp⟩
      rw [h1, h5]; simp
    have fin : ∀ w1 r1, ts = w1 ++ r1 → (t :: w1, ([] : List Reg), r1) = (w, g, r) →
        ∃ w', t :: ts = w' ++ r ∧ Sames w w' ∧ (0 < f + 1 → t :: ts ≠ [] → w' ≠ []) := by
      intro w1 r1 h1 h2
      cases h2
      exact ⟨t :: w1, by rw [h1]; rfl, Sames.refl _, fun _ _ => by simp⟩
    unfold scan at h
    split at h
    · exact pre [] _ _ _ rfl h
    · split at h
      · cases h
      · rename_i h1; exact pre _ _ _ _ (afterTag_split h1) h
    · split at h
      · cases h
      · rename_i h1; exact pre _ _ _ _ (maybeParens_split h1) h
    · exact pre [] _ _ _ rfl h
    · exact pre [] _ _ _ rfl h
    · exact pre [] _ _ _ rfl h
    · split at h
      · exact pre [] _ _ _ rfl h
      · exact pre [] _ _ _ rfl h
    · split at h
      · cases h
      · rename_i h1; exact fin _ _ (init_split _ _ _ _ _ h1) (Option.some.inj h)
      · rename_i h1; exact pre _ _ _ _ (init_split _ _ _ _ _ h1) h
    · exact pre [] _ _ _ rfl h
    · exact fin [] _ rfl (Option.some.inj h)
    · split at h
      · cases h
      · rename_i w1 r1 h1
        cases h
        obtain ⟨w', h2, h3, _⟩ := body_split _ _ _ _ h1
        exact ⟨.openCurly :: w', by rw [h2]; rfl, .cons (.inl rfl) h3, fun _ _ => by simp⟩
    · split at h
      · split at h
        · cases h
        · rename_i h1; exact pre _ _ _ _ (skip_split _ _ _ _ h1).1 h
      · exact pre [] _ _ _ rfl h
    · split at h
      · cases h
      · rename_i h1; exact pre _ _ _ _ (skip_split _ _ _ _ h1).1 h
    · split at h
      · cases h
      · rename_i h1; exact pre _ _ _ _ (maybeParens_split h1) h
    · exact pre [] _ _ _ rfl h

theorem Sames.ne_nil {a b} (h : Sames a b) (hb : b ≠ []) : a ≠ [] := by
  cases h with
  | nil => exact absurd rfl hb
  | cons => exact List.cons_ne_nil _ _

theorem chunks_split : ∀ (f : Nat) (ts cs g), ts.length ≤ f → chunks f ts = some (cs, g) → Sames cs.flatten ts ∧ ∀ c ∈ cs, c ≠ []
  | 0, [], cs, g, _, h => by
    unfold chunks at h
    cases h; exact ⟨.nil, fun c hc => absurd hc List.not_mem_nil⟩
  | f + 1, [], cs, g, _, h => by
    unfold chunks at h
    cases h; exact ⟨.nil, fun c hc => absurd hc List.not_mem_nil⟩
  | 0, t :: ts, cs, g, hf, h => by simp at hf
  | f + 1, t :: ts, cs, g, hf, h => by
    rw [chunks] at h
    generalize hsc : scan (t :: ts).length {} (t :: ts) = sc at h
    cases sc with
    | none => cases h
    | some p =>
      obtain ⟨w, g1, r⟩ := p
      obtain ⟨⟨cs', g'⟩, h2, h3⟩ := Option.map_eq_some_iff.1 h
      cases h3
      obtain ⟨w', h4, h5, h6⟩ := scan_split _ _ _ _ _ _ hsc
      have hw := h6 (by simp) (by simp)
      have hlen : r.length ≤ f := by
        have := congrArg List.length h4
        have : 0 < w'.length := List.length_pos_iff.2 hw
        simp at *; omega
      obtain ⟨h7, h8⟩ := chunks_split f r _ _ hlen h2
      refine ⟨?_, ?_⟩
      · rw [h4, List.flatten_cons]; exact h5.append h7
      · intro c hc
        rcases List.mem_cons.1 hc with rfl | hc
        · exact h5.ne_nil hw
        · exact h8 c hc

/-- **C48, all token streams.** If no error is reported, the entries put one after the other are the tokens of the file, in the same order, none
lost or repeated, except that a `__func__` may have been replaced by a name; and no entry is empty. -/
theorem C48_partition (ts : List Tok) {cs g} (h : split ts = some (cs, g)) :
    cs.flatten.length = ts.length ∧
    (∀ i (h1 : i < cs.flatten.length) (h2 : i < ts.length), cs.flatten[i] = ts[i] ∨ (ts[i] = .func ∧ ∃ f, cs.flatten[i] = .nameLiteral f)) ∧
    ∀ c ∈ cs, c ≠ [] := by
  obtain ⟨h1, h2⟩ := chunks_split _ _ _ _ (Nat.le_refl _) h
  have key : ∀ a b, Sames a b → a.length = b.length ∧
      ∀ i (h1 : i < a.length) (h2 : i < b.length), a[i] = b[i] ∨ (b[i] = .func ∧ ∃ f, a[i] = .nameLiteral f) := by
    intro a b hs
    induction hs with
    | nil => exact ⟨rfl, fun i h1 => absurd h1 (by simp)⟩
    | cons hh _ ih =>
      refine ⟨by simp [ih.1], fun i h1 h2 => ?_⟩
      cases i with
      | zero => exact hh
      | succ i => simpa using ih.2 i (by simpa using h1) (by simpa using h2)
  exact ⟨(key _ _ h1).1, (key _ _ h1).2, h2⟩

example : split [.static, .basic, .ident 1, .openParen, .basic, .closedParen, .openCurly, .func, .semicolon, .openCurly, .closedCurly, .closedCurly,
      .basic, .ident 2, .equals, .openCurly, .semicolon, .closedCurly, .comma, .ident 3, .semicolon] =
    some ([[.static, .basic, .ident 1, .openParen, .basic, .closedParen, .openCurly, .nameLiteral 1, .semicolon, .openCurly, .closedCurly,
        .closedCurly],
      [.basic, .ident 2, .equals, .openCurly, .semicolon, .closedCurly, .comma, .ident 3, .semicolon]],
      [⟨1, true, false, false⟩, ⟨2, false, false, false⟩, ⟨3, false, false, false⟩]) := by decide

/-! ## Every entry is an external declaration -/

theorem scan_fuel : ∀ (f f' : Nat) (fl : Flags) (ts : List Tok), ts.length ≤ f → ts.length ≤ f' → scan f fl ts = scan f' fl ts
  | 0, 0, _, _, _, _ => rfl
  | 0, f' + 1, fl, [], _, _ => rfl
  | 0, f' + 1, fl, t :: ts, h, _ => by simp at h
  | f + 1, 0, fl, [], _, _ => rfl
  | f + 1, 0, fl, t :: ts, _, h => by simp at h
  | f + 1, f' + 1, fl, [], _, _ => rfl
  | f + 1, f' + 1, fl, t :: ts, h, h' => by
    have ih : ∀ fl r, r.length ≤ ts.length → scan f fl r = scan f' fl r := by
      intro fl r hr
      simp only [List.length_cons] at h h'
      exact scan_fuel f f' fl r (by omega) (by omega)
    have le : ∀ {w r : List Tok}, ts = w ++ r → r.length ≤ ts.length := by
      intro w r h; rw [h]; simp
    unfold scan
    split
    · rw [ih _ _ (Nat.le_refl _)]
    · split
      · rfl
      · rename_i h1; rw [ih _ _ (le (afterTag_split h1))]
    · split
      · rfl
      · rename_i h1; rw [ih _ _ (le (maybeParens_split h1))]
    · rw [ih _ _ (Nat.le_refl _)]
    · rw [ih _ _ (Nat.le_refl _)]
    · rw [ih _ _ (Nat.le_refl _)]
    · split
      · rw [ih _ _ (Nat.le_refl _)]
      · rw [ih _ _ (Nat.le_refl _)]
    · split
      · rfl
      · rfl
      · rename_i h1; rw [ih _ _ (le (init_split _ _ _ _ _ h1))]
    · rw [ih _ _ (Nat.le_refl _)]
    · rfl
    · rfl
    · split
      · split
        · rfl
        · rename_i h1; rw [ih _ _ (le (skip_split _ _ _ _ h1).1)]
      · rw [ih _ _ (Nat.le_refl _)]
    · split
      · rfl
      · rename_i h1; rw [ih _ _ (le (skip_split _ _ _ _ h1).1)]
    · split
      · rfl
      · rename_i h1; rw [ih _ _ (le (maybeParens_split h1))]
    · rw [ih _ _ (Nat.le_refl _)]

/-- `scan` with enough fuel. -/
def S (fl : Flags) (ts : List Tok) : Result := scan ts.length fl ts

theorem scan_S {f fl ts} (h : ts.length ≤ f) : scan f fl ts = S fl ts := scan_fuel _ _ _ _ h (Nat.le_refl _)

theorem prepend_prepend (w w' : List Tok) (g g' : List Reg) (r : Result) : prepend w g (prepend w' g' r) = prepend (w ++ w') (g ++ g') r := by
  cases r with
  | none => rfl
  | some p => simp [prepend]

theorem prepend_nil (r : Result) : prepend [] [] r = r := by
  cases r with
  | none => rfl
  | some p => rfl

theorem skip_balanced {o c : Tok} (hoc : (o = .openParen ∧ c = .closedParen) ∨ (o = .openCurly ∧ c = .closedCurly) ∨ (o = .openIndex ∧ c = .closedIndex))
    {w : List Tok} (hw : Balanced w) : ∀ (n : Nat) (ts : List Tok),
      skip o c (n + 1) (w ++ ts) = (skip o c (n + 1) ts).map (fun (w', r) => (w ++ w', r)) := by
  have comp : ∀ (x : Option (List Tok × List Tok)) (a b : List Tok),
      (x.map (fun (w', r) => (b ++ w', r))).map (fun (w', r) => (a ++ w', r)) = x.map (fun (w', r) => (a ++ b ++ w', r)) := by
    intro x a b; cases x <;> simp
  have pass : ∀ (t : Tok), t ≠ o → t ≠ c → ∀ n ts, skip o c (n + 1) (t :: ts) = (skip o c (n + 1) ts).map (fun (w', r) => ([t] ++ w', r)) := by
    intro t h1 h2 n ts
    rw [skip, if_neg h2, if_neg h1]; rfl
  have opened : ∀ n ts, o ≠ c → skip o c (n + 1) (o :: ts) = (skip o c (n + 1 + 1) ts).map (fun (w', r) => ([o] ++ w', r)) := by
    intro n ts hne
    rw [skip, if_neg hne, if_pos rfl]; rfl
  have closed : ∀ n ts, skip o c (n + 1 + 1) (c :: ts) = (skip o c (n + 1) ts).map (fun (w', r) => ([c] ++ w', r)) := by
    intro n ts
    rw [skip, if_pos rfl, if_neg (by omega)]; rfl
  have hne : o ≠ c := by rcases hoc with ⟨rfl, rfl⟩ | ⟨rfl, rfl⟩ | ⟨rfl, rfl⟩ <;> decide
  have group : ∀ (a b : Tok) (w ts : List Tok), ((a = o ∧ b = c) ∨ (a ≠ o ∧ a ≠ c ∧ b ≠ o ∧ b ≠ c)) →
      (∀ n ts, skip o c (n + 1) (w ++ ts) = (skip o c (n + 1) ts).map (fun (w', r) => (w ++ w', r))) →
      (∀ n us, skip o c (n + 1) (ts ++ us) = (skip o c (n + 1) us).map (fun (w', r) => (ts ++ w', r))) →
      ∀ n us, skip o c (n + 1) ((a :: w ++ b :: ts) ++ us) = (skip o c (n + 1) us).map (fun (w', r) => ((a :: w ++ b :: ts) ++ w', r)) := by
    intro a b w ts hab h1 h2 n us
    have e : (a :: w ++ b :: ts) ++ us = a :: (w ++ (b :: (ts ++ us))) := by simp
    rw [e]
    rcases hab with ⟨rfl, rfl⟩ | ⟨ha, ha', hb, hb'⟩
    · rw [opened _ _ hne, h1, closed, h2, comp, comp, comp]
      simp
    · rw [pass _ ha ha', h1, pass _ hb hb', h2, comp, comp, comp]
      simp
  induction hw with
  | nil => intro n ts; cases h : skip o c (n + 1) ts <;> simp [h]
  | tok ht _ ih =>
    intro n ts
    obtain ⟨h1, h2, h3, h4, h5, h6⟩ := ht
    have : ∀ t ∈ [o, c], t = .openParen ∨ t = .closedParen ∨ t = .openCurly ∨ t = .closedCurly ∨ t = .openIndex ∨ t = .closedIndex := by
      rcases hoc with ⟨rfl, rfl⟩ | ⟨rfl, rfl⟩ | ⟨rfl, rfl⟩ <;> simp
    have hh : ∀ (t u : Tok), (t ≠ .openParen ∧ t ≠ .closedParen ∧ t ≠ .openCurly ∧ t ≠ .closedCurly ∧ t ≠ .openIndex ∧ t ≠ .closedIndex) →
        u ∈ [o, c] → t ≠ u := by
      rintro t u ⟨a1, a2, a3, a4, a5, a6⟩ hu rfl
      rcases this t hu with h | h | h | h | h | h <;> contradiction
    rw [List.cons_append, pass _ (hh _ _ ⟨h1, h2, h3, h4, h5, h6⟩ (by simp)) (hh _ _ ⟨h1, h2, h3, h4, h5, h6⟩ (by simp)), ih, comp]
    rfl
  | parens _ _ ih1 ih2 =>
    refine group _ _ _ _ ?_ ih1 ih2
    rcases hoc with ⟨rfl, rfl⟩ | ⟨rfl, rfl⟩ | ⟨rfl, rfl⟩ <;> decide
  | curlies _ _ ih1 ih2 =>
    refine group _ _ _ _ ?_ ih1 ih2
    rcases hoc with ⟨rfl, rfl⟩ | ⟨rfl, rfl⟩ | ⟨rfl, rfl⟩ <;> decide
  | indices _ _ ih1 ih2 =>
    refine group _ _ _ _ ?_ ih1 ih2
    rcases hoc with ⟨rfl, rfl⟩ | ⟨rfl, rfl⟩ | ⟨rfl, rfl⟩ <;> decide

theorem skip_parens {w : List Tok} (hw : Balanced w) (ts) : skip .openParen .closedParen 1 (w ++ .closedParen :: ts) = some (w ++ [.closedParen], ts) := by
  rw [skip_balanced (.inl ⟨rfl, rfl⟩) hw 0]; rfl

theorem skip_curlies {w : List Tok} (hw : Balanced w) (ts) : skip .openCurly .closedCurly 1 (w ++ .closedCurly :: ts) = some (w ++ [.closedCurly], ts) := by
  rw [skip_balanced (.inr (.inl ⟨rfl, rfl⟩)) hw 0]; rfl

theorem skip_indices {w : List Tok} (hw : Balanced w) (ts) : skip .openIndex .closedIndex 1 (w ++ .closedIndex :: ts) = some (w ++ [.closedIndex], ts) := by
  rw [skip_balanced (.inr (.inr ⟨rfl, rfl⟩)) hw 0]; rfl

theorem body_balanced (f : Nat) {w : List Tok} (hw : Balanced w) : ∀ (n : Nat) (ts : List Tok),
    body (some f) (n + 1) (w ++ ts) =
      (body (some f) (n + 1) ts).map (fun (w', r) => (w.map (fun t => if t = .func then .nameLiteral f else t) ++ w', r)) := by
  have comp : ∀ (x : Option (List Tok × List Tok)) (a b : List Tok),
      (x.map (fun (w', r) => (b ++ w', r))).map (fun (w', r) => (a ++ w', r)) = x.map (fun (w', r) => (a ++ b ++ w', r)) := by
    intro x a b; cases x <;> simp
  have pass : ∀ (t : Tok), t ≠ .openCurly → t ≠ .closedCurly → ∀ n ts, body (some f) (n + 1) (t :: ts) =
      (body (some f) (n + 1) ts).map (fun (w', r) => ([if t = .func then .nameLiteral f else t] ++ w', r)) := by
    intro t h1 h2 n ts
    rw [body, if_neg h2, if_neg h1]
    by_cases h : t = .func
    · rw [if_pos h, if_pos h]; rfl
    · rw [if_neg h, if_neg h]; rfl
  have opened : ∀ n ts, body (some f) (n + 1) (.openCurly :: ts) = (body (some f) (n + 1 + 1) ts).map (fun (w', r) => ([.openCurly] ++ w', r)) :=
    fun _ _ => rfl
  have closed : ∀ n ts, body (some f) (n + 1 + 1) (.closedCurly :: ts) = (body (some f) (n + 1) ts).map (fun (w', r) => ([.closedCurly] ++ w', r)) :=
    fun _ _ => rfl
  induction hw with
  | nil => intro n ts; cases h : body (some f) (n + 1) ts <;> simp [h]
  | tok ht _ ih =>
    intro n ts
    rw [List.cons_append, pass _ ht.2.2.1 ht.2.2.2.1, ih, comp]
    rfl
  | parens _ _ ih1 ih2 =>
    intro n ts
    rw [List.append_assoc, List.cons_append, List.cons_append, pass _ (by decide) (by decide), ih1, pass _ (by decide) (by decide), ih2, comp, comp, comp]
    simp
  | curlies _ _ ih1 ih2 =>
    intro n ts
    rw [List.append_assoc, List.cons_append, List.cons_append, opened, ih1, closed, ih2, comp, comp, comp]
    simp
  | indices _ _ ih1 ih2 =>
    intro n ts
    rw [List.append_assoc, List.cons_append, List.cons_append, pass _ (by decide) (by decide), ih1, pass _ (by decide) (by decide), ih2, comp, comp, comp]
    simp

/-- The end of an initializer. -/
theorem init_ok (e : Tok) (he : e = .comma ∨ e = .semicolon) {w : List Tok} (hw : Init w) : ∀ (f : Nat) (ts : List Tok), (w ++ e :: ts).length ≤ f →
    Verif.Chunk.init f (w ++ e :: ts) = some (w ++ [e], decide (e = .semicolon), ts) := by
  have group : ∀ (o c : Tok) (u w : List Tok) (f : Nat) (ts : List Tok), closing o = some c →
      (∀ ts, skip o c 1 (u ++ c :: ts) = some (u ++ [c], ts)) →
      (∀ f ts, (w ++ e :: ts).length ≤ f → Verif.Chunk.init f (w ++ e :: ts) = some (w ++ [e], decide (e = .semicolon), ts)) →
      (o :: u ++ c :: w ++ e :: ts).length ≤ f →
      Verif.Chunk.init f (o :: u ++ c :: w ++ e :: ts) = some (o :: u ++ c :: w ++ [e], decide (e = .semicolon), ts) := by
    intro o c u w f ts hc h1 h2 hf
    obtain ⟨f, rfl⟩ : ∃ f', f = f' + 1 := ⟨f - 1, by simp at hf; omega⟩
    rw [List.append_assoc, List.cons_append, Verif.Chunk.init, hc]
    dsimp only
    rw [List.cons_append, h1]
    dsimp only
    rw [h2 f ts (by simp at hf ⊢; omega)]
    simp
  induction hw with
  | nil =>
    intro f ts hf
    obtain ⟨f, rfl⟩ : ∃ f', f = f' + 1 := ⟨f - 1, by simp at hf; omega⟩
    rcases he with rfl | rfl <;> rfl
  | @tok t w ht hc hs _ ih =>
    intro f ts hf
    obtain ⟨f, rfl⟩ : ∃ f', f = f' + 1 := ⟨f - 1, by simp at hf; omega⟩
    obtain ⟨h1, _, h3, _, h5, _⟩ := ht
    have hcl : closing t = none := by unfold closing; split <;> first | contradiction | rfl
    rw [List.cons_append, Verif.Chunk.init, hcl]
    dsimp only
    rw [if_neg hc, if_neg hs, ih f ts (by simp at hf ⊢; omega)]; rfl
  | parens hu _ ih =>
    intro f ts hf
    exact group _ _ _ _ _ _ rfl (skip_parens hu) ih hf
  | curlies hu _ ih =>
    intro f ts hf
    exact group _ _ _ _ _ _ rfl (skip_curlies hu) ih hf
  | indices hu _ ih =>
    intro f ts hf
    exact group _ _ _ _ _ _ rfl (skip_indices hu) ih hf

theorem maybeParens_parens {w : List Tok} (hw : Balanced w) (ts) : maybeParens (parens w ++ ts) = some (parens w, ts) := by
  unfold parens maybeParens
  rw [List.append_assoc]
  dsimp only [List.cons_append]
  rw [List.nil_append, skip_parens hw]; rfl

theorem declspecs_ok : ∀ (as : List (List Tok)) (f : Nat) (ts : List Tok), (∀ w ∈ as, Balanced w) → as.length ≤ f → ts.head? ≠ some .declspec →
    declspecs f (as.flatMap Spec.Chunk.declspec ++ ts) = some (as.flatMap Spec.Chunk.declspec, ts)
  | [], f, ts, _, _, hd => by
    rw [List.flatMap_nil, List.nil_append]
    unfold declspecs
    split
    · exact absurd rfl hd
    · rfl
  | w :: as, f, ts, hw, hf, hd => by
    obtain ⟨f, rfl⟩ : ∃ f', f = f' + 1 := ⟨f - 1, by simp at hf; omega⟩
    rw [List.flatMap_cons, List.append_assoc]
    show declspecs (f + 1) (.declspec :: (parens w ++ (as.flatMap Spec.Chunk.declspec ++ ts))) = _
    rw [declspecs, maybeParens_parens (hw w (by simp))]
    dsimp only
    rw [declspecs_ok as f ts (fun w hw' => hw w (by simp [hw'])) (by simpa using hf) hd]
    rfl

/-! ### One step of the loop -/

theorem S_other (fl k ts) : S fl (.other k :: ts) = prepend [.other k] [] (S fl ts) := rfl
theorem S_closed (fl ts) : S fl (.closedParen :: ts) = prepend [.closedParen] [] (S fl ts) := rfl
theorem S_basic (fl ts) : S fl (.basic :: ts) = prepend [.basic] [] (S { fl with gotType := true } ts) := rfl
theorem S_static (fl ts) : S fl (.static :: ts) = prepend [.static] [] (S { fl with isStatic := true } ts) := rfl
theorem S_extern (fl ts) : S fl (.extern :: ts) = prepend [.extern] [] (S { fl with isExtern := true } ts) := rfl
theorem S_inline (fl ts) : S fl (.inline :: ts) = prepend [.inline] [] (S { fl with isInline := true } ts) := rfl
theorem S_comma (fl ts) : S fl (.comma :: ts) = prepend [.comma] [] (S { fl with ident := none } ts) := rfl
theorem S_semicolon (fl ts) : S fl (.semicolon :: ts) = some ([.semicolon], [], ts) := rfl

theorem S_type {fl : Flags} (h : fl.gotType = false) (n ts) : S fl (.ident n :: ts) = prepend [.ident n] [] (S { fl with gotType := true } ts) := by
  unfold S
  rw [List.length_cons, scan]
  rw [if_neg (by rw [h]; decide)]

theorem S_ident {fl : Flags} (h : fl.gotType = true) (n ts) : S fl (.ident n :: ts) =
    prepend [.ident n] [⟨n, fl.isStatic, fl.isExtern, fl.isInline⟩] (S { fl with ident := some n } ts) := by
  unfold S
  rw [List.length_cons, scan]
  rw [if_pos h]

theorem S_tag {fl : Flags} {ts w r} (h : afterTag ts = some (w, r)) : S fl (.tag :: ts) = prepend (.tag :: w) [] (S { fl with gotType := true } r) := by
  unfold S
  rw [List.length_cons, scan, h]
  dsimp only
  rw [scan_S (by rw [afterTag_split h]; simp)]; rfl

theorem S_declspec {fl : Flags} {ts w r} (h : maybeParens ts = some (w, r)) : S fl (.declspec :: ts) = prepend (.declspec :: w) [] (S fl r) := by
  unfold S
  rw [List.length_cons, scan, h]
  dsimp only
  rw [scan_S (by rw [maybeParens_split h]; simp)]; rfl

theorem S_assert {fl : Flags} {ts w r} (h : maybeParens ts = some (w, r)) : S fl (.staticAssert :: ts) = prepend (.staticAssert :: w) [] (S fl r) := by
  unfold S
  rw [List.length_cons, scan, h]
  dsimp only
  rw [scan_S (by rw [maybeParens_split h]; simp)]; rfl

theorem S_parens {fl : Flags} {ts w r} (hi : fl.ident.isSome = true) (h : skip .openParen .closedParen 1 ts = some (w, r)) :
    S fl (.openParen :: ts) = prepend (.openParen :: w) [] (S fl r) := by
  unfold S
  rw [List.length_cons, scan, if_pos hi, h]
  dsimp only
  rw [scan_S (by rw [(skip_split _ _ _ _ h).1]; simp)]; rfl

theorem S_group {fl : Flags} {ts} (hi : fl.ident = none) : S fl (.openParen :: ts) = prepend [.openParen] [] (S fl ts) := by
  unfold S
  rw [List.length_cons, scan, if_neg (by rw [hi]; decide)]

theorem S_index {fl : Flags} {ts w r} (h : skip .openIndex .closedIndex 1 ts = some (w, r)) :
    S fl (.openIndex :: ts) = prepend (.openIndex :: w) [] (S fl r) := by
  unfold S
  rw [List.length_cons, scan, h]
  dsimp only
  rw [scan_S (by rw [(skip_split _ _ _ _ h).1]; simp)]; rfl

theorem S_body {fl : Flags} {ts w r} (h : body fl.ident 1 ts = some (w, r)) : S fl (.openCurly :: ts) = some (.openCurly :: w, [], r) := by
  unfold S
  rw [List.length_cons, scan, h]

theorem S_init_comma {fl : Flags} {w} (hw : Init w) (ts) : S fl (.equals :: w ++ .comma :: ts) =
    prepend (.equals :: w ++ [.comma]) [] (S { fl with ident := none } ts) := by
  unfold S
  rw [List.cons_append, List.length_cons, scan, init_ok _ (.inl rfl) hw _ _ (Nat.le_refl _)]
  show prepend _ _ (scan _ _ _) = _
  rw [scan_S (by simp; omega)]; rfl

theorem S_init_semicolon {fl : Flags} {w} (hw : Init w) (ts) : S fl (.equals :: w ++ .semicolon :: ts) =
    some (.equals :: w ++ [.semicolon], [], ts) := by
  unfold S
  rw [List.cons_append, List.length_cons, scan, init_ok _ (.inr rfl) hw _ _ (Nat.le_refl _)]
  rfl

/-! ### Specifiers -/

/-- The flags after a specifier. -/
def after (fl : Flags) : Specifier → Flags
  | .static => { fl with isStatic := true }
  | .extern => { fl with isExtern := true }
  | .inline => { fl with isInline := true }
  | s => { fl with gotType := fl.gotType || s.isType }

theorem declspecs_length : ∀ as : List (List Tok), as.length ≤ (as.flatMap Spec.Chunk.declspec).length
  | [] => Nat.le_refl _
  | a :: as => by
    have := declspecs_length as
    simp only [List.flatMap_cons, List.length_cons, List.length_append, Spec.Chunk.declspec]; omega

theorem S_specifier {s : Specifier} (hs : s.Wf) {fl : Flags} (ht : ∀ n, s = .typedefName n → fl.gotType = false) {ts : List Tok}
    (hc : ts.head? ≠ some .openCurly) : S fl (s.tokens ++ ts) = prepend s.tokens [] (S (after fl s) ts) := by
  have hor : ∀ fl : Flags, { fl with gotType := fl.gotType || true } = { fl with gotType := true } := by intro fl; simp
  have hor' : ∀ fl : Flags, { fl with gotType := fl.gotType || false } = fl := by intro fl; simp
  cases s with
  | basic => rw [show after fl .basic = _ from hor fl]; exact S_basic fl ts
  | typedefName n => rw [show after fl (.typedefName n) = _ from hor fl]; exact S_type (ht n rfl) n ts
  | static => exact S_static fl ts
  | extern => exact S_extern fl ts
  | inline => exact S_inline fl ts
  | keyword k => rw [show after fl (.keyword k) = _ from hor' fl]; exact S_other fl k ts
  | declspec w =>
    rw [show after fl (.declspec w) = _ from hor' fl]
    exact S_declspec (maybeParens_parens hs ts)
  | tag as n ms =>
    rw [show after fl (.tag as n ms) = _ from hor fl]
    obtain ⟨h1, h2, h3⟩ := hs
    refine S_tag (w := as.flatMap Spec.Chunk.declspec ++ (n.elim [] fun n => [.ident n]) ++ (ms.elim [] fun w => .openCurly :: w ++ [.closedCurly])) ?_
    have hlen := declspecs_length as
    show afterTag ((as.flatMap Spec.Chunk.declspec ++ (n.elim [] fun n => [.ident n]) ++ (ms.elim [] fun w => .openCurly :: w ++ [.closedCurly])) ++ ts) = _
    unfold afterTag
    rw [List.append_assoc, List.append_assoc, declspecs_ok as _ _ h1 (by simp only [List.length_append]; omega)]
    · dsimp only
      have hcurly : ∀ us : List Tok, us = (ms.elim [] fun w => .openCurly :: w ++ [.closedCurly]) ++ ts →
          maybeCurly us = some (ms.elim [] fun w => .openCurly :: w ++ [.closedCurly], ts) := by
        rintro us rfl
        cases ms with
        | none =>
          show maybeCurly ts = some ([], ts)
          unfold maybeCurly
          split
          · exact absurd rfl hc
          · rfl
        | some w =>
          show maybeCurly ((.openCurly :: w ++ [.closedCurly]) ++ ts) = _
          rw [List.append_assoc]
          show maybeCurly (.openCurly :: (w ++ .closedCurly :: ts)) = _
          unfold maybeCurly
          dsimp only
          rw [skip_curlies (h3 w rfl)]; rfl
      have hident : maybeIdent ((n.elim [] fun n => [.ident n]) ++ ((ms.elim [] fun w => .openCurly :: w ++ [.closedCurly]) ++ ts)) =
          (n.elim [] fun n => [.ident n], (ms.elim [] fun w => .openCurly :: w ++ [.closedCurly]) ++ ts) := by
        cases n with
        | some n => rfl
        | none =>
          cases ms with
          | none => simp at h2
          | some w => rfl
      rw [hident]
      dsimp only
      rw [hcurly _ rfl]; rfl
    · cases n with
      | some n => simp
      | none =>
        cases ms with
        | none => simp at h2
        | some w => simp

/-- No name of a type after another type. -/
def Ok : Bool → List Specifier → Prop
  | _, [] => True
  | b, s :: ss => (∀ n, s = .typedefName n → b = false) ∧ Ok (b || s.isType) ss

theorem Ok_of_none : ∀ (ss : List Specifier) (b : Bool), (∀ s ∈ ss, ∀ n, s ≠ .typedefName n) → Ok b ss
  | [], _, _ => trivial
  | s :: ss, b, h => ⟨fun n hn => absurd hn (h s (by simp) n), Ok_of_none ss _ (fun s hs => h s (by simp [hs]))⟩

theorem Ok_of_types : ∀ (ss : List Specifier), Types ss ∨ ss.filter Specifier.isType = [] → Ok false ss
  | [], _ => trivial
  | s :: ss, h => by
    refine ⟨fun _ _ => rfl, ?_⟩
    cases hs : s.isType with
    | false =>
      refine Ok_of_types ss ?_
      unfold Types at h ⊢
      rw [List.filter_cons_of_neg (by rw [hs]; decide)] at h
      exact h
    | true =>
      refine Ok_of_none ss _ (fun s' hs' n hn => ?_)
      unfold Types at h
      rw [List.filter_cons_of_pos hs] at h
      have hm : s' ∈ ss.filter Specifier.isType := List.mem_filter.2 ⟨hs', by rw [hn]; rfl⟩
      rcases h with (h | ⟨t, h⟩) | h
      · have := h.2 s' (by simp [hm])
        rw [hn] at this; cases this
      · rw [List.cons.injEq] at h
        rw [h.2] at hm; cases hm
      · cases h

/-- The flags after the specifiers. -/
theorem after_all (ss : List Specifier) (fl : Flags) : ss.foldl after fl =
    { fl with
      isStatic := fl.isStatic || ss.any Specifier.isStatic
      isExtern := fl.isExtern || ss.any Specifier.isExtern
      isInline := fl.isInline || ss.any Specifier.isInline
      gotType := fl.gotType || ss.any Specifier.isType } := by
  induction ss generalizing fl with
  | nil => simp
  | cons s ss ih =>
    rw [List.foldl_cons, ih]
    cases s <;> simp [after, Specifier.isType, Specifier.isStatic, Specifier.isExtern, Specifier.isInline]

theorem tokens_head (s : Specifier) (ts : List Tok) : (s.tokens ++ ts).head? ≠ some .openCurly := by
  cases s <;> simp [Specifier.tokens, Spec.Chunk.declspec]

theorem S_specifiers : ∀ (ss : List Specifier) (fl : Flags) (ts : List Tok), (∀ s ∈ ss, s.Wf) → Ok fl.gotType ss → ts.head? ≠ some .openCurly →
    S fl (ss.flatMap Specifier.tokens ++ ts) = prepend (ss.flatMap Specifier.tokens) [] (S (ss.foldl after fl) ts)
  | [], fl, ts, _, _, _ => (prepend_nil _).symm
  | s :: ss, fl, ts, hw, hok, hc => by
    have hhead : (ss.flatMap Specifier.tokens ++ ts).head? ≠ some .openCurly := by
      cases ss with
      | nil => exact hc
      | cons s' ss' => rw [List.flatMap_cons, List.append_assoc]; exact tokens_head s' _
    have hgot : (after fl s).gotType = (fl.gotType || s.isType) := by cases s <;> simp [after, Specifier.isType]
    rw [List.flatMap_cons, List.append_assoc, S_specifier (hw s (by simp)) hok.1 hhead,
      S_specifiers ss _ ts (fun s hs => hw s (by simp [hs])) (by rw [hgot]; exact hok.2) hc, prepend_prepend]
    rfl

/-! ### Declarators -/

theorem S_others : ∀ (ks : List Nat) (fl : Flags) (ts : List Tok), S fl (ks.map Tok.other ++ ts) = prepend (ks.map Tok.other) [] (S fl ts)
  | [], _, _ => (prepend_nil _).symm
  | k :: ks, fl, ts => by
    rw [List.map_cons, List.cons_append, S_other, S_others ks, prepend_prepend]; rfl

theorem S_declarator : ∀ (d : Declarator), d.Wf → ∀ (fl : Flags) (ts : List Tok), fl.gotType = true → fl.ident = none →
    S fl (d.tokens ++ ts) = prepend d.tokens [⟨d.ident, fl.isStatic, fl.isExtern, fl.isInline⟩] (S { fl with ident := some d.ident } ts)
  | .name pre n, _, fl, ts, hg, hi => by
    rw [Declarator.tokens, List.append_assoc, S_others, List.cons_append, S_ident hg, prepend_prepend]; rfl
  | .group pre d, h, fl, ts, hg, hi => by
    rw [Declarator.tokens, List.append_assoc, List.append_assoc, S_others, List.cons_append, S_group hi, S_declarator d h fl _ hg hi]
    show prepend _ _ (prepend _ _ (prepend _ _ (S _ (.closedParen :: ts)))) = _
    rw [S_closed, prepend_prepend, prepend_prepend, prepend_prepend]
    simp [Declarator.ident]
  | .call d w, h, fl, ts, hg, hi => by
    rw [Declarator.tokens, List.append_assoc, List.append_assoc, S_declarator d h.1 fl _ hg hi, List.cons_append]
    show prepend _ _ (S _ (.openParen :: (w ++ .closedParen :: ts))) = _
    rw [S_parens rfl (skip_parens h.2 ts), prepend_prepend]
    simp [Declarator.ident]
  | .index d w, h, fl, ts, hg, hi => by
    rw [Declarator.tokens, List.append_assoc, List.append_assoc, S_declarator d h.1 fl _ hg hi, List.cons_append]
    show prepend _ _ (S _ (.openIndex :: (w ++ .closedIndex :: ts))) = _
    rw [S_index (skip_indices h.2 ts), prepend_prepend]
    simp [Declarator.ident]

theorem S_declarators (fl : Flags) (hg : fl.gotType = true) (hi : fl.ident = none) : ∀ (ds : List InitDeclarator), (∀ d ∈ ds, d.Wf) → ∀ (ts : List Tok),
    S fl (commaSeparated ds ++ .semicolon :: ts) =
      some (commaSeparated ds ++ [.semicolon], ds.map (fun d => ⟨d.declarator.ident, fl.isStatic, fl.isExtern, fl.isInline⟩), ts)
  | [], _, ts => S_semicolon fl ts
  | [d], h, ts => by
    have hd := h d (by simp)
    rw [commaSeparated, InitDeclarator.tokens, List.append_assoc, S_declarator _ hd.1 _ _ hg hi]
    cases hin : d.initializer with
    | none => rw [Option.elim_none, List.nil_append, S_semicolon]; simp [prepend]
    | some w => rw [Option.elim_some, S_init_semicolon (hd.2 w hin)]; simp [prepend]
  | d :: d' :: ds, h, ts => by
    have hd := h d (by simp)
    have hfl : ∀ x, { ({ fl with ident := x } : Flags) with ident := none } = fl := by intro x; rw [← hi]
    have ih := S_declarators fl hg hi (d' :: ds) (fun d hd => h d (by simp [hd])) ts
    rw [commaSeparated, InitDeclarator.tokens, List.append_assoc, List.append_assoc, S_declarator _ hd.1 _ _ hg hi, List.cons_append]
    · cases hin : d.initializer with
      | none =>
        rw [Option.elim_none, List.nil_append, S_comma, hfl, ih]; simp [prepend]
      | some w =>
        rw [Option.elim_some, S_init_comma (hd.2 w hin), hfl, ih]; simp [prepend]
    · simp

theorem declarator_head : ∀ (d : Declarator) (ts : List Tok), (d.tokens ++ ts).head? ≠ some .openCurly
  | .name pre n, ts => by cases pre <;> simp [Declarator.tokens]
  | .group pre d, ts => by cases pre <;> simp [Declarator.tokens]
  | .call d w, ts => by rw [Declarator.tokens, List.append_assoc, List.append_assoc]; exact declarator_head d _
  | .index d w, ts => by rw [Declarator.tokens, List.append_assoc, List.append_assoc]; exact declarator_head d _

theorem declarators_head : ∀ (ds : List InitDeclarator) (ts : List Tok), (commaSeparated ds ++ .semicolon :: ts).head? ≠ some .openCurly
  | [], ts => by simp [commaSeparated]
  | [d], ts => by rw [commaSeparated, InitDeclarator.tokens, List.append_assoc]; exact declarator_head _ _
  | d :: d' :: ds, ts => by
    rw [commaSeparated, InitDeclarator.tokens, List.append_assoc, List.append_assoc]
    · exact declarator_head _ _
    · simp

theorem types_any {ss : List Specifier} (h : Types ss) : ss.any Specifier.isType = true := by
  have hne : ss.filter Specifier.isType ≠ [] := by
    rcases h with h | ⟨s, h⟩
    · exact h.1
    · rw [h]; simp
  obtain ⟨s, hs⟩ := List.exists_mem_of_ne_nil _ hne
  exact List.any_eq_true.2 ⟨s, (List.mem_filter.1 hs).1, (List.mem_filter.1 hs).2⟩

/-- One external declaration. -/
theorem S_external (e : External) (h : e.Wf) (ts : List Tok) : S {} (e.tokens ++ ts) = some (e.parsed, e.declared, ts) := by
  cases e with
  | empty => rfl
  | staticAssert w =>
    show S {} ((.staticAssert :: parens w ++ [.semicolon]) ++ ts) = _
    rw [List.append_assoc, List.cons_append, S_assert (maybeParens_parens h _)]
    rfl
  | declaration specs ds =>
    obtain ⟨h1, h2, h3⟩ := h
    rw [External.tokens, List.append_assoc, List.append_assoc]
    show S {} (_ ++ (commaSeparated ds ++ .semicolon :: ts)) = _
    rw [S_specifiers specs _ _ h1 (Ok_of_types specs (.inl h2)) (declarators_head ds ts), after_all,
      S_declarators _ (by simp [types_any h2]) rfl ds h3]
    simp [prepend, External.parsed, External.tokens, External.declared]
  | function specs d body =>
    obtain ⟨h1, h2, h3, h4⟩ := h
    rw [External.tokens, List.append_assoc, List.append_assoc, List.append_assoc,
      S_specifiers specs _ _ h1 (Ok_of_types specs (.inl h2)) (declarator_head d _), after_all,
      S_declarator d h3 _ _ (by simp [types_any h2]) rfl]
    show prepend _ _ (prepend _ _ (S _ (.openCurly :: (body ++ .closedCurly :: ts)))) = _
    rw [S_body (w := body.map (fun t => if t = .func then .nameLiteral d.ident else t) ++ [.closedCurly]) (r := ts)]
    · simp [prepend, External.parsed, External.declared]
    · rw [show (({} : Flags).ident) = none from rfl]
      rw [body_balanced d.ident h4 0]; rfl

theorem tokens_ne_nil (e : External) (h : e.Wf) : e.tokens ≠ [] := by
  cases e <;> simp [External.tokens]

theorem chunks_externals : ∀ (es : List External) (f : Nat), (∀ e ∈ es, e.Wf) → (es.flatMap External.tokens).length ≤ f →
    chunks f (es.flatMap External.tokens) = some (es.map External.parsed, es.flatMap External.declared)
  | [], f, _, _ => by cases f <;> rfl
  | e :: es, f, h, hf => by
    have hs := S_external e (h e (by simp)) (es.flatMap External.tokens)
    have hne := tokens_ne_nil e (h e (by simp))
    rw [List.flatMap_cons] at hf ⊢
    obtain ⟨t, us, hus⟩ := List.exists_cons_of_ne_nil hne
    obtain ⟨f, rfl⟩ : ∃ f', f = f' + 1 := ⟨f - 1, by rw [hus] at hf; simp at hf; omega⟩
    have hlen : (es.flatMap External.tokens).length ≤ f := by
      rw [hus] at hf; simp only [List.cons_append, List.length_cons, List.length_append] at hf; omega
    have ih := chunks_externals es f (fun e he => h e (by simp [he])) hlen
    rw [hus] at hs ⊢
    rw [List.cons_append] at hs ⊢
    rw [chunks]
    unfold S at hs
    rw [hs]
    dsimp only
    rw [ih]; rfl

/-- **C48, translation units.** Every sequence of external declarations is split into exactly these declarations, and the names that
are registered are the ones that they declare. In a function `__func__` has become its name; nothing else is changed. -/
theorem C48_declarations (es : List External) (h : ∀ e ∈ es, e.Wf) :
    split (es.flatMap External.tokens) = some (es.map External.parsed, es.flatMap External.declared) :=
  chunks_externals es _ h (Nat.le_refl _)

/-- `static T f(int x, …) { { } __func__ }`, `struct __declspec(…) S { int a; } *p, (*q)[…] = { … };` and `_Static_assert(…);` -/
def sample : List External :=
  [.function [.static, .typedefName 9] (.call (.name [] 1) [.basic, .ident 7, .comma]) [.openCurly, .closedCurly, .func],
   .declaration [.tag [[.ident 8]] (some 2) (some [.basic, .ident 6, .semicolon])]
    [⟨.name [0] 3, none⟩, ⟨.index (.group [] (.name [0] 4)) [.other 5], some [.openCurly, .comma, .closedCurly]⟩],
   .staticAssert [.other 1, .comma]]

theorem balanced_plain : ∀ ts : List Tok, (∀ t ∈ ts, plain t) → Balanced ts
  | [], _ => .nil
  | t :: ts, h => .tok (h t (by simp)) (balanced_plain ts (fun t ht => h t (by simp [ht])))

example : ∀ e ∈ sample, e.Wf := by
  have h1 : Balanced [.basic, .ident 7, .comma] := balanced_plain _ (by simp [plain])
  have h2 : Balanced [.openCurly, .closedCurly, .func] := .curlies .nil (balanced_plain _ (by simp [plain]))
  have h3 : Balanced [.ident 8] := balanced_plain _ (by simp [plain])
  have h4 : Balanced [.basic, .ident 6, .semicolon] := balanced_plain _ (by simp [plain])
  have h5 : Balanced [.other 5] := balanced_plain _ (by simp [plain])
  have h6 : Init [.openCurly, .comma, .closedCurly] := .curlies (balanced_plain [.comma] (by simp [plain])) .nil
  have h7 : Balanced [.other 1, .comma] := balanced_plain _ (by simp [plain])
  intro e he
  simp only [sample, List.mem_cons, List.not_mem_nil, or_false] at he
  rcases he with rfl | rfl | rfl
  · exact ⟨by simp [Specifier.Wf], .inr ⟨.typedefName 9, rfl⟩, ⟨trivial, h1⟩, h2⟩
  · refine ⟨?_, .inr ⟨_, rfl⟩, ?_⟩
    · simp [Specifier.Wf, h3, h4]
    · simp [InitDeclarator.Wf, Declarator.Wf, h5, h6]
  · exact h7

example : (split (sample.flatMap External.tokens)).map (fun p => (p.1.map List.length, p.2.map (fun r => (r.name, r.isStatic)))) =
    some ([13, 26, 6], [(1, true), (3, false), (4, false)]) := by decide

/-- **Finding.** C11 6.9.1 also has functions with a list of declarations between the declarator and the body, `int f(a) int a; { }`. These are
split after the first declaration of the list. -/
theorem C48_declaration_list_wrong :
    (split [.basic, .ident 1, .openParen, .ident 2, .closedParen, .basic, .ident 2, .semicolon, .openCurly, .closedCurly]).map (·.1) =
      some [[.basic, .ident 1, .openParen, .ident 2, .closedParen, .basic, .ident 2, .semicolon], [.openCurly, .closedCurly]] := by
  decide

end Verif.Props.Chunk
