import Verif.Lemmas.Macro

/-!
# C11, C65: macro expansion ends, and gives the result of C
-/
namespace Verif.Props.Macro
open Verif.Spec.Macro
open Verif.Macro

/-! ## Collecting arguments -/

theorem argument_balanced {a : List Token} (h : Argument a) : Balanced a := by
  induction h with
  | nil => exact .nil
  | token h1 _ _ ih => exact .token h1 ih
  | parens h1 _ ih => exact .parens h1 ih

theorem balanced_append {a b : List Token} (h : Balanced a) (h' : Balanced b) : Balanced (a ++ b) := by
  induction h with
  | nil => exact h'
  | token h1 _ ih => exact .token h1 ih
  | @parens x y h1 _ _ ih =>
    have : (Token.lparen :: x ++ .rparen :: y) ++ b = .lparen :: x ++ .rparen :: (y ++ b) := by simp
    rw [this]
    exact .parens h1 ih

theorem join_balanced {args : List (List Token)} (h : ∀ a ∈ args, Balanced a) : Balanced (join args) := by
  induction args with
  | nil => exact .nil
  | cons a as ih =>
    have ih := ih fun x hx => h x (List.mem_cons_of_mem _ hx)
    cases as with
    | nil => exact h a List.mem_cons_self
    | cons b bs => exact balanced_append (h a List.mem_cons_self) (.token rfl ih)

theorem arguments_balanced {d : Macro} {inside : List Token} {args : List (List Token)} (h : Arguments d inside args) : Balanced inside := by
  cases h with
  | none => exact .nil
  | plain _ _ _ _ h => exact join_balanced fun a ha => argument_balanced (h a ha)
  | variadic args last _ _ h hl =>
    refine join_balanced fun a ha => ?_
    rcases List.mem_append.mp ha with ha | ha
    · exact argument_balanced (h a ha)
    · rw [List.mem_singleton.mp ha]; exact hl
  | omitted _ _ _ _ h => exact join_balanced fun a ha => argument_balanced (h a ha)

/-- Inside of parentheses everything is added. -/
theorem gather_inner {d : Macro} (hn : d.params.getD 0 ≠ 0) (hb : d.body ≠ []) {a : List Token} (h : Balanced a) (k : Nat) (done : List (List Token)) (cur tl : List Token) :
    gather d ⟨k + 2, done, cur⟩ (a ++ tl) = gather d ⟨k + 2, done, cur ++ a⟩ tl := by
  induction h generalizing k cur tl with
  | nil => simp
  | @token t ts h1 _ ih =>
    have hf : feed d ⟨k + 2, done, cur⟩ t = .more ⟨k + 2, done, cur ++ [t]⟩ := by
      cases t <;> first | (cases h1; done) | simp [feed, feedNone, feedSkip, feedArg, hn, hb, Gather.add]
    rw [List.cons_append, gather, hf]
    dsimp only
    rw [ih]
    simp
  | @parens x y _ _ ih1 ih2 =>
    have hf : feed d ⟨k + 2, done, cur⟩ .lparen = .more ⟨k + 1 + 2, done, cur ++ [.lparen]⟩ := by simp [feed, feedNone, feedSkip, feedArg, hn, hb, Gather.add]
    have hf2 : ∀ c, feed d ⟨k + 1 + 2, done, c⟩ .rparen = .more ⟨k + 2, done, c ++ [.rparen]⟩ := fun c => by simp [feed, feedNone, feedSkip, feedArg, hn, hb, Gather.add]
    rw [List.append_assoc, List.cons_append, gather, hf]
    dsimp only
    rw [List.cons_append, ih1, gather, hf2]
    dsimp only
    rw [ih2]
    simp

/-- An argument is collected. -/
theorem gather_argument {d : Macro} (hn : d.params.getD 0 ≠ 0) (hb : d.body ≠ []) {a : List Token} (h : Argument a) (done : List (List Token)) (cur tl : List Token) :
    gather d ⟨1, done, cur⟩ (a ++ tl) = gather d ⟨1, done, cur ++ a⟩ tl := by
  induction h generalizing cur tl with
  | nil => simp
  | @token t ts h1 h2 _ ih =>
    have hf : feed d ⟨1, done, cur⟩ t = .more ⟨1, done, cur ++ [t]⟩ := by
      cases t <;> first | (cases h1; done) | exact absurd rfl h2 | simp [feed, feedNone, feedSkip, feedArg, hn, hb, Gather.add]
    rw [List.cons_append, gather, hf]
    dsimp only
    rw [ih]
    simp
  | @parens x y hx _ ih =>
    have hf : feed d ⟨1, done, cur⟩ .lparen = .more ⟨0 + 2, done, cur ++ [.lparen]⟩ := by simp [feed, feedNone, feedSkip, feedArg, hn, hb, Gather.add]
    have hf2 : ∀ c, feed d ⟨0 + 2, done, c⟩ .rparen = .more ⟨1, done, c ++ [.rparen]⟩ := fun c => by simp [feed, feedNone, feedSkip, feedArg, hn, hb, Gather.add]
    rw [List.append_assoc, List.cons_append, gather, hf]
    dsimp only
    rw [List.cons_append, gather_inner hn hb hx, gather, hf2]
    dsimp only
    rw [ih]
    simp

/-- The arguments for `...` are collected with their commas. -/
theorem gather_variadic {d : Macro} (hn : d.params.getD 0 ≠ 0) (hb : d.body ≠ []) (hv : d.variadic = true) {a : List Token} (h : Balanced a) (done : List (List Token)) (hd : done.length + 1 = d.params.getD 0) (cur tl : List Token) :
    gather d ⟨1, done, cur⟩ (a ++ tl) = gather d ⟨1, done, cur ++ a⟩ tl := by
  induction h generalizing cur tl with
  | nil => simp
  | @token t ts h1 _ ih =>
    have hf : feed d ⟨1, done, cur⟩ t = .more ⟨1, done, cur ++ [t]⟩ := by
      cases t <;> first | (cases h1; done) | simp [feed, feedNone, feedSkip, feedArg, hn, hb, Gather.add, hd, hv]
    rw [List.cons_append, gather, hf]
    dsimp only
    rw [ih]
    simp
  | @parens x y hx _ _ ih =>
    have hf : feed d ⟨1, done, cur⟩ .lparen = .more ⟨0 + 2, done, cur ++ [.lparen]⟩ := by simp [feed, feedNone, feedSkip, feedArg, hn, hb, Gather.add]
    have hf2 : ∀ c, feed d ⟨0 + 2, done, c⟩ .rparen = .more ⟨1, done, c ++ [.rparen]⟩ := fun c => by simp [feed, feedNone, feedSkip, feedArg, hn, hb, Gather.add]
    rw [List.append_assoc, List.cons_append, gather, hf]
    dsimp only
    rw [List.cons_append, gather_inner hn hb hx, gather, hf2]
    dsimp only
    rw [ih]
    simp

/-- Arguments with a comma after each of them. -/
theorem gather_commas {d : Macro} (hn : d.params.getD 0 ≠ 0) (hb : d.body ≠ []) (args : List (List Token)) (last tl : List Token) (h : ∀ a ∈ args, Argument a) (done : List (List Token)) (hd : done.length + args.length + 1 ≤ d.params.getD 0) :
    gather d ⟨1, done, []⟩ (join (args ++ [last]) ++ tl) = gather d ⟨1, done ++ args, []⟩ (last ++ tl) := by
  induction args generalizing done with
  | nil => simp [join]
  | cons a as ih =>
    have hj : join (a :: as ++ [last]) = a ++ .comma :: join (as ++ [last]) := by
      cases as <;> rfl
    have hf : feed d ⟨1, done, a⟩ .comma = .more ⟨1, done ++ [a], []⟩ := by
      have : done.length + 1 < d.params.getD 0 := by simp at hd; omega
      simp [feed, feedNone, feedSkip, feedArg, hn, hb, this]
    rw [hj, List.append_assoc, gather_argument hn hb (h a List.mem_cons_self), List.nil_append, List.cons_append, gather, hf]
    dsimp only
    rw [ih (fun x hx => h x (List.mem_cons_of_mem _ hx)) _ (by simp at hd ⊢; omega)]
    simp

/-- With an empty replacement list only parentheses count. -/
theorem gather_skip {d : Macro} (hn : d.params.getD 0 ≠ 0) (hb : d.body = []) {a : List Token} (h : Balanced a) (k : Nat) (done : List (List Token)) (cur tl : List Token) :
    gather d ⟨k + 1, done, cur⟩ (a ++ tl) = gather d ⟨k + 1, done, cur⟩ tl := by
  induction h generalizing k tl with
  | nil => simp
  | @token t ts h1 _ ih =>
    have hf : feed d ⟨k + 1, done, cur⟩ t = .more ⟨k + 1, done, cur⟩ := by
      cases t <;> first | (cases h1; done) | simp [feed, feedNone, feedSkip, feedArg, hn, hb]
    rw [List.cons_append, gather, hf]
    exact ih k tl
  | @parens x y _ _ ih1 ih2 =>
    have hf : feed d ⟨k + 1, done, cur⟩ .lparen = .more ⟨k + 1 + 1, done, cur⟩ := by simp [feed, feedNone, feedSkip, feedArg, hn, hb]
    have hf2 : feed d ⟨k + 1 + 1, done, cur⟩ .rparen = .more ⟨k + 1, done, cur⟩ := by simp [feed, feedNone, feedSkip, feedArg, hn, hb]
    rw [List.append_assoc, List.cons_append, gather, hf]
    dsimp only
    rw [List.cons_append, ih1, gather, hf2]
    exact ih2 k tl

theorem exists_last (args : List (List Token)) (h : args ≠ []) : ∃ init last, args = init ++ [last] := ⟨args.dropLast, args.getLast h, (List.dropLast_concat_getLast h).symm⟩

/-- The arguments of C are the ones that are collected. -/
theorem gather_arguments {d : Macro} {inside : List Token} {args : List (List Token)} (h : Arguments d inside args) (rest : List Token) :
    ∃ args', gather d ⟨1, [], []⟩ (inside ++ .rparen :: rest) = .fin args' rest ∧ (d.body ≠ [] → args' = args) := by
  by_cases hn : d.params.getD 0 = 0
  · cases h with
    | none => exact ⟨[], by simp [gather, feed, feedNone, feedSkip, feedArg, hn], fun _ => rfl⟩
    | plain args h1 h2 => rw [h1] at hn; exact absurd (List.length_eq_zero_iff.mp hn) h2
    | variadic _ _ h1 => rw [h1] at hn; cases hn
    | omitted _ h1 => rw [h1] at hn; cases hn
  · by_cases hb : d.body = []
    · refine ⟨[], ?_, fun h => absurd hb h⟩
      rw [gather_skip (k := 0) hn hb (arguments_balanced h)]
      simp [gather, feed, feedNone, feedSkip, feedArg, hn, hb]
    · refine ⟨args, ?_, fun _ => rfl⟩
      cases h with
      | none h1 => rw [h1] at hn; exact absurd rfl hn
      | plain args h1 h2 h3 h4 =>
        obtain ⟨init, last, rfl⟩ := exists_last args h2
        have hp : d.params.getD 0 = init.length + 1 := by rw [h1]; simp
        rw [gather_commas hn hb init last _ (fun a ha => h4 a (List.mem_append_left _ ha)) [] (by rw [hp]; simp), gather_argument hn hb (h4 last (by simp)), gather]
        simp [feed, feedNone, feedSkip, feedArg, hn, hb, hp]
      | variadic args last h1 h3 h4 h5 =>
        have hp : d.params.getD 0 = args.length + 1 := by rw [h1]; rfl
        rw [gather_commas hn hb args last _ h4 [] (by rw [hp]; simp), gather_variadic hn hb h3 h5 _ (by rw [hp]; simp), gather]
        simp [feed, feedNone, feedSkip, feedArg, hn, hb, hp]
      | omitted args h1 h2 h3 h4 =>
        obtain ⟨init, last, rfl⟩ := exists_last args h2
        have hp : d.params.getD 0 = init.length + 2 := by rw [h1]; simp
        rw [gather_commas hn hb init last _ (fun a ha => h4 a (List.mem_append_left _ ha)) [] (by rw [hp]; simp), gather_argument hn hb (h4 last (by simp)), gather]
        simp [feed, feedNone, feedSkip, feedArg, hn, hb, hp, h3]

/-! ## The result of C -/

/-- The flags are those of the hidden macros. -/
def Agrees (dis : Disabled) (hidden : List Nat) : Prop := ∀ m, dis m = true ↔ m ∈ hidden

theorem agrees_cons {dis : Disabled} {hidden : List Nat} (h : Agrees dis hidden) (m : Nat) : Agrees (disable dis m) (m :: hidden) := by
  intro x
  simp only [disable, List.mem_cons]
  by_cases hx : x = m
  · simp [hx]
  · simp [hx, h x]

theorem agrees_false {dis : Disabled} {hidden : List Nat} (h : Agrees dis hidden) {m : Nat} (hm : m ∉ hidden) : dis m = false := by
  cases hd : dis m with
  | false => rfl
  | true => exact absurd ((h m).mp hd) hm

theorem arguments_function {d : Macro} {inside : List Token} {args : List (List Token)} (h : Arguments d inside args) : d.function = true := by
  unfold Macro.function
  cases h with
  | none h => rw [h]; rfl
  | plain _ h => rw [h]; rfl
  | variadic _ _ h => rw [h]; rfl
  | omitted _ h => rw [h]; rfl

/-- The scan follows the rules of C. -/
theorem eats_of_scan {defs : Nat → Option Macro} {arg : Bool} {hidden : List Nat} {ts out last : List Token} (h : Scan defs true arg hidden ts out last) (dis : Disabled) (ha : Agrees dis hidden) :
    ∃ out', Eats defs arg dis ts out' last ∧ (arg = true → out' = out) ∧ out'.map Token.erase = out.map Token.erase := by
  induction h generalizing dis with
  | nil => exact ⟨[], .nil, fun _ => rfl, rfl⟩
  | token h1 _ ih =>
    obtain ⟨o, h2, h3, h4⟩ := ih dis ha
    exact ⟨_, .token h1 h2, fun h => by rw [h3 h], by simp [h4]⟩
  | @hidden arg hidden m d ts out last h1 h2 h3 _ ih =>
    obtain ⟨o, h4, h5, h6⟩ := ih dis ha
    cases arg with
    | false => exact ⟨_, .hiddenMain h1 ((ha m).mpr h2) h4, (fun h => nomatch h), by simp [h6, Token.erase]⟩
    | true =>
      cases hf : d.function with
      | false => exact ⟨_, .hiddenObject h1 ((ha m).mpr h2) hf h4, fun h => by rw [h5 h], by simp [h6]⟩
      | true => exact ⟨_, .hiddenCall h1 ((ha m).mpr h2) hf (h3 rfl rfl hf) h4, fun h => by rw [h5 h], by simp [h6]⟩
  | noCall h1 h2 h3 h4 h5 _ ih =>
    obtain ⟨o, h6, h7, h8⟩ := ih dis ha
    exact ⟨_, .noCall h1 (.inr (agrees_false ha h2)) h3 h4 h5 h6, fun h => by rw [h7 h], by simp [h8]⟩
  | last h1 h2 h3 => exact ⟨_, .last h1 (.inr (agrees_false ha h2)) h3, fun _ => rfl, rfl⟩
  | @object arg hidden m d ts out last out' last' h1 h2 h3 _ _ ih1 ih2 =>
    obtain ⟨o1, h4, h5, h6⟩ := ih1 _ (agrees_cons ha m)
    obtain ⟨o2, h7, h8, h9⟩ := ih2 dis ha
    exact ⟨_, .object h1 (agrees_false ha h2) h3 h4 h7, fun h => by rw [h5 h, h8 h], by simp [h6, h9]⟩
  | @call arg hidden m d inside rest out last out' last' args outs lasts h1 h2 h3 _ _ _ iha ih1 ih2 =>
    obtain ⟨o1, h4, h5, h6⟩ := ih1 _ (agrees_cons ha m)
    obtain ⟨o2, h7, h8, h9⟩ := ih2 dis ha
    obtain ⟨args', hg, hargs⟩ := gather_arguments h3 rest
    refine ⟨_, .call h1 (agrees_false ha h2) (arguments_function h3) hg (fun i hi => ?_) h4 h7, fun h => by rw [h5 h, h8 h], by simp [h6, h9]⟩
    have hb : d.body ≠ [] := fun hb => by rw [hb] at hi; cases hi
    rw [hargs hb]
    obtain ⟨o, h10, h11, _⟩ := iha i hi dis ha
    rw [h11 rfl] at h10
    exact h10

theorem runs_bottom {defs : Nat → Option Macro} {arg : Bool} {dis : Disabled} {ts out last : List Token} (h : Eats defs arg dis ts out last) : Runs defs arg [⟨ts, none⟩] dis (.ok (out ++ last) dis) := by
  have h1 := runs_of_eats h none [] (.ok last dis) ?_
  · rw [prepend_ok] at h1; exact h1
  · rcases eats_last h with h2 | ⟨m, d, h2, h3, h4, h5⟩
    · rw [h2]; exact ⟨1, rfl⟩
    · rw [h2]
      refine ⟨2, ?_⟩
      cases arg with
      | true => simp [pushLast, scan, enable, settle, decideToken, h3, h4, peekParen, Result.cons]
      | false =>
        have h5 : dis m = false := by rcases h5 with h | h; cases h; exact h
        simp [pushLast, scan, enable, settle, decideToken, h3, h4, h5, peekParen, Result.cons]

theorem preprocess_of_runs {defs : Nat → Option Macro} {source : List Token} {r : Result} (h : Runs defs false [⟨source, none⟩] (fun _ => false) r) :
    ∃ fuel, ∀ fuel', fuel ≤ fuel' → preprocess defs fuel' source = some r.tokens := by
  obtain ⟨fuel, h⟩ := h
  refine ⟨fuel, fun fuel' hle => ?_⟩
  unfold preprocess
  rw [scan_mono h hle]
  rfl

/-- **C65**: if the macros of `source` can be replaced by the rules of C, macro expansion ends and gives
that result. Left out: hidden names of function-like macros in arguments that are not followed by `(`. -/
theorem C65_result_partial (defs : Nat → Option Macro) (source out : List Token) (h : Replaces defs true source out) :
    ∃ fuel, ∀ fuel', fuel ≤ fuel' → preprocess defs fuel' source = some (some out) := by
  obtain ⟨o, last, h1, rfl⟩ := h
  obtain ⟨o', h2, _, h3⟩ := eats_of_scan h1 (fun _ => false) (fun m => by simp)
  have h4 := preprocess_of_runs (runs_bottom h2)
  simp only [Result.tokens, List.map_append, h3] at h4
  rw [List.map_append]
  exact h4

theorem scan_strict {defs : Nat → Option Macro} {arg : Bool} {hidden : List Nat} {ts out last : List Token} (h : Scan defs true arg hidden ts out last) : Scan defs false arg hidden ts out last := by
  induction h with
  | nil => exact .nil
  | token h1 _ ih => exact .token h1 ih
  | hidden h1 h2 _ _ ih => exact .hidden h1 h2 (fun h => nomatch h) ih
  | noCall h1 h2 h3 h4 h5 _ ih => exact .noCall h1 h2 h3 h4 h5 ih
  | last h1 h2 h3 => exact .last h1 h2 h3
  | object h1 h2 h3 _ _ ih1 ih2 => exact .object h1 h2 h3 ih1 ih2
  | call h1 h2 h3 _ _ _ iha ih1 ih2 => exact .call h1 h2 h3 iha ih1 ih2

/-- What is left out in `C65_result_partial` is all that is left out. -/
theorem C65_strict (defs : Nat → Option Macro) (source out : List Token) (h : Replaces defs true source out) : Replaces defs false source out := by
  obtain ⟨o, last, h1, h2⟩ := h
  exact ⟨o, last, scan_strict h1, h2⟩

/-! ## The result of C is unique -/

theorem macro_ident {defs : Nat → Option Macro} {m : Nat} {d : Macro} (h : defs m = some d) : (Token.ident m).macro defs = true := by
  simp only [Token.macro, h]; rfl

theorem scan_unique {defs : Nat → Option Macro} {strict arg : Bool} {hidden : List Nat} {ts out last out' last' : List Token} (h : Scan defs strict arg hidden ts out last) (h' : Scan defs strict arg hidden ts out' last') :
    out = out' ∧ last = last' := by
  induction h generalizing out' last' with
  | nil => cases h'; exact ⟨rfl, rfl⟩
  | token h1 _ ih =>
    cases h' with
    | token _ h2 => obtain ⟨rfl, rfl⟩ := ih h2; exact ⟨rfl, rfl⟩
    | hidden h2 => rw [macro_ident h2] at h1; cases h1
    | noCall h2 => rw [macro_ident h2] at h1; cases h1
    | last h2 => rw [macro_ident h2] at h1; cases h1
    | object h2 => rw [macro_ident h2] at h1; cases h1
    | call h2 => rw [macro_ident h2] at h1; cases h1
  | hidden h1 h2 _ _ ih =>
    cases h' with
    | token h3 => rw [macro_ident h1] at h3; cases h3
    | hidden _ _ _ h3 => obtain ⟨rfl, rfl⟩ := ih h3; exact ⟨rfl, rfl⟩
    | noCall _ h3 => exact absurd h2 h3
    | last _ h3 => exact absurd h2 h3
    | object _ h3 => exact absurd h2 h3
    | call _ h3 => exact absurd h2 h3
  | noCall h1 h2 h3 h4 h5 _ ih =>
    cases h' with
    | token h6 => rw [macro_ident h1] at h6; cases h6
    | hidden _ h6 => exact absurd h6 h2
    | noCall _ _ _ _ _ h6 => obtain ⟨rfl, rfl⟩ := ih h6; exact ⟨rfl, rfl⟩
    | last => exact absurd rfl h4
    | object h6 _ h7 => rw [h1] at h6; cases h6; rw [h3] at h7; cases h7
    | call => cases h5
  | last h1 h2 h3 =>
    cases h' with
    | token h6 => rw [macro_ident h1] at h6; cases h6
    | hidden _ h6 => exact absurd h6 h2
    | noCall _ _ _ h6 => exact absurd rfl h6
    | last => exact ⟨rfl, rfl⟩
    | object h6 _ h7 => rw [h1] at h6; cases h6; rw [h3] at h7; cases h7
  | object h1 h2 h3 _ _ ih1 ih2 =>
    cases h' with
    | token h6 => rw [macro_ident h1] at h6; cases h6
    | hidden _ h6 => exact absurd h6 h2
    | noCall h6 _ h7 => rw [h1] at h6; cases h6; rw [h3] at h7; cases h7
    | last h6 _ h7 => rw [h1] at h6; cases h6; rw [h3] at h7; cases h7
    | object h6 _ _ h7 h8 =>
      rw [h1] at h6; cases h6
      obtain ⟨rfl, rfl⟩ := ih1 h7
      obtain ⟨rfl, rfl⟩ := ih2 h8
      exact ⟨rfl, rfl⟩
    | call h6 _ h7 => rw [h1] at h6; cases h6; rw [arguments_function h7] at h3; cases h3
  | @call arg hidden m d inside rest out last out2 last2 args outs lasts h1 h2 h3 _ _ _ iha ih1 ih2 =>
    generalize hts : Token.ident m :: .lparen :: inside ++ .rparen :: rest = ts at h'
    cases h' with
    | nil => cases hts
    | token h6 => cases hts; rw [macro_ident h1] at h6; cases h6
    | hidden _ h6 => cases hts; exact absurd h6 h2
    | noCall _ _ _ _ h6 => cases hts; cases h6
    | last => cases hts
    | object h6 _ h7 => cases hts; rw [h1] at h6; cases h6; rw [arguments_function h3] at h7; cases h7
    | @call _ _ m' d' inside' rest' _ _ _ _ args' outs' lasts' h6 _ h7 ha h8 h9 =>
      injection hts with hm hts
      injection hm with hm
      subst hm
      rw [h1] at h6; cases h6
      injection hts with _ hts
      obtain ⟨a1, hg1, he1⟩ := gather_arguments h3 rest
      obtain ⟨a2, hg2, he2⟩ := gather_arguments h7 rest'
      have hts' : inside ++ Token.rparen :: rest = inside' ++ .rparen :: rest' := hts
      rw [hts', hg2] at hg1
      injection hg1 with hg1 hg3
      subst hg3
      have hsub : subst d.body (fun i => outs i ++ lasts i) = subst d.body fun i => outs' i ++ lasts' i := by
        refine subst_congr fun i hi => ?_
        have hb : d.body ≠ [] := fun hb => by rw [hb] at hi; cases hi
        have h10 := ha i hi
        rw [← he2 hb, hg1, he1 hb] at h10
        obtain ⟨h11, h12⟩ := iha i hi h10
        show outs i ++ lasts i = outs' i ++ lasts' i
        rw [h11, h12]
      rw [← hsub] at h8
      obtain ⟨rfl, rfl⟩ := ih1 h8
      obtain ⟨rfl, rfl⟩ := ih2 h9
      exact ⟨rfl, rfl⟩

/-- **C11**: the rules of C give at most one result. -/
theorem C11_unique (defs : Nat → Option Macro) (source out out' : List Token) (h : Replaces defs false source out) (h' : Replaces defs false source out') : out = out' := by
  obtain ⟨o, last, h1, rfl⟩ := h
  obtain ⟨o', last', h1', rfl⟩ := h'
  obtain ⟨rfl, rfl⟩ := scan_unique h1 h1'
  rfl

/-! ## Termination -/

/-- The number of macros below `n` that are enabled. -/
def rank (n : Nat) (dis : Disabled) : Nat := ((List.range n).filter fun m => !dis m).length

theorem rank_disable {n : Nat} {dis : Disabled} {m : Nat} (hm : m < n) (hd : dis m = false) : rank n (disable dis m) < rank n dis := by
  have key : ∀ l : List Nat, (l.filter fun x => !disable dis m x).length ≤ (l.filter fun x => !dis x).length ∧ (m ∈ l → (l.filter fun x => !disable dis m x).length < (l.filter fun x => !dis x).length) := by
    intro l
    induction l with
    | nil => exact ⟨Nat.le_refl _, fun h => by cases h⟩
    | cons a l ih =>
      by_cases ham : a = m
      · subst ham
        have h1 : disable dis a a = true := by simp [disable]
        simp only [List.filter_cons, h1, hd, Bool.not_true, Bool.not_false, if_true, List.length_cons]
        exact ⟨by have := ih.1; simp; omega, fun _ => by have := ih.1; simp; omega⟩
      · have h1 : disable dis m a = dis a := by simp [disable, ham]
        simp only [List.filter_cons, h1]
        cases hda : dis a with
        | true =>
          refine ⟨ih.1, fun h => ih.2 ?_⟩
          rcases List.mem_cons.mp h with h | h
          · exact absurd h.symm ham
          · exact h
        | false =>
          simp only [Bool.not_false, if_true, List.length_cons]
          refine ⟨by have := ih.1; omega, fun h => ?_⟩
          rcases List.mem_cons.mp h with h | h
          · exact absurd h.symm ham
          · have := ih.2 h; omega
  exact (key _).2 (List.mem_range.mpr hm)

/-- The depth of parentheses after `ts`, `none` if there are too many `)`. -/
def depth : Nat → List Token → Option Nat
  | k, [] => some k
  | k, .lparen :: ts => depth (k + 1) ts
  | 0, .rparen :: _ => none
  | k + 1, .rparen :: ts => depth k ts
  | k, _ :: ts => depth k ts

theorem depth_token {t : Token} (h : t.paren = false) (k : Nat) (ts : List Token) : depth k (t :: ts) = depth k ts := by
  cases t <;> first | (cases h; done) | (cases k <;> rfl)

theorem depth_append (a b : List Token) (k : Nat) : depth k (a ++ b) = (depth k a).bind fun k => depth k b := by
  induction a generalizing k with
  | nil => cases k <;> rfl
  | cons t a ih =>
    cases ht : t.paren with
    | false => rw [List.cons_append, depth_token ht, depth_token ht, ih]
    | true =>
      cases t with
      | lparen => cases k <;> exact ih _
      | rparen =>
        cases k with
        | zero => rfl
        | succ k => exact ih _
      | _ => cases ht

theorem depth_nil (k : Nat) : depth k [] = some k := by cases k <;> rfl
theorem depth_lparen (k : Nat) (ts : List Token) : depth k (.lparen :: ts) = depth (k + 1) ts := by cases k <;> rfl

theorem depth_balanced {a : List Token} (h : Balanced a) (k : Nat) : depth k a = some k := by
  induction h generalizing k with
  | nil => exact depth_nil k
  | token h1 _ ih => rw [depth_token h1, ih]
  | parens _ _ ih1 ih2 =>
    rw [List.cons_append, depth_lparen, depth_append, ih1]
    exact ih2 k

theorem depth_shift {a : List Token} {k e : Nat} (h : depth k a = some e) (j : Nat) : depth (k + j) a = some (e + j) := by
  induction a generalizing k with
  | nil => rw [depth_nil] at h ⊢; cases h; rfl
  | cons t a ih =>
    cases ht : t.paren with
    | false => rw [depth_token ht] at h ⊢; exact ih h
    | true =>
      cases t with
      | lparen =>
        rw [depth_lparen] at h ⊢
        rw [show k + j + 1 = k + 1 + j by omega]
        exact ih h
      | rparen =>
        cases k with
        | zero => cases h
        | succ k =>
          rw [show k + 1 + j = (k + j) + 1 by omega]
          exact ih h
      | _ => cases ht

/-- Replacing parameters by balanced sequences. -/
theorem depth_subst {body : List Item} {e : Nat → List Token} (he : ∀ i, Item.param i ∈ body → ∀ k, depth k (e i) = some k) (k : Nat) :
    depth k (subst body e) = depth k (subst body fun _ => []) := by
  induction body generalizing k with
  | nil => rfl
  | cons a l ih =>
    have ih := ih fun i hi => he i (List.mem_cons_of_mem _ hi)
    have h1 : ∀ f : Nat → List Token, subst (a :: l) f = (match a with | .tok t => [t] | .param i => f i) ++ subst l f := fun f => by
      unfold subst; rw [List.flatMap_cons]; cases a <;> rfl
    rw [h1, h1, depth_append, depth_append]
    cases a with
    | tok t =>
      dsimp only
      cases depth k [t] with
      | none => rfl
      | some k' => exact ih k'
    | param i =>
      dsimp only
      rw [he i List.mem_cons_self k, depth_nil]
      exact ih k

/-- The scan of a node keeps the depth of parentheses. -/
def Neutral (a : List Token) : Prop := ∀ k, depth k a = some k

theorem neutral_of {a : List Token} (h : depth 0 a = some 0) : Neutral a := fun k => by have := depth_shift h k; simpa using this

/-- What is true of the collected tokens. -/
def GoodGather (d : Macro) (g : Gather) : Prop :=
  0 < g.depth ∧ (d.params.getD 0 = 0 → g.depth = 1) ∧ (d.body ≠ [] → depth 0 g.cur = some (g.depth - 1) ∧ ∀ a ∈ g.done, Neutral a)

theorem depth_snoc {a : List Token} {t : Token} {e : Nat} (h : depth 0 a = some e) : depth 0 (a ++ [t]) = depth e [t] := by
  rw [depth_append, h]; rfl

/-- What is known after one more token. -/
def FeedGood (d : Macro) (g : Gather) (t : Token) : Feed → Prop
  | .more g' => GoodGather d g' ∧ ∀ D ts, depth (D + g.depth) (t :: ts) = depth (D + g'.depth) ts
  | .fin args => (∀ a ∈ args, Neutral a) ∧ ∀ D ts, depth (D + g.depth) (t :: ts) = depth D ts
  | .bad => True

theorem depth_out {g : Nat} (h : g = 1) (D : Nat) (ts : List Token) : depth (D + g) (.rparen :: ts) = depth D ts := by rw [h]; rfl
theorem depth_less {g : Nat} (h : 0 < g) (D : Nat) (ts : List Token) : depth (D + g) (.rparen :: ts) = depth (D + (g - 1)) ts := by
  rw [show D + g = (D + (g - 1)) + 1 by omega]; rfl

theorem feedSkip_good {d : Macro} {g : Gather} {t : Token} (hg : GoodGather d g) (hn : d.params.getD 0 ≠ 0) (hb : d.body = []) : FeedGood d g t (feedSkip g t) := by
  obtain ⟨h1, _, _⟩ := hg
  have good : ∀ g' : Gather, 0 < g'.depth → GoodGather d g' := fun g' h => ⟨h, fun h' => absurd h' hn, fun h' => absurd hb h'⟩
  have plain : ∀ t : Token, t.paren = false → FeedGood d g t (.more g) := fun t ht => ⟨good g h1, fun D ts => depth_token ht _ _⟩
  cases t with
  | lparen => exact ⟨good _ (by show 0 < g.depth + 1; omega), fun D ts => depth_lparen _ _⟩
  | rparen =>
    unfold feedSkip
    dsimp only
    split
    · rename_i h; exact ⟨fun a ha => (by cases ha), fun D ts => depth_out h D ts⟩
    · exact ⟨good _ (by show 0 < g.depth - 1; omega), fun D ts => depth_less h1 D ts⟩
  | _ => exact plain _ rfl

theorem feedArg_good {d : Macro} {g : Gather} {t : Token} (hg : GoodGather d g) (hn : d.params.getD 0 ≠ 0) (hb : d.body ≠ []) : FeedGood d g t (feedArg d g t) := by
  obtain ⟨h1, _, h3⟩ := hg
  obtain ⟨h2, h3⟩ := h3 hb
  have good : ∀ g' : Gather, 0 < g'.depth → depth 0 g'.cur = some (g'.depth - 1) → (∀ a ∈ g'.done, Neutral a) → GoodGather d g' := fun g' h h' h'' => ⟨h, fun h' => absurd h' hn, fun _ => ⟨h', h''⟩⟩
  have plain : ∀ t : Token, t.paren = false → FeedGood d g t (.more (g.add t)) := fun t ht =>
    ⟨good _ h1 (by show depth 0 (g.cur ++ [t]) = _; rw [depth_snoc h2, depth_token ht, depth_nil]; rfl) h3, fun D ts => depth_token ht _ _⟩
  have cur1 : g.depth = 1 → Neutral g.cur := fun h => neutral_of (by rw [h2, h])
  have done1 : g.depth = 1 → ∀ a ∈ g.done ++ [g.cur], Neutral a := fun h a ha => by
    rcases List.mem_append.mp ha with ha | ha
    · exact h3 a ha
    · rw [List.mem_singleton.mp ha]; exact cur1 h
  cases t with
  | lparen =>
    refine ⟨good _ (by show 0 < g.depth + 1; omega) ?_ h3, fun D ts => depth_lparen _ _⟩
    show depth 0 (g.cur ++ [.lparen]) = some (g.depth + 1 - 1)
    rw [depth_snoc h2, depth_lparen, depth_nil]
    congr 1
    omega
  | rparen =>
    unfold feedArg
    dsimp only
    split
    · rename_i h
      split
      · exact ⟨done1 h, fun D ts => depth_out h D ts⟩
      · split
        · refine ⟨fun a ha => ?_, fun D ts => depth_out h D ts⟩
          rcases List.mem_append.mp ha with ha | ha
          · exact done1 h a ha
          · rw [List.mem_singleton.mp ha]; exact fun k => depth_nil k
        · trivial
    · rename_i h
      refine ⟨good _ (by show 0 < g.depth - 1; omega) ?_ h3, fun D ts => depth_less h1 D ts⟩
      show depth 0 (g.cur ++ [.rparen]) = some (g.depth - 1 - 1)
      rw [depth_snoc h2, show g.depth - 1 = (g.depth - 1 - 1) + 1 by omega]
      exact depth_nil _
  | comma =>
    unfold feedArg
    dsimp only
    split
    · rename_i h
      split
      · refine ⟨good _ h1 ?_ (done1 h), fun D ts => depth_token rfl _ _⟩
        show depth 0 [] = some (g.depth - 1)
        rw [h]; rfl
      · split
        · exact plain _ rfl
        · trivial
    · exact plain _ rfl
  | _ => exact plain _ rfl

theorem feed_good {d : Macro} {g : Gather} {t : Token} (hg : GoodGather d g) : FeedGood d g t (feed d g t) := by
  unfold feed
  split
  · rename_i hn
    unfold feedNone
    split
    · rename_i ht
      subst ht
      exact ⟨fun a ha => (by cases ha), fun D ts => depth_out (hg.2.1 hn) D ts⟩
    · trivial
  · rename_i hn
    split
    · rename_i hb; exact feedSkip_good hg hn hb
    · rename_i hb; exact feedArg_good hg hn hb

/-- What is known after the tokens of a node. -/
theorem gather_good {d : Macro} {ts : List Token} {g : Gather} (hg : GoodGather d g) :
    (∀ g', gather d g ts = .more g' → 0 < g'.depth ∧ ∀ D, depth (D + g.depth) ts = some (D + g'.depth))
    ∧ ∀ args rest, gather d g ts = .fin args rest → (∀ a ∈ args, Neutral a) ∧ rest.length < ts.length ∧ ∀ D, depth (D + g.depth) ts = depth D rest := by
  induction ts generalizing g with
  | nil =>
    refine ⟨fun g' h => ?_, fun args rest h => by cases h⟩
    cases h
    exact ⟨hg.1, fun D => depth_nil _⟩
  | cons t ts ih =>
    have h1 := feed_good (t := t) hg
    rw [gather]
    cases hf : feed d g t with
    | more g1 =>
      rw [hf] at h1
      obtain ⟨h2, h3⟩ := h1
      obtain ⟨h4, h5⟩ := ih h2
      refine ⟨fun g' h => ?_, fun args rest h => ?_⟩
      · obtain ⟨h6, h7⟩ := h4 g' h
        exact ⟨h6, fun D => (h3 D ts).trans (h7 D)⟩
      · obtain ⟨h6, h7, h8⟩ := h5 args rest h
        exact ⟨h6, Nat.lt_succ_of_lt h7, fun D => (h3 D ts).trans (h8 D)⟩
    | fin args =>
      rw [hf] at h1
      refine ⟨fun g' h => (by cases h), fun args rest h => ?_⟩
      cases h
      exact ⟨h1.1, Nat.lt_succ_self _, fun D => h1.2 D ts⟩
    | bad => exact ⟨fun g' h => (by cases h), fun args rest h => (by cases h)⟩

/-- The arguments are not longer than the tokens. -/
theorem gather_length {d : Macro} {ts : List Token} {g : Gather} {N : Nat} (h1 : ∀ a ∈ g.done, a.length ≤ N) (h2 : g.cur.length + ts.length ≤ N) {args : List (List Token)} {rest : List Token} (h : gather d g ts = .fin args rest) : ∀ a ∈ args, a.length ≤ N := by
  induction ts generalizing g with
  | nil => cases h
  | cons t ts ih =>
    rw [gather] at h
    simp only [List.length_cons] at h2
    have hdone : ∀ a ∈ g.done ++ [g.cur], a.length ≤ N := fun a ha => by
      rcases List.mem_append.mp ha with ha | ha
      · exact h1 a ha
      · rw [List.mem_singleton.mp ha]; omega
    have hadd : ∀ k, gather d ⟨k, g.done, g.cur ++ [t]⟩ ts = .fin args rest → ∀ a ∈ args, a.length ≤ N := fun k h => ih (g := ⟨k, g.done, g.cur ++ [t]⟩) h1 (by simp; omega) h
    have hkeep : ∀ k, gather d ⟨k, g.done, g.cur⟩ ts = .fin args rest → ∀ a ∈ args, a.length ≤ N := fun k h => ih (g := ⟨k, g.done, g.cur⟩) h1 (by show g.cur.length + ts.length ≤ N; omega) h
    unfold feed at h
    split at h
    · rename_i args' he
      split at he
      · unfold feedNone at he; split at he <;> cases he
      · split at he
        · cases t <;> simp only [feedSkip] at he
          case rparen =>
            split at he
            · cases he
            · cases he; exact hkeep _ h
          all_goals (cases he; exact hkeep _ h)
        · cases t <;> simp only [feedArg] at he
          case comma =>
            split at he
            · split at he
              · cases he
                exact ih (g := ⟨_, g.done ++ [g.cur], []⟩) hdone (by simp; omega) h
              · split at he
                · cases he; exact hadd _ h
                · cases he
            · cases he; exact hadd _ h
          case rparen =>
            split at he
            · split at he
              · cases he
              · split at he <;> cases he
            · cases he; exact hadd _ h
          all_goals (cases he; exact hadd _ h)
    · rename_i args' he
      cases h
      split at he
      · unfold feedNone at he
        split at he
        · cases he; exact fun a ha => by cases ha
        · cases he
      · split at he
        · cases t <;> simp only [feedSkip] at he
          case rparen =>
            split at he
            · cases he; exact fun a ha => by cases ha
            · cases he
          all_goals cases he
        · cases t <;> simp only [feedArg] at he
          case comma =>
            split at he
            · split at he
              · cases he
              · split at he <;> cases he
            · cases he
          case rparen =>
            split at he
            · split at he
              · cases he; exact hdone
              · split at he
                · cases he
                  intro a ha
                  rcases List.mem_append.mp ha with ha | ha
                  · exact hdone a ha
                  · rw [List.mem_singleton.mp ha]; exact Nat.zero_le _
                · cases he
            · cases he
          all_goals cases he
    · cases h

theorem good_start (d : Macro) : GoodGather d ⟨1, [], []⟩ := ⟨by decide, fun _ => rfl, fun _ => ⟨rfl, fun a ha => by cases ha⟩⟩

theorem neutral_append {a b : List Token} (ha : Neutral a) (hb : Neutral b) : Neutral (a ++ b) := fun k => by rw [depth_append, ha]; exact hb k

/-- Replacement of macros with balanced replacement lists keeps the depth. -/
theorem eats_depth {defs : Nat → Option Macro} (hbal : ∀ m d, defs m = some d → d.balanced) {arg : Bool} {dis : Disabled} {ts out last : List Token} (h : Eats defs arg dis ts out last) (k : Nat) : depth k (out ++ last) = depth k ts := by
  induction h generalizing k with
  | nil => rfl
  | @token arg dis t ts out last _ _ ih =>
    have := depth_append [t] (out ++ last) k
    rw [List.singleton_append] at this
    rw [List.cons_append, this]
    have := depth_append [t] ts k
    rw [List.singleton_append] at this
    rw [this]
    congr 1
    funext k
    exact ih k
  | hiddenMain _ _ _ ih => rw [List.cons_append, depth_token rfl, depth_token rfl, ih]
  | hiddenObject _ _ _ _ ih => rw [List.cons_append, depth_token rfl, depth_token rfl, ih]
  | hiddenCall _ _ _ _ _ ih => rw [List.cons_append, depth_token rfl, depth_token rfl, ih]
  | noCall _ _ _ _ _ _ ih => rw [List.cons_append, depth_token rfl, depth_token rfl, ih]
  | last => rfl
  | @object arg dis m d ts out last out' last' hm _ _ h1 h2 ih1 ih2 =>
    have h3 : depth k (out ++ last) = some k := (ih1 k).trans (depth_balanced (hbal m d hm) k)
    rw [List.append_assoc, depth_append, depth_token rfl]
    have h4 : depth k out = some k := by
      rcases eats_last h1 with h | ⟨_, _, h, _⟩
      · rw [h, List.append_nil] at h3; exact h3
      · rw [h, depth_append] at h3
        cases h5 : depth k out with
        | none => rw [h5] at h3; cases h3
        | some e => rw [h5] at h3; rw [← h3]; show some e = depth e [_]; rw [depth_token rfl, depth_nil]
    rw [h4]
    show depth k (out' ++ last') = _
    rw [ih2]
    rcases eats_last h1 with h | ⟨_, _, h, _⟩
    · rw [h]; rfl
    · rw [h]; exact depth_token rfl _ _
  | @call arg dis m d ts rest out last out' last' args outs lasts hm _ _ hg ha h1 h2 iha ih1 ih2 =>
    obtain ⟨hn, _, hd⟩ := (gather_good (good_start d)).2 args rest hg
    have hsub : Neutral (subst d.body fun i => outs i ++ lasts i) := by
      intro k
      rw [depth_subst]
      · exact depth_balanced (hbal m d hm) k
      · intro i hi k
        rw [iha i hi]
        by_cases hlt : i < args.length
        · have : args.getD i [] ∈ args := by
            rw [List.getD_eq_getElem?_getD, List.getElem?_eq_getElem hlt]; exact List.getElem_mem hlt
          exact hn _ this k
        · rw [getD_of_le (by omega)]; exact depth_nil k
    have h3 : depth k (out ++ last) = some k := (ih1 k).trans (hsub k)
    rw [List.append_assoc, depth_append, depth_token rfl, depth_lparen]
    have h4 : depth k out = some k := by
      rcases eats_last h1 with h | ⟨_, _, h, _⟩
      · rw [h, List.append_nil] at h3; exact h3
      · rw [h, depth_append] at h3
        cases h5 : depth k out with
        | none => rw [h5] at h3; cases h3
        | some e => rw [h5] at h3; rw [← h3]; show some e = depth e [_]; rw [depth_token rfl, depth_nil]
    rw [h4]
    show depth k (out' ++ last') = _
    rw [ih2]
    have h5 := hd k
    simp only at h5
    rcases eats_last h1 with h | ⟨_, _, h, _⟩
    · rw [h]; exact h5.symm
    · rw [h, h5]; exact depth_token rfl _ _

/-- The tokens are what is left of a balanced sequence. -/
def Suffix (ts : List Token) : Prop := ∃ k, depth k ts = some 0

/-- The scan of a node ends: the tokens are eaten, or there is an error. `b` says that there is no node below. -/
def Ends (defs : Nat → Option Macro) (b arg : Bool) (dis : Disabled) (ts : List Token) : Prop :=
  (∃ out last, Eats defs arg dis ts out last) ∨ ∀ re below, (b = true → below = []) → Runs defs arg (⟨ts, re⟩ :: below) dis .error

/-- Arguments that are expanded or fail. -/
theorem expandArgs_total {defs : Nat → Option Macro} {d : Macro} {dis : Disabled} {args : List (List Token)} {k : Nat} (h : ∀ i, i < args.length → Item.param (k + i) ∈ d.body → Ends defs true true dis (args.getD i [])) :
    (∀ i, i < args.length → Item.param (k + i) ∈ d.body → ∃ out last, Eats defs true dis (args.getD i []) out last) ∨
    ∃ fuel, expandArgs (fun a dis => scan defs fuel true [⟨a, none⟩] dis) d k args dis = some none := by
  induction args generalizing k with
  | nil => exact .inl fun i hi => absurd hi (by simp)
  | cons a as ih =>
    have ih := ih (k := k + 1) (fun i hi hp => h (i + 1) (by simp; omega) (by rw [show k + (i + 1) = k + 1 + i by omega]; exact hp))
    by_cases hp : Item.param k ∈ d.body
    · rcases h 0 (by simp) hp with ⟨out, last, h1⟩ | h1
      · rcases ih with ih | ⟨f1, ih⟩
        · refine .inl fun i hi hpi => ?_
          cases i with
          | zero => exact ⟨out, last, h1⟩
          | succ i => exact ih i (by simp at hi; omega) (by rw [show k + 1 + i = k + (i + 1) by omega]; exact hpi)
        · obtain ⟨f2, h2⟩ := runs_bottom h1
          refine .inr ⟨max f1 f2, ?_⟩
          rw [expandArgs, if_pos hp]
          have h3 : scan defs (max f1 f2) true [⟨a, none⟩] dis = some (.ok (out ++ last) dis) := scan_mono h2 (Nat.le_max_right _ _)
          rw [h3]
          dsimp only
          rw [expandArgs_mono (fun a dis r h => scan_mono h (Nat.le_max_left f1 f2)) ih]
      · obtain ⟨f, h2⟩ := h1 none [] fun _ => rfl
        refine .inr ⟨f, ?_⟩
        rw [expandArgs, if_pos hp]
        have h3 : scan defs f true [⟨a, none⟩] dis = some .error := h2
        rw [h3]
    · rcases ih with ih | ⟨f1, ih⟩
      · refine .inl fun i hi hpi => ?_
        cases i with
        | zero => exact absurd hpi hp
        | succ i => exact ih i (by simp at hi; omega) (by rw [show k + 1 + i = k + (i + 1) by omega]; exact hpi)
      · refine .inr ⟨f1, ?_⟩
        rw [expandArgs, if_neg hp, ih]

/-- A function-like macro with its arguments. -/
theorem runs_call {defs : Nat → Option Macro} {arg : Bool} {dis : Disabled} {m : Nat} {d : Macro} {ts rest : List Token} {args : List (List Token)} {outs lasts : Nat → List Token} (hm : defs m = some d) (hdis : dis m = false) (hf : d.function = true)
    (hg : gather d ⟨1, [], []⟩ ts = .fin args rest) (ha : ∀ i, Item.param i ∈ d.body → Eats defs true dis (args.getD i []) (outs i) (lasts i)) (hb : d.body ≠ []) (re : Option Nat) (below : Stack) (r : Result)
    (hr : Runs defs arg (⟨subst d.body fun i => outs i ++ lasts i, some m⟩ :: ⟨rest, re⟩ :: below) (disable dis m) r) : Runs defs arg (⟨.ident m :: .lparen :: ts, re⟩ :: below) dis r := by
  have hexp : decideToken defs arg (.ident m) (⟨.lparen :: ts, re⟩ :: below) dis = .expand m d (⟨.lparen :: ts, re⟩ :: below) dis := by
    cases arg <;> simp [decideToken, hm, hf, hdis, settle, peekParen, starts]
  obtain ⟨fuel, os, h3, h4, h5⟩ := expandArgs_ok (defs := defs) (args := args) (k := 0) (e := fun i => outs i ++ lasts i) (fun i _ hp => by
    rw [Nat.zero_add] at hp ⊢
    exact runs_bottom (ha i hp))
  have hsub : subst d.body (fun i => os.getD i []) = subst d.body fun i => outs i ++ lasts i := by
    refine subst_congr fun i hi => ?_
    by_cases hlt : i < args.length
    · have := h5 i hlt (by rw [Nat.zero_add]; exact hi)
      rw [Nat.zero_add] at this
      exact this
    · have h6 := ha i hi
      rw [getD_of_le (by omega)] at h6
      obtain ⟨h7, h8⟩ := eats_empty h6
      show os.getD i [] = outs i ++ lasts i
      rw [getD_of_le (by omega), h7, h8]
      rfl
  refine runs_expand hexp ⟨fuel, ?_⟩ hr
  simp only [expand, hf, if_true, collect_fin hg, h3]
  rw [push, if_neg hb, hsub]

theorem prepend_error (o : List Token) : Result.prepend o .error = .error := by
  induction o with
  | nil => rfl
  | cons t o ih => show Result.cons t (Result.prepend o .error) = _; rw [ih]; rfl

theorem ends_emit {defs : Nat → Option Macro} {b arg : Bool} {dis : Disabled} {t : Token} {ts : List Token}
    (hd : ∀ re below, ∃ t', decideToken defs arg t (⟨ts, re⟩ :: below) dis = .emit t' (⟨ts, re⟩ :: below) dis) (h : Ends defs b arg dis ts) (he : ∀ out last, Eats defs arg dis ts out last → ∃ out' last', Eats defs arg dis (t :: ts) out' last') : Ends defs b arg dis (t :: ts) := by
  rcases h with ⟨out, last, h⟩ | h
  · exact .inl (he out last h)
  · refine .inr fun re below hb => ?_
    obtain ⟨t', hd⟩ := hd re below
    exact runs_emit hd (h re below hb)

/-- The name of a function-like macro. -/
theorem ends_function {defs : Nat → Option Macro} {n : Nat} (hfin : ∀ m, n ≤ m → defs m = none) (hbal : ∀ m d, defs m = some d → d.balanced) {dis : Disabled}
    (ihr : ∀ dis', rank n dis' < rank n dis → ∀ arg ts, Suffix ts → Ends defs false arg dis' ts) {b arg : Bool} {m : Nat} {d : Macro} {ts : List Token} (hm : defs m = some d) (hf : d.function = true)
    (hs : b = true ∨ Suffix ts) (ih : ∀ b arg ts', ts'.length ≤ ts.length → b = true ∨ Suffix ts' → Ends defs b arg dis ts')
    (ihf : ∀ k d' ts', defs k = some d' → d'.function = true → ts'.length < ts.length → b = true ∨ Suffix ts' → Ends defs b arg dis (.ident k :: ts')) : Ends defs b arg dis (.ident m :: ts) := by
  by_cases hmain : arg = false ∧ dis m = true
  · obtain ⟨rfl, hdis⟩ := hmain
    exact ends_emit (fun re below => ⟨.ident m, by simp [decideToken, hm, hdis]⟩) (ih b false ts (Nat.le_refl _) hs) fun out last h => ⟨_, _, .hiddenMain hm hdis h⟩
  · have hor : arg = true ∨ dis m = false := by
      cases arg with
      | true => exact .inl rfl
      | false => cases h : dis m with
        | false => exact .inr rfl
        | true => exact absurd ⟨rfl, h⟩ hmain
    cases ts with
    | nil => exact .inl ⟨_, _, .last hm hor hf⟩
    | cons t ts =>
      by_cases hst : starts (t :: ts) = true
      · have ht : t = .lparen := by cases t <;> first | rfl | cases hst
        subst ht
        cases hdis : dis m with
        | true =>
          have harg : arg = true := by rcases hor with h | h; exact h; rw [hdis] at h; cases h
          subst harg
          exact ends_emit (fun re below => ⟨.fixed m, by simp [decideToken, hm, hdis, hf, settle, peekParen, starts]⟩) (ih b true _ (Nat.le_refl _) hs) fun out last h => ⟨_, _, .hiddenCall hm hdis hf hst h⟩
        | false =>
          have hexp : ∀ re below, decideToken defs arg (.ident m) (⟨.lparen :: ts, re⟩ :: below) dis = .expand m d (⟨.lparen :: ts, re⟩ :: below) dis := fun re below => by
            cases arg <;> simp [decideToken, hm, hf, hdis, settle, peekParen, starts]
          have hmn : m < n := by
            by_cases h : m < n
            · exact h
            · rw [hfin m (by omega)] at hm; cases hm
          cases hg : gather d ⟨1, [], []⟩ ts with
          | more g =>
            obtain ⟨h1, h2⟩ := (gather_good (good_start d)).1 g hg
            rcases hs with hs | ⟨k, hs⟩
            · refine .inr fun re below hb => runs_fail (hexp re below) ⟨0, ?_⟩
              rw [hb hs]
              simp only [expand, hf, if_true, collect, hg]
            · rw [depth_lparen, h2 k] at hs
              injection hs with hs
              omega
          | bad =>
            refine .inr fun re below _ => runs_fail (hexp re below) ⟨0, ?_⟩
            simp only [expand, hf, if_true, collect, hg]
          | fin args rest =>
            obtain ⟨h1, h2, h3⟩ := (gather_good (good_start d)).2 args rest hg
            have hrest : b = true ∨ Suffix rest := by
              rcases hs with hs | ⟨k, hs⟩
              · exact .inl hs
              · rw [depth_lparen] at hs
                exact .inr ⟨k, (h3 k).symm.trans hs⟩
            have hargs : ∀ i, i < args.length → Item.param (0 + i) ∈ d.body → Ends defs true true dis (args.getD i []) := by
              intro i _ _
              refine ih true true _ ?_ (.inl rfl)
              by_cases hlt : i < args.length
              · have hmem : args.getD i [] ∈ args := by
                  rw [List.getD_eq_getElem?_getD, List.getElem?_eq_getElem hlt]; exact List.getElem_mem hlt
                exact Nat.le_succ_of_le (gather_length (N := ts.length) (fun a ha => by cases ha) (by simp) hg _ hmem)
              · rw [getD_of_le (by omega)]; exact Nat.zero_le _
            rcases expandArgs_total hargs with hall | ⟨f, hfail⟩
            · have hall : ∀ i, ∃ o : List Token × List Token, Item.param i ∈ d.body → Eats defs true dis (args.getD i []) o.1 o.2 := by
                intro i
                by_cases hp : Item.param i ∈ d.body
                · by_cases hlt : i < args.length
                  · obtain ⟨o, l, h⟩ := hall i hlt (by rw [Nat.zero_add]; exact hp)
                    exact ⟨(o, l), fun _ => h⟩
                  · exact ⟨([], []), fun _ => by rw [getD_of_le (by omega)]; exact .nil⟩
                · exact ⟨([], []), fun h => absurd h hp⟩
              obtain ⟨f, hf'⟩ := Classical.axiomOfChoice hall
              have hneutral : Neutral (subst d.body fun i => (f i).1 ++ (f i).2) := by
                intro k
                rw [depth_subst]
                · exact depth_balanced (hbal m d hm) k
                · intro i hi k
                  rw [eats_depth hbal (hf' i hi)]
                  by_cases hlt : i < args.length
                  · have hmem : args.getD i [] ∈ args := by
                      rw [List.getD_eq_getElem?_getD, List.getElem?_eq_getElem hlt]; exact List.getElem_mem hlt
                    exact h1 _ hmem k
                  · rw [getD_of_le (by omega)]; exact depth_nil k
              rcases ihr _ (rank_disable hmn hdis) arg _ ⟨0, hneutral 0⟩ with ⟨o1, l1, he1⟩ | herr
              · have hnext : Ends defs b arg dis (l1 ++ rest) := by
                  rcases last_of he1 with h | ⟨k, d', h, hk, hd'⟩
                  · rw [h]; exact ih b arg rest (by simp; omega) hrest
                  · rw [h]; exact ihf k d' rest hk hd' (by simp; omega) hrest
                rcases hnext with ⟨o2, l2, he2⟩ | herr2
                · exact .inl ⟨_, _, .call hm hdis hf hg (fun i hi => hf' i hi) he1 he2⟩
                · refine .inr fun re below hbelow => ?_
                  have hr2 := herr2 re below hbelow
                  by_cases hb : d.body = []
                  · rw [hb] at he1
                    obtain ⟨rfl, rfl⟩ := eats_empty he1
                    refine runs_expand (stack' := ⟨rest, re⟩ :: below) (dis'' := dis) (hexp re below) ?_ hr2
                    obtain ⟨fuel, os, h4, _, _⟩ := expandArgs_ok (defs := defs) (d := d) (dis := dis) (args := args) (k := 0) (e := fun _ => []) (fun i _ hp => by rw [hb] at hp; cases hp)
                    refine ⟨fuel, ?_⟩
                    simp only [expand, hf, if_true, collect_fin hg, h4]
                    rw [push, if_pos hb]
                  · refine runs_call hm hdis hf hg (fun i hi => hf' i hi) hb re below _ ?_
                    have h4 := runs_of_eats he1 (some m) (⟨rest, re⟩ :: below) .error (by rw [enable_disable hdis]; exact pushLast_cons (last_of he1) hr2)
                    rw [prepend_error] at h4
                    exact h4
              · by_cases hb : d.body = []
                · exfalso
                  have h4 := herr none [] fun _ => rfl
                  rw [hb] at h4
                  obtain ⟨fuel, h4⟩ := h4
                  cases fuel <;> cases h4
                · exact .inr fun re below _ => runs_call hm hdis hf hg (fun i hi => hf' i hi) hb re below _ (herr _ _ fun h => nomatch h)
            · refine .inr fun re below _ => runs_fail (hexp re below) ⟨f, ?_⟩
              simp only [expand, hf, if_true, collect_fin hg, hfail]
      · have hst : starts (t :: ts) = false := by cases h : starts (t :: ts) with
          | false => rfl
          | true => exact absurd h hst
        refine ends_emit (fun re below => ⟨.ident m, ?_⟩) (ih b arg _ (Nat.le_refl _) hs) fun out last h => ⟨_, _, .noCall hm hor hf (by simp) hst h⟩
        cases arg with
        | true => simp [decideToken, hm, hf, settle, peekParen, hst]
        | false =>
          have hdis : dis m = false := by rcases hor with h | h; cases h; exact h
          simp [decideToken, hm, hf, settle, peekParen, hst, hdis]

/-- The scan of a node ends. -/
theorem ends {defs : Nat → Option Macro} {n : Nat} (hfin : ∀ m, n ≤ m → defs m = none) (hbal : ∀ m d, defs m = some d → d.balanced) (r : Nat) :
    ∀ dis, rank n dis ≤ r → ∀ N b arg ts, ts.length ≤ N → b = true ∨ Suffix ts → Ends defs b arg dis ts := by
  induction r using Nat.strongRecOn with
  | _ r ihr =>
  intro dis hr N
  have ihr : ∀ dis', rank n dis' < rank n dis → ∀ arg ts, Suffix ts → Ends defs false arg dis' ts := fun dis' h arg ts hs =>
    ihr (rank n dis') (by omega) dis' (Nat.le_refl _) ts.length false arg ts (Nat.le_refl _) (.inr hs)
  -- first for lists that start with the name of a function-like macro
  have main : ∀ N, (∀ b arg ts, ts.length ≤ N → b = true ∨ Suffix ts → Ends defs b arg dis ts) ∧
      ∀ b arg m d ts, defs m = some d → d.function = true → ts.length ≤ N → b = true ∨ Suffix ts → Ends defs b arg dis (.ident m :: ts) := by
    intro N
    induction N with
    | zero =>
      have h0 : ∀ b arg ts, ts.length ≤ 0 → b = true ∨ Suffix ts → Ends defs b arg dis ts := by
        intro b arg ts h _
        rw [List.length_eq_zero_iff.mp (Nat.le_zero.mp h)]
        exact .inl ⟨_, _, .nil⟩
      refine ⟨h0, fun b arg m d ts hm hf h hs => ?_⟩
      have hts := List.length_eq_zero_iff.mp (Nat.le_zero.mp h)
      subst hts
      exact ends_function hfin hbal ihr hm hf hs (fun b arg ts' h' => h0 b arg ts' h') (fun k d' ts' _ _ h' => absurd h' (Nat.not_lt_zero _))
    | succ N ih =>
      obtain ⟨ih1, ih2⟩ := ih
      have hS : ∀ t ts, Suffix (t :: ts) → Token.paren t = false → Suffix ts := fun t ts ⟨k, h⟩ ht => ⟨k, by rw [depth_token ht] at h; exact h⟩
      have step : ∀ b arg ts, ts.length ≤ N + 1 → b = true ∨ Suffix ts → Ends defs b arg dis ts := by
        intro b arg ts hlen hs
        cases ts with
        | nil => exact .inl ⟨_, _, .nil⟩
        | cons t ts =>
          have hlen' : ts.length ≤ N := by simp at hlen; omega
          by_cases hmac : t.macro defs = false
          · have hdec : ∀ s, decideToken defs arg t s dis = .emit t s dis := by
              intro s
              cases t with
              | ident m =>
                cases hm : defs m with
                | none => simp only [decideToken, hm]
                | some d => rw [macro_ident hm] at hmac; cases hmac
              | _ => rfl
            have hs' : b = true ∨ Suffix ts := by
              rcases hs with hs | ⟨k, hs⟩
              · exact .inl hs
              · refine .inr ?_
                cases t with
                | lparen => exact ⟨k + 1, by rw [depth_lparen] at hs; exact hs⟩
                | rparen =>
                  cases k with
                  | zero => cases hs
                  | succ k => exact ⟨k, hs⟩
                | _ => exact hS _ _ ⟨k, hs⟩ rfl
            exact ends_emit (fun re below => ⟨t, hdec _⟩) (ih1 b arg ts hlen' hs') fun out last h => ⟨_, _, .token hmac h⟩
          · cases t with
            | ident m =>
              have hs' : b = true ∨ Suffix ts := hs.imp id fun h => hS _ _ h rfl
              cases hm : defs m with
              | none => simp [Token.macro, hm] at hmac
              | some d =>
                cases hf : d.function with
                | true => exact ih2 b arg m d ts hm hf hlen' hs'
                | false =>
                  cases hdis : dis m with
                  | true =>
                    cases arg with
                    | true => exact ends_emit (fun re below => ⟨.fixed m, by simp [decideToken, hm, hdis, hf]⟩) (ih1 b true ts hlen' hs') fun out last h => ⟨_, _, .hiddenObject hm hdis hf h⟩
                    | false => exact ends_emit (fun re below => ⟨.ident m, by simp [decideToken, hm, hdis]⟩) (ih1 b false ts hlen' hs') fun out last h => ⟨_, _, .hiddenMain hm hdis h⟩
                  | false =>
                    have hmn : m < n := by
                      by_cases h : m < n
                      · exact h
                      · rw [hfin m (by omega)] at hm; cases hm
                    have hexp : ∀ re below, decideToken defs arg (.ident m) (⟨ts, re⟩ :: below) dis = .expand m d (⟨ts, re⟩ :: below) dis := fun re below => by
                      cases arg <;> simp [decideToken, hm, hf, hdis]
                    have hpush : ∀ re below r, d.body ≠ [] → Runs defs arg (⟨d.tokens, some m⟩ :: ⟨ts, re⟩ :: below) (disable dis m) r → Runs defs arg (⟨.ident m :: ts, re⟩ :: below) dis r := by
                      intro re below r hb hr
                      refine runs_expand (hexp re below) ⟨0, ?_⟩ hr
                      simp only [expand, hf, push, hb, if_false]
                      rfl
                    rcases ihr _ (rank_disable hmn hdis) arg d.tokens ⟨0, depth_balanced (hbal m d hm) 0⟩ with ⟨o1, l1, he1⟩ | herr
                    · have hnext : Ends defs b arg dis (l1 ++ ts) := by
                        rcases last_of he1 with h | ⟨k, d', h, hk, hd'⟩
                        · rw [h]; exact ih1 b arg ts hlen' hs'
                        · rw [h]; exact ih2 b arg k d' ts hk hd' hlen' hs'
                      rcases hnext with ⟨o2, l2, he2⟩ | herr2
                      · exact .inl ⟨_, _, .object hm hdis hf he1 he2⟩
                      · refine .inr fun re below hbelow => ?_
                        have hr2 := herr2 re below hbelow
                        by_cases hb : d.body = []
                        · have htok : d.tokens = [] := by unfold Macro.tokens; rw [hb]; rfl
                          rw [htok] at he1
                          obtain ⟨rfl, rfl⟩ := eats_empty he1
                          refine runs_expand (stack' := ⟨ts, re⟩ :: below) (dis'' := dis) (hexp re below) ⟨0, ?_⟩ hr2
                          simp only [expand, hf, push, hb, if_true]
                          rfl
                        · refine hpush re below _ hb ?_
                          have h4 := runs_of_eats he1 (some m) (⟨ts, re⟩ :: below) .error (by rw [enable_disable hdis]; exact pushLast_cons (last_of he1) hr2)
                          rw [prepend_error] at h4
                          exact h4
                    · by_cases hb : d.body = []
                      · exfalso
                        have htok : d.tokens = [] := by unfold Macro.tokens; rw [hb]; rfl
                        have h4 := herr none [] fun _ => rfl
                        rw [htok] at h4
                        obtain ⟨fuel, h4⟩ := h4
                        cases fuel <;> cases h4
                      · exact .inr fun re below _ => hpush re below _ hb (herr _ _ fun h => nomatch h)
            | _ => exact absurd rfl hmac
      refine ⟨step, fun b arg m d ts hm hf hlen hs => ?_⟩
      refine ends_function hfin hbal ihr hm hf hs (fun b arg ts' h' hs' => step b arg ts' (by omega) hs') (fun k d' ts' hk hd' h' hs' => ih2 b arg k d' ts' hk hd' (by omega) hs')
  exact (main N).1

/-- **C65**: macro expansion ends, for all macros, also function-like and recursive ones, if the
parentheses in their replacement lists are balanced. -/
theorem C65_terminates_partial (defs : Nat → Option Macro) (n : Nat) (hfin : ∀ m, n ≤ m → defs m = none) (hbal : ∀ m d, defs m = some d → d.balanced) (source : List Token) :
    ∃ fuel r, ∀ fuel', fuel ≤ fuel' → preprocess defs fuel' source = some r := by
  rcases ends hfin hbal _ (fun _ => false) (Nat.le_refl _) source.length true false source (Nat.le_refl _) (.inl rfl) with ⟨out, last, h⟩ | h
  · obtain ⟨fuel, h1⟩ := preprocess_of_runs (runs_bottom h)
    exact ⟨fuel, _, h1⟩
  · obtain ⟨fuel, h1⟩ := preprocess_of_runs (h none [] fun _ => rfl)
    exact ⟨fuel, _, h1⟩

/-! ## Object-like macros -/

theorem scan_object {defs : Nat → Option Macro} {n : Nat} (hfin : ∀ m, n ≤ m → defs m = none) (hobj : ∀ m d, defs m = some d → d.function = false) (r : Nat) :
    ∀ (dis : Disabled) (hidden : List Nat), (∀ m, dis m = decide (m ∈ hidden)) → rank n dis ≤ r → ∀ ts, ∃ out, Scan defs true false hidden ts out [] := by
  induction r using Nat.strongRecOn with
  | _ r ihr =>
  intro dis hidden hd hr ts
  induction ts with
  | nil => exact ⟨_, .nil⟩
  | cons t ts ih =>
    obtain ⟨out, ih⟩ := ih
    by_cases hmac : t.macro defs = false
    · exact ⟨_, .token hmac ih⟩
    · cases t with
      | ident m =>
        cases hm : defs m with
        | none => simp [Token.macro, hm] at hmac
        | some d =>
          by_cases hh : m ∈ hidden
          · exact ⟨_, .hidden hm hh (fun _ h => nomatch h) ih⟩
          · have hmn : m < n := by
              by_cases h : m < n
              · exact h
              · rw [hfin m (by omega)] at hm; cases hm
            have hdis : dis m = false := by rw [hd]; simp [hh]
            obtain ⟨o, ho⟩ := ihr (rank n (disable dis m)) (by have := rank_disable hmn hdis; omega) (disable dis m) (m :: hidden)
              (fun x => by unfold disable; by_cases hx : x = m <;> simp [hx, hd]) (Nat.le_refl _) d.tokens
            exact ⟨_, .object hm hh (hobj m d hm) ho ih⟩
      | _ => exact absurd rfl hmac

/-- **C11**: with object-like macros only, every file has a result, which is the one of C, for all macros, also
recursive ones and ones with parentheses that are not balanced. -/
theorem C11_object_like (defs : Nat → Option Macro) (n : Nat) (hfin : ∀ m, n ≤ m → defs m = none) (hobj : ∀ m d, defs m = some d → d.function = false) (source : List Token) :
    ∃ out, Replaces defs false source out ∧ ∃ fuel, ∀ fuel', fuel ≤ fuel' → preprocess defs fuel' source = some (some out) := by
  obtain ⟨o, h⟩ := scan_object hfin hobj _ (fun _ => false) [] (fun m => by simp) (Nat.le_refl _) source
  have hr : Replaces defs true source ((o ++ []).map Token.erase) := ⟨o, [], h, rfl⟩
  exact ⟨_, C65_strict _ _ _ hr, C65_result_partial _ _ _ hr⟩

/-! ## What is wrong -/

/-- `#define f(x) x` and `#define g f( (g)`. -/
def endless : Nat → Option Macro
  | 0 => some { params := some 1, body := [.param 0] }
  | 1 => some { body := [.tok (.ident 0), .tok .lparen, .tok .lparen, .tok (.ident 1), .tok .rparen] }
  | _ => none

theorem endless_arg (fuel : Nat) : ∀ dis : Disabled, dis 0 = false → dis 1 = false → scan endless fuel true [⟨[.lparen, .ident 1, .rparen], none⟩] dis = none := by
  induction fuel using Nat.strongRecOn with
  | _ fuel ih =>
  intro dis h0 h1
  match fuel, ih with
  | 0, _ => rfl
  | 1, _ => rfl
  | 2, _ => simp [scan, settle, decideToken, endless, Macro.function, expand, push, h1]
  | fuel + 3, ih =>
    have := ih fuel (by omega) (enable (disable dis 1) (some 1)) (by simp [enable, disable, h0]) (by simp [enable])
    simp [scan, settle, decideToken, endless, Macro.function, expand, push, h0, h1, subst, disable, peekParen, starts, collect, gather, feed, feedArg, Gather.add, expandArgs]
    rw [this]

/-- **C65**, a defect: the arguments of `f` go on after the end of the replacement list of `g`. `g` is enabled
again before the arguments are expanded, and the compiler recurses without end on `g )`. In C, the result
is `(g)`. -/
theorem C65_diverges_wrong (fuel : Nat) : preprocess endless fuel [.ident 1, .rparen] = none := by
  match fuel with
  | 0 => rfl
  | 1 => rfl
  | fuel + 2 =>
    have := endless_arg fuel (enable (disable (fun _ => false) 1) (some 1)) rfl rfl
    simp [preprocess, scan, settle, decideToken, endless, Macro.function, expand, push, subst, disable, peekParen, starts, collect, gather, feed, feedArg, Gather.add, expandArgs]
    rw [this]

/-- `#define f(x) f` and `#define id(x) x`. -/
def twice : Nat → Option Macro
  | 0 => some { params := some 1, body := [.tok (.ident 0)] }
  | 1 => some { params := some 1, body := [.param 0] }
  | _ => none

/-- **C65**, a defect: in `id(f(1)(2))` the name `f` that comes from the replacement of `f(1)` is replaced again,
since looking for the `(` enables `f` again. C gives `f(2)`, the compiler `f`. The same tokens that are not in
an argument are right. -/
theorem C65_argument_wrong :
    Replaces twice false [.ident 1, .lparen, .ident 0, .lparen, .other 1, .rparen, .lparen, .other 2, .rparen, .rparen] [.ident 0, .lparen, .other 2, .rparen]
    ∧ (∀ fuel, 10 ≤ fuel → preprocess twice fuel [.ident 1, .lparen, .ident 0, .lparen, .other 1, .rparen, .lparen, .other 2, .rparen, .rparen] = some (some [.ident 0]))
    ∧ Replaces twice true [.ident 0, .lparen, .other 1, .rparen, .lparen, .other 2, .rparen] [.ident 0, .lparen, .other 2, .rparen] := by
  have par : ∀ n strict arg hidden, Scan twice strict arg hidden [.lparen, .other n, .rparen] [.lparen, .other n, .rparen] [] := fun n strict arg hidden =>
    .token rfl (.token rfl (.token rfl .nil))
  have arg1 : ∀ n, Arguments { params := some 1, body := [.tok (.ident 0)] } [.other n] [[.other n]] := fun n =>
    .plain [[.other n]] rfl (by simp) rfl fun a ha => by rw [List.mem_singleton.mp ha]; exact .token rfl (by simp) .nil
  have hf : ∀ strict, Scan twice strict false [] [.ident 0, .lparen, .other 1, .rparen, .lparen, .other 2, .rparen] [.fixed 0, .lparen, .other 2, .rparen] [] := fun strict =>
    .call (m := 0) (inside := [.other 1]) (rest := [.lparen, .other 2, .rparen]) (out := [.fixed 0]) (last := []) (outs := fun _ => []) (lasts := fun _ => []) rfl (by simp) (arg1 1)
      (fun i hi => by simp at hi) (.hidden (d := { params := some 1, body := [.tok (.ident 0)] }) rfl (by simp) (fun _ h => nomatch h) .nil) (par 2 strict false [])
  have hf' : Scan twice false true [] [.ident 0, .lparen, .other 1, .rparen, .lparen, .other 2, .rparen] [.fixed 0, .lparen, .other 2, .rparen] [] :=
    .call (m := 0) (inside := [.other 1]) (rest := [.lparen, .other 2, .rparen]) (out := [.fixed 0]) (last := []) (outs := fun _ => []) (lasts := fun _ => []) rfl (by simp) (arg1 1)
      (fun i hi => by simp at hi) (.hidden (d := { params := some 1, body := [.tok (.ident 0)] }) rfl (by simp) (fun h => nomatch h) .nil) (par 2 false true [])
  refine ⟨⟨[.fixed 0, .lparen, .other 2, .rparen], [], ?_, rfl⟩, ?_, ⟨_, [], hf true, rfl⟩⟩
  · refine .call (m := 1) (inside := [.ident 0, .lparen, .other 1, .rparen, .lparen, .other 2, .rparen]) (rest := []) (out := [.fixed 0, .lparen, .other 2, .rparen]) (last := []) (out' := [])
      (args := [[.ident 0, .lparen, .other 1, .rparen, .lparen, .other 2, .rparen]]) (outs := fun _ => [.fixed 0, .lparen, .other 2, .rparen]) (lasts := fun _ => []) rfl (by simp) ?_ ?_ ?_ .nil
    · refine .plain [_] rfl (by simp) rfl fun a ha => ?_
      rw [List.mem_singleton.mp ha]
      exact .token rfl (by simp) (.parens (a := [.other 1]) (.token rfl .nil) (.parens (a := [.other 2]) (.token rfl .nil) .nil))
    · intro i hi
      cases i with
      | zero => exact hf'
      | succ i => simp at hi
    · exact .token rfl (.token rfl (.token rfl (.token rfl .nil)))
  · intro fuel hf
    obtain ⟨k, rfl⟩ : ∃ k, fuel = k + 10 := ⟨fuel - 10, by omega⟩
    rfl

/-! ## Samples -/

/-- `#define A B A`, `#define B (A)`, `#define h(x, ...) A x (h)(__VA_ARGS__)`. -/
def sample : Nat → Option Macro
  | 0 => some { body := [.tok (.ident 1), .tok (.ident 0)] }
  | 1 => some { body := [.tok .lparen, .tok (.ident 0), .tok .rparen] }
  | 2 => some { params := some 2, variadic := true, body := [.tok (.ident 0), .param 0, .tok .lparen, .tok (.ident 2), .tok .rparen, .tok .lparen, .param 1, .tok .rparen] }
  | _ => none

/-- The replacement lists are balanced. -/
theorem sample_balanced : ∀ m d, sample m = some d → d.balanced := by
  intro m d h
  match m, h with
  | 0, h => cases h; exact .token rfl (.token rfl .nil)
  | 1, h => cases h; exact .parens (a := [.ident 0]) (.token rfl .nil) .nil
  | 2, h => cases h; exact .token rfl (.parens (a := [.ident 2]) (.token rfl .nil) (.parens (a := []) .nil .nil))
  | _ + 3, h => cases h

/-- The theorem about termination is about `h(B, 1, 2)` with recursive macros. -/
example : ∃ fuel r, ∀ fuel', fuel ≤ fuel' → preprocess sample fuel' [.ident 2, .lparen, .ident 1, .comma, .other 1, .comma, .other 2, .rparen] = some r :=
  C65_terminates_partial sample 3 (fun m hm => by match m, hm with | _ + 3, _ => rfl) sample_balanced _

/-- `h(B, 1, 2)` is `(A) A (B A) (h)(1, 2)`. -/
example : preprocess sample 40 [.ident 2, .lparen, .ident 1, .comma, .other 1, .comma, .other 2, .rparen] = some (some [.lparen, .ident 0, .rparen, .ident 0, .lparen, .ident 1, .ident 0, .rparen, .lparen, .ident 2, .rparen, .lparen, .other 1, .comma, .other 2, .rparen]) := by
  decide +kernel

/-- `A` is `(A) A`. -/
example : Replaces sample true [.ident 0] [.lparen, .ident 0, .rparen, .ident 0] := by
  refine ⟨[.lparen, .fixed 0, .rparen, .fixed 0], [], ?_, rfl⟩
  refine .object (m := 0) (out := [.lparen, .fixed 0, .rparen, .fixed 0]) (last := []) (out' := []) rfl (by simp) rfl ?_ .nil
  refine .object (m := 1) (out := [.lparen, .fixed 0, .rparen]) (last := []) (out' := [.fixed 0]) rfl (by simp) rfl ?_ ?_
  · exact .token rfl (.hidden (d := _) rfl (by simp) (fun _ h => nomatch h) (.token rfl .nil))
  · exact .hidden (d := _) rfl (by simp) (fun _ h => nomatch h) .nil

/-- `#define A ( B`, `#define B A )`. -/
def open_paren : Nat → Option Macro
  | 0 => some { body := [.tok .lparen, .tok (.ident 1)] }
  | 1 => some { body := [.tok (.ident 0), .tok .rparen] }
  | _ => none

/-- Only object-like macros, with parentheses that are not balanced. -/
example : ∃ out, Replaces open_paren false [.ident 0, .ident 1] out ∧ ∃ fuel, ∀ fuel', fuel ≤ fuel' → preprocess open_paren fuel' [.ident 0, .ident 1] = some (some out) :=
  C11_object_like _ 2 (fun m hm => by match m, hm with | _ + 2, _ => rfl) (fun m d h => by match m, h with | 0, h => cases h; rfl | 1, h => cases h; rfl | _ + 2, h => cases h) _

end Verif.Props.Macro
