import Verif.Lemmas.Declarator

/-!
# C68: a declarator declares its name with the type that C gives it

The specification is `Verif.Spec.Declarator`.
-/

namespace Verif.Declarator

open Verif.Spec.Declarator

/-! ### Every declarator is parsed -/

theorem isNested_paren (env : Nat → Option Ty) (m : Mode) (d : Decl) (ts : List Tok)
    (hw : wellFormed env m (.paren d) = true) : isNested env m (d.tokens ++ ts) = true := by
  simp only [wellFormed, Bool.and_eq_true, Bool.not_eq_true'] at hw
  obtain ⟨⟨hn, hl⟩, hw⟩ := hw
  cases m with
  | declaration => rfl
  | typeName =>
    by_cases hd : d.direct = true
    · have hs := wf_split env _ d hw hd
      rw [tokens_split, List.append_assoc]
      rcases headOf_cases d hs.2.1 with h1 | ⟨n, h1⟩ | ⟨d', h1⟩
      · rw [h1]
        cases d with
        | none => simp [Decl.isNone] at hn
        | name => simp [headOf] at h1
        | ptr => simp [headOf] at h1
        | paren => simp [headOf] at h1
        | array n d =>
          have : (suffixes (.array n d)).reverse ≠ [] := by simp [suffixes]
          cases hr : (suffixes (.array n d)).reverse with
          | nil => exact absurd hr this
          | cons s ss => cases s <;> rfl
        | func n d =>
          have : (suffixes (.func n d)).reverse ≠ [] := by simp [suffixes]
          cases hr : (suffixes (.func n d)).reverse with
          | nil => exact absurd hr this
          | cons s ss => cases s <;> rfl
      · rw [h1] at hs; simp [wellFormed] at hs
      · rw [h1]; rfl
    · cases d <;> simp [Decl.direct] at hd
      rfl
  | parameter =>
    by_cases hd : d.direct = true
    · have hs := wf_split env _ d hw hd
      rw [tokens_split, List.append_assoc]
      rcases headOf_cases d hs.2.1 with h1 | ⟨n, h1⟩ | ⟨d', h1⟩
      · rw [h1]
        cases d with
        | none => simp [Decl.isNone] at hn
        | name => simp [headOf] at h1
        | ptr => simp [headOf] at h1
        | paren => simp [headOf] at h1
        | array n d =>
          have : (suffixes (.array n d)).reverse ≠ [] := by simp [suffixes]
          cases hr : (suffixes (.array n d)).reverse with
          | nil => exact absurd hr this
          | cons s ss => cases s <;> rfl
        | func n d =>
          have : (suffixes (.func n d)).reverse ≠ [] := by simp [suffixes]
          cases hr : (suffixes (.func n d)).reverse with
          | nil => exact absurd hr this
          | cons s ss => cases s <;> rfl
      · rw [h1]
        have hlead : ∀ d : Decl, ∀ n, headOf d = .name n → d.leading = some n := by
          intro d
          fun_induction headOf d with
          | case1 k d ih => intro n h; rw [Decl.leading]; exact ih n h
          | case2 k d ih => intro n h; rw [Decl.leading]; exact ih n h
          | case3 d => intro n h; subst h; rfl
        have := hlead d n h1
        simp only [leadingOk, this] at hl
        simp only [Decl.tokens, List.cons_append, isNested, hl]
      · rw [h1]; rfl
    · cases d <;> simp [Decl.direct] at hd
      rfl

theorem isNested_func (env : Nat → Option Ty) (m : Mode) (hm : m ≠ .declaration) (ps : Params) (ts : List Tok)
    (hw : wellFormedParams env ps = true) : isNested env m (ps.tokens ++ .rparen :: ts) = false := by
  cases ps with
  | done e =>
    cases m with
    | declaration => exact absurd rfl hm
    | typeName => cases e <;> rfl
    | parameter => cases e <;> rfl
  | cons s d rest =>
    simp only [wellFormedParams, Bool.and_eq_true] at hw
    cases s with
    | base b =>
      cases m with
      | declaration => exact absurd rfl hm
      | typeName => rfl
      | parameter => rfl
    | typedef n =>
      cases m with
      | declaration => exact absurd rfl hm
      | typeName => rfl
      | parameter =>
        have h := hw.1.1
        simp only [specsOk] at h
        simp only [Params.tokens, Specs.tokens, List.cons_append, isNested]
        cases hn : env n with
        | none => rw [hn] at h; simp at h
        | some t => rfl

theorem arraySize_tokens (n : Option Int) (ts : List Tok) :
    arraySize (sizeTokens n ++ .rbrack :: ts) = if sizeOk n then some (count n, ts) else none := by
  cases n with
  | none => rfl
  | some v =>
    simp only [sizeTokens, List.cons_append, List.nil_append, arraySize, sizeOk, count]
    by_cases h0 : v = 0
    · subst h0; simp
    · by_cases h1 : v < 0
      · have : ¬ (0 ≤ v) := by omega
        simp [h0, h1, this]
      · have : 0 ≤ v := by omega
        simp [h0, h1, this]

/-- A list of tokens with which the loop over suffixes ends. -/
def noSuffix : List Tok → Bool
  | .lparen :: _ | .lbrack :: _ => false
  | _ => true

theorem stops_noSuffix (ts : List Tok) (h : stops ts = true) : noSuffix ts = true := by
  unfold noSuffix; split
  · simp [stops] at h
  · simp [stops] at h
  · rfl

theorem posts_end (env : Nat → Option Ty) (fuel : Nat) (ts : List Tok) (acc : List Post) (h : noSuffix ts = true) :
    posts env (fuel + 1) ts acc = some (acc, ts) := by
  unfold posts; split
  · simp_all
  · simp [noSuffix] at h
  · simp [noSuffix] at h
  · simp_all

/-- What is shown about parameters with a given fuel. -/
def ParamsOk (env : Nat → Option Ty) (fuel : Nat) : Prop := ∀ ps ts, wellFormedParams env ps = true → 2 * ps.tokens.length + 3 ≤ fuel →
  params env fuel (ps.tokens ++ .rparen :: ts) = if legalParams env ps then some (paramList env ps, ps.variadic, ts) else none

/-- What is shown about declarators with a given fuel. -/
def DeclOk (env : Nat → Option Ty) (fuel : Nat) : Prop := ∀ m t d ts, wellFormed env m d = true → stops ts = true → 2 * d.tokens.length + 3 ≤ fuel →
  declarator env fuel m t (d.tokens ++ ts) = if legal env t d then some (typeOf env t d, d.ident, ts) else none

theorem posts_suffixes (env : Nat → Option Ty) (ss : List Suffix) : ∀ (fuel : Nat) (ts : List Tok) (acc : List Post),
    (∀ f, f < fuel → ParamsOk env f) → ss.all (Suffix.wf env) = true → noSuffix ts = true → 2 * (suffixTokens ss).length + 1 ≤ fuel →
    posts env fuel (suffixTokens ss ++ ts) acc =
      if ss.all (Suffix.ok env) then some ((ss.map (Suffix.post env)).reverse ++ acc, ts) else none := by
  induction ss with
  | nil =>
    intro fuel ts acc hp hw hn hf
    cases fuel with
    | zero => simp at hf
    | succ fuel =>
      have : suffixTokens [] = [] := rfl
      rw [this, List.nil_append, posts_end env fuel ts acc hn]; rfl
  | cons s ss ih =>
    intro fuel ts acc hp hw hn hf
    cases fuel with
    | zero => omega
    | succ fuel =>
      simp only [List.all_cons, Bool.and_eq_true] at hw
      have hlen : suffixTokens (s :: ss) = s.tokens ++ suffixTokens ss := rfl
      rw [hlen] at hf ⊢
      cases s with
      | arr n =>
        simp only [Suffix.tokens, List.cons_append, List.append_assoc, List.nil_append, List.length_cons, List.length_append] at hf ⊢
        simp only [posts]
        rw [arraySize_tokens]
        simp only [List.all_cons, Suffix.ok]
        by_cases hs : sizeOk n = true
        · simp only [hs, if_true, Bool.true_and]
          rw [ih fuel ts _ (fun f hf => hp f (by omega)) hw.2 hn (by omega)]
          by_cases ha : ss.all (Suffix.ok env) = true
          · simp only [ha, if_true, List.map_cons, List.reverse_cons, List.append_assoc, Suffix.post]; rfl
          · simp [ha]
        · simp [hs]
      | fn ps =>
        simp only [Suffix.tokens, List.cons_append, List.append_assoc, List.nil_append, List.length_cons, List.length_append] at hf ⊢
        simp only [posts]
        rw [hp fuel (Nat.lt_succ_self _) ps _ hw.1 (by simp at hf; omega)]
        simp only [List.all_cons, Suffix.ok]
        by_cases hs : legalParams env ps = true
        · simp only [hs, if_true, Bool.true_and]
          rw [ih fuel ts _ (fun f hf => hp f (by omega)) hw.2 hn (by omega)]
          by_cases ha : ss.all (Suffix.ok env) = true
          · simp only [ha, if_true, List.map_cons, List.reverse_cons, List.append_assoc, Suffix.post]; rfl
          · simp [ha]
        · simp [hs]

theorem head_name (env : Nat → Option Ty) (m : Mode) (n : Nat) (ts : List Tok) (h : m ≠ .typeName) : head env m (.ident n :: ts) = .name n ts := by
  simp [head, h]

theorem reverse_all (ss : List Suffix) (p : Suffix → Bool) : ss.reverse.all p = ss.all p := by
  rw [Bool.eq_iff_iff]; simp

theorem result_eq (env : Nat → Option Ty) (t : Ty) (ss : List Suffix) (n : Option Nat) (ts : List Tok) (ps : List Post) (h : ps = ss.map (Suffix.post env)) :
    (applyPosts t ps).map (fun t => (t, n, ts)) = if chainOk env t ss then some (applyTy env t ss, n, ts) else none := by
  subst h
  rw [applyPosts_eq]
  by_cases h : chainOk env t ss = true <;> simp [h]

theorem decl_direct (env : Nat → Option Ty) (fuel : Nat) (hP : ∀ f, f < fuel + 1 → ParamsOk env f) (hD : ∀ f, f < fuel + 1 → DeclOk env f)
    (m : Mode) (t : Ty) (d : Decl) (ts : List Tok) (hw : wellFormed env m d = true) (hd : d.direct = true) (hs : stops ts = true)
    (hf : 2 * d.tokens.length + 3 ≤ fuel + 1) :
    declarator env (fuel + 1) m t (d.tokens ++ ts) = if legal env t d then some (typeOf env t d, d.ident, ts) else none := by
  have hsplit := wf_split env m d hw hd
  have hns := stops_noSuffix ts hs
  have hcalm := stops_calm ts hs
  rw [declarator, pointers_calm t _ (calm_direct d hsplit.2.1 ts hcalm)]
  simp only
  rw [legal_split, typeOf_split, ident_split]
  have hsw : (suffixes d).reverse.all (Suffix.wf env) = true := by rw [reverse_all]; exact hsplit.2.2
  have hpost := fun f (hf1 : f < fuel + 1) (hf2 : 2 * (suffixTokens (suffixes d).reverse).length + 1 ≤ f) =>
    posts_suffixes env (suffixes d).reverse f ts [] (fun g hg => hP g (by omega)) hsw hns hf2
  rw [reverse_all] at hpost
  have htok := tokens_split d
  have hlen : d.tokens.length = (headOf d).tokens.length + (suffixTokens (suffixes d).reverse).length := by rw [htok]; simp
  have hmap : ((suffixes d).reverse.map (Suffix.post env)).reverse ++ [] = (suffixes d).map (Suffix.post env) := by simp
  rcases headOf_cases d hsplit.2.1 with h1 | ⟨n, h1⟩ | ⟨d', h1⟩
  · -- no name
    have hm : m ≠ .declaration := by
      have := hsplit.1
      rw [h1] at this
      intro hm; subst hm; simp [wellFormed] at this
    rw [h1] at htok hlen ⊢
    simp only [Decl.tokens, List.nil_append, List.length_nil] at htok hlen
    cases hr : (suffixes d).reverse with
    | nil =>
      have hn : suffixes d = [] := by simpa using hr
      rw [htok, hr, hn]
      have : head env m (suffixTokens [] ++ ts) = .stop := by
        simp only [suffixTokens, List.map_nil, List.flatten_nil, List.nil_append]
        unfold head; split
        · simp [stops] at hs
        · simp [stops] at hs
        · simp [stops] at hs
        · simp [hm]
      rw [this]
      simp [chainOk, applyTy, legal, typeOf, Decl.ident, suffixTokens]
    | cons s ss =>
      have hhead : head env m (d.tokens ++ ts) = .absent := by
        rw [htok, hr]
        cases s with
        | arr n =>
          simp only [suffixTokens, List.map_cons, Suffix.tokens, List.flatten_cons, List.cons_append, head]
          simp [hm]
        | fn ps =>
          simp only [suffixTokens, List.map_cons, Suffix.tokens, List.flatten_cons, List.cons_append, List.append_assoc, head]
          rw [hr] at hsw
          simp only [List.all_cons, Suffix.wf, Bool.and_eq_true] at hsw
          have := isNested_func env m hm ps ((ss.map Suffix.tokens).flatten ++ ts) hsw.1
          simp [this]
      rw [hhead]
      simp only
      rw [htok, hpost fuel (Nat.lt_succ_self _) (by omega)]
      by_cases ha : (suffixes d).all (Suffix.ok env) = true
      · simp only [ha, if_true, Bool.true_and]
        rw [result_eq env t (suffixes d) _ _ _ hmap]
        by_cases hc : chainOk env t (suffixes d) = true
        · simp [hc, legal, typeOf, Decl.ident]
        · simp [hc]
      · simp [ha]
  · -- a name
    have hm : m ≠ .typeName := by
      have := hsplit.1
      rw [h1] at this
      intro hm; subst hm; simp [wellFormed] at this
    rw [h1] at htok hlen ⊢
    simp only [Decl.tokens, List.cons_append, List.nil_append, List.length_cons, List.length_nil] at htok hlen
    rw [htok, List.cons_append, head_name env m n _ hm]
    simp only
    rw [hpost fuel (Nat.lt_succ_self _) (by omega)]
    by_cases ha : (suffixes d).all (Suffix.ok env) = true
    · simp only [ha, if_true, Bool.true_and]
      rw [result_eq env t (suffixes d) _ _ _ hmap]
      by_cases hc : chainOk env t (suffixes d) = true
      · simp [hc, legal, typeOf, Decl.ident]
      · simp [hc]
    · simp [ha]
  · -- a nested declarator
    have hwp := hsplit.1
    rw [h1] at hwp
    have hwd : wellFormed env m d' = true := by simp only [wellFormed, Bool.and_eq_true] at hwp; exact hwp.2
    rw [h1] at htok hlen ⊢
    simp only [Decl.tokens, List.cons_append, List.append_assoc, List.nil_append, List.length_cons, List.length_append, List.length_nil] at htok hlen
    rw [htok]
    simp only [List.cons_append, List.append_assoc]
    have hhead : head env m (.lparen :: (d'.tokens ++ .rparen :: (suffixTokens (suffixes d).reverse ++ ts))) =
        .nested (d'.tokens ++ .rparen :: (suffixTokens (suffixes d).reverse ++ ts)) := by
      simp only [head, isNested_paren env m d' _ hwp, if_true]
    rw [hhead]
    simp only
    rw [skip_decl d' 0, skip_rparen_one]
    simp only
    rw [hpost fuel (Nat.lt_succ_self _) (by omega)]
    by_cases ha : (suffixes d).all (Suffix.ok env) = true
    · simp only [ha, if_true, Bool.true_and, hmap]
      rw [applyPosts_eq]
      by_cases hc : chainOk env t (suffixes d) = true
      · simp only [hc, if_true, Bool.true_and]
        rw [hD fuel (Nat.lt_succ_self _) m _ d' _ hwd rfl (by omega)]
        simp only [legal, typeOf, Decl.ident]
        by_cases hl : legal env (applyTy env t (suffixes d)) d' = true <;> simp [hl]
      · simp [hc]
    · simp [ha]

theorem decl_any (env : Nat → Option Ty) (fuel : Nat) (hP : ∀ f, f < fuel + 1 → ParamsOk env f) (hD : ∀ f, f < fuel + 1 → DeclOk env f) :
    DeclOk env (fuel + 1) := by
  intro m t d
  induction d using Decl.rec (motive_2 := fun _ => True) generalizing t with
  | ptr qs d ih =>
    intro ts hw hs hf
    have hwd : wellFormed env m d = true := by simpa only [wellFormed] using hw
    rw [declarator_congr env _ m _ _ _ _ (pointers_ptr env m t qs d hwd ts (stops_calm ts hs))]
    rw [ih (.ptr t) ts hwd hs (by simp only [Decl.tokens, List.length_cons, List.length_append] at hf; omega)]
    rw [legal, typeOf, Decl.ident]
  | none => intro ts hw hs hf; exact decl_direct env fuel hP hD m t _ ts hw rfl hs hf
  | name n => intro ts hw hs hf; exact decl_direct env fuel hP hD m t _ ts hw rfl hs hf
  | array n d => intro ts hw hs hf; exact decl_direct env fuel hP hD m t _ ts hw rfl hs hf
  | func ps d => intro ts hw hs hf; exact decl_direct env fuel hP hD m t _ ts hw rfl hs hf
  | paren d => intro ts hw hs hf; exact decl_direct env fuel hP hD m t _ ts hw rfl hs hf
  | done => trivial
  | cons => trivial

theorem specs_tokens (env : Nat → Option Ty) (s : Specs) (ts : List Tok) (h : specsOk env s = true) : specs env (s.tokens ++ ts) = some (s.type env, ts) := by
  cases s with
  | base b => rfl
  | typedef n =>
    simp only [specsOk] at h
    simp only [Specs.tokens, List.cons_append, List.nil_append, specs, Specs.type]
    cases hn : env n with
    | none => rw [hn] at h; simp at h
    | some t => rfl

theorem more_eq (ps : Params) (h : ps ≠ .done .plain) : ps.more = .comma :: ps.tokens := by
  cases ps with
  | done e => cases e <;> simp [Params.more, Params.tokens] at *
  | cons s d rest => simp [Params.more, Params.tokens]

theorem specs_length (s : Specs) : s.tokens.length = 1 := by cases s <;> rfl

theorem more_stops (ps : Params) (ts : List Tok) : stops (ps.more ++ .rparen :: ts) = true := by
  cases ps with
  | done e => cases e <;> rfl
  | cons s d rest => rfl

theorem paramLoop_spec (env : Nat → Option Ty) (s : Specs) (fuel : Nat) (ts : List Tok) (acc : List (Ty × Option Nat)) :
    paramLoop env (fuel + 1) (s.tokens ++ ts) acc =
      match specs env (s.tokens ++ ts) with
      | none => none
      | some (t, ts) =>
        match declarator env fuel .parameter t ts with
        | none => none
        | some (t, n, ts) =>
          match afterComma ts with
          | some ts => paramLoop env fuel ts (acc ++ [(adjust t, n)])
          | none => close (acc ++ [(adjust t, n)]) false ts := by
  cases s <;> rfl

/-- Parameters at the beginning of the list or after a comma. -/
theorem paramLoop_ok (env : Nat → Option Ty) (ps : Params) : ∀ (fuel : Nat) (ts : List Tok) (acc : List (Ty × Option Nat)),
    (∀ f, f < fuel → DeclOk env f) → wellFormedRest env ps = true → ps ≠ .done .plain → 2 * ps.tokens.length + 2 ≤ fuel →
    paramLoop env fuel (ps.tokens ++ .rparen :: ts) acc =
      if legalParams env ps then some (acc ++ paramList env ps, ps.variadic, ts) else none := by
  induction ps using Params.rec (motive_1 := fun _ => True) with
  | done e =>
    intro fuel ts acc hD hw hne hf
    cases fuel with
    | zero => omega
    | succ fuel =>
      cases e with
      | plain => exact absurd rfl hne
      | dots => simp [Params.tokens, paramLoop, close, legalParams, paramList, Params.variadic]
      | trailingComma => simp [Params.tokens, paramLoop, close, legalParams, paramList, Params.variadic]
  | cons s d rest _ ih =>
    intro fuel ts acc hD hw hne hf
    cases fuel with
    | zero => omega
    | succ fuel =>
      simp only [wellFormedRest, Bool.and_eq_true] at hw
      simp only [Params.tokens, List.append_assoc, List.length_append, specs_length] at hf ⊢
      rw [paramLoop_spec, specs_tokens env s _ hw.1.1]
      simp only
      rw [hD fuel (Nat.lt_succ_self _) .parameter _ d _ hw.1.2 (more_stops rest ts) (by omega)]
      simp only [legalParams, paramList, Params.variadic]
      by_cases hl : legal env (s.type env) d = true
      · simp only [hl, if_true, Bool.true_and]
        by_cases hr : rest = .done .plain
        · subst hr
          simp [Params.more, afterComma, close, legalParams, paramList, Params.variadic]
        · rw [more_eq rest hr] at hf ⊢
          simp only [List.cons_append, afterComma, List.length_cons] at hf ⊢
          rw [ih fuel ts _ (fun f hf => hD f (by omega)) hw.2 hr (by omega)]
          by_cases hp : legalParams env rest = true <;> simp [hp]
      · simp [hl]
  | none => trivial
  | name => trivial
  | ptr => trivial
  | array => trivial
  | func => trivial
  | paren => trivial

theorem params_cons (env : Nat → Option Ty) (s : Specs) (fuel : Nat) (ts : List Tok) :
    params env (fuel + 1) (s.tokens ++ ts) = paramLoop env fuel (s.tokens ++ ts) [] := by
  cases s <;> rfl

theorem params_any (env : Nat → Option Ty) (fuel : Nat) (hD : ∀ f, f < fuel + 1 → DeclOk env f) : ParamsOk env (fuel + 1) := by
  intro ps ts hw hf
  cases ps with
  | done e =>
    cases e with
    | plain => simp [Params.tokens, params, legalParams, paramList, Params.variadic]
    | dots =>
      have := paramLoop_ok env (.done .dots) fuel ts [] (fun f hf => hD f (by omega)) rfl (by simp) (by omega)
      simp only [List.nil_append] at this
      rw [← this]; rfl
    | trailingComma => simp [wellFormedParams] at hw
  | cons s d rest =>
    have hw' : wellFormedRest env (.cons s d rest) = true := by
      simp only [wellFormedParams] at hw; simpa only [wellFormedRest] using hw
    have := paramLoop_ok env (.cons s d rest) fuel ts [] (fun f hf => hD f (by omega)) hw' (by simp) (by omega)
    simp only [List.nil_append] at this
    rw [← this]
    simp only [Params.tokens, List.append_assoc]
    rw [params_cons]

theorem all_ok (env : Nat → Option Ty) : ∀ fuel, DeclOk env fuel ∧ ParamsOk env fuel := by
  intro fuel
  induction fuel using Nat.strongRecOn with
  | _ fuel ih =>
    cases fuel with
    | zero => exact ⟨fun m t d ts _ _ hf => by omega, fun ps ts _ hf => by omega⟩
    | succ fuel => exact ⟨decl_any env fuel (fun f hf => (ih f hf).2) (fun f hf => (ih f hf).1), params_any env fuel (fun f hf => (ih f hf).1)⟩

/-- C68: every declarator of C, of any size, is parsed to the end, and its name gets the type of 6.7.6 if the constraints are met;
otherwise an error is reported. -/
theorem C68_declarator (typedefs : Nat → Option Ty) (m : Mode) (t : Ty) (d : Decl) (rest : List Tok)
    (hd : wellFormed typedefs m d = true) (hr : stops rest = true) :
    parse typedefs m t (d.tokens ++ rest) =
      if legal typedefs t d then some (typeOf typedefs t d, d.ident, rest) else none :=
  (all_ok typedefs _).1 m t d rest hd hr (by simp only [List.length_append]; omega)

/-- `char *(*x[3])(int, char [5])` followed by `;`. -/
example : parse (fun _ => none) .declaration (.base 1)
    ((Decl.ptr [] (.func (.cons (.base 2) .none (.cons (.base 1) (.array (some 5) .none) (.done .plain)))
      (.paren (.ptr [] (.array (some 3) (.name 7)))))).tokens ++ [.other 0]) =
    some (.array (some 3) (.ptr (.func (.ptr (.base 1)) (.cons (.base 2) (.cons (.ptr (.base 1)) .nil)) false)), some 7, [.other 0]) :=
  C68_declarator _ _ _ _ _ (by decide) (by decide)

/-- An array of functions is an error. -/
example : parse (fun _ => none) .declaration (.base 1) ((Decl.func (.done .plain) (.array (some 3) (.name 7))).tokens ++ [.other 0]) = none :=
  C68_declarator _ _ _ _ _ (by decide) (by decide)

/-! ### Only declarators are parsed -/

theorem qualifiers_split (ts : List Tok) : ∃ qs : List Nat, ts = qs.map Tok.qualifier ++ qualifiers ts := by
  fun_induction qualifiers ts with
  | case1 q ts ih =>
    obtain ⟨qs, h⟩ := ih
    exact ⟨q :: qs, by rw [List.map_cons, List.cons_append, ← h]⟩
  | case2 ts => exact ⟨[], rfl⟩

/-- A declarator after the pointers is a declarator with them. -/
theorem pointers_split (env : Nat → Option Ty) (m : Mode) (t : Ty) (ts : List Tok) : ∀ d rest,
    (pointers t ts).2 = d.tokens ++ rest → wellFormed env m d = true → legal env (pointers t ts).1 d = true →
    ∃ d', wellFormed env m d' = true ∧ legal env t d' = true ∧ ts = d'.tokens ++ rest ∧
      typeOf env t d' = typeOf env (pointers t ts).1 d ∧ d'.ident = d.ident := by
  fun_induction pointers t ts with
  | case1 t ts ih =>
    intro d rest h hw hl
    obtain ⟨d', h1, h2, h3, h4, h5⟩ := ih d rest h hw hl
    obtain ⟨qs, hq⟩ := qualifiers_split ts
    refine ⟨.ptr qs d', by rw [wellFormed]; exact h1, by rw [legal]; exact h2, ?_, by rw [typeOf]; exact h4, by rw [Decl.ident]; exact h5⟩
    rw [Decl.tokens, List.cons_append, List.append_assoc, ← h3, ← hq]
  | case2 t ts => intro d rest h hw hl; exact ⟨d, hw, hl, h, rfl, rfl⟩

/-- Suffixes in the order of the tokens, added to a declarator. -/
def wrapAll : Decl → List Suffix → Decl
  | d, [] => d
  | d, s :: ss => wrapAll (s.wrap d) ss

theorem headOf_wrapAll (ss : List Suffix) : ∀ d, headOf (wrapAll d ss) = headOf d := by
  induction ss with
  | nil => intro d; rfl
  | cons s ss ih => intro d; rw [wrapAll, ih]; cases s <;> rfl

theorem suffixes_wrapAll (ss : List Suffix) : ∀ d, suffixes (wrapAll d ss) = ss.reverse ++ suffixes d := by
  induction ss with
  | nil => intro d; rfl
  | cons s ss ih => intro d; rw [wrapAll, ih]; cases s <;> simp [Suffix.wrap, suffixes]

theorem wf_wrapAll (env : Nat → Option Ty) (m : Mode) (ss : List Suffix) : ∀ d, wellFormed env m d = true → d.direct = true → ss.all (Suffix.wf env) = true →
    wellFormed env m (wrapAll d ss) = true := by
  induction ss with
  | nil => intro d h _ _; exact h
  | cons s ss ih =>
    intro d h hd hs
    simp only [List.all_cons, Bool.and_eq_true] at hs
    refine ih _ ?_ (by cases s <;> rfl) hs.2
    cases s with
    | arr n => simp only [Suffix.wrap, wellFormed, hd, h]; rfl
    | fn ps =>
      have := hs.1
      simp only [Suffix.wf] at this
      simp only [Suffix.wrap, wellFormed, hd, h, this]; rfl

/-- The declarator made of a head and suffixes. -/
theorem wrapAll_spec (env : Nat → Option Ty) (h : Decl) (hh : headOf h = h) (hs : suffixes h = []) (ss : List Suffix) (t : Ty) :
    (wrapAll h ss).tokens = h.tokens ++ suffixTokens ss ∧ typeOf env t (wrapAll h ss) = typeOf env (applyTy env t ss.reverse) h ∧
    legal env t (wrapAll h ss) = (ss.all (Suffix.ok env) && chainOk env t ss.reverse && legal env (applyTy env t ss.reverse) h) ∧
    (wrapAll h ss).ident = h.ident := by
  refine ⟨?_, ?_, ?_, ?_⟩
  · rw [tokens_split, headOf_wrapAll, suffixes_wrapAll, hh, hs]; simp
  · rw [typeOf_split, headOf_wrapAll, suffixes_wrapAll, hh, hs]; simp
  · rw [legal_split, headOf_wrapAll, suffixes_wrapAll, hh, hs]; simp
  · rw [ident_split, headOf_wrapAll, hh]

theorem arraySize_split (ts : List Tok) (n : Option Nat) (rest : List Tok) (h : arraySize ts = some (n, rest)) :
    ∃ s, ts = sizeTokens s ++ .rbrack :: rest ∧ n = count s ∧ sizeOk s = true := by
  unfold arraySize at h; split at h
  · cases h; exact ⟨none, rfl, rfl, rfl⟩
  · rename_i v ts
    split at h
    · cases h; rename_i h0; exact ⟨some v, rfl, by simp [count, h0], by simp [sizeOk, h0]⟩
    · split at h
      · cases h
      · cases h; rename_i h0 h1; exact ⟨some v, rfl, by simp [count, h0], by simp [sizeOk]; omega⟩
  · cases h

/-- What is shown about the result of parsing parameters. -/
def ParamsSound (env : Nat → Option Ty) (fuel : Nat) : Prop := ∀ ts l v rest, params env fuel ts = some (l, v, rest) →
  ∃ ps, wellFormedParams env ps = true ∧ legalParams env ps = true ∧ ts = ps.tokens ++ .rparen :: rest ∧ l = paramList env ps ∧ v = ps.variadic

/-- What is shown about the result of parsing a declarator. -/
def DeclSound (env : Nat → Option Ty) (fuel : Nat) : Prop := ∀ m t ts t' n rest, declarator env fuel m t ts = some (t', n, rest) →
  ∃ d, wellFormed env m d = true ∧ legal env t d = true ∧ ts = d.tokens ++ rest ∧ t' = typeOf env t d ∧ n = d.ident

theorem posts_sound (env : Nat → Option Ty) : ∀ (fuel : Nat) (ts : List Tok) (acc acc' : List Post) (rest : List Tok),
    (∀ f, f < fuel → ParamsSound env f) → posts env fuel ts acc = some (acc', rest) →
    ∃ ss, ss.all (Suffix.wf env) = true ∧ ss.all (Suffix.ok env) = true ∧ ts = suffixTokens ss ++ rest ∧ acc' = (ss.map (Suffix.post env)).reverse ++ acc := by
  intro fuel
  induction fuel with
  | zero => intro ts acc acc' rest _ h; simp [posts] at h
  | succ fuel ih =>
    intro ts acc acc' rest hP h
    unfold posts at h
    split at h
    · simp_all
    · rename_i f ts hf
      cases hf
      split at h
      · cases h
      · rename_i ps v rest1 hp
        obtain ⟨ps', h1, h2, h3, h4, h5⟩ := hP fuel (Nat.lt_succ_self _) _ _ _ _ hp
        obtain ⟨ss, g1, g2, g3, g4⟩ := ih _ _ _ _ (fun f hf => hP f (by omega)) h
        refine ⟨.fn ps' :: ss, by simp only [List.all_cons, Suffix.wf, h1, g1]; rfl, by simp only [List.all_cons, Suffix.ok, h2, g2]; rfl, ?_, ?_⟩
        · rw [h3, g3]; simp [suffixTokens, Suffix.tokens]
        · rw [g4, h4, h5]; simp [Suffix.post]
    · rename_i f ts hf
      cases hf
      split at h
      · cases h
      · rename_i n rest1 hp
        obtain ⟨s, h1, h2, h3⟩ := arraySize_split _ _ _ hp
        obtain ⟨ss, g1, g2, g3, g4⟩ := ih _ _ _ _ (fun f hf => hP f (by omega)) h
        refine ⟨.arr s :: ss, by simp only [List.all_cons, Suffix.wf, g1]; rfl, by simp only [List.all_cons, Suffix.ok, h3, g2]; rfl, ?_, ?_⟩
        · rw [h1, g3]; simp [suffixTokens, Suffix.tokens]
        · rw [g4, h2]; simp [Suffix.post]
    · cases h; exact ⟨[], rfl, rfl, rfl, rfl⟩

/-- The result of applying the suffixes. -/
theorem applyPosts_some (env : Nat → Option Ty) (t t' : Ty) (ss : List Suffix) (h : applyPosts t ((ss.map (Suffix.post env)).reverse ++ []) = some t') :
    chainOk env t ss.reverse = true ∧ t' = applyTy env t ss.reverse := by
  have : (ss.map (Suffix.post env)).reverse ++ [] = ss.reverse.map (Suffix.post env) := by simp
  rw [this, applyPosts_eq] at h
  split at h
  · cases h; rename_i h; exact ⟨h, rfl⟩
  · cases h

theorem leading_tokens (d : Decl) (n : Nat) (h : d.leading = some n) (ts : List Tok) : ∃ r, d.tokens ++ ts = .ident n :: r := by
  induction d using Decl.rec (motive_2 := fun _ => True) generalizing ts with
  | name k => cases h; exact ⟨ts, rfl⟩
  | array k d ih =>
    rw [Decl.tokens, List.append_assoc]
    exact ih (by simpa [Decl.leading] using h) _
  | func k d _ ih =>
    rw [Decl.tokens, List.append_assoc]
    exact ih (by simpa [Decl.leading] using h) _
  | none => simp [Decl.leading] at h
  | ptr => simp [Decl.leading] at h
  | paren => simp [Decl.leading] at h
  | done => trivial
  | cons => trivial

/-- What the parser takes for a nested declarator is one. -/
theorem nested_wf (env : Nat → Option Ty) (m : Mode) (d : Decl) (rest : List Tok) (hw : wellFormed env m d = true)
    (hn : isNested env m (d.tokens ++ .rparen :: rest) = true) : wellFormed env m (.paren d) = true := by
  simp only [wellFormed, hw, Bool.and_true, Bool.and_eq_true, Bool.not_eq_true']
  constructor
  · cases d <;> try rfl
    cases m with
    | declaration => simp [wellFormed] at hw
    | typeName => simp [Decl.tokens, isNested] at hn
    | parameter => simp [Decl.tokens, isNested] at hn
  · cases m with
    | declaration => rfl
    | typeName => rfl
    | parameter =>
      simp only [leadingOk]
      split
      · rename_i n hl
        obtain ⟨r, hr⟩ := leading_tokens d n hl (.rparen :: rest)
        rw [hr] at hn
        simpa [isNested] using hn
      · rfl

theorem decl_sound (env : Nat → Option Ty) (fuel : Nat) (hP : ∀ f, f < fuel + 1 → ParamsSound env f) (hD : ∀ f, f < fuel + 1 → DeclSound env f) :
    DeclSound env (fuel + 1) := by
  intro m t ts t' n rest h
  rw [declarator] at h
  have key : ∀ d, (pointers t ts).2 = d.tokens ++ rest → wellFormed env m d = true → legal env (pointers t ts).1 d = true →
      t' = typeOf env (pointers t ts).1 d → n = d.ident →
      ∃ d, wellFormed env m d = true ∧ legal env t d = true ∧ ts = d.tokens ++ rest ∧ t' = typeOf env t d ∧ n = d.ident := by
    intro d h1 h2 h3 h4 h5
    obtain ⟨d', g1, g2, g3, g4, g5⟩ := pointers_split env m t ts d rest h1 h2 h3
    exact ⟨d', g1, g2, g3, h4.trans g4.symm, h5.trans g5.symm⟩
  generalize hp : (pointers t ts).2 = ps at h key
  generalize ht : (pointers t ts).1 = pt at h key
  unfold head at h
  split at h
  · cases h
  · -- the end
    rename_i hh
    split at hh
    · split at hh <;> cases hh
    · split at hh <;> cases hh
    · split at hh <;> cases hh
    · split at hh
      · cases hh
      · rename_i hm
        cases h
        exact key .none rfl (by simp [wellFormed, hm]) rfl rfl rfl
  · -- a name
    rename_i k r hh
    split at hh
    · rename_i k' r'
      split at hh
      · cases hh
      · rename_i hm
        cases hh
        split at h
        · cases h
        · rename_i po rest1 hpo
          obtain ⟨ss, g1, g2, g3, g4⟩ := posts_sound env fuel _ _ _ _ (fun f hf => hP f (by omega)) hpo
          rw [g4] at h
          cases ha : applyPosts pt ((ss.map (Suffix.post env)).reverse ++ []) with
          | none => rw [ha] at h; cases h
          | some t1 =>
            rw [ha] at h
            cases h
            obtain ⟨c1, c2⟩ := applyPosts_some env pt _ ss ha
            obtain ⟨w1, w2, w3, w4⟩ := wrapAll_spec env (.name k) rfl rfl ss pt
            refine key (wrapAll (.name k) ss) ?_ (wf_wrapAll env m ss _ (by simp [wellFormed, hm]) rfl g1) ?_ ?_ ?_
            · rw [w1, g3]; simp [Decl.tokens]
            · rw [w3, g2, c1]; rfl
            · rw [w2, c2]; rfl
            · rw [w4]; rfl
    · split at hh <;> cases hh
    · split at hh <;> cases hh
    · split at hh <;> cases hh
  · -- no name
    rename_i hh
    have hm : m ≠ .declaration := by
      split at hh
      · split at hh <;> cases hh
      · split at hh
        · cases hh
        · rename_i hn
          intro hm; subst hm; simp [isNested] at hn
      · split at hh
        · cases hh
        · rename_i hm; exact hm
      · split at hh <;> cases hh
    split at h
    · cases h
    · rename_i po rest1 hpo
      obtain ⟨ss, g1, g2, g3, g4⟩ := posts_sound env fuel _ _ _ _ (fun f hf => hP f (by omega)) hpo
      rw [g4] at h
      cases ha : applyPosts pt ((ss.map (Suffix.post env)).reverse ++ []) with
      | none => rw [ha] at h; cases h
      | some t1 =>
        rw [ha] at h
        cases h
        obtain ⟨c1, c2⟩ := applyPosts_some env pt _ ss ha
        obtain ⟨w1, w2, w3, w4⟩ := wrapAll_spec env .none rfl rfl ss pt
        refine key (wrapAll .none ss) ?_ (wf_wrapAll env m ss _ (by simp [wellFormed, hm]) rfl g1) ?_ ?_ ?_
        · rw [w1, g3]; simp [Decl.tokens]
        · rw [w3, g2, c1]; rfl
        · rw [w2, c2]; rfl
        · rw [w4]; rfl
  · -- a nested declarator
    rename_i inner hh
    split at hh
    · split at hh <;> cases hh
    · rename_i inner'
      split at hh
      · rename_i hnest
        cases hh
        split at h
        · cases h
        · rename_i after hskip
          split at h
          · cases h
          · rename_i po rest1 hpo
            obtain ⟨ss, g1, g2, g3, g4⟩ := posts_sound env fuel _ _ _ _ (fun f hf => hP f (by omega)) hpo
            rw [g4] at h
            split at h
            · cases h
            · rename_i t1 ha
              obtain ⟨c1, c2⟩ := applyPosts_some env pt t1 ss ha
              split at h
              · rename_i t2 n2 r2 hdecl
                cases h
                obtain ⟨d, e1, e2, e3, e4, e5⟩ := hD fuel (Nat.lt_succ_self _) _ _ _ _ _ _ hdecl
                rw [e3, skip_decl d 0, skip_rparen_one] at hskip
                cases hskip
                obtain ⟨w1, w2, w3, w4⟩ := wrapAll_spec env (.paren d) rfl rfl ss pt
                rw [e3] at hnest
                refine key (wrapAll (.paren d) ss) ?_ (wf_wrapAll env m ss _ (nested_wf env m d _ e1 hnest) rfl g1) ?_ ?_ ?_
                · rw [w1, e3, g3]; simp [Decl.tokens]
                · rw [w3, g2, c1, ← c2, legal, e2]; rfl
                · rw [w2, ← c2, typeOf]; exact e4
                · rw [w4, Decl.ident]; exact e5
              · cases h
      · cases hh
    · split at hh <;> cases hh
    · split at hh <;> cases hh

theorem specs_split (env : Nat → Option Ty) (ts : List Tok) (t : Ty) (rest : List Tok) (h : specs env ts = some (t, rest)) :
    ∃ s, ts = Specs.tokens s ++ rest ∧ specsOk env s = true ∧ t = s.type env := by
  unfold specs at h; split at h
  · cases h; rename_i b; exact ⟨.base b, rfl, rfl, rfl⟩
  · rename_i n ts
    cases hn : env n with
    | none => rw [hn] at h; cases h
    | some t' =>
      rw [hn] at h; cases h
      exact ⟨.typedef n, rfl, by simp [specsOk, hn], by simp [Specs.type, hn]⟩
  · cases h

theorem close_some (acc : List (Ty × Option Nat)) (v : Bool) (ts : List Tok) (l : List (Ty × Option Nat)) (v' : Bool) (rest : List Tok)
    (h : close acc v ts = some (l, v', rest)) : ts = .rparen :: rest ∧ l = acc ∧ v' = v := by
  unfold close at h; split at h
  · cases h; exact ⟨rfl, rfl, rfl⟩
  · cases h

theorem paramLoop_sound (env : Nat → Option Ty) : ∀ (fuel : Nat) (ts : List Tok) (acc l : List (Ty × Option Nat)) (v : Bool) (rest : List Tok),
    (∀ f, f < fuel → DeclSound env f) → paramLoop env fuel ts acc = some (l, v, rest) →
    ∃ ps, wellFormedRest env ps = true ∧ ps ≠ .done .plain ∧ legalParams env ps = true ∧ ts = ps.tokens ++ .rparen :: rest ∧ l = acc ++ paramList env ps ∧ v = ps.variadic := by
  intro fuel
  induction fuel with
  | zero => intro ts acc l v rest _ h; simp [paramLoop] at h
  | succ fuel ih =>
    intro ts acc l v rest hD h
    unfold paramLoop at h
    split at h
    · simp_all
    · obtain ⟨h1, h2, h3⟩ := close_some _ _ _ _ _ _ h
      exact ⟨.done .dots, rfl, by simp, rfl, by rw [h1]; rfl, by rw [h2]; simp [paramList], h3⟩
    · obtain ⟨h1, h2, h3⟩ := close_some _ _ _ _ _ _ h
      cases h1
      exact ⟨.done .trailingComma, rfl, by simp, rfl, rfl, by rw [h2]; simp [paramList], h3⟩
    · rename_i f hf _ _
      cases hf
      split at h
      · cases h
      · rename_i t ts1 hs
        obtain ⟨s, s1, s2, s3⟩ := specs_split env _ _ _ hs
        split at h
        · cases h
        · rename_i t2 n ts2 hdecl
          obtain ⟨d, d1, d2, d3, d4, d5⟩ := hD fuel (Nat.lt_succ_self _) _ _ _ _ _ _ hdecl
          split at h
          · rename_i ts3 hcomma
            obtain ⟨ps, p1, p2, p3, p4, p5, p6⟩ := ih _ _ _ _ _ (fun f hf => hD f (by omega)) h
            have hc : ts2 = .comma :: ts3 := by
              unfold afterComma at hcomma; split at hcomma
              · cases hcomma; rfl
              · cases hcomma
            refine ⟨.cons s d ps, ?_, by simp, ?_, ?_, ?_, ?_⟩
            · simp only [wellFormedRest, s2, d1, p1]; rfl
            · simp only [legalParams, ← s3, d2, p3]; rfl
            · rw [s1, d3, hc, p4, Params.tokens, more_eq ps p2]; simp
            · rw [p5, paramList, ← s3, ← d4, ← d5]; simp
            · rw [p6, Params.variadic]
          · obtain ⟨h1, h2, h3⟩ := close_some _ _ _ _ _ _ h
            refine ⟨.cons s d (.done .plain), ?_, by simp, ?_, ?_, ?_, ?_⟩
            · simp only [wellFormedRest, s2, d1]; rfl
            · simp only [legalParams, ← s3, d2]; rfl
            · rw [s1, d3, h1]; simp [Params.tokens, Params.more]
            · rw [h2, paramList, ← s3, ← d4, ← d5]; simp [paramList]
            · rw [h3]; rfl

theorem params_sound (env : Nat → Option Ty) (fuel : Nat) (hD : ∀ f, f < fuel + 1 → DeclSound env f) : ParamsSound env (fuel + 1) := by
  intro ts l v rest h
  unfold params at h
  split at h
  · simp_all
  · cases h; exact ⟨.done .plain, rfl, rfl, rfl, rfl, rfl⟩
  · rename_i f hf hnr
    cases hf
    obtain ⟨ps, p1, p2, p3, p4, p5, p6⟩ := paramLoop_sound env _ _ _ _ _ _ (fun f hf => hD f (by omega)) h
    refine ⟨ps, ?_, p3, p4, by simpa using p5, p6⟩
    cases ps with
    | done e =>
      cases e with
      | plain => exact absurd rfl p2
      | dots => rfl
      | trailingComma => rw [p4] at hnr; exact absurd rfl (hnr _)
    | cons s d r => simp only [wellFormedRest] at p1; simpa only [wellFormedParams] using p1

theorem all_sound (env : Nat → Option Ty) : ∀ fuel, DeclSound env fuel ∧ ParamsSound env fuel := by
  intro fuel
  induction fuel using Nat.strongRecOn with
  | _ fuel ih =>
    cases fuel with
    | zero => exact ⟨fun m t ts t' n rest h => by simp [declarator] at h, fun ts l v rest h => by simp [params] at h⟩
    | succ fuel => exact ⟨decl_sound env fuel (fun f hf => (ih f hf).2) (fun f hf => (ih f hf).1), params_sound env fuel (fun f hf => (ih f hf).1)⟩

/-- C68: whatever is parsed without an error is a declarator of C (with a trailing comma allowed after parameters) that meets the
constraints, and its name gets the type of 6.7.6. -/
theorem C68_only_declarators (typedefs : Nat → Option Ty) (m : Mode) (t : Ty) (ts : List Tok) (t' : Ty) (n : Option Nat) (rest : List Tok)
    (h : parse typedefs m t ts = some (t', n, rest)) :
    ∃ d, wellFormed typedefs m d = true ∧ legal typedefs t d = true ∧ ts = d.tokens ++ rest ∧ t' = typeOf typedefs t d ∧ n = d.ident :=
  (all_sound typedefs _).1 m t ts t' n rest h

example : parse (fun _ => none) .typeName (.base 1) [.lparen, .star, .rparen, .lbrack, .rbrack, .rparen] =
    some (.ptr (.array none (.base 1)), none, [.rparen]) := by decide +kernel

/-- C68, violated: the type of a parameter with its name in parentheses depends on whether a typedef of this name elsewhere in the
program was parsed before. (C requires that a typedef before the declaration is used, and that one after it is not.) -/
theorem C68_order_wrong : ∃ (before after : Nat → Option Ty) (ts : List Tok),
    (∀ n t, before n = some t → after n = some t) ∧
    (∃ t n rest, parse before .parameter (.base 1) ts = some (t, n, rest) ∧ parse after .parameter (.base 1) ts ≠ some (t, n, rest)) := by
  refine ⟨fun _ => none, fun n => if n = 7 then some (.base 2) else none, [.lparen, .ident 7, .rparen, .rparen], (fun n t h => by cases h), .base 1, some 7, [.rparen], ?_, ?_⟩
  · decide +kernel
  · decide +kernel

end Verif.Declarator
