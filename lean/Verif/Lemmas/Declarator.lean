import Verif.Model.Declarator

/-! Lemmas for the parsing of declarators. -/

namespace Verif.Declarator

open Verif.Spec.Declarator

/-- An array or function suffix of a declarator. -/
inductive Suffix
  | arr (n : Option Int)
  | fn (ps : Params)

def Suffix.tokens : Suffix → List Tok
  | .arr n => .lbrack :: (sizeTokens n ++ [.rbrack])
  | .fn ps => .lparen :: (ps.tokens ++ [.rparen])

def Suffix.wrap : Suffix → Decl → Decl
  | .arr n, d => .array n d
  | .fn ps, d => .func ps d

def Suffix.post (env : Nat → Option Ty) : Suffix → Post
  | .arr n => .array (count n)
  | .fn ps => .func (paramTypes (paramList env ps)) ps.variadic

/-- What can be checked while the suffix is parsed. -/
def Suffix.ok (env : Nat → Option Ty) : Suffix → Bool
  | .arr n => sizeOk n
  | .fn ps => legalParams env ps

def Suffix.wf (env : Nat → Option Ty) : Suffix → Bool
  | .arr _ => true
  | .fn ps => wellFormedParams env ps

def headOf : Decl → Decl
  | .array _ d => headOf d
  | .func _ d => headOf d
  | d => d

/-- The suffixes, the last first. -/
def suffixes : Decl → List Suffix
  | .array n d => .arr n :: suffixes d
  | .func ps d => .fn ps :: suffixes d
  | _ => []

def suffixTokens (ss : List Suffix) : List Tok := (ss.map Suffix.tokens).flatten

theorem suffixTokens_append (a b : List Suffix) : suffixTokens (a ++ b) = suffixTokens a ++ suffixTokens b := by
  simp [suffixTokens]

theorem tokens_split (d : Decl) : d.tokens = (headOf d).tokens ++ suffixTokens (suffixes d).reverse := by
  fun_induction headOf d with
  | case1 n d ih => rw [Decl.tokens, ih]; simp [suffixes, suffixTokens, Suffix.tokens]
  | case2 ps d ih => rw [Decl.tokens, ih]; simp [suffixes, suffixTokens, Suffix.tokens]
  | case3 d h1 h2 =>
    have : suffixes d = [] := by
      unfold suffixes; split
      · exact absurd rfl (h1 _ _)
      · exact absurd rfl (h2 _ _)
      · rfl
    simp [this, suffixTokens]

/-- The type with suffixes applied, the last first. -/
def applyTy (env : Nat → Option Ty) : Ty → List Suffix → Ty
  | t, [] => t
  | t, .arr n :: r => applyTy env (.array (count n) t) r
  | t, .fn ps :: r => applyTy env (.func t (paramTypes (paramList env ps)) ps.variadic) r

/-- The constraints on the types. -/
def chainOk (env : Nat → Option Ty) : Ty → List Suffix → Bool
  | _, [] => true
  | t, .arr n :: r => elementOk t && chainOk env (.array (count n) t) r
  | t, .fn ps :: r => returnOk t && chainOk env (.func t (paramTypes (paramList env ps)) ps.variadic) r

theorem applyPosts_eq (env : Nat → Option Ty) (ss : List Suffix) : ∀ t,
    applyPosts t (ss.map (Suffix.post env)) = if chainOk env t ss then some (applyTy env t ss) else none := by
  induction ss with
  | nil => intro t; rfl
  | cons s ss ih =>
    intro t
    cases s with
    | arr n =>
      simp only [List.map_cons, Suffix.post, applyPosts, chainOk, applyTy, ih]
      by_cases h : elementOk t = true <;> simp [h]
    | fn ps =>
      simp only [List.map_cons, Suffix.post, applyPosts, chainOk, applyTy, ih]
      by_cases h : returnOk t = true <;> simp [h]

theorem typeOf_split (env : Nat → Option Ty) (d : Decl) : ∀ t, typeOf env t d = typeOf env (applyTy env t (suffixes d)) (headOf d) := by
  fun_induction headOf d with
  | case1 n d ih => intro t; rw [typeOf, ih]; rfl
  | case2 ps d ih => intro t; rw [typeOf, ih]; rfl
  | case3 d h1 h2 =>
    intro t
    have : suffixes d = [] := by
      unfold suffixes; split
      · exact absurd rfl (h1 _ _)
      · exact absurd rfl (h2 _ _)
      · rfl
    simp [this, applyTy]

theorem legal_split (env : Nat → Option Ty) (d : Decl) : ∀ t, legal env t d =
    ((suffixes d).all (Suffix.ok env) && chainOk env t (suffixes d) && legal env (applyTy env t (suffixes d)) (headOf d)) := by
  fun_induction headOf d with
  | case1 n d ih =>
    intro t; rw [legal, ih]; simp only [suffixes, List.all_cons, Suffix.ok, chainOk, applyTy]
    cases sizeOk n <;> cases elementOk t <;> simp
  | case2 ps d ih =>
    intro t; rw [legal, ih]; simp only [suffixes, List.all_cons, Suffix.ok, chainOk, applyTy]
    cases legalParams env ps <;> cases returnOk t <;> simp
  | case3 d h1 h2 =>
    intro t
    have : suffixes d = [] := by
      unfold suffixes; split
      · exact absurd rfl (h1 _ _)
      · exact absurd rfl (h2 _ _)
      · rfl
    simp [this, chainOk, applyTy]

theorem ident_split (d : Decl) : d.ident = (headOf d).ident := by
  fun_induction headOf d with
  | case1 n d ih => rw [Decl.ident, ih]
  | case2 ps d ih => rw [Decl.ident, ih]
  | case3 d => rfl

theorem wf_split (env : Nat → Option Ty) (m : Mode) (d : Decl) (h : wellFormed env m d = true) (hd : d.direct = true) :
    wellFormed env m (headOf d) = true ∧ (headOf d).direct = true ∧ (suffixes d).all (Suffix.wf env) = true := by
  fun_induction headOf d with
  | case1 n d ih =>
    simp only [wellFormed, Bool.and_eq_true] at h
    have := ih h.2 h.1
    exact ⟨this.1, this.2.1, by simp [suffixes, Suffix.wf, this.2.2]⟩
  | case2 ps d ih =>
    simp only [wellFormed, Bool.and_eq_true] at h
    have := ih h.1.2 h.1.1
    exact ⟨this.1, this.2.1, by simp only [suffixes, List.all_cons, Suffix.wf, h.2, this.2.2]; rfl⟩
  | case3 d h1 h2 =>
    have : suffixes d = [] := by
      unfold suffixes; split
      · exact absurd rfl (h1 _ _)
      · exact absurd rfl (h2 _ _)
      · rfl
    exact ⟨h, hd, by simp [this]⟩

theorem headOf_cases (d : Decl) (h : (headOf d).direct = true) : headOf d = .none ∨ (∃ n, headOf d = .name n) ∨ ∃ d', headOf d = .paren d' := by
  fun_induction headOf d with
  | case1 n d ih => exact ih h
  | case2 ps d ih => exact ih h
  | case3 d h1 h2 =>
    cases d with
    | none => exact Or.inl rfl
    | name n => exact Or.inr (Or.inl ⟨n, rfl⟩)
    | ptr qs d => simp [Decl.direct] at h
    | array n d => exact absurd rfl (h1 _ _)
    | func ps d => exact absurd rfl (h2 _ _)
    | paren d => exact Or.inr (Or.inr ⟨d, rfl⟩)

/-! ### Balanced parentheses -/

theorem skip_rparen (n : Nat) (ts : List Tok) : skip (n + 1 + 1) (.rparen :: ts) = skip (n + 1) ts := by
  simp [skip]

theorem skip_rparen_one (ts : List Tok) : skip 1 (.rparen :: ts) = some ts := by
  simp [skip]

theorem skip_lparen (n : Nat) (ts : List Tok) : skip n (.lparen :: ts) = skip (n + 1) ts := rfl

theorem skip_quals (n : Nat) (qs : List Nat) (ts : List Tok) : skip n (qs.map Tok.qualifier ++ ts) = skip n ts := by
  induction qs with
  | nil => rfl
  | cons q qs ih => simp only [List.map_cons, List.cons_append, skip, ih]

theorem skip_specs (n : Nat) (s : Specs) (ts : List Tok) : skip n (s.tokens ++ ts) = skip n ts := by
  cases s <;> simp [Specs.tokens, skip]

theorem skip_size (n : Nat) (s : Option Int) (ts : List Tok) : skip n (sizeTokens s ++ ts) = skip n ts := by
  cases s <;> simp [sizeTokens, skip]

mutual
theorem skip_decl (d : Decl) : ∀ n ts, skip (n + 1) (d.tokens ++ ts) = skip (n + 1) ts := by
  cases d with
  | none => intro n ts; rfl
  | name k => intro n ts; simp [Decl.tokens, skip]
  | ptr qs d =>
    intro n ts
    simp only [Decl.tokens, List.cons_append, List.append_assoc, skip, skip_quals]
    exact skip_decl d n ts
  | array k d =>
    intro n ts
    simp only [Decl.tokens, List.cons_append, List.append_assoc]
    rw [skip_decl d n]
    simp [skip, skip_size]
  | func ps d =>
    intro n ts
    simp only [Decl.tokens, List.cons_append, List.append_assoc]
    rw [skip_decl d n, skip_lparen, skip_params ps (n + 1)]
    simp [skip_rparen]
  | paren d =>
    intro n ts
    simp only [Decl.tokens, List.cons_append, List.append_assoc]
    rw [skip_lparen, skip_decl d (n + 1)]
    simp [skip_rparen]

theorem skip_params (ps : Params) : ∀ n ts, skip (n + 1) (ps.tokens ++ ts) = skip (n + 1) ts := by
  cases ps with
  | done e => intro n ts; cases e <;> simp [Params.tokens, skip]
  | cons s d rest =>
    intro n ts
    simp only [Params.tokens, List.append_assoc]
    rw [skip_specs, skip_decl d n, skip_more rest n]

theorem skip_more (ps : Params) : ∀ n ts, skip (n + 1) (ps.more ++ ts) = skip (n + 1) ts := by
  cases ps with
  | done e => intro n ts; cases e <;> simp [Params.more, skip]
  | cons s d rest =>
    intro n ts
    simp only [Params.more, List.append_assoc, List.cons_append, skip]
    rw [skip_specs, skip_decl d n, skip_more rest n]
end

/-! ### Pointers -/

/-- The first token is not a star or a qualifier. -/
def calm : List Tok → Bool
  | .star :: _ | .qualifier _ :: _ => false
  | _ => true

def notQual : List Tok → Bool
  | .qualifier _ :: _ => false
  | _ => true

theorem qualifiers_map (qs : List Nat) (ts : List Tok) (h : notQual ts = true) : qualifiers (qs.map Tok.qualifier ++ ts) = ts := by
  induction qs with
  | nil =>
    simp only [List.map_nil, List.nil_append]
    unfold qualifiers; split
    · simp [notQual] at h
    · rfl
  | cons q qs ih => simp only [List.map_cons, List.cons_append, qualifiers, ih]

theorem calm_notQual (ts : List Tok) (h : calm ts = true) : notQual ts = true := by
  unfold notQual; split
  · simp [calm] at h
  · rfl

theorem stops_calm (ts : List Tok) (h : stops ts = true) : calm ts = true := by
  unfold calm; split
  · simp [stops] at h
  · simp [stops] at h
  · rfl

theorem calm_suffix (ss : List Suffix) (ts : List Tok) (h : calm ts = true) : calm (suffixTokens ss ++ ts) = true := by
  cases ss with
  | nil => exact h
  | cons s ss => cases s <;> rfl

theorem calm_direct (d : Decl) (hd : (headOf d).direct = true) (ts : List Tok) (h : calm ts = true) : calm (d.tokens ++ ts) = true := by
  rw [tokens_split, List.append_assoc]
  rcases headOf_cases d hd with h1 | ⟨n, h1⟩ | ⟨d', h1⟩ <;> rw [h1]
  · exact calm_suffix _ _ h
  · rfl
  · rfl

theorem notQual_tokens (env : Nat → Option Ty) (m : Mode) (d : Decl) (hw : wellFormed env m d = true) (ts : List Tok) (h : calm ts = true) :
    notQual (d.tokens ++ ts) = true := by
  by_cases hd : d.direct = true
  · exact calm_notQual _ (calm_direct d (wf_split env m d hw hd).2.1 ts h)
  · cases d <;> simp [Decl.direct] at hd
    rfl

theorem pointers_calm (t : Ty) (ts : List Tok) (h : calm ts = true) : pointers t ts = (t, ts) := by
  unfold pointers; split
  · simp [calm] at h
  · rfl

theorem pointers_ptr (env : Nat → Option Ty) (m : Mode) (t : Ty) (qs : List Nat) (d : Decl) (hw : wellFormed env m d = true) (ts : List Tok) (h : calm ts = true) :
    pointers t ((Decl.ptr qs d).tokens ++ ts) = pointers (.ptr t) (d.tokens ++ ts) := by
  simp only [Decl.tokens, List.cons_append, List.append_assoc]
  rw [pointers, qualifiers_map _ _ (notQual_tokens env m d hw ts h)]

/-- A declarator depends on what follows the pointers only. -/
theorem declarator_congr (env : Nat → Option Ty) (fuel : Nat) (m : Mode) (t t' : Ty) (ts ts' : List Tok) (h : pointers t ts = pointers t' ts') :
    declarator env fuel m t ts = declarator env fuel m t' ts' := by
  cases fuel with
  | zero => simp [declarator]
  | succ fuel => rw [declarator, declarator, h]

end Verif.Declarator
