import Verif.Model.TypeString
import Verif.Spec.TypeString
import Verif.Props.Declarator

/-!
# C69: the name that a message gives for a type denotes that type
-/

namespace Verif.TypeString

open Verif.Spec.Declarator Verif.Spec.TypeString

/-- The declarator with parentheses if there is one. -/
def wrapDecl : Decl → Decl
  | .none => .none
  | d => .paren d

mutual
/-- The specifier and the declarator that are printed. -/
def declOf : Decl → Ty → Nat × Decl
  | d, .base b => (b, d)
  | d, .ptr t => declOf (.ptr [] d) t
  | d, .func r ps _ => declOf (.func (paramsOf ps) (wrapDecl d)) r
  | d, .array n t => declOf (.array (some (n.getD 0)) (wrapDecl d)) t

def paramsOf : Tys → Params
  | .nil => .done .plain
  | .cons t rest => .cons (.base (declOf .none t).1) (declOf .none t).2 (paramsOf rest)
end

theorem wrap_tokens (d : Decl) (h : d ≠ .none → d.tokens ≠ []) : wrap d.tokens = (wrapDecl d).tokens := by
  cases d with
  | none => rfl
  | _ =>
    have := h (by simp)
    rw [wrap]
    · rfl
    · exact this

theorem wrapDecl_nonempty (d : Decl) (h : d ≠ .none → d.tokens ≠ []) : wrapDecl d ≠ .none → (wrapDecl d).tokens ≠ [] := by
  cases d <;> simp [wrapDecl, Decl.tokens]

mutual
theorem inner_tokens (t : Ty) : ∀ d : Decl, (d ≠ .none → d.tokens ≠ []) → inner d.tokens t = .spec (declOf d t).1 :: (declOf d t).2.tokens := by
  cases t with
  | base b => intro d _; simp only [inner, declOf]
  | ptr t =>
    intro d h
    have := inner_tokens t (.ptr [] d) (fun _ => by simp [Decl.tokens])
    simp only [inner, declOf]
    rw [← this]; rfl
  | func r ps v =>
    intro d h
    have := inner_tokens r (.func (paramsOf ps) (wrapDecl d)) (fun _ => by simp [Decl.tokens])
    simp only [inner, declOf]
    rw [← this, Decl.tokens, wrap_tokens d h, arguments_tokens ps]
  | array n t =>
    intro d h
    have := inner_tokens t (.array (some (n.getD 0)) (wrapDecl d)) (fun _ => by simp [Decl.tokens])
    simp only [inner, declOf]
    rw [← this, Decl.tokens, wrap_tokens d h]; rfl

theorem arguments_tokens (ps : Tys) : arguments ps = (paramsOf ps).tokens := by
  cases ps with
  | nil => rfl
  | cons t rest =>
    have h1 := inner_tokens t .none (by simp)
    cases rest with
    | nil =>
      rw [arguments, paramsOf, Params.tokens]
      have : Decl.none.tokens = [] := rfl
      rw [← this, h1]
      simp [paramsOf, Params.more, Specs.tokens]
    | cons t' rest =>
      have h2 := arguments_tokens (.cons t' rest)
      have : Decl.none.tokens = [] := rfl
      rw [arguments, ← this, h1, h2]
      simp [paramsOf, Params.tokens, Params.more, Specs.tokens]
end

/-- The declarator has no name, and can be written as a type name and as a parameter. -/
def Fine (d : Decl) : Prop := d.leading = none ∧ d.ident = none ∧ ∀ m, m ≠ .declaration → wellFormed (fun _ => none) m d = true

theorem wrapDecl_fine (d : Decl) (h : Fine d) : Fine (wrapDecl d) ∧ (wrapDecl d).direct = true := by
  have key : ∀ d, Fine d → d.isNone = false → Fine (.paren d) := by
    intro d h hn
    refine ⟨rfl, by rw [Decl.ident]; exact h.2.1, fun m hm => ?_⟩
    simp only [wellFormed, hn, h.2.2 m hm, Bool.and_true, Bool.not_false, Bool.true_and]
    cases m <;> simp [leadingOk, h.1]
  cases d with
  | none => exact ⟨h, rfl⟩
  | name => exact ⟨key _ h rfl, rfl⟩
  | ptr => exact ⟨key _ h rfl, rfl⟩
  | array => exact ⟨key _ h rfl, rfl⟩
  | func => exact ⟨key _ h rfl, rfl⟩
  | paren => exact ⟨key _ h rfl, rfl⟩

mutual
theorem declOf_fine (t : Ty) : ∀ d, Fine d → Fine (declOf d t).2 := by
  cases t with
  | base b => intro d h; exact h
  | ptr t =>
    intro d h
    exact declOf_fine t _ ⟨rfl, by rw [Decl.ident]; exact h.2.1, fun m hm => by rw [wellFormed]; exact h.2.2 m hm⟩
  | func r ps v =>
    intro d h
    obtain ⟨h1, h2⟩ := wrapDecl_fine d h
    have hp := paramsOf_fine ps
    refine declOf_fine r _ ⟨by rw [Decl.leading]; exact h1.1, by rw [Decl.ident]; exact h1.2.1, fun m hm => ?_⟩
    simp only [wellFormed, h2, h1.2.2 m hm, hp.1, Bool.and_true]
  | array n t =>
    intro d h
    obtain ⟨h1, h2⟩ := wrapDecl_fine d h
    refine declOf_fine t _ ⟨by rw [Decl.leading]; exact h1.1, by rw [Decl.ident]; exact h1.2.1, fun m hm => ?_⟩
    simp only [wellFormed, h2, h1.2.2 m hm, Bool.and_true]

theorem paramsOf_fine (ps : Tys) : wellFormedParams (fun _ => none) (paramsOf ps) = true ∧ wellFormedRest (fun _ => none) (paramsOf ps) = true ∧ (paramsOf ps).variadic = false := by
  cases ps with
  | nil => exact ⟨rfl, rfl, rfl⟩
  | cons t rest =>
    have h1 := declOf_fine t .none ⟨rfl, rfl, fun m hm => by simp [wellFormed, hm]⟩
    have h2 := paramsOf_fine rest
    simp only [paramsOf, wellFormedParams, wellFormedRest, specsOk, h1.2.2 .parameter (by simp), h2.2.1, Params.variadic, h2.2.2]
    decide
end

theorem wrapDecl_typeOf (env : Nat → Option Ty) (t : Ty) (d : Decl) : typeOf env t (wrapDecl d) = typeOf env t d ∧ legal env t (wrapDecl d) = legal env t d := by
  cases d <;> simp [wrapDecl, typeOf, legal]

theorem adjust_paramOk (t : Ty) (h : paramOk t = true) : adjust t = t ∧ t ≠ .base 0 := by
  cases t with
  | base b =>
    refine ⟨rfl, ?_⟩
    intro h2; cases h2; simp [paramOk] at h
  | ptr => exact ⟨rfl, by simp⟩
  | array => simp [paramOk] at h
  | func => simp [paramOk] at h

/-- The list of a function without void parameters. -/
theorem paramTypes_eq (l : List (Ty × Option Nat)) (h : ∀ p ∈ l, p.1 ≠ .base 0) : paramTypes l = Tys.ofList (l.map Prod.fst) := by
  unfold paramTypes
  split
  · rename_i ps
    exact absurd rfl (h _ (List.mem_singleton.2 rfl))
  · rfl

mutual
theorem declOf_type (t : Ty) : ∀ d, valid t = true → Fine d → typeOf (fun _ => none) (.base (declOf d t).1) (declOf d t).2 = typeOf (fun _ => none) t d ∧
    legal (fun _ => none) (.base (declOf d t).1) (declOf d t).2 = legal (fun _ => none) t d := by
  cases t with
  | base b => intro d _ _; exact ⟨rfl, rfl⟩
  | ptr t =>
    intro d hv hf
    have := declOf_type t (.ptr [] d) (by simpa only [valid] using hv) ⟨rfl, by rw [Decl.ident]; exact hf.2.1, fun m hm => by rw [wellFormed]; exact hf.2.2 m hm⟩
    simp only [declOf]
    rw [this.1, this.2, typeOf, legal]; exact ⟨rfl, rfl⟩
  | func r ps v =>
    intro d hv hf
    simp only [valid, Bool.and_eq_true, Bool.not_eq_true'] at hv
    obtain ⟨⟨⟨hv1, hv2⟩, hv3⟩, hv4⟩ := hv
    obtain ⟨h1, h2⟩ := wrapDecl_fine d hf
    have hp := paramsOf_fine ps
    have ht := paramsOf_type ps hv4
    have := declOf_type r (.func (paramsOf ps) (wrapDecl d)) hv3
      ⟨by rw [Decl.leading]; exact h1.1, by rw [Decl.ident]; exact h1.2.1, fun m hm => by simp only [wellFormed, h2, h1.2.2 m hm, hp.1, Bool.and_true]⟩
    have hpt : paramTypes (paramList (fun _ => none) (paramsOf ps)) = ps := by
      rw [paramTypes_eq _ ht.2.2]; exact ht.1
    simp only [declOf]
    rw [this.1, this.2, typeOf, legal, hpt, hp.2.2, (wrapDecl_typeOf _ _ d).1, (wrapDecl_typeOf _ _ d).2, ht.2.1, hv2, hv1]
    exact ⟨rfl, by simp⟩
  | array n t =>
    intro d hv hf
    simp only [valid, Bool.and_eq_true, bne_iff_ne, ne_eq] at hv
    obtain ⟨h1, h2⟩ := wrapDecl_fine d hf
    have := declOf_type t (.array (some (n.getD 0)) (wrapDecl d)) hv.2
      ⟨by rw [Decl.leading]; exact h1.1, by rw [Decl.ident]; exact h1.2.1, fun m hm => by simp only [wellFormed, h2, h1.2.2 m hm, Bool.and_true]⟩
    have hc : count (some ((n.getD 0 : Nat) : Int)) = n := by
      cases n with
      | none => rfl
      | some k =>
        have : k ≠ 0 := fun h => hv.1.1 (by rw [h])
        simp [count, this]
    have hs : sizeOk (some ((n.getD 0 : Nat) : Int)) = true := by simp [sizeOk]
    simp only [declOf]
    rw [this.1, this.2, typeOf, legal, hc, hs, (wrapDecl_typeOf _ _ d).1, (wrapDecl_typeOf _ _ d).2, hv.1.2]
    exact ⟨rfl, by simp⟩

theorem paramsOf_type (ps : Tys) (hv : validList ps = true) : Tys.ofList ((paramList (fun _ => none) (paramsOf ps)).map Prod.fst) = ps ∧
    legalParams (fun _ => none) (paramsOf ps) = true ∧ ∀ p ∈ paramList (fun _ => none) (paramsOf ps), p.1 ≠ .base 0 := by
  cases ps with
  | nil => exact ⟨rfl, rfl, by simp [paramsOf, paramList]⟩
  | cons t rest =>
    simp only [validList, Bool.and_eq_true] at hv
    have h1 := declOf_type t .none hv.1.2 ⟨rfl, rfl, fun m hm => by simp [wellFormed, hm]⟩
    have h2 := paramsOf_type rest hv.2
    have ha := adjust_paramOk t hv.1.1
    simp only [paramsOf, paramList, Specs.type, h1.1, typeOf, ha.1, List.map_cons, Tys.ofList, h2.1, legalParams, h1.2, legal, h2.2.1, Bool.and_self, List.mem_cons]
    refine ⟨trivial, trivial, ?_⟩
    rintro p (rfl | hp)
    · exact ha.2
    · exact h2.2.2 p hp
end

/-- C69: the name of a type that is printed denotes it. Missing: functions with variable arguments. -/
theorem C69_denotes_partial (t : Ty) (h : valid t = true) : Denotes (typeString t) t := by
  have hf : Fine .none := ⟨rfl, rfl, fun m hm => by simp [wellFormed, hm]⟩
  have h1 := declOf_type t .none h hf
  refine ⟨(declOf .none t).1, (declOf .none t).2, inner_tokens t .none (by simp), (declOf_fine t .none hf).2.2 .typeName (by simp), ?_, ?_⟩
  · rw [h1.2]; rfl
  · rw [h1.1]; rfl

/-- C69: the compiler reads the printed name as the same type. -/
theorem C69_round_trip_partial (t : Ty) (h : valid t = true) (rest : List Tok) (hr : stops rest = true) :
    ∃ b ts, typeString t = .spec b :: ts ∧ Declarator.parse (fun _ => none) .typeName (.base b) (ts ++ rest) = some (t, none, rest) := by
  have hf : Fine .none := ⟨rfl, rfl, fun m hm => by simp [wellFormed, hm]⟩
  have h1 := declOf_type t .none h hf
  have h2 := declOf_fine t .none hf
  refine ⟨(declOf .none t).1, (declOf .none t).2.tokens, inner_tokens t .none (by simp), ?_⟩
  rw [Declarator.C68_declarator _ _ _ _ _ (h2.2.2 .typeName (by simp)) hr, h1.2, h1.1, h2.2.1]
  rfl

/-- `char (*)[3]` and an array of pointers to functions. -/
example : typeString (.ptr (.array (some 3) (.base 1))) = [.spec 1, .lparen, .star, .rparen, .lbrack, .size 3, .rbrack] := by decide +kernel
example : valid (.array (some 2) (.ptr (.func (.base 0) (.cons (.ptr (.base 1)) (.cons (.base 2) .nil)) false))) = true := by decide +kernel

/-- C69: different types have different names. -/
theorem C69_distinct_partial (t t' : Ty) (h : valid t = true) (h' : valid t' = true) (e : typeString t = typeString t') : t = t' := by
  obtain ⟨b, ts, h1, h2⟩ := C69_round_trip_partial t h [] rfl
  obtain ⟨b', ts', h1', h2'⟩ := C69_round_trip_partial t' h' [] rfl
  rw [h1, h1'] at e
  simp only [List.cons.injEq, Tok.spec.injEq] at e
  obtain ⟨e1, e2⟩ := e
  subst e1 e2
  rw [h2] at h2'
  simpa using h2'

/-- C69, violated: `...` is not printed, so a variadic function has the name of another type. -/
theorem C69_variadic_wrong : ∃ t t' : Ty, t ≠ t' ∧ typeString t = typeString t' ∧ ¬ Denotes (typeString t) t := by
  refine ⟨.func (.base 1) (.cons (.base 2) .nil) true, .func (.base 1) (.cons (.base 2) .nil) false, by decide, by decide +kernel, ?_⟩
  rintro ⟨b, d, h1, h2, h3, h4⟩
  have h5 := Declarator.C68_declarator (fun _ => none) .typeName (.base b) d [] h2 rfl
  rw [h3, h4] at h5
  have h6 : typeString (.func (.base 1) (.cons (.base 2) .nil) true) = [.spec 1, .lparen, .spec 2, .rparen] := by decide +kernel
  rw [h6] at h1
  simp only [List.cons.injEq, Tok.spec.injEq] at h1
  rw [← h1.1, ← h1.2] at h5
  have h7 : Declarator.parse (fun _ => none) .typeName (.base 1) ([.lparen, .spec 2, .rparen] ++ []) = some (.func (.base 1) (.cons (.base 2) .nil) false, none, []) := by
    decide +kernel
  rw [h7] at h5
  simp at h5

end Verif.TypeString
