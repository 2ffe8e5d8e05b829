import Verif.Model.Redefine
import Verif.Props.DefineTable

/-!
# C53: which redefinitions of a macro are diagnosed
-/
namespace Verif.Redefine
open Verif.Spec.Redefine

theorem sameTokens_iff (ts us : List Tok) : sameTokens ts us = true ↔ ts = us := by
  induction ts generalizing us with
  | nil => cases us <;> simp [sameTokens]
  | cons t ts ih =>
    cases us with
    | nil => simp [sameTokens]
    | cons u us => simp [sameTokens, ih]

theorem sameParams_iff (as bs : List Nat) : sameParams as bs = true ↔ as = bs := by
  induction as generalizing bs with
  | nil => cases bs <;> simp [sameParams]
  | cons t ts ih =>
    cases bs with
    | nil => simp [sameParams]
    | cons u us => simp [sameParams, ih]

theorem sameNode_refl (n : Node) : sameNode n n = true := by
  cases n <;> simp [sameNode, sameTokens_iff]

theorem sameNodes_refl (ns : List Node) : sameNodes ns ns = true := by
  induction ns with
  | nil => rfl
  | cons n ns ih => simp [sameNodes, sameNode_refl, ih]

/-- The tokens a node was made of. -/
def text (params : List Nat) : Node → List Tok
  | .tokens ts => ts
  | .argument i => params[i]?.toList.map .ident
  | .hash _ => []
  | .hashhash p _ t => (p.bind (params[·]?)).toList.map .ident ++ [.hashhash, t]

theorem paramIndex_some {params : List Nat} {a i : Nat} (h : paramIndex params a = some i) : params[i]? = some a := by
  unfold paramIndex at h
  rw [List.findIdx?_eq_some_iff_getElem] at h
  obtain ⟨hlt, heq, _⟩ := h
  rw [List.getElem?_eq_getElem hlt]
  simpa using heq

theorem paramIndex_none {params : List Nat} {a : Nat} (h : paramIndex params a = none) : a ∉ params := by
  unfold paramIndex at h
  rw [List.findIdx?_eq_none_iff] at h
  intro hm
  have := h a hm
  simp at this

theorem flat_addToken (params : List Nat) (acc : List Node) (t : Tok) :
    (addToken acc t).flatMap (text params) = acc.flatMap (text params) ++ [t] := by
  unfold addToken
  split
  · rename_i ts h
    obtain ⟨ys, hys⟩ := List.getLast?_eq_some_iff.1 h
    subst hys
    simp [text]
  · simp [text]

theorem mem_addToken {acc : List Node} {t : Tok} {n : Node} (hn : ∀ ts, n ≠ .tokens ts) : n ∈ addToken acc t ↔ n ∈ acc := by
  unfold addToken
  split
  · rename_i ts h
    obtain ⟨ys, hys⟩ := List.getLast?_eq_some_iff.1 h
    subst hys
    simp [hn]
  · simp [hn]

/-- Nodes other than runs of tokens stay. -/
theorem parseBody_keeps (params strs : List Nat) (acc : List Node) (body : List Tok) (ns : List Node)
    (h : parseBody params strs acc body = some ns) (n : Node) (hn : ∀ ts, n ≠ .tokens ts) (hm : n ∈ acc) : n ∈ ns := by
  fun_induction parseBody params strs acc body
  case case1 => cases h; exact hm
  all_goals first
    | (cases h; done)
    | (rename_i ih; exact ih h (by simp [mem_addToken hn, hm]))

/-- Without stringified parameters, the nodes spell the replacement list. -/
theorem parseBody_text (params strs : List Nat) (acc : List Node) (body : List Tok) (ns : List Node)
    (h : parseBody params strs acc body = some ns) (hn : ∀ k, .hash k ∉ ns) :
    ns.flatMap (text params) = acc.flatMap (text params) ++ body := by
  fun_induction parseBody params strs acc body
  case case1 => cases h; simp
  case case2 => exact absurd (parseBody_keeps _ _ _ _ _ h (.hash _) (by simp) (List.mem_append_right _ List.mem_cons_self)) (hn _)
  case case3 => exact absurd (parseBody_keeps _ _ _ _ _ h (.hash _) (by simp) (List.mem_append_right _ List.mem_cons_self)) (hn _)
  all_goals first
    | (cases h; done)
    | (rename_i ih; rw [ih h]; simp [text, paramIndex_some (by assumption)]; done)
    | (rename_i ih; rw [ih h]; simp [flat_addToken, text])

/-- What the nodes of a definition know about their `##`. -/
def Linked (params : List Nat) : Node → Prop
  | .hashhash _ q t => postfixArg params t = q
  | _ => True

theorem linked_addToken {params : List Nat} {acc : List Node} {t : Tok} (h : ∀ n ∈ acc, Linked params n) : ∀ n ∈ addToken acc t, Linked params n := by
  intro n hn
  by_cases hk : ∃ ts, n = .tokens ts
  · obtain ⟨ts, rfl⟩ := hk
    trivial
  · exact h n ((mem_addToken (fun ts e => hk ⟨ts, e⟩)).1 hn)

theorem linked_append {params : List Nat} {acc : List Node} {m : Node} (h : ∀ n ∈ acc, Linked params n) (hm : Linked params m) :
    ∀ n ∈ acc ++ [m], Linked params n := by
  intro n hn
  rcases List.mem_append.1 hn with hn | hn
  · exact h n hn
  · rw [List.mem_singleton.1 hn]
    exact hm

theorem parseBody_linked (params strs : List Nat) (acc : List Node) (body : List Tok) (ns : List Node)
    (h : parseBody params strs acc body = some ns) (hl : ∀ n ∈ acc, Linked params n) : ∀ n ∈ ns, Linked params n := by
  fun_induction parseBody params strs acc body
  case case1 => cases h; exact hl
  all_goals first
    | (cases h; done)
    | (rename_i ih; exact ih h (linked_append (by first | exact linked_addToken hl | exact hl) (by first | rfl | trivial)))
    | (rename_i ih; exact ih h (linked_addToken hl))

/-- A plain rest of a replacement list. -/
def PlainBody (params : List Nat) (body : List Tok) : Prop :=
  .hash ∉ body ∧ ∀ i, body[i]? = some .hashhash → ∃ a, body[i + 1]? = some (.ident a) ∧ a ∈ params

theorem PlainBody.tail {params : List Nat} {t : Tok} {body : List Tok} (h : PlainBody params (t :: body)) : PlainBody params body :=
  ⟨fun hm => h.1 (List.mem_cons_of_mem _ hm), fun i hi => h.2 (i + 1) (by simpa using hi)⟩

/-- The nodes a plain definition can have. -/
def PlainNode : Node → Prop
  | .hash _ => False
  | .hashhash _ q _ => q ≠ none
  | _ => True

theorem plain_addToken {acc : List Node} {t : Tok} (h : ∀ n ∈ acc, PlainNode n) : ∀ n ∈ addToken acc t, PlainNode n := by
  intro n hn
  by_cases hk : ∃ ts, n = .tokens ts
  · obtain ⟨ts, rfl⟩ := hk
    trivial
  · exact h n ((mem_addToken (fun ts e => hk ⟨ts, e⟩)).1 hn)

theorem plain_append {acc : List Node} {m : Node} (h : ∀ n ∈ acc, PlainNode n) (hm : PlainNode m) :
    ∀ n ∈ acc ++ [m], PlainNode n := by
  intro n hn
  rcases List.mem_append.1 hn with hn | hn
  · exact h n hn
  · rw [List.mem_singleton.1 hn]
    exact hm

theorem postfix_of_plain {params : List Nat} {t : Tok} {rest : List Tok} (h : PlainBody params (.hashhash :: t :: rest)) :
    postfixArg params t ≠ none := by
  obtain ⟨a, h1, h2⟩ := h.2 0 rfl
  simp only [List.getElem?_cons_succ, List.getElem?_cons_zero, Option.some.injEq] at h1
  subst h1
  intro hc
  exact paramIndex_none hc h2

theorem parseBody_plain (params strs : List Nat) (acc : List Node) (body : List Tok) (ns : List Node)
    (h : parseBody params strs acc body = some ns) (hb : PlainBody params body) (hl : ∀ n ∈ acc, PlainNode n) : ∀ n ∈ ns, PlainNode n := by
  fun_induction parseBody params strs acc body
  case case1 => cases h; exact hl
  case case2 => exact absurd List.mem_cons_self hb.1
  case case3 => exact absurd List.mem_cons_self hb.1
  all_goals first
    | (cases h; done)
    | (rename_i ih; exact ih h hb.tail.tail (plain_append hl (postfix_of_plain hb)))
    | (rename_i ih; exact ih h hb.tail.tail.tail (plain_append hl (postfix_of_plain hb.tail)))
    | (rename_i ih; exact ih h hb.tail.tail.tail (plain_append (plain_addToken hl) (postfix_of_plain hb.tail)))
    | (rename_i ih; exact ih h hb.tail (plain_append hl trivial))
    | (rename_i ih; exact ih h hb.tail (plain_addToken hl))

theorem sameNode_text {params : List Nat} {n m : Node} (h : sameNode n m = true) (hp : PlainNode n ∨ PlainNode m)
    (hn : Linked params n) (hm : Linked params m) : text params n = text params m ∧ (PlainNode n ∧ PlainNode m) := by
  cases n <;> cases m <;> simp only [sameNode, Bool.false_eq_true] at h
  case tokens.tokens => rw [(sameTokens_iff _ _).1 h]; exact ⟨rfl, trivial, trivial⟩
  case argument.argument => rw [beq_iff_eq.1 h]; exact ⟨rfl, trivial, trivial⟩
  case hash.hash => rcases hp with hp | hp <;> exact absurd hp id
  case hashhash.hashhash p q t p' q' t' =>
    simp only [Bool.and_eq_true, beq_iff_eq] at h
    obtain ⟨rfl, rfl⟩ := h
    have hq : q ≠ none := by rcases hp with hp | hp <;> exact hp
    refine ⟨?_, hq, hq⟩
    obtain ⟨j, rfl⟩ := Option.ne_none_iff_exists'.1 hq
    have key : ∀ t, postfixArg params t = some j → params[j]?.map Tok.ident = some t := by
      intro t ht
      cases t <;> simp only [postfixArg, reduceCtorEq] at ht
      rw [paramIndex_some ht]
      rfl
    have : some t = some t' := (key t hn).symm.trans (key t' hm)
    cases this
    rfl

theorem sameNodes_text {params : List Nat} : ∀ (ns ms : List Node), sameNodes ns ms = true →
    ((∀ n ∈ ns, PlainNode n) ∨ (∀ m ∈ ms, PlainNode m)) → (∀ n ∈ ns, Linked params n) → (∀ m ∈ ms, Linked params m) →
    ns.flatMap (text params) = ms.flatMap (text params) ∧ (∀ n ∈ ns, PlainNode n) ∧ (∀ m ∈ ms, PlainNode m)
  | [], [], _, _, _, _ => ⟨rfl, by simp, by simp⟩
  | [], _ :: _, h, _, _, _ => by simp [sameNodes] at h
  | _ :: _, [], h, _, _, _ => by simp [sameNodes] at h
  | n :: ns, m :: ms, h, hp, hn, hm => by
    simp only [sameNodes] at h
    split at h
    · rename_i h1
      obtain ⟨a1, a2, a3⟩ := sameNode_text h1 (hp.imp (fun f => f _ List.mem_cons_self) (fun f => f _ List.mem_cons_self))
        (hn _ List.mem_cons_self) (hm _ List.mem_cons_self)
      obtain ⟨b1, b2, b3⟩ := sameNodes_text ns ms h (hp.imp (fun f x hx => f _ (List.mem_cons_of_mem _ hx)) (fun f x hx => f _ (List.mem_cons_of_mem _ hx)))
        (fun x hx => hn _ (List.mem_cons_of_mem _ hx)) (fun x hx => hm _ (List.mem_cons_of_mem _ hx))
      refine ⟨?_, ?_, ?_⟩
      · rw [List.flatMap_cons, List.flatMap_cons, a1, b1]
      · intro x hx
        rcases List.mem_cons.1 hx with rfl | hx
        · exact a2
        · exact b2 x hx
      · intro x hx
        rcases List.mem_cons.1 hx with rfl | hx
        · exact a3
        · exact b3 x hx
    · cases h

theorem parse_body {d : Definition} {ns : List Node} (h : parse d = some ns) : parseBody d.params [] [] d.body = some ns := by
  unfold parse at h
  split at h
  · cases h
  · exact h

/-- **C53**: an identical redefinition is never diagnosed. -/
theorem C53_identical_accepted (d : Definition) : equivalent d d ≠ some false := by
  unfold equivalent
  cases parse d with
  | none => simp
  | some ns => simp [sameParsed, sameNodes_refl, (sameParams_iff _ _).2]

/-- **C53** (partial): if one of the two definitions has no `#` and a parameter after each `##`, the redefinition is
accepted silently exactly if it is identical: of the same kind, with the same parameters and the same sequence of
tokens in the replacement list. Missing are `#`, `##` before another token, and white space. -/
theorem C53_diagnosed_iff_partial (new old : Definition) (hp : Plain new ∨ Plain old) (b : Bool) (h : equivalent new old = some b) :
    b = true ↔ new = old := by
  constructor
  · intro hb
    subst hb
    unfold equivalent at h
    cases hn : parse new with
    | none => rw [hn] at h; simp at h
    | some ns =>
      cases ho : parse old with
      | none => rw [hn, ho] at h; simp at h
      | some os =>
        rw [hn, ho] at h
        simp only [sameParsed, Option.some.injEq, Bool.and_eq_true, beq_iff_eq, sameParams_iff] at h
        obtain ⟨⟨h1, h2⟩, h3⟩ := h
        have pn := parse_body hn
        have po := parse_body ho
        rw [h2] at po
        have key := sameNodes_text (params := new.params) ns os h1
          (hp.imp (fun p => parseBody_plain _ _ _ _ _ pn p (by simp))
            (fun p => parseBody_plain _ _ _ _ _ po (by unfold Plain at p; rw [h2] at p; exact p) (by simp)))
          (parseBody_linked _ _ _ _ _ pn (by simp)) (parseBody_linked _ _ _ _ _ po (by simp))
        have t1 := parseBody_text _ _ _ _ _ pn (fun k hk => key.2.1 _ hk)
        have t2 := parseBody_text _ _ _ _ _ po (fun k hk => key.2.2 _ hk)
        rw [key.1, t2] at t1
        simp only [List.flatMap_nil, List.nil_append] at t1
        cases new
        cases old
        simp only at h2 h3 t1
        rw [h2, h3, t1]
  · rintro rfl
    have := C53_identical_accepted new
    cases b
    · exact absurd h this
    · rfl

/-- **C53**, what is missing: `#define F(a, b) #a` and `#define F(a, b) #b` count as the same definition. -/
theorem C53_stringified_parameter_ignored :
    equivalent ⟨true, [0, 1], [.hash, .ident 1]⟩ ⟨true, [0, 1], [.hash, .ident 0]⟩ = some true := by decide +kernel

/-- **C53**, what is missing: `#define F(a) a ## x` and `#define F(a) a ## y` count as the same definition. -/
theorem C53_pasted_token_ignored :
    equivalent ⟨true, [0], [.ident 0, .hashhash, .ident 8]⟩ ⟨true, [0], [.ident 0, .hashhash, .ident 9]⟩ = some true := by decide +kernel

/-- The two definitions count as the same. -/
def same (new old : Definition) : Bool := equivalent new old == some true

/-- **C53**: in a file with these two definitions of a macro, the macro keeps its first definition: `#b` is never used. -/
theorem C53_first_definition_kept (hash : Nat → Nat) :
    (DefineTable.lookup hash (DefineTable.run hash same (DefineTable.start hash [(0, ⟨true, [], []⟩)])
      [.define 5 ⟨true, [0, 1], [.hash, .ident 0]⟩, .define 5 ⟨true, [0, 1], [.hash, .ident 1]⟩]) 5).map Prod.snd =
      some ⟨true, [0, 1], [.hash, .ident 0]⟩ := by
  obtain ⟨h1, h2⟩ := DefineTable.start_ok (hash := hash) [(0, (⟨true, [], []⟩ : Definition))] (by simp) (by simp)
  obtain ⟨_, h4⟩ := DefineTable.run_good (same := same) [.define 5 ⟨true, [0, 1], [.hash, .ident 0]⟩, .define 5 ⟨true, [0, 1], [.hash, .ident 1]⟩] _ h1
  show DefineTable.get hash _ 5 = _
  rw [h4, funext h2]
  decide +kernel

/-- **C10, C53**: with plain definitions only, a macro means what the latest directive says, under the comparison
that the program uses. -/
theorem C53_plain_latest (hash : Nat → Nat) (builtins : List (Nat × {d : Definition // Plain d})) (hb : builtins ≠ [])
    (hn : (builtins.map Prod.fst).Nodup) (ds : List (Verif.Spec.DefineTable.Directive {d : Definition // Plain d})) (n : Nat) :
    (DefineTable.lookup hash (DefineTable.run hash (fun a b => same a.1 b.1) (DefineTable.start hash builtins) ds) n).map Prod.snd =
      Verif.Spec.DefineTable.meaning (fun n => (builtins.find? (fun b => b.1 == n)).map Prod.snd) ds n := by
  apply DefineTable.C10_latest_definition hash _ _ builtins hb hn
  intro a b h
  have h : equivalent a.1 b.1 = some true := by simpa [same] using h
  exact Subtype.ext ((C53_diagnosed_iff_partial a.1 b.1 (.inl a.2) true h).1 rfl)

/-- The hypotheses are met by `#define F(a, b) x a ## b + a` and a different definition. -/
example : Plain ⟨true, [0, 1], [.ident 8, .ident 0, .hashhash, .ident 1, .other 20, .ident 0]⟩ ∧
    equivalent ⟨true, [0, 1], [.ident 8, .ident 0, .hashhash, .ident 1, .other 20, .ident 0]⟩
      ⟨true, [0, 1], [.ident 8, .ident 0, .hashhash, .ident 1, .other 20, .ident 1]⟩ = some false := by
  refine ⟨⟨by decide, ?_⟩, by decide +kernel⟩
  intro i hi
  match i with
  | 0 | 1 | 3 | 4 | 5 => simp at hi
  | 2 => exact ⟨1, rfl, by decide⟩
  | i + 6 => simp at hi

end Verif.Redefine
