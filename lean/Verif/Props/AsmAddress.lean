import Verif.Spec.AsmAddress
import Verif.Model.AsmAddress

/-!
# C95: memory operands of inline assembly
-/
namespace Verif.Props.AsmAddress
open Verif.Model.AsmAddress Verif.Spec.AsmAddress

theorem gprs_all : ∀ e ∈ gprs, Names e.1 e.2.1 e.2.2 := by
  unfold Names
  decide +kernel

theorem names_gpr8 : ∀ r : Fin 16, ∃ n, names8[r.1]? = some n ∧ gpr n = some (r.1, 8) := fun r => ⟨names8[r.1]?.getD "", by revert r; decide +kernel, by revert r; decide +kernel⟩
theorem names_gpr4 : ∀ r : Fin 16, ∃ n, names4[r.1]? = some n ∧ gpr n = some (r.1, 4) := fun r => ⟨names4[r.1]?.getD "", by revert r; decide +kernel, by revert r; decide +kernel⟩
theorem names_gpr2 : ∀ r : Fin 16, ∃ n, names2[r.1]? = some n ∧ gpr n = some (r.1, 2) := fun r => ⟨names2[r.1]?.getD "", by revert r; decide +kernel, by revert r; decide +kernel⟩
theorem names_gpr1 : ∀ r : Fin 16, ∃ n, names1[r.1]? = some n ∧ gpr n = some (r.1, 1) := fun r => ⟨names1[r.1]?.getD "", by revert r; decide +kernel, by revert r; decide +kernel⟩

theorem below {l : List String} (hl : l.length = 16) {r : Nat} {n : String} (h : l[r]? = some n) : r < 16 := by
  have := (List.getElem?_eq_some_iff.1 h).1
  omega

/-- **C95.** Every name of a register stands for the register and the size that it is the name of, and nothing else is the name of a register. -/
theorem C95_registers (name : String) (r size : Nat) : gpr name = some (r, size) ↔ Names name r size := by
  constructor
  · intro h
    unfold gpr at h
    cases hf : gprs.find? (fun e => e.1 == name) with
    | none => rw [hf] at h; cases h
    | some e =>
      rw [hf] at h
      have h1 := gprs_all e (List.mem_of_find?_eq_some hf)
      have h2 := List.find?_some hf
      have h3 : e.1 = name := by simpa using h2
      have h4 : e.2 = (r, size) := by simpa using h
      rw [h3, h4] at h1
      exact h1
  · rintro (⟨rfl, h⟩ | ⟨rfl, h⟩ | ⟨rfl, h⟩ | ⟨rfl, h⟩)
    · obtain ⟨n, h1, h2⟩ := names_gpr8 ⟨r, below rfl h⟩
      rw [show names8[r]? = some n from h1] at h
      cases h
      exact h2
    · obtain ⟨n, h1, h2⟩ := names_gpr4 ⟨r, below rfl h⟩
      rw [show names4[r]? = some n from h1] at h
      cases h
      exact h2
    · obtain ⟨n, h1, h2⟩ := names_gpr2 ⟨r, below rfl h⟩
      rw [show names2[r]? = some n from h1] at h
      cases h
      exact h2
    · obtain ⟨n, h1, h2⟩ := names_gpr1 ⟨r, below rfl h⟩
      rw [show names1[r]? = some n from h1] at h
      cases h
      exact h2

example : Names "rsp" 4 8 := by unfold Names; decide
example : Names "sil" 6 1 := by unfold Names; decide

/-- Behind a constant. -/
def Ends : List Tok → Prop
  | .plus :: _ => False
  | .minus :: _ => False
  | .times :: _ => False
  | _ => True

theorem operators_ends (n : Nat) (total product : Int) (rest : List Tok) (h : Ends rest) : operators (n + 1) total product rest = .value (total + product) rest := by
  cases rest with
  | nil => rfl
  | cons t l => cases t <;> first | rfl | exact h.elim

theorem operators_product (fs : List (Bool × Nat)) (total : Int) : ∀ (product : Int) (k : Nat) (rest : List Tok),
    operators (fs.length + k) total product (fs.flatMap (fun n => [Tok.times, .number n.1 n.2]) ++ rest)
      = operators k total (fs.foldl (fun (v : Int) n => v * (n.2 : Int)) product) rest := by
  induction fs with
  | nil => intro product k rest; rw [List.length_nil, Nat.zero_add]; rfl
  | cons f fs ih =>
    intro product k rest
    rw [show (f :: fs).length + k = fs.length + k + 1 by rw [List.length_cons]; omega]
    exact ih (product * (f.2 : Int)) k rest

theorem foldl_neg (fs : List (Bool × Nat)) : ∀ v : Int, fs.foldl (fun (v : Int) n => v * (n.2 : Int)) (-v) = - fs.foldl (fun (v : Int) n => v * (n.2 : Int)) v := by
  induction fs with
  | nil => intro v; rfl
  | cons f fs ih =>
    intro v
    show fs.foldl _ (-v * (f.2 : Int)) = - fs.foldl _ (v * (f.2 : Int))
    rw [Int.neg_mul, ih]

/-- How many operators there are. -/
def count : List (Bool × Product) → Nat
  | [] => 0
  | (_, p) :: l => p.rest.length + 1 + count l

theorem operators_sum (l : List (Bool × Product)) : ∀ (total product : Int) (k : Nat) (rest : List Tok), Ends rest →
    operators (count l + (k + 1)) total product (sumTokens l ++ rest) = .value (total + product + sum l) rest := by
  induction l with
  | nil =>
    intro total product k rest h
    rw [show count [] + (k + 1) = k + 1 from Nat.zero_add _, show sumTokens [] ++ rest = rest from rfl, operators_ends _ _ _ _ h]
    show _ = Parsed.value (total + product + 0) rest
    rw [Int.add_zero]
  | cons e l ih =>
    obtain ⟨m, p⟩ := e
    intro total product k rest h
    rw [show count ((m, p) :: l) + (k + 1) = p.rest.length + (count l + (k + 1)) + 1 by show p.rest.length + 1 + count l + (k + 1) = _; omega]
    have e2 : ∀ t : Tok, t :: (p.tokens ++ sumTokens l) ++ rest = t :: .number p.first.1 p.first.2 :: (p.rest.flatMap (fun n => [Tok.times, .number n.1 n.2]) ++ (sumTokens l ++ rest)) := by
      intro t
      simp [Product.tokens]
    cases m with
    | false =>
      rw [show sumTokens ((false, p) :: l) = .plus :: (p.tokens ++ sumTokens l) from rfl, e2]
      show operators (p.rest.length + (count l + (k + 1))) (total + product) (p.first.2 : Int) _ = _
      rw [operators_product, ih _ _ _ _ h]
      show Parsed.value (total + product + p.value + sum l) rest = .value (total + product + (p.value + sum l)) rest
      rw [Int.add_assoc (total + product)]
    | true =>
      rw [show sumTokens ((true, p) :: l) = .minus :: (p.tokens ++ sumTokens l) from rfl, e2]
      show operators (p.rest.length + (count l + (k + 1))) (total + product) (-(p.first.2 : Int)) _ = _
      rw [operators_product, foldl_neg, ih _ _ _ _ h]
      show Parsed.value (total + product + -p.value + sum l) rest = .value (total + product + (-p.value + sum l)) rest
      rw [Int.add_assoc (total + product)]

theorem count_le (l : List (Bool × Product)) : count l ≤ (sumTokens l).length := by
  induction l with
  | nil => exact Nat.le_refl _
  | cons e l ih =>
    obtain ⟨m, p⟩ := e
    have h : p.rest.length ≤ (p.rest.flatMap (fun n => [Tok.times, .number n.1 n.2])).length := by
      generalize p.rest = fs
      induction fs with
      | nil => exact Nat.le_refl _
      | cons f fs ih2 => rw [List.flatMap_cons, List.length_append, List.length_cons]; simp only [List.length_cons, List.length_nil]; omega
    show p.rest.length + 1 + count l ≤ ((if m then Tok.minus else .plus) :: (p.tokens ++ sumTokens l)).length
    rw [List.length_cons, List.length_append]
    have h2 : p.tokens.length = (p.rest.flatMap (fun n => [Tok.times, .number n.1 n.2])).length + 1 := rfl
    omega

/-- A constant, behind `+` or from its `-` on. -/
theorem expression_sum (m : Bool) (p : Product) (l : List (Bool × Product)) (rest : List Tok) (h : Ends rest) :
    expression ((if m then [Tok.minus] else []) ++ (p.tokens ++ (sumTokens l ++ rest))) = .value (sum ((m, p) :: l)) rest := by
  have key : ∀ v : Int, operators ((p.rest.flatMap (fun n => [Tok.times, .number n.1 n.2]) ++ (sumTokens l ++ rest)).length + 1) 0 v (p.rest.flatMap (fun n => [Tok.times, .number n.1 n.2]) ++ (sumTokens l ++ rest))
      = .value (p.rest.foldl (fun (v : Int) n => v * (n.2 : Int)) v + sum l) rest := by
    intro v
    have h1 : p.rest.length ≤ (p.rest.flatMap (fun n => [Tok.times, .number n.1 n.2])).length := by
      generalize p.rest = fs
      induction fs with
      | nil => exact Nat.le_refl _
      | cons f fs ih2 => rw [List.flatMap_cons, List.length_append, List.length_cons]; simp only [List.length_cons, List.length_nil]; omega
    have h2 := count_le l
    obtain ⟨k, hk⟩ : ∃ k, (p.rest.flatMap (fun n => [Tok.times, .number n.1 n.2]) ++ (sumTokens l ++ rest)).length + 1 = p.rest.length + (count l + (k + 1)) := by
      refine ⟨(p.rest.flatMap (fun n => [Tok.times, .number n.1 n.2]) ++ (sumTokens l ++ rest)).length - p.rest.length - count l, ?_⟩
      rw [List.length_append, List.length_append]
      omega
    rw [hk, operators_product, operators_sum _ _ _ _ _ h, Int.zero_add]
  cases m with
  | false =>
    show operators _ 0 (p.first.2 : Int) _ = _
    exact key _
  | true =>
    refine (key (-(p.first.2 : Int))).trans ?_
    rw [foldl_neg]
    rfl

theorem gpr_wide {n : String} {r : Nat} (h : Names n r 8) : gpr n = some (r, 8) := (C95_registers n r 8).2 h

theorem sizeWord_sizes : ∀ e ∈ sizes, sizeWord e.1 = e.2 ∧ e.2 ≠ 0 := by decide +kernel

theorem segment_gs (n : Nat) (l : List Tok) : segment n (.word "gs" :: .colon :: l) = bracket n true l := by
  show (if "gs" = "gs" then bracket n true l else bracket n false (.word "gs" :: .colon :: l)) = _
  rw [if_pos rfl]

/-- The part before the bracket. -/
theorem prefix_read (size : Option (String × Nat)) (gs : Bool) (hs : ∀ e, size = some e → e ∈ sizes) (l : List Tok) :
    memoryOperand (prefixTokens size gs ++ l)
      = match inBrackets (bytes size) gs l with
        | .value o rest => .operand o rest
        | .error => .error
        | .unmodelled => .unmodelled := by
  cases size with
  | none =>
    cases gs with
    | false => rfl
    | true =>
      show memoryOperand (.word "gs" :: .colon :: .open_ :: l) = _
      show (if sizeWord "gs" ≠ 0 then Result.none else segment 0 (.word "gs" :: .colon :: .open_ :: l)) = _
      rw [if_neg (show ¬ sizeWord "gs" ≠ 0 by decide +kernel)]
      rw [segment_gs]
      rfl
  | some e =>
    obtain ⟨w, n⟩ := e
    obtain ⟨h1, h2⟩ := sizeWord_sizes (w, n) (hs _ rfl)
    have h1 : sizeWord w = n := h1
    have step : ∀ t : List Tok, memoryOperand (.word w :: .word "ptr" :: t) = segment n t := by
      intro t
      show (if sizeWord w ≠ 0 then (if "ptr" = "ptr" then segment (sizeWord w) t else Result.none) else _) = _
      rw [h1, if_pos h2, if_pos rfl]
    cases gs with
    | false => exact step (.open_ :: l)
    | true =>
      refine (step (.word "gs" :: .colon :: .open_ :: l)).trans ?_
      rw [segment_gs]
      rfl

/-- The constant does not begin with a decimal number and `*`. -/
def NoScale : List (Bool × Product) → Prop
  | [] => True
  | (_, p) :: _ => p.first.1 = false ∨ p.rest = []

/-- The constant does not begin with `-`. -/
def Adds : List (Bool × Product) → Prop
  | [] => True
  | (m, _) :: _ => m = false

theorem ends_close (rest : List Tok) : Ends (.close :: rest) := trivial

theorem scalePart_sum (size : Nat) (gs : Bool) (base : Option Nat) (p : Product) (l : List (Bool × Product)) (rest : List Tok) (h : p.first.1 = false ∨ p.rest = []) :
    scalePart size gs base (p.tokens ++ (sumTokens l ++ .close :: rest)) = .value ⟨base, none, 1, sum ((false, p) :: l), size, gs⟩ rest := by
  have e : scalePart size gs base (p.tokens ++ (sumTokens l ++ .close :: rest)) = offsetPart size gs base none 1 false (p.tokens ++ (sumTokens l ++ .close :: rest)) := by
    obtain ⟨⟨d, n⟩, fs⟩ := p
    rcases h with h | h
    · have h : d = false := h
      subst h
      rfl
    · have h : fs = [] := h
      subst h
      cases l with
      | nil => cases d <;> rfl
      | cons a l => obtain ⟨m, q⟩ := a; cases d <;> cases m <;> rfl
  rw [e]
  unfold offsetPart
  rw [show p.tokens ++ (sumTokens l ++ .close :: rest) = (if false then [Tok.minus] else []) ++ (p.tokens ++ (sumTokens l ++ .close :: rest)) from rfl, expression_sum false p l _ (ends_close rest)]
  rfl

/-- **C95, without an index.** For every size, every base and every constant that is added, the operand is at the sum of what is written, has the size that is written, and is relative to gs if that is written.
What is missing: constants that are subtracted, products with a decimal number first, indices, names of 32-bit registers and operands without a base; for these see the theorems below. -/
theorem C95_operand_partial (o : Spec.AsmAddress.Operand) (rest : List Tok) (hs : ∀ e, o.size = some e → e ∈ sizes) (hw : o.address.Wide)
    (hi : o.address.index = none) (ha : Adds o.address.constant) (hn : NoScale o.address.constant) :
    ∃ m l, memoryOperand (o.tokens ++ rest) = .operand m rest ∧ resolve m = some l ∧ m.size = bytes o.size ∧ m.gs = o.gs ∧ ∀ regs, l.address regs = o.address.value regs := by
  obtain ⟨size, gs, ⟨⟨bn, b⟩, index, c⟩⟩ := o
  have hi : index = none := hi
  subst hi
  have hb := gpr_wide hw.1
  have hb : gpr bn = some (b, 8) := hb
  have e : Spec.AsmAddress.Operand.tokens ⟨size, gs, ⟨(bn, b), none, c⟩⟩ ++ rest = prefixTokens size gs ++ (.word bn :: (sumTokens c ++ .close :: rest)) := by
    simp [Spec.AsmAddress.Operand.tokens, Address.tokens]
  have key : inBrackets (bytes size) gs (.word bn :: (sumTokens c ++ .close :: rest)) = .value ⟨some b, none, 1, sum c, (bytes size), gs⟩ rest := by
    unfold inBrackets
    simp only [hb]
    cases c with
    | nil => rfl
    | cons a c =>
      obtain ⟨m, p⟩ := a
      have ha : m = false := ha
      subst ha
      have e2 : sumTokens ((false, p) :: c) ++ .close :: rest = .plus :: (p.tokens ++ (sumTokens c ++ .close :: rest)) := by
        simp [sumTokens]
      rw [e2]
      exact scalePart_sum _ _ _ _ _ _ hn
  refine ⟨⟨some b, none, 1, sum c, bytes size, gs⟩, ⟨b, none, 0, sum c⟩, ?_, rfl, rfl, rfl, ?_⟩
  · rw [e, prefix_read size gs hs, key]
  · intro regs
    rfl

/-- `dword ptr gs:[rsp + 8 - 2 * 3]`. -/
def sample : Spec.AsmAddress.Operand := ⟨some ("dword", 4), true, ⟨("rsp", 4), none, [(false, ⟨(true, 8), []⟩), (true, ⟨(true, 2), [(true, 3)]⟩)]⟩⟩

example : (∀ e, sample.size = some e → e ∈ sizes) ∧ sample.address.Wide ∧ sample.address.index = none ∧ Adds sample.address.constant ∧ NoScale sample.address.constant :=
  ⟨fun e h => by cases h; decide, ⟨by unfold Names; decide, fun _ _ _ h => nomatch h⟩, rfl, rfl, Or.inr rfl⟩

example : memoryOperand sample.tokens = .operand ⟨some 4, none, 1, 2, 4, true⟩ [] := by decide +kernel

/-- **C95, sizes.** A word for a size that is not followed by `ptr` is left for what comes next: it can be the name of a variable. -/
theorem C95_variable (w : String) (l : List Tok) (hw : ∃ n, (w, n) ∈ sizes) (h : l.head? ≠ some (.word "ptr")) : memoryOperand (.word w :: l) = .none := by
  obtain ⟨n, hn⟩ := hw
  obtain ⟨h1, h2⟩ := sizeWord_sizes _ hn
  have h1 : sizeWord w = n := h1
  have h3 : sizeWord w ≠ 0 := h1 ▸ h2
  cases l with
  | nil => show (if sizeWord w ≠ 0 then Result.none else _) = _; rw [if_pos h3]
  | cons t l =>
    cases t with
    | word p =>
      show (if sizeWord w ≠ 0 then (if p = "ptr" then segment (sizeWord w) l else Result.none) else _) = _
      rw [if_pos h3, if_neg (fun hp => h (by rw [hp]; rfl))]
    | _ => show (if sizeWord w ≠ 0 then Result.none else _) = _; rw [if_pos h3]

example : memoryOperand [.word "byte", .plus, .number true 1] = .none := C95_variable _ _ ⟨1, by decide⟩ (by decide)

theorem bracket_missing (n : Nat) (gs : Bool) (l : List Tok) (h : n ≠ 0 ∨ gs = true) (h1 : l.head? ≠ some .open_) : bracket n gs l = .error := by
  have e : bracket n gs l = if n ≠ 0 ∨ gs = true then .error else .none := by
    cases l with
    | nil => rfl
    | cons t l => cases t <;> first | rfl | exact absurd rfl h1
  rw [e, if_pos h]

/-- **C95, brackets.** A size or `gs:` without a bracket behind it is reported. -/
theorem C95_missing (size : Option (String × Nat)) (gs : Bool) (hs : ∀ e, size = some e → e ∈ sizes) (hp : size ≠ none ∨ gs = true) (l : List Tok)
    (h1 : l.head? ≠ some .open_) (h2 : l.head? ≠ some (.word "gs")) : memoryOperand ((prefixTokens size gs).dropLast ++ l) = .error := by
  have plain : ∀ n, n ≠ 0 → segment n l = .error := by
    intro n hn
    have e : segment n l = bracket n false l := by
      cases l with
      | nil => rfl
      | cons t l =>
        cases t with
        | word w =>
          exact if_neg (show ¬ w = "gs" from fun hw => h2 (by rw [hw]; rfl))
        | _ => rfl
    rw [e, bracket_missing n false l (Or.inl hn) h1]
  cases size with
  | none =>
    cases gs with
    | false => rcases hp with hp | hp
               · exact absurd rfl hp
               · cases hp
    | true =>
      show (if sizeWord "gs" ≠ 0 then Result.none else segment 0 (.word "gs" :: .colon :: l)) = _
      rw [if_neg (show ¬ sizeWord "gs" ≠ 0 by decide +kernel), segment_gs, bracket_missing 0 true l (Or.inr rfl) h1]
  | some e =>
    obtain ⟨w, n⟩ := e
    obtain ⟨h3, h4⟩ := sizeWord_sizes (w, n) (hs _ rfl)
    have h3 : sizeWord w = n := h3
    have h4 : n ≠ 0 := h4
    have step : ∀ t : List Tok, memoryOperand (.word w :: .word "ptr" :: t) = segment n t := by
      intro t
      show (if sizeWord w ≠ 0 then (if "ptr" = "ptr" then segment (sizeWord w) t else Result.none) else _) = _
      rw [h3, if_pos h4, if_pos rfl]
    cases gs with
    | false => exact (step l).trans (plain n h4)
    | true =>
      refine (step (.word "gs" :: .colon :: l)).trans ?_
      rw [segment_gs, bracket_missing n true l (Or.inr rfl) h1]

example : memoryOperand [.word "byte", .word "ptr", .word "rax"] = .error := C95_missing (some ("byte", 1)) false (fun e h => by cases h; decide) (Or.inl (fun h => nomatch h)) [.word "rax"] (by decide) (by decide)

/-- **C95, finding: a constant that is subtracted is added.** In `[rax - 8]` the expression is `-8`, and it is negated once more: the operand is at `rax + 8`. This holds for every size, base and constant. -/
theorem C95_minus_wrong (o : Spec.AsmAddress.Operand) (rest : List Tok) (hs : ∀ e, o.size = some e → e ∈ sizes) (hw : o.address.Wide)
    (hi : o.address.index = none) (p : Product) (c : List (Bool × Product)) (hc : o.address.constant = (true, p) :: c) (h0 : sum o.address.constant ≠ 0) :
    ∃ m l, memoryOperand (o.tokens ++ rest) = .operand m rest ∧ resolve m = some l
      ∧ ∀ regs, l.address regs = regs o.address.base.2 - sum o.address.constant ∧ l.address regs ≠ o.address.value regs := by
  obtain ⟨size, gs, ⟨⟨bn, b⟩, index, k⟩⟩ := o
  have hi : index = none := hi
  subst hi
  have hc : k = (true, p) :: c := hc
  subst hc
  have hb := gpr_wide hw.1
  have hb : gpr bn = some (b, 8) := hb
  have e : Spec.AsmAddress.Operand.tokens ⟨size, gs, ⟨(bn, b), none, (true, p) :: c⟩⟩ ++ rest = prefixTokens size gs ++ (.word bn :: .minus :: (p.tokens ++ (sumTokens c ++ .close :: rest))) := by
    simp [Spec.AsmAddress.Operand.tokens, Address.tokens, sumTokens]
  have key : inBrackets (bytes size) gs (.word bn :: .minus :: (p.tokens ++ (sumTokens c ++ .close :: rest))) = .value ⟨some b, none, 1, - sum ((true, p) :: c), (bytes size), gs⟩ rest := by
    unfold inBrackets
    simp only [hb]
    unfold offsetPart
    rw [show Tok.minus :: (p.tokens ++ (sumTokens c ++ .close :: rest)) = (if true then [Tok.minus] else []) ++ (p.tokens ++ (sumTokens c ++ .close :: rest)) from rfl, expression_sum true p c _ (ends_close rest)]
    rfl
  refine ⟨⟨some b, none, 1, - sum ((true, p) :: c), (bytes size), gs⟩, ⟨b, none, 0, - sum ((true, p) :: c)⟩, ?_, rfl, ?_⟩
  · rw [e, prefix_read size gs hs, key]
  · intro regs
    have h0 : sum ((true, p) :: c) ≠ 0 := h0
    show regs b + 0 + - sum ((true, p) :: c) = regs b - sum ((true, p) :: c) ∧ regs b + 0 + - sum ((true, p) :: c) ≠ regs b + 0 + sum ((true, p) :: c)
    omega

example : memoryOperand [.open_, .word "rax", .minus, .number true 8, .close] = .operand ⟨some 0, none, 1, 8, 0, false⟩ [] := by decide +kernel

theorem scalePart_index (size : Nat) (gs : Bool) (base : Option Nat) (s r : Nat) (n : String) (hn : Names n r 8) (c : List (Bool × Product)) (rest : List Tok) :
    scalePart size gs base (.number true s :: .times :: .word n :: (sumTokens c ++ .close :: rest)) = .error := by
  unfold scalePart
  simp only [gpr_wide hn]
  cases c with
  | nil => rfl
  | cons a c => obtain ⟨m, p⟩ := a; cases m <;> rfl

/-- **C95, finding: indices are not accepted.** Every operand with a base and an index, with or without a constant, is an error: the code expects `]` if there is a sign behind the index, and a constant if there is none. -/
theorem C95_index_wrong (o : Spec.AsmAddress.Operand) (rest : List Tok) (hs : ∀ e, o.size = some e → e ∈ sizes) (hw : o.address.Wide)
    (i : Nat × String × Nat) (hi : o.address.index = some i) : memoryOperand (o.tokens ++ rest) = .error := by
  obtain ⟨size, gs, ⟨⟨bn, b⟩, index, c⟩⟩ := o
  have hi : index = some i := hi
  subst hi
  obtain ⟨s, n, r⟩ := i
  have hb := gpr_wide hw.1
  have hb : gpr bn = some (b, 8) := hb
  have hn : Names n r 8 := hw.2 s n r rfl
  have e : Spec.AsmAddress.Operand.tokens ⟨size, gs, ⟨(bn, b), some (s, n, r), c⟩⟩ ++ rest = prefixTokens size gs ++ (.word bn :: .plus :: .number true s :: .times :: .word n :: (sumTokens c ++ .close :: rest)) := by
    simp [Spec.AsmAddress.Operand.tokens, Address.tokens]
  rw [e, prefix_read size gs hs]
  unfold inBrackets
  simp only [hb, scalePart_index _ _ _ _ _ _ hn]

example : memoryOperand [.open_, .word "rax", .plus, .number true 4, .times, .word "rcx", .close] = .error
    ∧ memoryOperand [.open_, .word "rax", .plus, .number true 4, .times, .word "rcx", .plus, .number true 8, .close] = .error
    ∧ memoryOperand [.open_, .word "rax", .plus, .number true 4, .times, .word "rcx", .plus, .close] = .operand ⟨some 0, some 1, 4, 0, 0, false⟩ [] := by decide +kernel

/-- **C95, finding: products are not accepted behind the base.** A constant that begins with a decimal number and `*` is taken for a scale, and is an error. -/
theorem C95_product_wrong (b : Nat) (n : String) (hb : Names n b 8) (x y : Nat) (d : Bool) (rest : List Tok) :
    memoryOperand (.open_ :: .word n :: .plus :: .number true x :: .times :: .number d y :: rest) = .error := by
  show (match inBrackets 0 false (.word n :: .plus :: .number true x :: .times :: .number d y :: rest) with | .value o rest => Result.operand o rest | .error => .error | .unmodelled => .unmodelled) = _
  unfold inBrackets
  simp only [gpr_wide hb]
  rfl

/-- **C95, finding: the size of the base is ignored.** `[eax]` is read as `[rax]`, and so for every register: the high half of the register counts. -/
theorem C95_narrow_wrong (b : Nat) (n : String) (hb : Names n b 4) : ∃ m l, memoryOperand [.open_, .word n, .close] = .operand m [] ∧ resolve m = some l
    ∧ ∃ regs : Nat → Int, l.address regs ≠ regs b % 2 ^ 32 := by
  have h := (C95_registers n b 4).2 hb
  refine ⟨⟨some b, none, 1, 0, 0, false⟩, ⟨b, none, 0, 0⟩, ?_, rfl, fun _ => 2 ^ 32, by show (2 ^ 32 + 0 + 0 : Int) ≠ 2 ^ 32 % 2 ^ 32; decide⟩
  show (match inBrackets 0 false [.word n, .close] with | .value o rest => Result.operand o rest | .error => .error | .unmodelled => .unmodelled) = _
  unfold inBrackets
  simp only [h]
  rfl

/-- **C95, finding: operands without a base.** A constant alone is accepted, but has no base, and the code that emits the instruction reads in front of the map of the registers. -/
theorem C95_absolute_wrong (p : Product) (c : List (Bool × Product)) (rest : List Tok) (h : p.first.1 = false ∨ p.rest = []) :
    ∃ m, memoryOperand (.open_ :: (p.tokens ++ (sumTokens c ++ .close :: rest))) = .operand m rest ∧ m.offset = sum ((false, p) :: c) ∧ resolve m = none := by
  refine ⟨⟨none, none, 1, sum ((false, p) :: c), 0, false⟩, ?_, rfl, rfl⟩
  show (match inBrackets 0 false (p.tokens ++ (sumTokens c ++ .close :: rest)) with | .value o rest => Result.operand o rest | .error => .error | .unmodelled => .unmodelled) = _
  rw [show inBrackets 0 false (p.tokens ++ (sumTokens c ++ .close :: rest)) = scalePart 0 false none (p.tokens ++ (sumTokens c ++ .close :: rest)) from rfl, scalePart_sum _ _ _ _ _ _ h]

example : memoryOperand [.open_, .number false 16, .close] = .operand ⟨none, none, 1, 16, 0, false⟩ [] := by decide +kernel

end Verif.Props.AsmAddress
