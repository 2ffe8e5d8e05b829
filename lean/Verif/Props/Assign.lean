import Verif.Model.Assign

/-!
# C86: assignments that C allows are accepted, the others are reported
-/
namespace Verif.Props.Assign
open Verif.IntType Verif.Spec.IntType Verif.Model.Assign
open Verif.Spec.Assign

/-- A right side: the value of a literal is a value of its type; it has no bit-field type. -/
structure Good (r : Expr) : Prop where
  noBits : ∀ t n, r.type ≠ .bitfield t n
  int : ∀ v, r.literal = .int v → ∃ s, r.type = .arith s ∧ isInteger s ∧ InRange s v

/-- What C calls a null pointer constant (without `(void *)0`, which is a pointer). -/
def Null (r : Expr) : Prop := r.literal = .int 0

theorem equal_iff (compatible : Nat → Nat → Bool) : ∀ (a b : Type_), equal compatible a b = true ↔ Compatible compatible a b
  | .void, b => by
    cases b with
    | void => exact ⟨fun _ => .void, fun _ => rfl⟩
    | _ => exact ⟨fun h => (by cases h), fun h => (by cases h)⟩
  | .arith t, b => by
    cases b with
    | arith s =>
      refine ⟨fun h => ?_, fun h => ?_⟩
      · rw [of_decide_eq_true h]; exact .arith s
      · cases h; exact decide_eq_true rfl
    | _ => exact ⟨fun h => (by cases h), fun h => (by cases h)⟩
  | .pointer a, b => by
    cases b with
    | pointer b =>
      have := equal_iff compatible a b
      refine ⟨fun h => .pointer (this.1 h), fun h => ?_⟩
      cases h with
      | pointer h => exact this.2 h
    | _ => exact ⟨fun h => (by cases h), fun h => (by cases h)⟩
  | .bitfield t n, b => by
    cases b with
    | bitfield s m =>
      refine ⟨fun h => ?_, fun h => ?_⟩
      · have h : (decide (t = s) && decide (n = m)) = true := h
        rw [Bool.and_eq_true] at h
        rw [of_decide_eq_true h.1, of_decide_eq_true h.2]
        exact .bitfield s m
      · cases h
        show (decide (t = t) && decide (n = n)) = true
        rw [decide_eq_true rfl, decide_eq_true rfl]
        rfl
    | _ => exact ⟨fun h => (by cases h), fun h => (by cases h)⟩
  | .other n, b => by
    cases b with
    | other m =>
      refine ⟨fun h => .other h, fun h => ?_⟩
      cases h with
      | other h => exact h
    | _ => exact ⟨fun h => (by cases h), fun h => (by cases h)⟩

theorem pointees_eq (compatible : Nat → Nat → Bool) : ∀ (a b : Type_), equal compatible (pointees a b).1 (pointees a b).2 = equal compatible a b
  | .pointer a, b => by
    cases b with
    | pointer b => exact pointees_eq compatible a b
    | _ => rfl
  | .void, b => by cases b <;> rfl
  | .arith _, b => by cases b <;> rfl
  | .bitfield _ _, b => by cases b <;> rfl
  | .other _, b => by cases b <;> rfl

/-- The cases for two pointers. -/
theorem pointers_eq (compatible : Nat → Nat → Bool) (ae : Bool) (a b : Type_) (d : Option Ty) (lit : Literal) :
    assign compatible false ae (.pointer a) ⟨.pointer b, d, lit⟩ =
      some ⟨decide (¬(a = .void ∨ b = .void) ∧ equal compatible a b = false), false, false, .pointer b⟩ := by
  show (if a = .void ∨ b = .void then some (finish compatible (.pointer a) ⟨.pointer b, d, lit⟩ false false false true)
      else if (!equal compatible (pointees a b).1 (pointees a b).2) = true then some (finish compatible (.pointer a) ⟨.pointer b, d, lit⟩ true false false true)
        else some (finish compatible (.pointer a) ⟨.pointer b, d, lit⟩ false false false false)) = _
  rw [pointees_eq]
  by_cases hv : a = .void ∨ b = .void
  · rw [if_pos hv, decide_eq_false (fun h => h.1 hv)]
    rfl
  · rw [if_neg hv]
    cases he : equal compatible a b
    · rw [decide_eq_true ⟨hv, rfl⟩]
      rfl
    · rw [decide_eq_false (fun h => by cases h.2)]
      show some (finish compatible (.pointer a) ⟨.pointer b, d, lit⟩ false false false false) = _
      have : equal compatible (.pointer a) (.pointer b) = true := he
      unfold finish
      simp only [Bool.false_eq_true, if_false, Bool.not_false, if_true, this, Bool.not_true]

/-- C86: Every assignment is dealt with: no assertion fails. -/
theorem C86_total (compatible : Nat → Nat → Bool) (shared ae : Bool) (l : Type_) (r : Expr) : ∃ x, assign compatible shared ae l r = some x := by
  rcases r with ⟨rt, d, lit⟩
  cases l with
  | void => cases rt <;> exact ⟨_, rfl⟩
  | other n =>
    cases rt with
    | other m => cases shared <;> exact ⟨_, rfl⟩
    | _ => exact ⟨_, rfl⟩
  | pointer a =>
    cases rt with
    | pointer b =>
      cases shared
      · exact ⟨_, pointers_eq compatible ae a b d lit⟩
      · exact ⟨_, rfl⟩
    | arith s => cases s <;> cases lit <;> exact ⟨_, rfl⟩
    | _ => exact ⟨_, rfl⟩
  | bitfield t n =>
    cases rt with
    | bitfield s m =>
      unfold assign
      split <;> exact ⟨_, rfl⟩
    | arith s =>
      show ∃ x, (if s ≠ t then some _ else some _) = some x
      split <;> exact ⟨_, rfl⟩
    | _ => exact ⟨_, rfl⟩
  | arith t =>
    cases rt with
    | arith s => cases t <;> cases s <;> first | exact ⟨_, rfl⟩ | (cases lit <;> first | exact ⟨_, rfl⟩ | (cases ae <;> exact ⟨_, rfl⟩))
    | _ => cases t <;> exact ⟨_, rfl⟩

/-- C86: What C does not allow is reported, by an error or by a warning. -/
theorem C86_reported (compatible : Nat → Nat → Bool) (shared ae : Bool) (l : Type_) (r : Expr) (hr : Good r)
    (hs : shared = true → equal compatible l r.type = true) (hl : l ≠ .void) (x : Result) (hx : assign compatible shared ae l r = some x)
    (hn : ¬ Allowed compatible (Null r) l r.type) : x.error = true ∨ x.mismatch = true := by
  rcases r with ⟨rt, d, lit⟩
  simp only at hs hn
  cases l with
  | void => exact absurd rfl hl
  | other n =>
    cases rt with
    | other m =>
      cases shared
      · have hx := Option.some.inj hx
        rw [← hx]
        left
        show (!compatible n m) = true
        cases hc : compatible n m
        · rfl
        · exact absurd (.other hc) hn
      · exact absurd (.other (hs rfl)) hn
    | bitfield s m => exact absurd rfl (hr.noBits s m)
    | _ => have hx := Option.some.inj hx; rw [← hx]; exact .inl rfl
  | pointer a =>
    cases rt with
    | pointer b =>
      cases shared
      · rw [pointers_eq] at hx
        have hx := Option.some.inj hx
        rw [← hx]
        right
        refine decide_eq_true ⟨?_, ?_⟩
        · rintro (rfl | rfl)
          · exact hn .toVoid
          · exact hn .fromVoid
        · cases he : equal compatible a b
          · rfl
          · exact absurd (.pointers ((equal_iff compatible a b).1 he)) hn
      · exact absurd (.pointers ((equal_iff compatible a b).1 (hs rfl))) hn
    | arith s =>
      cases lit with
      | int v =>
        obtain ⟨s', h1, h2, h3⟩ := hr.int v rfl
        cases h1
        have hv : v ≠ 0 := fun h => by
          subst h
          exact hn (.null rfl)
        have hu : asU64 v ≠ 0 := by
          unfold asU64
          have := h3.1
          split
          · have : -9223372036854775808 ≤ minVal s := by cases s <;> decide
            omega
          · exact hv
        have : x.mismatch = decide (asU64 v ≠ 0) := by
          cases s <;> first | (have hx := Option.some.inj hx; rw [← hx]; rfl) | exact h2.elim
        right
        rw [this]
        exact decide_eq_true hu
      | none => cases s <;> (have hx := Option.some.inj hx; rw [← hx]; first | exact .inr rfl | exact .inl rfl)
      | float v => cases s <;> (have hx := Option.some.inj hx; rw [← hx]; first | exact .inr rfl | exact .inl rfl)
    | bitfield s m => exact absurd rfl (hr.noBits s m)
    | _ => have hx := Option.some.inj hx; rw [← hx]; exact .inl rfl
  | bitfield t n =>
    cases rt with
    | bitfield s m => exact absurd rfl (hr.noBits s m)
    | arith s => exact absurd (.arithmetic (t := t) rfl) hn
    | _ => have hx := Option.some.inj hx; rw [← hx]; exact .inl rfl
  | arith t =>
    cases rt with
    | bitfield s m => exact absurd rfl (hr.noBits s m)
    | arith s => exact absurd (.arithmetic (t := t) rfl) hn
    | pointer b => cases t <;> first | exact absurd (.bool rfl) hn | (have hx := Option.some.inj hx; rw [← hx]; exact .inl rfl)
    | _ => cases t <;> (have hx := Option.some.inj hx; rw [← hx]; exact .inl rfl)

/-- C86: What C allows is not an error, and afterwards the right side has the type of the left side, or, for pointers and structures, one that may stand for it.
What is missing: a pointer that is assigned to a bit-field of type `_Bool` (`C86_bool_wrong`), and negative floating constants that are
assigned to `_Bool` or an unsigned type (`C86_negative_wrong`). -/
theorem C86_accepted_partial (compatible : Nat → Nat → Bool) (shared ae : Bool) (l : Type_) (r : Expr) (hr : Good r)
    (x : Result) (hx : assign compatible shared ae l r = some x) (ha : Allowed compatible (Null r) l r.type)
    (hb : ¬ ((∃ n, l = .bitfield .bool n) ∧ ∃ p, r.type = .pointer p)) (hneg : ∀ v t, r.literal = .float v → arithmetic l = some t → isInteger t → ¬signed t → 0 ≤ v) :
    x.error = false ∧ (∀ t, arithmetic l = some t → x.type = .arith t) ∧ (x.type = l ∨ Allowed compatible False l x.type) := by
  rcases r with ⟨rt, d, lit⟩
  simp only at ha hb hneg
  have hce : ∀ t, arithmetic l = some t → castError (.arith t) lit = false := by
    intro t ht
    unfold castError
    cases lit with
    | float v =>
      have := hneg v t rfl ht
      cases t <;> first | rfl | (
        have := this trivial (by decide)
        simp only [Bool.and_eq_false_imp, decide_eq_false_iff_not]
        intro _
        exact Rat.not_lt.2 this)
    | _ => rfl
  cases ha with
  | arithmetic h =>
    rename_i t s
    cases l with
    | bitfield b n =>
      cases h
      have hx : (if s ≠ t then some (⟨false, false, castError (.arith t) lit, .arith t⟩ : Result) else some ⟨false, false, false, .arith s⟩) = some x := hx
      by_cases hst : s = t
      · rw [if_neg (fun h => h hst)] at hx
        have hx := Option.some.inj hx
        rw [← hx]
        exact ⟨rfl, fun u hu => (by cases hu; rw [hst]), .inr (.arithmetic (t := t) rfl)⟩
      · rw [if_pos hst] at hx
        have hx := Option.some.inj hx
        rw [← hx]
        exact ⟨hce t rfl, fun u hu => (by cases hu; rfl), .inr (.arithmetic (t := t) rfl)⟩
    | arith b =>
      cases h
      by_cases hts : t = s
      · subst hts
        unfold assign at hx
        have hid : identical shared (.arith t) (.arith t) = true := decide_eq_true rfl
        rw [if_pos hid] at hx
        have hx := Option.some.inj hx
        rw [← hx]
        exact ⟨rfl, fun u hu => (by cases hu; rfl), .inl rfl⟩
      · have key : x.error = castError (.arith t) lit ∧ x.type = .arith t := by
          unfold assign at hx
          have hne : ¬ identical shared (.arith t) (.arith s) = true := fun h => by
            have h : decide (Type_.arith t = .arith s) = true := h
            have := of_decide_eq_true h
            cases this
            exact hts rfl
          rw [if_neg hne] at hx
          cases t <;> cases s <;> first | exact absurd rfl hts |
            (cases lit <;> first | (have hx := Option.some.inj hx; rw [← hx]; exact ⟨rfl, rfl⟩) |
              (cases ae <;> (have hx := Option.some.inj hx; rw [← hx]; exact ⟨rfl, rfl⟩)))
        refine ⟨by rw [key.1, hce t rfl], fun u hu => by cases hu; exact key.2, .inl key.2⟩
    | _ => cases h
  | other h =>
    rename_i n m
    cases shared
    · have hx := Option.some.inj hx
      rw [← hx]
      refine ⟨?_, (fun t ht => by cases ht), .inr (.other h)⟩
      show (!compatible n m) = false
      rw [h]
      rfl
    · have hx := Option.some.inj hx
      rw [← hx]
      exact ⟨rfl, (fun t ht => by cases ht), .inr (.other h)⟩
  | pointers h =>
    cases shared
    · rw [pointers_eq] at hx
      have hx := Option.some.inj hx
      rw [← hx]
      exact ⟨rfl, (fun t ht => by cases ht), .inr (.pointers h)⟩
    · have hx := Option.some.inj hx
      rw [← hx]
      exact ⟨rfl, (fun t ht => by cases ht), .inr (.pointers h)⟩
  | toVoid =>
    cases shared
    · rw [pointers_eq] at hx
      have hx := Option.some.inj hx
      rw [← hx]
      exact ⟨rfl, (fun t ht => by cases ht), .inr .toVoid⟩
    · have hx := Option.some.inj hx
      rw [← hx]
      exact ⟨rfl, (fun t ht => by cases ht), .inr .toVoid⟩
  | fromVoid =>
    cases shared
    · rw [pointers_eq] at hx
      have hx := Option.some.inj hx
      rw [← hx]
      exact ⟨rfl, (fun t ht => by cases ht), .inr .fromVoid⟩
    · have hx := Option.some.inj hx
      rw [← hx]
      exact ⟨rfl, (fun t ht => by cases ht), .inr .fromVoid⟩
  | null h =>
    have h : lit = .int 0 := h
    subst h
    obtain ⟨s', h1, h2, h3⟩ := hr.int 0 rfl
    have h1 := (Type_.arith.inj h1).symm
    subst h1
    cases s' <;> first | exact h2.elim | (have hx := Option.some.inj hx; rw [← hx]; exact ⟨rfl, (fun t ht => by cases ht), .inl rfl⟩)
  | bool h =>
    rename_i b
    cases l with
    | arith t =>
      cases h
      have hx := Option.some.inj hx
      rw [← hx]
      exact ⟨hce _ rfl, (fun t ht => by cases ht; rfl), .inl rfl⟩
    | bitfield t n =>
      cases h
      exact absurd ⟨⟨n, rfl⟩, b, rfl⟩ hb
    | _ => cases h

/-- C86: Pointers. What C allows gives no warning. -/
theorem C86_pointers_quiet (compatible : Nat → Nat → Bool) (shared ae : Bool) (a : Type_) (r : Expr) (hr : Good r) (x : Result)
    (hx : assign compatible shared ae (.pointer a) r = some x) (ha : Allowed compatible (Null r) (.pointer a) r.type) : x.mismatch = false ∧ x.truncation = false := by
  rcases r with ⟨rt, d, lit⟩
  simp only at ha
  have pp : ∀ b, rt = .pointer b → Allowed compatible (Null ⟨rt, d, lit⟩) (.pointer a) (.pointer b) → x.mismatch = false ∧ x.truncation = false := by
    rintro b rfl h
    cases shared
    · rw [pointers_eq] at hx
      have hx := Option.some.inj hx
      rw [← hx]
      refine ⟨decide_eq_false ?_, rfl⟩
      rintro ⟨h1, h2⟩
      cases h with
      | pointers h => rw [(equal_iff compatible a b).2 h] at h2; cases h2
      | toVoid => exact h1 (.inl rfl)
      | fromVoid => exact h1 (.inr rfl)
      | bool h => cases h
    · have hx := Option.some.inj hx
      rw [← hx]
      exact ⟨rfl, rfl⟩
  cases ha with
  | arithmetic h => cases h
  | pointers h => exact pp _ rfl (.pointers h)
  | toVoid => exact pp _ rfl .toVoid
  | fromVoid => exact pp _ rfl .fromVoid
  | bool h => cases h
  | null h =>
    have h : lit = .int 0 := h
    subst h
    obtain ⟨s', h1, h2, h3⟩ := hr.int 0 rfl
    have h1 := (Type_.arith.inj h1).symm
    subst h1
    cases s' <;> first | exact h2.elim | (have hx := Option.some.inj hx; rw [← hx]; exact ⟨rfl, rfl⟩)

/-- What is assigned to `_Bool` is not reported, if C allows it: arithmetic values and pointers. -/
theorem C86_bool_quiet (compatible : Nat → Nat → Bool) (shared ae : Bool) (r : Expr) (x : Result) (hx : assign compatible shared ae (.arith .bool) r = some x)
    (ha : Allowed compatible (Null r) (.arith .bool) r.type) : x.mismatch = false ∧ x.truncation = false := by
  rcases r with ⟨rt, d, lit⟩
  simp only at ha
  cases ha with
  | arithmetic h =>
    rename_i t s
    cases s <;> (have hx := Option.some.inj hx; rw [← hx]; exact ⟨rfl, rfl⟩)
  | bool h =>
    have hx := Option.some.inj hx
    rw [← hx]
    exact ⟨rfl, rfl⟩

/-- An assignment of a pointer to an object of type `_Bool`. -/
example : ∃ x, assign (fun _ _ => false) false false (.arith .bool) ⟨.pointer (.arith .s32), none, .none⟩ = some x ∧ x.error = false ∧ x.mismatch = false := ⟨_, rfl, rfl, rfl⟩

/-- C86: Integer constants: the warning about a truncation is given exactly if the type cannot represent the value. What is missing: values from 2^63 on that are assigned to a signed
type, and negative ones that are assigned to an unsigned type with 64 bits (`C86_truncation_wrong`). -/
theorem C86_truncation_partial (compatible : Nat → Nat → Bool) (shared : Bool) (t s : Ty) (ht : isInteger t) (hb : t ≠ .bool) (hs : isInteger s) (d : Option Ty) (v : Int)
    (hv : InRange s v) (h1 : signed t → v < 2 ^ 63) (h2 : t = .u64 → 0 ≤ v) :
    ∃ x, assign compatible shared false (.arith t) ⟨.arith s, d, .int v⟩ = some x ∧ x.mismatch = false ∧ x.error = false ∧ (x.truncation = true ↔ ¬ InRange t v) := by
  by_cases hts : t = s
  · subst hts
    refine ⟨⟨false, false, false, .arith t⟩, ?_, rfl, rfl, ⟨fun h => (by cases h), fun h => absurd hv h⟩⟩
    unfold assign
    have hid : identical shared (.arith t) (.arith t) = true := decide_eq_true rfl
    rw [if_pos hid]
  · have hr : assign compatible shared false (.arith t) ⟨.arith s, d, .int v⟩ = some ⟨false, !fits t v, false, .arith t⟩ := by
      unfold assign
      have hne : ¬ identical shared (.arith t) (.arith s) = true := fun h => by
        have h : decide (Type_.arith t = .arith s) = true := h
        have := of_decide_eq_true h
        cases this
        exact hts rfl
      rw [if_neg hne]
      cases t <;> first | exact absurd rfl hb | exact ht.elim | (cases s <;> first | exact absurd rfl hts | exact hs.elim | rfl)
    refine ⟨_, hr, rfl, rfl, ?_⟩
    have hf : fits t v = true ↔ InRange t v := by
      obtain ⟨v1, v2⟩ := hv
      have m1 : -9223372036854775808 ≤ minVal s := by cases s <;> decide
      have m2 : maxVal s ≤ 18446744073709551615 := by cases s <;> decide
      have g1 : signed t → asS64 v = v := fun h => by
        have := h1 h
        unfold asS64
        rw [if_neg (by omega)]
      have g2 : asU64 v = v ∧ 0 ≤ v ∨ v < 0 ∧ 9223372036854775808 ≤ asU64 v := by
        unfold asU64
        split <;> omega
      cases t
      case bool => exact absurd rfl hb
      case f32 => exact ht.elim
      case f64 => exact ht.elim
      case s8 =>
        have g1 := g1 (show signed .s8 by decide)
        simp [fits, Ty.isSigned, Ty.bits, InRange, minVal, maxVal, g1]
      case s16 =>
        have g1 := g1 (show signed .s16 by decide)
        simp [fits, Ty.isSigned, Ty.bits, InRange, minVal, maxVal, g1]
      case s32 =>
        have g1 := g1 (show signed .s32 by decide)
        simp [fits, Ty.isSigned, Ty.bits, InRange, minVal, maxVal, g1]
      case s64 =>
        have g1 := g1 (show signed .s64 by decide)
        simp [fits, Ty.isSigned, Ty.bits, InRange, minVal, maxVal, g1]
      case u8 =>
        simp [fits, Ty.isSigned, Ty.bits, InRange, minVal, maxVal]
        omega
      case u16 =>
        simp [fits, Ty.isSigned, Ty.bits, InRange, minVal, maxVal]
        omega
      case u32 =>
        simp [fits, Ty.isSigned, Ty.bits, InRange, minVal, maxVal]
        omega
      case u64 =>
        have h2 := h2 rfl
        simp [fits, Ty.isSigned, Ty.bits, InRange, minVal, maxVal]
        omega
    simp only [Bool.not_eq_true']
    rw [← hf]
    cases fits t v <;> simp

/-- C86: Integers that are not constants: if the sizes are different, the warning is given exactly if some value of the type of the right side (before promotion) cannot be
represented. -/
theorem C86_lossy_partial (compatible : Nat → Nat → Bool) (shared ae : Bool) (t s : Ty) (d : Option Ty) (ht : isInteger t) (hb : t ≠ .bool) (hs : isInteger s)
    (hd : ∀ u, d = some u → isInteger u) (hts : t ≠ s) (hsize : t.bits ≠ (d.getD s).bits) :
    ∃ x, assign compatible shared ae (.arith t) ⟨.arith s, d, .none⟩ = some x ∧ x.truncation = false ∧ x.error = false ∧
      (x.mismatch = true ↔ ∃ v, InRange (d.getD s) v ∧ ¬ InRange t v) := by
  have hr : assign compatible shared ae (.arith t) ⟨.arith s, d, .none⟩ = some ⟨lossy t (d.getD s), false, false, .arith t⟩ := by
    unfold assign
    have hne : ¬ identical shared (.arith t) (.arith s) = true := fun h => by
      have h : decide (Type_.arith t = .arith s) = true := h
      have := of_decide_eq_true h
      cases this
      exact hts rfl
    rw [if_neg hne]
    cases t <;> first | exact absurd rfl hb | exact ht.elim | (cases s <;> first | exact absurd rfl hts | exact hs.elim | rfl)
  refine ⟨_, hr, rfl, rfl, ?_⟩
  have hu : isInteger (d.getD s) := by
    cases d with
    | none => exact hs
    | some u => exact hd u rfl
  generalize d.getD s = u at hu hsize
  have split : (∃ v, InRange u v ∧ ¬ InRange t v) ↔ minVal u < minVal t ∨ maxVal t < maxVal u := by
    have hmm : minVal u ≤ maxVal u := by cases u <;> decide
    constructor
    · rintro ⟨v, ⟨h1, h2⟩, h3⟩
      unfold InRange at h3
      omega
    · rintro (h | h)
      · exact ⟨minVal u, ⟨Int.le_refl _, hmm⟩, fun h' => by have := h'.1; omega⟩
      · exact ⟨maxVal u, ⟨hmm, Int.le_refl _⟩, fun h' => by have := h'.2; omega⟩
  rw [split]
  cases t <;> first | exact absurd rfl hb | exact ht.elim | (cases u <;> first | exact hu.elim | exact absurd rfl hsize | decide)

/-- C86: Floating types: the warning is given for what may lose a part of the value: a smaller type, an integer type, or a floating type for an integer that is not a constant. -/
theorem C86_floats (compatible : Nat → Nat → Bool) (shared ae : Bool) (t s : Ty) (d : Option Ty) (hb : t ≠ .bool) (lit : Literal) (hf : ¬ isInteger t ∨ ¬ isInteger s) :
    ∃ x, assign compatible shared ae (.arith t) ⟨.arith s, d, lit⟩ = some x ∧ x.truncation = false ∧
      (x.mismatch = true ↔ (t = .f32 ∧ s = .f64) ∨ (isInteger t ∧ ¬ isInteger s) ∨ (¬ isInteger t ∧ isInteger s ∧ ∀ v, lit ≠ .int v)) := by
  by_cases hts : t = s
  · subst hts
    refine ⟨⟨false, false, false, .arith t⟩, ?_, rfl, ⟨fun h => (by cases h), fun h => ?_⟩⟩
    · unfold assign
      have hid : identical shared (.arith t) (.arith t) = true := decide_eq_true rfl
      rw [if_pos hid]
    · rcases h with h | h | h
      · rw [h.1] at h; exact absurd h.2 (by decide)
      · exact absurd h.1 h.2
      · exact absurd h.2.1 h.1
  · cases lit with
    | int v =>
      cases t <;> first | exact absurd rfl hb | (cases s <;> first | exact absurd rfl hts | (rcases hf with hf | hf <;> exact absurd trivial hf) |
        exact ⟨_, rfl, rfl, by simp [finish, isInteger]⟩)
    | none =>
      cases t <;> first | exact absurd rfl hb | (cases s <;> first | exact absurd rfl hts | (rcases hf with hf | hf <;> exact absurd trivial hf) |
        exact ⟨_, rfl, rfl, by simp [finish, isInteger]⟩)
    | float v =>
      cases t <;> first | exact absurd rfl hb | (cases s <;> first | exact absurd rfl hts | (rcases hf with hf | hf <;> exact absurd trivial hf) |
        exact ⟨_, rfl, rfl, by simp [finish, isInteger]⟩)

/-- C86 does not hold for all constants: `char c = 0xffffffffffffffff;` and `unsigned long long u = -1;` give no warning, though the types cannot represent the values. -/
theorem C86_truncation_wrong (compatible : Nat → Nat → Bool) :
    (∃ x, assign compatible false false (.arith .s8) ⟨.arith .u64, none, .int 0xffffffffffffffff⟩ = some x ∧ x.truncation = false ∧ x.mismatch = false) ∧
    ¬ InRange .s8 0xffffffffffffffff ∧
    (∃ x, assign compatible false false (.arith .u64) ⟨.arith .s32, none, .int (-1)⟩ = some x ∧ x.truncation = false ∧ x.mismatch = false) ∧ ¬ InRange .u64 (-1) :=
  ⟨⟨_, rfl, rfl, rfl⟩, by decide, ⟨_, rfl, rfl, rfl⟩, by decide⟩

/-- C86 does not hold for all integers: between types of the same size there is no warning, though `int` cannot represent all values of `unsigned`. -/
theorem C86_lossy_wrong (compatible : Nat → Nat → Bool) :
    (∃ x, assign compatible false false (.arith .s32) ⟨.arith .u32, none, .none⟩ = some x ∧ x.mismatch = false) ∧ InRange .u32 4294967295 ∧ ¬ InRange .s32 4294967295 :=
  ⟨⟨_, rfl, rfl⟩, by decide, by decide⟩

/-- C86 does not hold for bit-fields of type `_Bool`: C allows to assign a pointer, the compiler does not. -/
theorem C86_bool_wrong (compatible : Nat → Nat → Bool) :
    Allowed compatible False (.bitfield .bool 1) (.pointer .void) ∧
    ∃ x, assign compatible false false (.bitfield .bool 1) ⟨.pointer .void, none, .none⟩ = some x ∧ x.error = true :=
  ⟨.bool rfl, _, rfl, rfl⟩

/-- C86 does not hold for negative floating constants: `_Bool b = -1.0;` is an error, but C allows it (`b` is 1), and so is `unsigned u = -0.5;` (`u` is 0). -/
theorem C86_negative_wrong (compatible : Nat → Nat → Bool) :
    Allowed compatible False (.arith .bool) (.arith .f64) ∧
    (∃ x, assign compatible false false (.arith .bool) ⟨.arith .f64, none, .float (-1)⟩ = some x ∧ x.error = true) ∧
    Allowed compatible False (.arith .u32) (.arith .f64) ∧
    ∃ x, assign compatible false false (.arith .u32) ⟨.arith .f64, none, .float (-1/2)⟩ = some x ∧ x.error = true :=
  ⟨.arithmetic rfl, ⟨_, rfl, (by decide : castError (.arith .bool) (.float (-1)) = true)⟩, .arithmetic rfl, _, rfl,
    (by decide +kernel : castError (.arith .u32) (.float (-1/2)) = true)⟩

/-- The hypotheses hold for `int *p = 0;`, and for `char **p` and a pointer to `void`. -/
example : Good ⟨.arith .s32, none, .int 0⟩ ∧ Allowed (fun _ _ => false) (Null ⟨.arith .s32, none, .int 0⟩) (.pointer (.arith .s32)) (.arith .s32) ∧
    Good ⟨.pointer .void, none, .none⟩ ∧ Allowed (fun _ _ => false) False (.pointer (.pointer (.arith .s8))) (.pointer .void) :=
  ⟨⟨fun _ _ h => (by cases h), fun v h => (by cases h; exact ⟨.s32, rfl, trivial, by decide⟩)⟩, .null rfl, ⟨fun _ _ h => (by cases h), fun v h => (by cases h)⟩, .fromVoid⟩

/-- `int **p` and a value of type `int *` is not allowed, and there is a warning. -/
example : ¬ Allowed (fun _ _ => false) False (.pointer (.pointer (.arith .s32))) (.pointer (.arith .s32)) ∧
    (assign (fun _ _ => false) false false (.pointer (.pointer (.arith .s32))) ⟨.pointer (.arith .s32), none, .none⟩).map (·.mismatch) = some true :=
  ⟨fun h => (by
    cases h with
    | pointers h => cases h
    | bool h => cases h), rfl⟩

/-- `short s = 70000;` gets the warning, `short s = 7;` does not. -/
example : (assign (fun _ _ => false) false false (.arith .s16) ⟨.arith .s32, none, .int 70000⟩).map (·.truncation) = some true ∧
    (assign (fun _ _ => false) false false (.arith .s16) ⟨.arith .s32, none, .int 7⟩).map (·.truncation) = some false := ⟨rfl, rfl⟩

end Verif.Props.Assign
