import Verif.Props.IfExpr

/-!
# C08: the values of `#if` expressions
-/
namespace Verif.IfExpr
open Verif.Spec.IfExpr

/-- A value as the evaluator stores it. -/
def repr : Val → Value
  | .int x => ⟨BitVec.ofInt 64 x, false⟩
  | .uint x => ⟨BitVec.ofNat 64 x, true⟩

/-- A value of its type. -/
def InRange : Val → Prop
  | .int x => -2^63 ≤ x ∧ x < 2^63
  | .uint x => x < 2^64

/-- The expressions on which the evaluator agrees with C11. -/
def Plain (env : Nat → Bool) : Expr → Prop
  | .num v u => u = true ∨ v.toNat ≠ 2^63 - 1
  | .name _ => True
  | .defined _ => True
  | .not a => Plain env a ∧ isUnsigned a = false
  | .compl a => Plain env a
  | .neg a => Plain env a ∧ eval env a ≠ some (.uint (2^63))
  | .pos a => Plain env a
  | .bin o a b => Plain env a ∧ Plain env b ∧
      ((o = .shl ∨ o = .shr) → isUnsigned b = true → isUnsigned a = true) ∧
      ((o = .land ∨ o = .lor) → eval env b ≠ none)
  | .cond c a b => Plain env c ∧ Plain env a ∧ Plain env b ∧ isUnsigned a = isUnsigned b ∧ eval env a ≠ none ∧ eval env b ≠ none

theorem ofNat_emod (z : Int) : BitVec.ofNat 64 (z % 2^64).toNat = BitVec.ofInt 64 z := by
  apply BitVec.eq_of_toNat_eq
  simp only [BitVec.toNat_ofNat, BitVec.toNat_ofInt]
  omega

theorem value_repr {a : Val} (_h : InRange a) : (repr a).value = BitVec.ofInt 64 a.toUnsigned := by
  cases a with
  | int x =>
    simp only [repr, Val.toUnsigned]
    apply BitVec.eq_of_toNat_eq
    simp only [BitVec.toNat_ofInt]
    omega
  | uint x =>
    simp only [repr, Val.toUnsigned]
    apply BitVec.eq_of_toNat_eq
    simp only [BitVec.toNat_ofInt, BitVec.toNat_ofNat]
    omega

theorem toUnsigned_lt {a : Val} (h : InRange a) : a.toUnsigned < 2^64 := by
  cases a with
  | int x => simp only [Val.toUnsigned]; omega
  | uint x => exact h

theorem toNat_repr {a : Val} (h : InRange a) : (repr a).value.toNat = a.toUnsigned := by
  rw [value_repr h, BitVec.toNat_ofInt]
  have := toUnsigned_lt h
  omega

theorem toInt_ofInt {x : Int} (h : -2^63 ≤ x ∧ x < 2^63) : (BitVec.ofInt 64 x).toInt = x := by
  rw [BitVec.toInt_ofInt, Int.bmod_def]
  split <;> omega

theorem toInt_repr {x : Int} (h : InRange (.int x)) : (repr (.int x)).value.toInt = x := toInt_ofInt h

theorem repr_uint (z : Int) : repr (uint z) = ⟨BitVec.ofInt 64 z, true⟩ := by
  show Value.mk (BitVec.ofNat 64 (z % 2^64).toNat) true = _
  rw [ofNat_emod]

theorem inRange_uint (z : Int) : InRange (uint z) := by
  show (z % 2^64).toNat < 2^64
  omega

theorem fits_iff {x : Int} : fits x = true ↔ -2^63 ≤ x ∧ x < 2^63 := by
  unfold fits
  exact decide_eq_true_iff

theorem int_some {x : Int} {z : Val} (h : int x = some z) : z = .int x ∧ InRange (.int x) := by
  unfold int at h
  split at h
  · rename_i hf
    exact ⟨(Option.some.inj h).symm, fits_iff.1 hf⟩
  · cases h

theorem isUnsigned_repr (a : Val) : (repr a).isUnsigned = a.isUnsigned := by cases a <;> rfl

theorem ofInt_eq_iff {a b : Nat} (ha : a < 2^64) (hb : b < 2^64) : BitVec.ofInt 64 a = BitVec.ofInt 64 b ↔ (a : Int) = b := by
  constructor
  · intro h
    have := congrArg BitVec.toNat h
    simp only [BitVec.toNat_ofInt] at this
    omega
  · intro h
    rw [h]

theorem ofInt_zero_iff {a : Nat} (ha : a < 2^64) : BitVec.ofInt 64 a = 0 ↔ a = 0 := by
  have := ofInt_eq_iff ha (b := 0) (by decide)
  constructor
  · intro h
    exact_mod_cast this.1 h
  · intro h
    subst h
    rfl

theorem truth_repr {a : Val} (h : InRange a) : (repr a).value ≠ 0 ↔ a.truth = true := by
  rw [value_repr h, Ne, ofInt_zero_iff (toUnsigned_lt h)]
  cases a with
  | int x =>
    unfold InRange at h
    simp only [Val.toUnsigned, Val.truth, decide_eq_true_eq]
    omega
  | uint x =>
    simp only [Val.toUnsigned, Val.truth, decide_eq_true_eq]

theorem flag_ofBool (b : Bool) : flag b = .ok (repr (ofBool b)) := by cases b <;> rfl

theorem inRange_ofBool (b : Bool) : InRange (ofBool b) := by
  cases b
  · exact ⟨by decide, by decide⟩
  · exact ⟨by decide, by decide⟩

/-- What has to be shown of an operator. -/
def Good (r : Res) (z : Val) : Prop := r = .ok (repr z) ∧ InRange z

theorem good_uint {v : BitVec 64} {z : Int} (h : v = BitVec.ofInt 64 z) : Good (ok v true) (uint z) :=
  ⟨by rw [repr_uint, h]; rfl, inRange_uint z⟩

theorem good_signed {x : Int} {z : Val} (h : int x = some z) : Good (signed x) z := by
  obtain ⟨rfl, hr⟩ := int_some h
  refine ⟨?_, hr⟩
  unfold signed
  exact (if_pos hr).trans rfl

theorem good_flag {b : Bool} {z : Val} (h : some (ofBool b) = some z) : Good (flag b) z := by
  cases h
  exact ⟨flag_ofBool b, inRange_ofBool b⟩

theorem good_int {x : Int} {v : BitVec 64} {z : Val} (h : int x = some z) (hv : v = BitVec.ofInt 64 x) : Good (ok v false) z := by
  obtain ⟨rfl, hr⟩ := int_some h
  exact ⟨by rw [hv]; rfl, hr⟩

/-- The operands are two signed integers, or one of them is unsigned. -/
theorem mixed (a b : Val) : (∃ x y, a = .int x ∧ b = .int y) ∨ ((b.isUnsigned || a.isUnsigned) = true ∧
    ∀ (α : Type) (f : Int → Int → α) (g : α), (match a, b with | .int x, .int y => f x y | _, _ => g) = g) := by
  cases a <;> cases b
  · exact .inl ⟨_, _, rfl, rfl⟩
  · exact .inr ⟨rfl, fun _ _ _ => rfl⟩
  · exact .inr ⟨rfl, fun _ _ _ => rfl⟩
  · exact .inr ⟨rfl, fun _ _ _ => rfl⟩

theorem arith_mixed {f : Int → Int → Int} {a b : Val} (h : (b.isUnsigned || a.isUnsigned) = true) :
    arith f a b = some (uint (f a.toUnsigned b.toUnsigned)) := by
  cases a <;> cases b <;> first | rfl | (cases h)

theorem divide_mixed {f : Int → Int → Int} {a b : Val} (h : (b.isUnsigned || a.isUnsigned) = true) :
    divide f a b = if b.toUnsigned = 0 then none else some (uint (f a.toUnsigned b.toUnsigned)) := by
  cases a <;> cases b <;> first | rfl | (cases h)

theorem bits_mixed {f : BitVec 64 → BitVec 64 → BitVec 64} {a b : Val} (h : (b.isUnsigned || a.isUnsigned) = true) :
    bits f a b = some (.uint (f (BitVec.ofNat 64 a.toUnsigned) (BitVec.ofNat 64 b.toUnsigned)).toNat) := by
  cases a <;> cases b <;> first | rfl | (cases h)

theorem compare_mixed {f : Int → Int → Bool} {a b : Val} (h : (b.isUnsigned || a.isUnsigned) = true) :
    compare f a b = some (ofBool (f a.toUnsigned b.toUnsigned)) := by
  cases a <;> cases b <;> first | rfl | (cases h)

theorem bits_good {f : BitVec 64 → BitVec 64 → BitVec 64} {a b z : Val} (ha : InRange a) (hb : InRange b) (h : bits f a b = some z) :
    Good (ok (f (repr a).value (repr b).value) ((repr b).isUnsigned || (repr a).isUnsigned)) z := by
  rw [isUnsigned_repr, isUnsigned_repr]
  rcases mixed a b with ⟨x, y, rfl, rfl⟩ | ⟨hm, _⟩
  · cases h
    refine ⟨?_, ?_⟩
    · simp only [repr, BitVec.ofInt_toInt]
      rfl
    · have h1 := BitVec.toInt_lt (x := f (BitVec.ofInt 64 x) (BitVec.ofInt 64 y))
      have h2 := BitVec.le_toInt (x := f (BitVec.ofInt 64 x) (BitVec.ofInt 64 y))
      exact ⟨h2, h1⟩
  · rw [bits_mixed hm] at h
    cases h
    rw [hm, value_repr ha, value_repr hb]
    refine ⟨?_, ?_⟩
    · simp only [repr, BitVec.ofNat_toNat, BitVec.setWidth_eq]
      rfl
    · exact (f (BitVec.ofNat 64 a.toUnsigned) (BitVec.ofNat 64 b.toUnsigned)).isLt

theorem compare_good {f : Int → Int → Bool} {a b z : Val} (ha : InRange a) (hb : InRange b) (h : compare f a b = some z)
    {c : Bool} (hs : (b.isUnsigned || a.isUnsigned) = false → c = f (repr a).value.toInt (repr b).value.toInt)
    (hu : (b.isUnsigned || a.isUnsigned) = true → c = f (repr a).value.toNat (repr b).value.toNat) : Good (flag c) z := by
  rcases mixed a b with ⟨x, y, rfl, rfl⟩ | ⟨hm, _⟩
  · rw [hs rfl]
    simp only [repr]
    rw [toInt_ofInt ha, toInt_ofInt hb]
    exact good_flag h
  · rw [compare_mixed hm] at h
    rw [hu hm, toNat_repr ha, toNat_repr hb]
    exact good_flag h

theorem eq_good {a b z : Val} (ha : InRange a) (hb : InRange b) (h : compare (fun x y => decide (x = y)) a b = some z) :
    Good (flag (decide ((repr a).value = (repr b).value))) z :=
  compare_good ha hb h (fun _ => by rw [decide_eq_decide]; exact BitVec.toInt_inj.symm)
    (fun _ => by rw [decide_eq_decide, ← BitVec.toNat_inj]; omega)

theorem ne_good {a b z : Val} (ha : InRange a) (hb : InRange b) (h : compare (fun x y => decide (x ≠ y)) a b = some z) :
    Good (flag (decide ((repr a).value ≠ (repr b).value))) z :=
  compare_good ha hb h (fun _ => by rw [decide_eq_decide, Ne, Ne, BitVec.toInt_inj])
    (fun _ => by rw [decide_eq_decide, Ne, Ne, ← BitVec.toNat_inj]; omega)

theorem tdiv_natCast (a b : Nat) : (a : Int).tdiv b = ((a / b : Nat) : Int) := (Int.ofNat_tdiv a b).symm
theorem tmod_natCast (a b : Nat) : (a : Int).tmod b = ((a % b : Nat) : Int) := (Int.ofNat_tmod a b).symm

theorem toInt_range {b : Val} (h : InRange b) (h0 : 0 ≤ b.toInt) (h64 : b.toInt < 64) : b.toUnsigned = b.toInt.toNat := by
  cases b with
  | int x => simp only [Val.toInt, Val.toUnsigned] at *; omega
  | uint x => simp only [Val.toInt, Val.toUnsigned] at *; omega

theorem ofInt_shl (a n : Nat) : BitVec.ofInt 64 a <<< n = BitVec.ofInt 64 ((a : Int) * 2 ^ n) := by
  apply BitVec.eq_of_toNat_eq
  rw [BitVec.toNat_shiftLeft, BitVec.toNat_ofInt, BitVec.toNat_ofInt, Nat.shiftLeft_eq]
  have h1 : ((a : Int) * 2 ^ n) = ((a * 2 ^ n : Nat) : Int) := by push_cast; rfl
  have h2 : ((a : Int) % ((2 ^ 64 : Nat) : Int)).toNat = a % 2 ^ 64 := by omega
  have h3 : (((a * 2 ^ n : Nat) : Int) % ((2 ^ 64 : Nat) : Int)).toNat = a * 2 ^ n % 2 ^ 64 := by omega
  rw [h1, h2, h3, Nat.mod_mul_mod]

/-- The operators agree with C11 if the shift count is not the only unsigned operand. -/
theorem binary_good (o : BinOp) {a b z : Val} (ha : InRange a) (hb : InRange b) (h : binary o a b = some z)
    (hs : (o = .shl ∨ o = .shr) → b.isUnsigned = true → a.isUnsigned = true) : Good (binaryOp o (repr a) (repr b)) z := by
  have hua := isUnsigned_repr a
  have hub := isUnsigned_repr b
  cases o with
  | mul =>
    simp only [binaryOp, hua, hub]
    rcases mixed a b with ⟨x, y, rfl, rfl⟩ | ⟨hm, _⟩
    · simp only [Val.isUnsigned, Bool.or_self, Bool.false_eq_true, if_false, repr]
      rw [toInt_ofInt ha, toInt_ofInt hb]
      exact good_signed h
    · simp only [binary] at h
      rw [arith_mixed hm] at h
      cases h
      rw [if_pos hm, hm]
      exact good_uint (by rw [value_repr ha, value_repr hb, BitVec.ofInt_mul])
  | div =>
    simp only [binaryOp, hua, hub]
    rcases mixed a b with ⟨x, y, rfl, rfl⟩ | ⟨hm, _⟩
    · simp only [binary, divide] at h
      split at h
      · cases h
      rename_i hy
      split at h
      · have hz : ¬ (repr (.int y)).value = 0 := (truth_repr hb).2 (by simpa [Val.truth] using hy)
        rw [if_neg hz]
        simp only [Val.isUnsigned, Bool.or_self, Bool.false_eq_true, if_false, repr]
        rw [toInt_ofInt ha, toInt_ofInt hb]
        exact good_signed h
      · cases h
    · simp only [binary] at h
      rw [divide_mixed hm] at h
      split at h
      · cases h
      rename_i hz
      cases h
      have hv : ¬ (repr b).value = 0 := by rw [value_repr hb, ofInt_zero_iff (toUnsigned_lt hb)]; exact hz
      rw [if_neg hv, if_pos hm, hm]
      refine good_uint ?_
      apply BitVec.eq_of_toNat_eq
      rw [BitVec.toNat_udiv, toNat_repr ha, toNat_repr hb, BitVec.toNat_ofInt, tdiv_natCast]
      have h1 := toUnsigned_lt ha
      have h2 := Nat.div_le_self a.toUnsigned b.toUnsigned
      generalize a.toUnsigned / b.toUnsigned = q at *
      omega
  | mod =>
    simp only [binaryOp, hua, hub]
    rcases mixed a b with ⟨x, y, rfl, rfl⟩ | ⟨hm, _⟩
    · simp only [binary, divide] at h
      split at h
      · cases h
      rename_i hy
      split at h
      · rename_i hf
        have hz : ¬ (repr (.int y)).value = 0 := (truth_repr hb).2 (by simpa [Val.truth] using hy)
        rw [if_neg hz]
        have hc : ¬ (BitVec.ofInt 64 x = BitVec.intMin 64 ∧ BitVec.ofInt 64 y = -1) := by
          rintro ⟨h1, h2⟩
          have e1 := congrArg BitVec.toInt h1
          have e2 := congrArg BitVec.toInt h2
          rw [toInt_ofInt ha] at e1
          rw [toInt_ofInt hb] at e2
          have e1' : x = -2^63 := e1
          have e2' : y = -1 := e2
          subst e1' e2'
          exact absurd hf (by decide)
        simp only [Val.isUnsigned, Bool.or_self, Bool.false_eq_true, if_false]
        rw [if_neg (show ¬ ((repr (.int x)).value = BitVec.intMin 64 ∧ (repr (.int y)).value = -1) from hc)]
        simp only [repr]
        rw [toInt_ofInt ha, toInt_ofInt hb]
        exact good_signed h
      · cases h
    · simp only [binary] at h
      rw [divide_mixed hm] at h
      split at h
      · cases h
      rename_i hz
      cases h
      have hv : ¬ (repr b).value = 0 := by rw [value_repr hb, ofInt_zero_iff (toUnsigned_lt hb)]; exact hz
      rw [if_neg hv, if_pos hm, hm]
      refine good_uint ?_
      apply BitVec.eq_of_toNat_eq
      rw [BitVec.toNat_umod, toNat_repr ha, toNat_repr hb, BitVec.toNat_ofInt, tmod_natCast]
      have h1 := toUnsigned_lt ha
      have h2 := Nat.mod_le a.toUnsigned b.toUnsigned
      generalize a.toUnsigned % b.toUnsigned = q at *
      omega
  | add =>
    simp only [binaryOp, hua, hub]
    rcases mixed a b with ⟨x, y, rfl, rfl⟩ | ⟨hm, _⟩
    · exact good_int h (by rw [BitVec.ofInt_add]; rfl)
    · simp only [binary] at h
      rw [arith_mixed hm] at h
      cases h
      rw [hm]
      exact good_uint (by rw [value_repr ha, value_repr hb, BitVec.ofInt_add])
  | sub =>
    simp only [binaryOp, hua, hub]
    rcases mixed a b with ⟨x, y, rfl, rfl⟩ | ⟨hm, _⟩
    · exact good_int h (by show _ = BitVec.ofInt 64 (x - y); rw [Int.sub_eq_add_neg, BitVec.ofInt_add, BitVec.ofInt_neg, BitVec.sub_eq_add_neg]; rfl)
    · simp only [binary] at h
      rw [arith_mixed hm] at h
      cases h
      rw [hm]
      exact good_uint (by rw [value_repr ha, value_repr hb, Int.sub_eq_add_neg, BitVec.ofInt_add, BitVec.ofInt_neg, BitVec.sub_eq_add_neg])
  | shl =>
    simp only [binaryOp, hua, hub]
    cases a with
    | int x =>
      have hbu : b.isUnsigned = false := by
        cases hc : b.isUnsigned with
        | false => rfl
        | true => exact (hs (.inl rfl) hc).symm
      cases b with
      | uint y => cases hbu
      | int y =>
        replace h : (if 0 ≤ y ∧ y < 64 ∧ 0 ≤ x then int (x * 2 ^ y.toNat) else none) = some z := h
        split at h
        · rename_i hc
          simp only [Val.isUnsigned, Bool.or_self, Bool.false_eq_true, if_false]
          rw [toInt_repr ha, toInt_repr hb, if_pos hc]
          have : (repr (.int y)).value.toNat = y.toNat := by rw [toNat_repr hb]; simp only [Val.toUnsigned]; omega
          rw [this]
          exact good_signed h
        · cases h
    | uint x =>
      simp only [binary, shl] at h
      split at h
      · rename_i hc
        cases h
        simp only [Val.isUnsigned, Bool.or_true, if_true]
        have e := toInt_range hb hc.1 hc.2
        rw [toNat_repr hb, e, if_pos (by omega)]
        refine good_uint ?_
        rw [value_repr ha, ofInt_shl]
        rfl
      · cases h
  | shr =>
    simp only [binaryOp, hua, hub]
    cases a with
    | int x =>
      have hbu : b.isUnsigned = false := by
        cases hc : b.isUnsigned with
        | false => rfl
        | true => exact (hs (.inr rfl) hc).symm
      cases b with
      | uint y => cases hbu
      | int y =>
        replace h : (if 0 ≤ y ∧ y < 64 then int (x / 2 ^ y.toNat) else none) = some z := h
        split at h
        · rename_i hc
          simp only [Val.isUnsigned, Bool.or_self, Bool.false_eq_true, if_false]
          rw [toInt_repr hb, if_pos hc]
          have : (repr (.int y)).value.toNat = y.toNat := by rw [toNat_repr hb]; simp only [Val.toUnsigned]; omega
          rw [this]
          refine good_int h ?_
          apply BitVec.eq_of_toInt_eq
          obtain ⟨_, hr⟩ := int_some h
          rw [BitVec.toInt_sshiftRight, toInt_repr ha, toInt_ofInt hr, Int.shiftRight_eq_div_pow]
          push_cast
          rfl
        · cases h
    | uint x =>
      simp only [binary, shr] at h
      split at h
      · rename_i hc
        cases h
        simp only [Val.isUnsigned, Bool.or_true, if_true]
        have e := toInt_range hb hc.1 hc.2
        rw [toNat_repr hb, e, if_pos (by omega)]
        refine good_uint ?_
        apply BitVec.eq_of_toNat_eq
        rw [BitVec.toNat_ushiftRight, toNat_repr ha, BitVec.toNat_ofInt, Nat.shiftRight_eq_div_pow]
        simp only [Val.toUnsigned]
        have h1 : x < 2^64 := ha
        have h2 := Nat.div_le_self x (2 ^ b.toInt.toNat)
        have h3 : ((x : Int) / 2 ^ b.toInt.toNat) = ((x / 2 ^ b.toInt.toNat : Nat) : Int) := by push_cast; rfl
        rw [h3]
        generalize x / 2 ^ b.toInt.toNat = q at *
        omega
      · cases h
  | ge =>
    refine compare_good ha hb h ?_ ?_
    · intro hu
      rw [hua, hub, hu]
      simp [BitVec.sle]
    · intro hu
      rw [hua, hub, hu]
      simp [BitVec.ule]
  | le =>
    refine compare_good ha hb h ?_ ?_
    · intro hu
      rw [hua, hub, hu]
      simp [BitVec.sle]
    · intro hu
      rw [hua, hub, hu]
      simp [BitVec.ule]
  | gt =>
    refine compare_good ha hb h ?_ ?_
    · intro hu
      rw [hua, hub, hu]
      simp [BitVec.slt]
    · intro hu
      rw [hua, hub, hu]
      simp [BitVec.ult]
  | lt =>
    refine compare_good ha hb h ?_ ?_
    · intro hu
      rw [hua, hub, hu]
      simp [BitVec.slt]
    · intro hu
      rw [hua, hub, hu]
      simp [BitVec.ult]
  | eq => exact eq_good ha hb h
  | ne => exact ne_good ha hb h
  | and => exact bits_good ha hb h
  | xor => exact bits_good ha hb h
  | or => exact bits_good ha hb h
  | land =>
    have : decide ((repr a).value ≠ 0 ∧ (repr b).value ≠ 0) = (a.truth && b.truth) := by
      rw [Bool.eq_iff_iff, decide_eq_true_eq, truth_repr ha, truth_repr hb, Bool.and_eq_true]
    simp only [binaryOp]
    rw [this]
    exact good_flag h
  | lor =>
    have : decide ((repr a).value ≠ 0 ∨ (repr b).value ≠ 0) = (a.truth || b.truth) := by
      rw [Bool.eq_iff_iff, decide_eq_true_eq, truth_repr ha, truth_repr hb, Bool.or_eq_true]
    simp only [binaryOp]
    rw [this]
    exact good_flag h


/-! ## Expressions -/

theorem isUnsigned_uint (z : Int) : (uint z).isUnsigned = true := rfl

theorem isUnsigned_int {x : Int} {z : Val} (h : int x = some z) : z.isUnsigned = false := by
  obtain ⟨rfl, _⟩ := int_some h
  rfl

theorem isUnsigned_ofBool (b : Bool) : (ofBool b).isUnsigned = false := rfl

/-- The type of a result. -/
theorem binary_type {o : BinOp} {a b : Val} {x y : Expr} {z : Val} (ha : a.isUnsigned = isUnsigned x) (hb : b.isUnsigned = isUnsigned y)
    (h : binary o a b = some z) : z.isUnsigned = isUnsigned (.bin o x y) := by
  have key : ∀ {f}, arith f a b = some z → z.isUnsigned = (isUnsigned x || isUnsigned y) := by
    intro f h
    rw [← ha, ← hb]
    rcases mixed a b with ⟨x, y, rfl, rfl⟩ | ⟨hm, _⟩
    · exact isUnsigned_int h
    · rw [arith_mixed hm] at h
      cases h
      rw [Bool.or_comm, hm]
      rfl
  have keyd : ∀ {f}, divide f a b = some z → z.isUnsigned = (isUnsigned x || isUnsigned y) := by
    intro f h
    rw [← ha, ← hb]
    rcases mixed a b with ⟨x, y, rfl, rfl⟩ | ⟨hm, _⟩
    · simp only [divide] at h
      split at h
      · cases h
      · split at h
        · exact isUnsigned_int h
        · cases h
    · rw [divide_mixed hm] at h
      split at h
      · cases h
      · cases h
        rw [Bool.or_comm, hm]
        rfl
  have keyb : ∀ {f}, bits f a b = some z → z.isUnsigned = (isUnsigned x || isUnsigned y) := by
    intro f h
    rw [← ha, ← hb]
    rcases mixed a b with ⟨x, y, rfl, rfl⟩ | ⟨hm, _⟩
    · cases h
      rfl
    · rw [bits_mixed hm] at h
      cases h
      rw [Bool.or_comm, hm]
      rfl
  have keyc : ∀ {f}, compare f a b = some z → z.isUnsigned = false := by
    intro f h
    rcases mixed a b with ⟨x, y, rfl, rfl⟩ | ⟨hm, _⟩
    · cases h
      rfl
    · rw [compare_mixed hm] at h
      cases h
      rfl
  cases o with
  | mul => exact key h
  | add => exact key h
  | sub => exact key h
  | div => exact keyd h
  | mod => exact keyd h
  | and => exact keyb h
  | xor => exact keyb h
  | or => exact keyb h
  | shl =>
    simp only [isUnsigned]
    rw [← ha]
    cases a with
    | int x =>
      simp only [binary, shl] at h
      split at h
      · exact isUnsigned_int h
      · cases h
    | uint x =>
      simp only [binary, shl] at h
      split at h
      · cases h
        rfl
      · cases h
  | shr =>
    simp only [isUnsigned]
    rw [← ha]
    cases a with
    | int x =>
      simp only [binary, shr] at h
      split at h
      · exact isUnsigned_int h
      · cases h
    | uint x =>
      simp only [binary, shr] at h
      split at h
      · cases h
        rfl
      · cases h
  | ge => exact keyc h
  | le => exact keyc h
  | gt => exact keyc h
  | lt => exact keyc h
  | eq => exact keyc h
  | ne => exact keyc h
  | land => cases h; rfl
  | lor => cases h; rfl

/-- Without short-circuiting: if both operands are defined, the order does not matter. -/
theorem eval_bin {env : Nat → Bool} {o : BinOp} {a b : Expr} {z : Val} (h : eval env (.bin o a b) = some z)
    (hs : (o = .land ∨ o = .lor) → eval env b ≠ none) :
    ∃ x y, eval env a = some x ∧ eval env b = some y ∧ binary o x y = some z := by
  have gen : (eval env a).bind (fun x => (eval env b).bind fun y => binary o x y) = some z →
      ∃ x y, eval env a = some x ∧ eval env b = some y ∧ binary o x y = some z := by
    intro h
    cases ha : eval env a with
    | none => rw [ha] at h; cases h
    | some x =>
      rw [ha] at h
      cases hb : eval env b with
      | none => rw [hb] at h; cases h
      | some y =>
        rw [hb] at h
        exact ⟨x, y, rfl, rfl, h⟩
  cases o with
  | land =>
    simp only [eval] at h
    cases ha : eval env a with
    | none => rw [ha] at h; cases h
    | some x =>
      rw [ha] at h
      cases hb : eval env b with
      | none => exact absurd hb (hs (.inl rfl))
      | some y =>
        rw [hb] at h
        refine ⟨x, y, rfl, rfl, ?_⟩
        simp only [Option.bind_some, Option.map_some] at h
        simp only [binary]
        cases hx : x.truth <;> simp [hx] at h ⊢ <;> exact h
  | lor =>
    simp only [eval] at h
    cases ha : eval env a with
    | none => rw [ha] at h; cases h
    | some x =>
      rw [ha] at h
      cases hb : eval env b with
      | none => exact absurd hb (hs (.inr rfl))
      | some y =>
        rw [hb] at h
        refine ⟨x, y, rfl, rfl, ?_⟩
        simp only [Option.bind_some, Option.map_some] at h
        simp only [binary]
        cases hx : x.truth <;> simp [hx] at h ⊢ <;> exact h
  | _ => exact gen h

theorem tree_good (env : Nat → Bool) : ∀ (e : Expr) (z : Val), Plain env e → eval env e = some z →
    Good (treeValue env e) z ∧ z.isUnsigned = isUnsigned e := by
  intro e
  induction e with
  | num v u =>
    intro z hp h
    simp only [eval] at h
    cases h
    have hv := v.isLt
    simp only [treeValue, isUnsigned]
    by_cases hu : u = true
    · subst hu
      refine ⟨⟨?_, hv⟩, rfl⟩
      simp only [Bool.true_or, if_true, repr, BitVec.ofNat_toNat, BitVec.setWidth_eq]
      rfl
    · have hu : u = false := by simpa using hu
      subst hu
      have hne : v.toNat ≠ 2^63 - 1 := by
        rcases hp with h | h
        · cases h
        · exact h
      by_cases hb : v.toNat ≥ 2^63
      · have e1 : decide (v.toNat ≥ 2^63) = true := decide_eq_true hb
        have e2 : decide (v.toNat < 2^63 - 1) = false := decide_eq_false (by omega)
        rw [e1, e2]
        refine ⟨⟨?_, hv⟩, rfl⟩
        simp only [Bool.false_or, if_true, repr, BitVec.ofNat_toNat, BitVec.setWidth_eq]
        rfl
      · have e1 : decide (v.toNat ≥ 2^63) = false := decide_eq_false hb
        have e2 : decide (v.toNat < 2^63 - 1) = true := decide_eq_true (by omega)
        rw [e1, e2]
        refine ⟨⟨?_, ⟨show (-2^63 : Int) ≤ (v.toNat : Int) by omega, show ((v.toNat : Nat) : Int) < 2^63 by omega⟩⟩, rfl⟩
        simp only [Bool.false_or, Bool.false_eq_true, if_false, repr]
        show ok v false = .ok ⟨BitVec.ofInt 64 (v.toNat : Int), false⟩
        rw [BitVec.ofInt_natCast, BitVec.ofNat_toNat, BitVec.setWidth_eq]
        rfl
  | name n =>
    intro z _ h
    cases h
    exact ⟨⟨rfl, by decide, by decide⟩, rfl⟩
  | defined n =>
    intro z _ h
    cases h
    exact ⟨⟨flag_ofBool (env n), inRange_ofBool _⟩, rfl⟩
  | not a ih =>
    intro z hp h
    obtain ⟨hpa, hs⟩ := hp
    simp only [eval] at h
    cases ha : eval env a with
    | none => rw [ha] at h; cases h
    | some x =>
      rw [ha] at h
      cases h
      obtain ⟨⟨hg, hr⟩, ht⟩ := ih x hpa ha
      refine ⟨⟨?_, inRange_ofBool _⟩, rfl⟩
      simp only [treeValue]
      rw [hg]
      simp only [Res.bind, prefixOp]
      rw [isUnsigned_repr, ht, hs]
      cases hx : x.truth with
      | true => rw [if_neg ((truth_repr hr).2 hx)]; rfl
      | false =>
        have : (repr x).value = 0 := by
          apply Classical.byContradiction
          intro hc
          rw [(truth_repr hr).1 hc] at hx
          cases hx
        rw [if_pos this]
        rfl
  | compl a ih =>
    intro z hp h
    simp only [eval] at h
    cases ha : eval env a with
    | none => rw [ha] at h; cases h
    | some x =>
      rw [ha] at h
      obtain ⟨⟨hg, hr⟩, ht⟩ := ih x hp ha
      simp only [treeValue, isUnsigned]
      rw [hg, ← ht]
      cases x with
      | int x =>
        cases h
        refine ⟨⟨?_, ?_⟩, rfl⟩
        · simp only [Res.bind, prefixOp, repr]
          have : ~~~ BitVec.ofInt 64 x = BitVec.ofInt 64 (-x - 1) := by
            apply BitVec.eq_of_toInt_eq
            unfold InRange at hr
            rw [BitVec.toInt_not, toInt_ofInt (by omega), BitVec.toNat_ofInt, Int.bmod_def]
            split <;> omega
          rw [this]
          rfl
        · unfold InRange at *
          simp only at *
          omega
      | uint x =>
        cases h
        refine ⟨good_uint ?_, rfl⟩
        simp only [repr]
        apply BitVec.eq_of_toNat_eq
        have hx : x < 2^64 := hr
        rw [BitVec.toNat_not, BitVec.toNat_ofNat, BitVec.toNat_ofInt]
        omega
  | neg a ih =>
    intro z hp h
    obtain ⟨hpa, hne⟩ := hp
    simp only [eval] at h
    cases ha : eval env a with
    | none => rw [ha] at h; cases h
    | some x =>
      rw [ha] at h hne
      obtain ⟨⟨hg, hr⟩, ht⟩ := ih x hpa ha
      simp only [treeValue, isUnsigned]
      rw [hg, ← ht]
      cases x with
      | int x =>
        simp only [Option.bind_some] at h
        obtain ⟨rfl, hr'⟩ := int_some h
        refine ⟨⟨?_, hr'⟩, rfl⟩
        simp only [Res.bind, prefixOp]
        have hn : ¬ (repr (.int x)).value = BitVec.intMin 64 := by
          intro hc
          have := congrArg BitVec.toInt hc
          simp only [repr] at this
          rw [toInt_ofInt hr] at this
          have h2 : x = -2^63 := this
          unfold InRange at hr'
          simp only at hr'
          omega
        rw [if_neg hn]
        simp only [repr]
        rw [BitVec.ofInt_neg]
        rfl
      | uint x =>
        simp only [Option.bind_some] at h
        cases h
        have hx : x < 2^64 := hr
        have hn : ¬ (repr (.uint x)).value = BitVec.intMin 64 := by
          intro hc
          have := congrArg BitVec.toNat hc
          rw [toNat_repr hr] at this
          have h2 : x = 2^63 := this
          subst h2
          exact hne rfl
        simp only [Res.bind, prefixOp]
        rw [if_neg hn]
        refine ⟨good_uint ?_, rfl⟩
        rw [value_repr hr, BitVec.ofInt_neg]
        rfl
  | pos a ih => exact fun z hp h => ih z hp h
  | bin o a b iha ihb =>
    intro z hp h
    obtain ⟨hpa, hpb, hsh, hsc⟩ := hp
    obtain ⟨x, y, ha, hb, hz⟩ := eval_bin h hsc
    obtain ⟨⟨hga, hra⟩, hta⟩ := iha x hpa ha
    obtain ⟨⟨hgb, hrb⟩, htb⟩ := ihb y hpb hb
    refine ⟨?_, binary_type hta htb hz⟩
    simp only [treeValue]
    rw [hga, hgb]
    exact binary_good o hra hrb hz (fun ho => by rw [hta, htb]; exact hsh ho)
  | cond c a b ihc iha ihb =>
    intro z hp h
    obtain ⟨hpc, hpa, hpb, hab, hda, hdb⟩ := hp
    simp only [eval] at h
    cases hc : eval env c with
    | none => rw [hc] at h; cases h
    | some w =>
      cases ha : eval env a with
      | none => exact absurd ha hda
      | some x =>
        cases hb : eval env b with
        | none => exact absurd hb hdb
        | some y =>
          obtain ⟨⟨hgc, hrc⟩, _⟩ := ihc w hpc hc
          obtain ⟨⟨hga, hra⟩, hta⟩ := iha x hpa ha
          obtain ⟨⟨hgb, hrb⟩, htb⟩ := ihb y hpb hb
          rw [hc, ha, hb] at h
          simp only [Option.bind_some] at h
          have conv : ∀ {v : Val}, v.isUnsigned = isUnsigned b → convert (isUnsigned a || isUnsigned b) v = v := by
            intro v hv
            rw [hab, Bool.or_self, ← hv]
            cases v <;> rfl
          simp only [treeValue, isUnsigned]
          rw [hgc, hga, hgb]
          simp only [Res.bind]
          rw [isUnsigned_repr]
          cases hw : w.truth with
          | true =>
            rw [hw] at h
            simp only [if_true, Option.map_some] at h
            rw [conv (hta.trans hab)] at h
            cases h
            rw [if_pos ((truth_repr hrc).2 hw), htb, ← hab, ← hta, Bool.or_self]
            refine ⟨⟨?_, hra⟩, rfl⟩
            rw [← isUnsigned_repr]
            rfl
          | false =>
            rw [hw] at h
            simp only [Bool.false_eq_true, if_false, Option.map_some] at h
            rw [conv htb] at h
            cases h
            have : ¬ (repr w).value ≠ 0 := by
              intro hcon
              rw [(truth_repr hrc).1 hcon] at hw
              cases hw
            rw [if_neg this, hab, ← htb, Bool.or_self]
            refine ⟨⟨?_, hrb⟩, rfl⟩
            rw [← isUnsigned_repr]
            rfl

/-- **C08** (partial): the evaluator returns the value C11 6.10.1 gives the expression, on 64-bit
`intmax_t` and `uintmax_t`. What is missing are the expressions that are not `Plain`; see the witnesses
below. -/
theorem C08_value_partial (env : Nat → Bool) (e : Expr) (ts : List Tok) (z : Val) (k : Nat) (h : Nests k .conditional e ts) (hk : k ≤ 1023)
    (hp : Plain env e) (he : eval env e = some z) : evaluate env ts = some (.ok (repr z)) := by
  rw [C07_structure env k e ts h hk, (tree_good env e z hp he).1.1]

/-- The hypotheses are met: `(-3 + 1) / 2 < 0 && 1u` -/
example : Derives .conditional (.bin .land (.bin .lt (.bin .div (.bin .add (.neg (enum 3)) (enum 1)) (enum 2)) (enum 0)) (.num 1 true))
    [.lpar, .op .sub, tnum 3, .op .add, tnum 1, .rpar, .op .div, tnum 2, .op .lt, tnum 0, .op .land, .num 1 true] :=
  (Derives.bin .land ((Derives.bin .lt ((Derives.bin .div ((Derives.paren ((Derives.bin .add ((Derives.neg (dnum 3 _ _)).up _ (by decide))
    (dnum 1 _ _)).up _ (by decide))).up _ (by decide)) (dnum 2 _ _)).up _ (by decide)) (dnum 0 _ _)).up _ (by decide)) (dnum 1 true _)).up _ (by decide)

example : Plain (fun _ => false) (.bin .land (.bin .lt (.bin .div (.bin .add (.neg (enum 3)) (enum 1)) (enum 2)) (enum 0)) (.num 1 true)) := by
  simp [Plain, eval, enum]

example : eval (fun _ => false) (.bin .land (.bin .lt (.bin .div (.bin .add (.neg (enum 3)) (enum 1)) (enum 2)) (enum 0)) (.num 1 true)) =
    some (.int 1) := by decide

/-- **C08** (partial): the group is taken exactly if the value of the expression is not zero. -/
theorem C08_taken_partial (env : Nat → Bool) (e : Expr) (ts : List Tok) (z : Val) (k : Nat) (h : Nests k .conditional e ts) (hk : k ≤ 1023)
    (hp : Plain env e) (he : eval env e = some z) :
    ∃ v, evaluate env ts = some (.ok v) ∧ (v.value ≠ 0 ↔ z.truth = true) :=
  ⟨repr z, C08_value_partial env e ts z k h hk hp he, truth_repr (tree_good env e z hp he).1.2⟩

/-! ## Where the evaluator deviates

In each case the tokens are a conditional expression with a defined value, and the evaluator decides
otherwise. -/

/-- The evaluator takes the group and C does not, or the other way round, or it reports an error. -/
def Deviates (env : Nat → Bool) (ts : List Tok) : Prop :=
  ∃ e z, Derives .conditional e ts ∧ eval env e = some z ∧ ∀ v, evaluate env ts = some (.ok v) → ¬ (v.value ≠ 0 ↔ z.truth = true)

theorem deviates {env : Nat → Bool} {ts : List Tok} {e : Expr} {z : Val} {r : Res} (hd : Derives .conditional e ts) (he : eval env e = some z)
    (hr : evaluate env ts = some r) (h : ∀ v, r = .ok v → ¬ (v.value ≠ 0 ↔ z.truth = true)) : Deviates env ts :=
  ⟨e, z, hd, he, fun v hv => h v (by rw [hr] at hv; exact Option.some.inj hv)⟩

/-- `!0u - 2 < 0`: the result of `!` is signed, the evaluator keeps the type of the operand. -/
theorem C08_not_keeps_type (env : Nat → Bool) : Deviates env [.bang, .num 0 true, .op .sub, tnum 2, .op .lt, tnum 0] :=
  deviates (e := .bin .lt (.bin .sub (.not (.num 0 true)) (enum 2)) (enum 0)) (z := .int 1) (r := ok 0 false)
    ((Derives.bin .lt ((Derives.bin .sub ((Derives.not (dnum 0 true _)).up _ (by decide)) (dnum 2 _ _)).up _ (by decide)) (dnum 0 _ _)).up _ (by decide))
    rfl rfl (fun v h => by cases h; decide)

/-- `9223372036854775807 > -1`: the largest signed number is taken for an unsigned one. -/
theorem C08_largest_is_unsigned (env : Nat → Bool) : Deviates env [tnum 0x7fffffffffffffff, .op .gt, .op .sub, tnum 1] :=
  deviates (e := .bin .gt (enum 0x7fffffffffffffff) (.neg (enum 1))) (z := .int 1) (r := ok 0 false)
    ((Derives.bin .gt (dnum _ _ _) ((Derives.neg (dnum 1 _ _)).up _ (by decide))).up _ (by decide))
    rfl rfl (fun v h => by cases h; decide)

/-- `-1 >> 1u < 0`: the type of a shift is that of its left operand. -/
theorem C08_shift_count_changes_type (env : Nat → Bool) : Deviates env [.op .sub, tnum 1, .op .shr, .num 1 true, .op .lt, tnum 0] :=
  deviates (e := .bin .lt (.bin .shr (.neg (enum 1)) (.num 1 true)) (enum 0)) (z := .int 1) (r := ok 0 false)
    ((Derives.bin .lt ((Derives.bin .shr ((Derives.neg (dnum 1 _ _)).up _ (by decide)) (dnum 1 true _)).up _ (by decide)) (dnum 0 _ _)).up _ (by decide))
    rfl rfl (fun v h => by cases h; decide)

/-- `(1 ? 0u : 0) - 1 < 0`: the type of `?:` is that of both operands, the evaluator takes the last one. -/
theorem C08_conditional_type (env : Nat → Bool) :
    Deviates env [.lpar, tnum 1, .question, .num 0 true, .colon, tnum 0, .rpar, .op .sub, tnum 1, .op .lt, tnum 0] :=
  deviates (e := .bin .lt (.bin .sub (.cond (enum 1) (.num 0 true) (enum 0)) (enum 1)) (enum 0)) (z := .int 0) (r := ok 1 false)
    ((Derives.bin .lt ((Derives.bin .sub ((Derives.paren (.cond (dnum 1 _ _) (dnum 0 true _) (dnum 0 _ _))).up _ (by decide)) (dnum 1 _ _)).up _ (by decide))
      (dnum 0 _ _)).up _ (by decide))
    rfl rfl (fun v h => by cases h; decide)

/-- `1 || 1 / 0`: the division is not evaluated in C, but it is an error here. -/
theorem C08_unevaluated_division (env : Nat → Bool) : Deviates env [tnum 1, .op .lor, tnum 1, .op .div, tnum 0] :=
  deviates (e := .bin .lor (enum 1) (.bin .div (enum 1) (enum 0))) (z := .int 1) (r := .error)
    ((Derives.bin .lor (dnum 1 _ _) ((Derives.bin .div (dnum 1 _ _) (dnum 0 _ _)).up _ (by decide))).up _ (by decide))
    rfl rfl (fun v h => by cases h)

end Verif.IfExpr
