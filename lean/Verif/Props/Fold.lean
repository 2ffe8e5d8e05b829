import Verif.Lemmas.Fold
import Verif.Props.IntType

/-!
# C16: constant folding of integer operators, C18 (compile time part): literal casts
-/
namespace Verif.Props.Fold
open Verif.IntType Verif.Spec.IntType Verif.Fold Verif.Spec.Fold Verif.Lemmas.Fold

/-- `l` and `r` are literals with some values, `c` is their common type (6.3.1.8), and `x`, `y`
are the values converted to it. -/
def Operands (l r : Lit) (c : Ty) (x y : Int) : Prop :=
  ∃ v w, Represents l v ∧ Represents r w ∧ Fits l ∧ Common l.ty r.ty c ∧ Converts c v x ∧ Converts c w y

theorem fold_operands {l r : Lit} {c : Ty} {x y : Int} (h : Operands l r c x y) (op : Tok) :
    (c = .s32 ∨ c = .u32 ∨ c = .s64 ∨ c = .u64) ∧ InRange c x ∧ InRange c y ∧
    fold op l r = (match operate c op l.payload x y with
      | none => .hostUB
      | some none => .error
      | some (some p) => .ok { ty := if op.isCompare then .s32 else c, payload := p }) := by
  obtain ⟨v, w, hl, hr, hf, hc, hx, hy⟩ := h
  have hu := (Props.IntType.C15_common_type _ _ _).2 hc
  obtain ⟨hcc, hb1, hb2⟩ := common_big hl.1 hr.1 hu
  have hi : isInteger c := by rcases hcc with rfl | rfl | rfl | rfl <;> trivial
  have hnb : c ≠ .bool := by rcases hcc with rfl | rfl | rfl | rfl <;> decide
  refine ⟨hcc, converts_range hnb hx, converts_range hnb hy, ?_⟩
  simp only [fold, hu, as_eq hi hnb hl hx hb1, as_eq hi hnb hr hy hb2]
  rcases operate c op l.payload x y with _ | _ | _ <;> rfl

/-- C16, arithmetic with a signed common type: if the mathematical result of `*`, `/`, `%`,
`+`, `-` on the converted operands is a value of the common type, folding yields exactly it, with
that type. (For `/` and `%` this includes truncation toward zero.) For `%` C additionally
requires the quotient to be representable. -/
theorem C16_signed_arithmetic (op : Op) (l r : Lit) (c : Ty) (x y z : Int)
    (h : Operands l r c x y) (hop : isCompare op = false) (hc : signed c)
    (hz : exact op x y = some z) (hr : InRange c z)
    (hq : op = .mod → InRange c (x.tdiv y)) : Yields (fold (tokOf op) l r) c z := by
  obtain ⟨hcc, hx, hy, hf⟩ := fold_operands h (tokOf op)
  have hi : isInteger c := by rcases hcc with rfl | rfl | rfl | rfl <;> trivial
  rw [hf]
  have key : operate c (tokOf op) l.payload x y = some (some (wr c.bits l.payload z)) := by
    cases op <;> simp only [exact, Option.some.injEq, isCompare, Bool.true_eq_false] at hz hop <;>
      simp only [operate, tokOf]
    case mul => subst hz; simp [hostArith_signed hc hr]
    case add => subst hz; simp [hostArith_signed hc hr]
    case sub => subst hz; simp [hostArith_signed hc hr]
    case div =>
      split at hz
      · cases hz
      · cases hz; simp [*, hostArith_signed hc hr]
    case mod =>
      split at hz
      · cases hz
      · cases hz
        rename_i hy0
        have hm : x.tmod y = x - x.tdiv y * y := by
          rw [Int.tmod_def, Int.mul_comm]
        simp [hy0, hm, hostArith_signed hc hr, hostArith_signed hc (hq rfl)]
  rw [key]
  refine ⟨_, rfl, ?_, ?_⟩
  · cases op <;> first | rfl | cases hop
  · have : (tokOf op).isCompare = false := by cases op <;> first | rfl | cases hop
    simp only [this]
    exact write_represents hi _ hr

/-- C16, arithmetic with an unsigned common type: the result is the mathematical result reduced
modulo 2^n; there is no other case than a zero divisor. -/
theorem C16_unsigned_arithmetic (op : Op) (l r : Lit) (c : Ty) (x y z w : Int)
    (h : Operands l r c x y) (hop : isCompare op = false) (hc : ¬ signed c)
    (hz : exact op x y = some z) (hw : Converts c z w) : Yields (fold (tokOf op) l r) c w := by
  obtain ⟨hcc, hx, hy, hf⟩ := fold_operands h (tokOf op)
  have hi : isInteger c := by rcases hcc with rfl | rfl | rfl | rfl <;> trivial
  have hnb : c ≠ .bool := by rcases hcc with rfl | rfl | rfl | rfl <;> decide
  rw [hf]
  have key : operate c (tokOf op) l.payload x y = some (some (wr c.bits l.payload w)) := by
    cases op <;> simp only [exact, Option.some.injEq, isCompare, Bool.true_eq_false] at hz hop <;>
      simp only [operate, tokOf]
    case mul => subst hz; simp [hostArith_unsigned hi hnb hc hw]
    case add => subst hz; simp [hostArith_unsigned hi hnb hc hw]
    case sub => subst hz; simp [hostArith_unsigned hi hnb hc hw]
    case div =>
      split at hz
      · cases hz
      · cases hz; simp [*, hostArith_unsigned hi hnb hc hw]
    case mod =>
      split at hz
      · cases hz
      · cases hz
        rename_i hy0
        have hm : x.tmod y = x - x.tdiv y * y := by
          rw [Int.tmod_def, Int.mul_comm]
        simp [hy0, hm, hostArith_unsigned hi hnb hc hw, hostArith_unsigned hi hnb hc (hostConv_converts hi hnb (x.tdiv y))]
  rw [key]
  refine ⟨_, rfl, ?_, ?_⟩
  · cases op <;> first | rfl | cases hop
  · have : (tokOf op).isCompare = false := by cases op <;> first | rfl | cases hop
    simp only [this]
    exact write_represents hi _ (converts_range hnb hw)

/-- C16, comparisons: the result is an `int`, 1 if the relation holds between the converted
operands and 0 otherwise. -/
theorem C16_compare (op : Op) (l r : Lit) (c : Ty) (x y z : Int)
    (h : Operands l r c x y) (hop : isCompare op = true) (hz : exact op x y = some z) :
    Yields (fold (tokOf op) l r) .s32 z := by
  obtain ⟨hcc, hx, hy, hf⟩ := fold_operands h (tokOf op)
  have hfit : l.payload < 2 ^ 64 := by obtain ⟨_, _, _, _, hf, _⟩ := h; exact hf
  rw [hf]
  have hz01 : z = 0 ∨ z = 1 := by
    cases op <;> simp only [exact, Option.some.injEq, isCompare, Bool.false_eq_true] at hz hop <;> omega
  have key : operate c (tokOf op) l.payload x y = some (some (wr 64 l.payload z)) := by
    cases op <;> simp only [exact, Option.some.injEq, isCompare, Bool.false_eq_true] at hz hop <;>
      simp only [operate, tokOf] <;> subst hz <;> simp
  rw [key]
  refine ⟨_, rfl, ?_, ?_⟩
  · cases op <;> first | rfl | cases hop
  · have : (tokOf op).isCompare = true := by cases op <;> first | rfl | cases hop
    simp only [this, if_true]
    refine write64_represents (t := .s32) trivial hfit ?_ (by simp)
    rcases hz01 with rfl | rfl <;> decide

/-- C16: a zero divisor is an error, and nothing else is: division and remainder report an
error exactly if the converted right operand is 0, the other operators never do. -/
theorem C16_error_iff (op : Op) (l r : Lit) (c : Ty) (x y : Int) (h : Operands l r c x y) :
    fold (tokOf op) l r = .error ↔ (op = .div ∨ op = .mod) ∧ y = 0 := by
  obtain ⟨hcc, hx, hy, hf⟩ := fold_operands h (tokOf op)
  rw [hf]
  by_cases hy0 : y = 0
  · cases op <;> simp [operate, tokOf, hy0] <;>
      first | done | (cases hostArith c _ <;> simp)
  · cases op <;> simp [operate, tokOf, hy0] <;>
      first | done | (cases hostArith c _ <;> simp; done) | (cases hostArith c (x.tdiv y) <;> simp <;> cases hostArith c (x.tmod y) <;> simp)

/-- The converted right operand is 0 exactly if the literal is (so `x / 0` is an error whatever
the types). -/
theorem C16_zero_divisor (op : Op) (hop : op = .div ∨ op = .mod) (l r : Lit) (v : Int)
    (hl : Represents l v) (hf : Fits l) (hr : Represents r 0) :
    fold (tokOf op) l r = .error := by
  obtain ⟨c, hc⟩ := (Props.IntType.C15_total_and_symmetric l.ty r.ty).1
  obtain ⟨hcc, _⟩ := common_big hl.1 hr.1 hc
  have hi : isInteger c := by rcases hcc with rfl | rfl | rfl | rfl <;> trivial
  have hnb : c ≠ .bool := by rcases hcc with rfl | rfl | rfl | rfl <;> decide
  refine (C16_error_iff op l r c (hostConv c.bits c.isSigned v) 0 ⟨v, 0, hl, hr, hf,
    (Props.IntType.C15_common_type _ _ _).1 hc, hostConv_converts hi hnb v, ?_⟩).2 ⟨hop, rfl⟩
  rcases hcc with rfl | rfl | rfl | rfl <;> decide

/-- C16: the compiler itself only runs into undefined behaviour where the C program has
it too: a signed result (or, for `%`, quotient) out of range. -/
theorem C16_host_ub_only_if_source_ub (op : Op) (l r : Lit) (c : Ty) (x y : Int)
    (h : Operands l r c x y) (hub : fold (tokOf op) l r = .hostUB) :
    signed c ∧ isCompare op = false ∧
      ((∃ z, exact op x y = some z ∧ ¬ InRange c z) ∨ op = .mod ∧ y ≠ 0 ∧ ¬ InRange c (x.tdiv y)) := by
  obtain ⟨hcc, hx, hy, hf⟩ := fold_operands h (tokOf op)
  have hi : isInteger c := by rcases hcc with rfl | rfl | rfl | rfl <;> trivial
  have hnb : c ≠ .bool := by rcases hcc with rfl | rfl | rfl | rfl <;> decide
  by_cases hcmp : isCompare op = true
  · obtain ⟨z, hz⟩ : ∃ z, exact op x y = some z := by cases op <;> first | exact ⟨_, rfl⟩ | cases hcmp
    obtain ⟨l, hl, _⟩ := C16_compare op l r c x y z h hcmp hz
    rw [hl] at hub; cases hub
  · have hcmp : isCompare op = false := by simpa using hcmp
    by_cases hs : signed c
    · refine ⟨hs, hcmp, ?_⟩
      by_cases hy0 : (op = .div ∨ op = .mod) ∧ y = 0
      · rw [(C16_error_iff op l r c x y h).2 hy0] at hub; cases hub
      · obtain ⟨z, hz⟩ : ∃ z, exact op x y = some z := by
          cases op <;> simp [exact] at hy0 ⊢ <;> simp [hy0]
        by_cases hr : InRange c z
        · by_cases hq : op = .mod → InRange c (x.tdiv y)
          · obtain ⟨l, hl, _⟩ := C16_signed_arithmetic op l r c x y z h hcmp hs hz hr hq
            rw [hl] at hub; cases hub
          · right
            rw [Classical.not_imp] at hq
            exact ⟨hq.1, fun h0 => hy0 ⟨Or.inr hq.1, h0⟩, hq.2⟩
        · exact Or.inl ⟨z, hz, hr⟩
    · exfalso
      by_cases hy0 : (op = .div ∨ op = .mod) ∧ y = 0
      · rw [(C16_error_iff op l r c x y h).2 hy0] at hub; cases hub
      · obtain ⟨z, hz⟩ : ∃ z, exact op x y = some z := by
          cases op <;> simp [exact] at hy0 ⊢ <;> simp [hy0]
        obtain ⟨l, hl, _⟩ := C16_unsigned_arithmetic op l r c x y z _ h hcmp hs hz (hostConv_converts hi hnb z)
        rw [hl] at hub; cases hub

-- -7 / 2 = -3 and -7 % 2 = -1 in int, 1u - 2 = UINT_MAX, -1 < 1u is 0
example : Operands ⟨.s32, 0xfffffff9⟩ ⟨.s32, 2⟩ .s32 (-7) 2 := ⟨-7, 2, by decide, by decide, by simp [Fits], by decide, by decide, by decide⟩
example : fold .slash ⟨.s32, 0xfffffff9⟩ ⟨.s32, 2⟩ = .ok ⟨.s32, 0xfffffffd⟩ := by decide
example : Operands ⟨.u32, 1⟩ ⟨.s8, 0xfe⟩ .u32 1 4294967294 := ⟨1, -2, by decide, by decide, by simp [Fits], by decide, by decide, by decide⟩
example : fold .plus ⟨.u32, 1⟩ ⟨.s8, 0xfe⟩ = .ok ⟨.u32, 0xffffffff⟩ := by decide
example : fold .smaller ⟨.s32, 0xffffffff⟩ ⟨.u32, 1⟩ = .ok ⟨.s32, 0⟩ := by decide

/-- Finding (C16): `INT_MIN / -1` and `INT_MIN % -1` make the compiler execute an overflowing
host division (a trap on x64) instead of reporting an error. -/
theorem C16_min_div_minus_one_host_ub :
    fold .slash ⟨.s32, 0x80000000⟩ ⟨.s32, 0xffffffff⟩ = .hostUB ∧
    fold .mod ⟨.s64, 0x8000000000000000⟩ ⟨.s64, 0xffffffffffffffff⟩ = .hostUB := by decide

/-- Finding (C16): although `-2147483647 - 1` is a valid `int`, computing its "defined type"
negates `INT_MIN` in the host. -/
theorem C16_min_result_host_overflow :
    fold .minus ⟨.s32, 0x80000001⟩ ⟨.s32, 1⟩ = .ok ⟨.s32, 0x80000000⟩ ∧
    magnitudeOverflows .s32 0x80000000 = true := by decide

/-! ## Casts of literals -/

theorem castLit_bool {l : Lit} (h : l.ty ≠ .bool) :
    castLit .bool l = { ty := .bool, payload := wr 8 l.payload (if hostConv 64 false l.get = 0 then 0 else 1) } := by
  simp [castLit, Ne.symm h]

theorem castLit_other {l : Lit} {t : Ty} (h : t ≠ l.ty) (hb : t ≠ .bool) :
    castLit t l = { ty := t, payload := wr 64 l.payload (hostConv 64 t.isSigned l.get) } := by
  cases t <;> simp_all [castLit]

/-- C18, compile time: casting an integer literal with value `v` to any integer type `t` gives a
literal of type `t` whose value is `v` converted to `t` (modulo 2^n for the sized types, 0 or
1 for `_Bool`). -/
theorem C18_literal_cast (t : Ty) (ht : isInteger t) (l : Lit) (v w : Int) (hl : Represents l v) (hf : Fits l)
    (hw : Converts t v w) : (castLit t l).ty = t ∧ Represents (castLit t l) w := by
  have hg := get_eq hl
  by_cases hsame : t = l.ty
  · have he : castLit t l = l := by simp [castLit, hsame]
    refine ⟨by rw [he, hsame], ?_⟩
    rw [he]
    have : v = w := by
      obtain ⟨hi, hr, _⟩ := hl
      subst hsame
      cases hty : l.ty <;> rw [hty] at hw hr hi <;> first | exact absurd hi id |
        (simp [Converts, InRange, minVal, maxVal] at hw hr; first | omega | (split at hw <;> omega))
    rw [← this]; exact hl
  · by_cases hb : t = .bool
    · subst hb
      rw [castLit_bool (Ne.symm hsame), hg]
      have hv : hostConv 64 false v = 0 ↔ v = 0 := by
        obtain ⟨hi, hr, _⟩ := hl
        cases hty : l.ty <;> rw [hty] at hr hi <;> first | exact absurd hi id |
          (simp [InRange, minVal, maxVal] at hr; simp [hostConv, rd]; omega)
      simp only [Converts, if_true] at hw
      simp only [hv, ← hw]
      refine ⟨trivial, write_represents (t := .bool) trivial _ ?_⟩
      split at hw <;> subst hw <;> decide
    · rw [castLit_other hsame hb, hg]
      refine ⟨rfl, write64_represents ht hf (converts_range hb hw) ?_⟩
      simp only [Converts, if_neg hb] at hw
      cases t <;> first | exact absurd ht id | exact absurd rfl hb |
        (simp [hostConv, rd, InRange, minVal, maxVal, Ty.bits, Ty.isSigned] at *
         try split
         all_goals omega)

example : castLit .s8 ⟨.u32, 0x1ff⟩ = ⟨.s8, 0x1ff⟩ ∧ (castLit .s8 ⟨.u32, 0x1ff⟩).get = -1 ∧
    castLit .bool ⟨.s32, 0x100⟩ = ⟨.bool, 0x101⟩ := by decide
example : Represents ⟨.u32, 0x1ff⟩ 511 ∧ Converts .s8 511 (-1) := by decide

/-! ## Unary operators -/

theorem promoteLit_represents {l : Lit} {v : Int} (hl : Represents l v) (hf : Fits l) :
    (promoteLit l).ty = promoted l.ty ∧ Represents (promoteLit l) v ∧ Fits (promoteLit l) := by
  have hg := get_eq hl
  obtain ⟨ty, p⟩ := l
  obtain ⟨hi, hr, hd⟩ := hl
  simp only [Fits] at hf
  cases ty <;> first | exact absurd hi id |
    (refine ⟨rfl, ⟨trivial, ?_, ?_⟩, ?_⟩ <;>
      simp [promoteLit, Ty.bits, hg, InRange, minVal, maxVal, hostConv, rd, wr, Fits] at * <;> 
      first | omega | (split <;> omega) | skip)

/-- C16: unary `+` gives the operand with its promoted type. -/
theorem C16_unary_plus (l : Lit) (v : Int) (hl : Represents l v) (hf : Fits l) :
    Yields (foldPlus l) (promoted l.ty) v :=
  ⟨_, rfl, (promoteLit_represents hl hf).1, (promoteLit_represents hl hf).2.1⟩

/-- C16: `~` gives the bitwise complement of the promoted operand: `-v-1`, reduced modulo 2^n
if the promoted type is unsigned. -/
theorem C16_bitwise_not (l : Lit) (v w : Int) (hl : Represents l v) (hf : Fits l)
    (hw : Converts (promoted l.ty) (-v - 1) w) : Yields (foldNot l) (promoted l.ty) w := by
  obtain ⟨hty, hr, hfit⟩ := promoteLit_represents hl hf
  refine ⟨_, rfl, hty, ?_⟩
  simp only [Fits] at hfit
  generalize promoteLit l = q at *
  obtain ⟨ty, p⟩ := q
  obtain ⟨hi, hr, hd⟩ := hr
  have hlt : promoted l.ty = .s32 ∨ promoted l.ty = .u32 ∨ promoted l.ty = .s64 ∨ promoted l.ty = .u64 := by
    have := hl.1
    cases hh : l.ty <;> rw [hh] at this <;> first | exact absurd this id | decide
  rw [← hty] at hlt hw
  simp only at hlt hw hr hi hd hfit ⊢
  rcases hlt with rfl | rfl | rfl | rfl <;>
    (simp [Represents, Converts, isInteger, InRange, minVal, maxVal, Ty.bits] at *; omega)

/-- C16: `!` gives the `int` 1 for a zero operand and 0 otherwise. -/
theorem C16_logical_not (l : Lit) (v : Int) (hl : Represents l v) :
    Yields (foldLogicalNot l) .s32 (if v = 0 then 1 else 0) := by
  refine ⟨_, rfl, rfl, ?_⟩
  rw [get_eq hl]
  have hv : hostConv 64 false v = 0 ↔ v = 0 := by
    obtain ⟨hi, hr, _⟩ := hl
    cases hty : l.ty <;> rw [hty] at hr hi <;> first | exact absurd hi id |
      (simp [InRange, minVal, maxVal] at hr; simp [hostConv, rd]; omega)
  simp only [hv]
  split <;> decide

theorem neg_store {n p : Nat} {v w : Int} (h1 : (2 ^ n : Int) ∣ p - v) (h2 : (2 ^ n : Int) ∣ w - -v) :
    (2 ^ n : Int) ∣ (wr n p (-rd n true p) : Int) - w := by
  have e1 := wr_dvd n p (-rd n true p)
  have e2 := rd_dvd n true p
  have := Int.dvd_sub (Int.dvd_sub (Int.dvd_sub e1 e2) h1) h2
  have e : ((wr n p (-rd n true p) : Int) - -rd n true p - (rd n true p - p) - (p - v) - (w - -v)) =
    (wr n p (-rd n true p) : Int) - w := by omega
  rwa [e] at this

/-- C16: unary `-` gives the negated value, modulo 2^n for an unsigned promoted type, whenever
the value is not the one half of the range: the negation is done in the signed host type, so
2^(n-1) (valid in C for unsigned operands) is undefined behaviour in the compiler. -/
theorem C16_negate_partial (l : Lit) (v w : Int) (hl : Represents l v) (hf : Fits l)
    (hw : Converts (promoted l.ty) (-v) w) (hne : v ≠ 2 ^ ((promoted l.ty).bits - 1) ∧ v ≠ -2 ^ ((promoted l.ty).bits - 1)) :
    Yields (foldNegate l) (promoted l.ty) w := by
  obtain ⟨hty, hr, hfit⟩ := promoteLit_represents hl hf
  simp only [Fits] at hfit
  unfold foldNegate
  generalize promoteLit l = q at *
  obtain ⟨ty, p⟩ := q
  obtain ⟨hi, hr, hd⟩ := hr
  have hlt : promoted l.ty = .s32 ∨ promoted l.ty = .u32 ∨ promoted l.ty = .s64 ∨ promoted l.ty = .u64 := by
    have := hl.1
    cases hh : l.ty <;> rw [hh] at this <;> first | exact absurd this id | decide
  rw [← hty] at hlt hw hne
  rw [← hty]
  simp only at hlt hw hr hi hd hfit hne ⊢
  rcases hlt with rfl | rfl | rfl | rfl <;>
    (rw [if_pos (by simp [Ty.bits, rd, InRange, minVal, maxVal] at *; split <;> omega)]
     simp only [Ty.bits] at *
     refine ⟨_, rfl, rfl, trivial, ?_, ?_⟩
     · simp [Converts, InRange, minVal, maxVal] at *; omega
     · simp only [Converts, InRange, minVal, maxVal, reduceCtorEq, if_false] at hw
       exact neg_store hd hw.2)

/-- Finding (C16): folding `-0x80000000u`, which C defines as `0x80000000u`, overflows a
signed negation in the compiler. -/
theorem C16_negate_unsigned_host_ub :
    Represents ⟨.u32, 0x80000000⟩ 2147483648 ∧ Converts .u32 (-2147483648) 2147483648 ∧
    foldNegate ⟨.u32, 0x80000000⟩ = .hostUB := by decide

example : foldNegate ⟨.u8, 5⟩ = .ok ⟨.s32, 0xfffffffb⟩ ∧ foldNot ⟨.u32, 0⟩ = .ok ⟨.u32, 0xffffffffffffffff⟩ := by decide

/-! ## Bitwise operators and shifts -/

theorem nat_bit (op : Bitwise) (a b i : Nat) :
    ((op.run a b / 2 ^ i % 2 : Nat) : Int) = bitOp op (a / 2 ^ i % 2 : Nat) (b / 2 ^ i % 2 : Nat) := by
  have h (n : Nat) : n / 2 ^ i % 2 = (n.testBit i).toNat := by
    rw [Nat.testBit_eq_decide_div_mod_eq]
    have := Nat.mod_lt (n / 2 ^ i) (show 0 < 2 by omega)
    by_cases h : n / 2 ^ i % 2 = 1 <;> simp [h]; omega
  rw [h, h, h]
  cases op <;> simp only [Bitwise.run, Nat.testBit_and, Nat.testBit_or, Nat.testBit_xor] <;>
    cases a.testBit i <;> cases b.testBit i <;> rfl

theorem bit_congr {n i : Nat} {a b : Int} (h : (2 ^ n : Int) ∣ a - b) (hi : i < n) : bit a i = bit b i := by
  obtain ⟨k, hk⟩ := h
  have ha : a = b + 2 ^ i * (2 ^ (n - 1 - i) * 2 * k) := by
    have : (2 ^ n : Int) = 2 ^ i * (2 ^ (n - 1 - i) * 2) := by
      rw [← Int.pow_succ, ← Int.pow_add]; congr 1; omega
    rw [this] at hk
    rw [← Int.mul_assoc, ← hk]; omega
  have hpos : (2 ^ i : Int) ≠ 0 := by
    have : (0 : Int) < 2 ^ i := Int.pow_pos (by omega)
    omega
  unfold bit
  rw [ha, Int.add_mul_ediv_left _ _ hpos]
  have : (2 : Int) ^ (n - 1 - i) * 2 * k = 2 * (2 ^ (n - 1 - i) * k) := by
    rw [Int.mul_comm _ 2, Int.mul_assoc]
  rw [this, Int.add_mul_emod_self_left]

theorem bit_nat (a i : Nat) : bit (a : Int) i = ((a / 2 ^ i % 2 : Nat) : Int) := by
  simp [bit]

/-- `as_u64` of a value agrees with the value converted to any of the four promoted types, in the
bits of that type. -/
theorem as_u64_congr {c : Ty} (hcc : c = .s32 ∨ c = .u32 ∨ c = .s64 ∨ c = .u64) {v x : Int}
    (hx : Converts c v x) : (2 ^ c.bits : Int) ∣ ((hostConv 64 false v).toNat : Int) - x := by
  rcases hcc with rfl | rfl | rfl | rfl <;>
    (simp [Converts, InRange, minVal, maxVal, Ty.bits, hostConv, rd] at *; omega)

theorem hostConv_dvd (n : Nat) (sgn : Bool) (v : Int) : (2 ^ n : Int) ∣ hostConv n sgn v - v := by
  have h1 := rd_dvd n sgn (v % 2 ^ n).toNat
  have hpos : (0 : Int) < 2 ^ n := Int.pow_pos (by omega)
  rw [Int.toNat_of_nonneg (Int.emod_nonneg _ (by omega))] at h1
  have h2 : (2 ^ n : Int) ∣ v % 2 ^ n - v := ⟨-(v / 2 ^ n), by
    have := Int.mul_ediv_add_emod v (2 ^ n)
    rw [Int.mul_neg]; omega⟩
  have := Int.dvd_add h1 h2
  have e : (rd n sgn (v % 2 ^ n).toNat - v % 2 ^ n + (v % 2 ^ n - v)) = hostConv n sgn v - v := by
    unfold hostConv; omega
  rwa [e] at this

/-- C16: `&`, `^` and `|` combine the converted operands bit by bit, in the common type. -/
theorem C16_bitwise (op : Bitwise) (l r : Lit) (c : Ty) (x y : Int) (h : Operands l r c x y) :
    ∃ z, Yields (foldBitwise op l r) c z ∧ ∀ i, i < c.bits → bit z i = bitOp op (bit x i) (bit y i) := by
  obtain ⟨v, w, hl, hr, hf, hc, hx, hy⟩ := h
  have hu := (Props.IntType.C15_common_type _ _ _).2 hc
  obtain ⟨hcc, hb1, hb2⟩ := common_big hl.1 hr.1 hu
  have hi : isInteger c := by rcases hcc with rfl | rfl | rfl | rfl <;> trivial
  have hnb : c ≠ .bool := by rcases hcc with rfl | rfl | rfl | rfl <;> decide
  have hP := as_u64_congr hcc hx
  have hQ := as_u64_congr hcc hy
  simp only [foldBitwise, hu, get_eq hl, get_eq hr]
  generalize (hostConv 64 false v).toNat = P at hP ⊢
  generalize (hostConv 64 false w).toNat = Q at hQ ⊢
  have hz := hostConv_dvd c.bits c.isSigned (op.run P Q : Nat)
  have hzc := hostConv_converts hi hnb (op.run P Q : Nat)
  generalize hostConv c.bits c.isSigned (op.run P Q : Nat) = z at hz hzc
  refine ⟨z, ⟨_, rfl, rfl, hi, converts_range hnb hzc, ?_⟩, ?_⟩
  · have := Int.dvd_neg.2 hz
    rwa [Int.neg_sub] at this
  · intro i hlt
    rw [bit_congr hz hlt, bit_nat, nat_bit, ← bit_nat, ← bit_nat, bit_congr hP hlt, bit_congr hQ hlt]

/-- Equal low bits mean equal residues. -/
theorem dvd_of_bits {z z' : Int} {n : Nat} : (∀ i, i < n → bit z i = bit z' i) → (2 ^ n : Int) ∣ z - z' := by
  induction n with
  | zero => intro _; simp
  | succ n ih =>
    intro h
    obtain ⟨k, hk⟩ := ih fun i hi => h i (by omega)
    have hb := h n (by omega)
    have hpos : (0 : Int) < 2 ^ n := Int.pow_pos (by omega)
    unfold bit at hb
    have e : z / 2 ^ n = z' / 2 ^ n + k := by
      have : z = z' + 2 ^ n * k := by omega
      rw [this, Int.add_mul_ediv_left _ _ (by omega)]
    rw [e] at hb
    refine ⟨k / 2, ?_⟩
    rw [hk, Int.pow_succ, Int.mul_assoc]
    congr 1
    omega

/-- The bits determine a value of a sized type, so `C16_bitwise` fixes the result. -/
theorem C16_bits_determine (c : Ty) (hc : c = .s32 ∨ c = .u32 ∨ c = .s64 ∨ c = .u64) (z z' : Int)
    (hz : InRange c z) (hz' : InRange c z') (h : ∀ i, i < c.bits → bit z i = bit z' i) : z = z' := by
  have := dvd_of_bits h
  rcases hc with rfl | rfl | rfl | rfl <;> (simp [InRange, minVal, maxVal, Ty.bits] at *; omega)

example : foldBitwise .xor ⟨.s8, 0xff⟩ ⟨.u64, 5⟩ = .ok ⟨.u64, 0xfffffffffffffffa⟩ := by decide

/-! ### Shifts -/

theorem promoted_cases {t : Ty} (h : isInteger t) :
    promoted t = .s32 ∨ promoted t = .u32 ∨ promoted t = .s64 ∨ promoted t = .u64 := by
  cases t <;> first | exact absurd h id | decide

theorem promoted_converts {t : Ty} (h : isInteger t) {v : Int} (hv : InRange t v) : Converts (promoted t) v v := by
  cases t <;> first | exact absurd h id |
    (simp [promoted, rank, Converts, InRange, minVal, maxVal] at *; omega)

/-- The two promoted literals a shift works on. -/
theorem promote_shift {l : Lit} {v : Int} (hl : Represents l v) (hf : Fits l) :
    ∃ l', castLit (promote l.ty) l = l' ∧ l'.ty = promoted l.ty ∧ Represents l' v ∧ l'.get = v := by
  rw [Props.IntType.C15_promotion _ hl.1]
  have hi : isInteger (promoted l.ty) := by
    rcases promoted_cases hl.1 with h | h | h | h <;> rw [h] <;> trivial
  have h := C18_literal_cast (promoted l.ty) hi l v v hl hf (promoted_converts hl.1 hl.2.1)
  exact ⟨_, rfl, h.1, h.2, get_eq h.2⟩

/-- A count in range is what the code reads from the low byte. -/
theorem count_eq {r : Lit} {w : Int} (hr : Represents r w) (hb : 32 ≤ r.ty.bits) (h0 : 0 ≤ w) (h64 : w < 64) :
    (rd 8 false r.payload).toNat = w.toNat ∧ hostConv 64 false w = w := by
  obtain ⟨hi, hrr, hd⟩ := hr
  obtain ⟨ty, p⟩ := r
  cases ty <;> first | exact absurd hi id | (simp [Ty.bits] at hb; done) |
    (simp [rd, hostConv, Ty.bits] at *; omega)

/-- C16: a left shift of an unsigned (promoted) operand by less than its width gives the value
times 2^count modulo 2^n. -/
theorem C16_shift_left_unsigned (l r : Lit) (v w z : Int) (hl : Represents l v) (hr : Represents r w)
    (hfl : Fits l) (hfr : Fits r) (h0 : 0 ≤ w) (hw : w < (promoted l.ty).bits) (hu : ¬ signed (promoted l.ty))
    (hz : Converts (promoted l.ty) (v * 2 ^ w.toNat) z) :
    Yields (foldShift .left l r) (promoted l.ty) z := by
  obtain ⟨l', e1, ht1, hl', g1⟩ := promote_shift hl hfl
  obtain ⟨r', e2, ht2, hr', g2⟩ := promote_shift hr hfr
  have hcc := promoted_cases hl.1
  have hb2 : 32 ≤ r'.ty.bits := by rw [ht2]; rcases promoted_cases hr.1 with h | h | h | h <;> rw [h] <;> decide
  have h64 : w < 64 := by
    have : (promoted l.ty).bits ≤ 64 := by rcases hcc with h | h | h | h <;> rw [h] <;> decide
    omega
  obtain ⟨hcount, hval⟩ := count_eq hr' hb2 h0 h64
  have hi : isInteger (promoted l.ty) := by rcases hcc with h | h | h | h <;> rw [h] <;> trivial
  have hnb : promoted l.ty ≠ .bool := by rcases hcc with h | h | h | h <;> rw [h] <;> decide
  simp only [foldShift, e1, e2, g1, g2, ht1, hval, hcount]
  rw [if_neg (by omega), if_neg (by omega), if_neg (by omega), if_neg (by rw [signed_iff]; exact fun h => hu h.1),
    hostArith_unsigned hi hnb hu hz]
  exact ⟨_, rfl, rfl, write_represents hi _ (converts_range hnb hz)⟩

/-- C16: a left shift of a non-negative signed operand gives the value times 2^count if that is
representable. -/
theorem C16_shift_left_signed (l r : Lit) (v w : Int) (hl : Represents l v) (hr : Represents r w)
    (hfl : Fits l) (hfr : Fits r) (h0 : 0 ≤ w) (hw : w < (promoted l.ty).bits) (hs : signed (promoted l.ty))
    (hv : 0 ≤ v) (hz : InRange (promoted l.ty) (v * 2 ^ w.toNat)) :
    Yields (foldShift .left l r) (promoted l.ty) (v * 2 ^ w.toNat) := by
  obtain ⟨l', e1, ht1, hl', g1⟩ := promote_shift hl hfl
  obtain ⟨r', e2, ht2, hr', g2⟩ := promote_shift hr hfr
  have hcc := promoted_cases hl.1
  have hb2 : 32 ≤ r'.ty.bits := by rw [ht2]; rcases promoted_cases hr.1 with h | h | h | h <;> rw [h] <;> decide
  have h64 : w < 64 := by
    have : (promoted l.ty).bits ≤ 64 := by rcases hcc with h | h | h | h <;> rw [h] <;> decide
    omega
  obtain ⟨hcount, hval⟩ := count_eq hr' hb2 h0 h64
  have hi : isInteger (promoted l.ty) := by rcases hcc with h | h | h | h <;> rw [h] <;> trivial
  simp only [foldShift, e1, e2, g1, g2, ht1, hval, hcount]
  rw [if_neg (by omega), if_neg (by omega), if_neg (by omega), if_neg (by omega), hostArith_signed hs hz]
  exact ⟨_, rfl, rfl, write_represents hi _ hz⟩

/-- C16: a right shift by less than the width gives the value divided by 2^count rounded down
(for negative values this is the arithmetic shift). -/
theorem C16_shift_right (l r : Lit) (v w : Int) (hl : Represents l v) (hr : Represents r w)
    (hfl : Fits l) (hfr : Fits r) (h0 : 0 ≤ w) (hw : w < (promoted l.ty).bits) :
    Yields (foldShift .right l r) (promoted l.ty) (v / 2 ^ w.toNat) := by
  obtain ⟨l', e1, ht1, hl', g1⟩ := promote_shift hl hfl
  obtain ⟨r', e2, ht2, hr', g2⟩ := promote_shift hr hfr
  have hcc := promoted_cases hl.1
  have hb2 : 32 ≤ r'.ty.bits := by rw [ht2]; rcases promoted_cases hr.1 with h | h | h | h <;> rw [h] <;> decide
  have h64 : w < 64 := by
    have : (promoted l.ty).bits ≤ 64 := by rcases hcc with h | h | h | h <;> rw [h] <;> decide
    omega
  obtain ⟨hcount, hval⟩ := count_eq hr' hb2 h0 h64
  have hi : isInteger (promoted l.ty) := by rcases hcc with h | h | h | h <;> rw [h] <;> trivial
  simp only [foldShift, e1, e2, g1, g2, ht1, hval, hcount]
  rw [if_neg (by omega), if_neg (by omega), if_neg (by omega)]
  refine ⟨_, rfl, rfl, write_represents hi _ ?_⟩
  have hrange : InRange (promoted l.ty) v := by rw [← ht1]; exact hl'.2.1
  have hpos : (0 : Int) < 2 ^ w.toNat := Int.pow_pos (by omega)
  have hlo : 0 ≤ v → 0 ≤ v / 2 ^ w.toNat ∧ v / 2 ^ w.toNat ≤ v := fun h =>
    ⟨Int.ediv_nonneg h (by omega), Int.ediv_le_self _ h⟩
  have hneg : v < 0 → v ≤ v / 2 ^ w.toNat ∧ v / 2 ^ w.toNat < 0 := fun h => by
    refine ⟨?_, Int.ediv_neg_of_neg_of_pos h hpos⟩
    apply Int.le_ediv_of_mul_le hpos
    have : v * 2 ^ w.toNat ≤ v * 1 := Int.mul_le_mul_of_nonpos_left (by omega) (by omega)
    omega
  rcases hcc with h | h | h | h <;> rw [h] at hrange ⊢ <;>
    simp only [InRange, minVal, maxVal] at * <;> rcases Int.lt_or_le v 0 with hh | hh <;>
    first | (have := hneg hh; omega) | (have := hlo hh; omega)

/-- C16: a negative count, or one larger than the width, is reported. -/
theorem C16_shift_error (op : Shift) (l r : Lit) (v w : Int) (hl : Represents l v) (hr : Represents r w)
    (hfl : Fits l) (hfr : Fits r) (h : w < 0 ∨ w > (promoted l.ty).bits) :
    foldShift op l r = .error := by
  obtain ⟨l', e1, ht1, hl', g1⟩ := promote_shift hl hfl
  obtain ⟨r', e2, ht2, hr', g2⟩ := promote_shift hr hfr
  simp only [foldShift, e1, e2, g1, g2, ht1]
  by_cases hneg : w < 0
  · have : r'.ty.isSigned = true := by
      rw [signed_iff]; unfold signed; have := hr'.2.1.1; omega
    rw [if_pos ⟨this, hneg⟩]
  · rw [if_neg (by omega)]
    have hval : hostConv 64 false w = w := by
      have hrr := hr.2.1
      have hi := hr.1
      cases hty : r.ty <;> rw [hty] at hrr hi <;> first | exact absurd hi id |
        (simp [InRange, minVal, maxVal, hostConv, rd] at *; omega)
    rw [hval, if_pos (by omega)]

/-- Finding (C16): a count equal to the width is not reported (the test is `>` instead of `>=`)
and the compiler shifts by the width of its own type. -/
theorem C16_shift_by_width_host_ub :
    foldShift .left ⟨.s32, 1⟩ ⟨.s32, 32⟩ = .hostUB ∧ foldShift .right ⟨.u64, 1⟩ ⟨.s32, 64⟩ = .hostUB := by decide

example : foldShift .left ⟨.u8, 0xff⟩ ⟨.s32, 8⟩ = .ok ⟨.s32, 0xff00⟩ ∧
    foldShift .right ⟨.s32, 0xfffffff8⟩ ⟨.u64, 2⟩ = .ok ⟨.s32, 0xfffffffe⟩ := by decide

end Verif.Props.Fold
