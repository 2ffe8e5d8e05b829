import Verif.Model.ExprCode
import Verif.Props.Cast
import Verif.Props.Cond
import Verif.Props.Compound

/-!
# The instructions compute the operators of C
-/
namespace Verif.Lemmas.ExprSem
open Verif.IntType Verif.Fold Verif.Compound Verif.ExprCode Verif.Spec.IntType Verif.Spec.X64 Verif.Spec.ExprCode Verif.Lemmas.Fold
open Verif.Props.Cast (Holds)
open Verif.Props.Compound

/-- The types of converted operands. -/
def Big (c : Ty) : Prop := c = .s32 ∨ c = .u32 ∨ c = .s64 ∨ c = .u64

theorem Big.int {c} (h : Big c) : isInteger c := by rcases h with rfl | rfl | rfl | rfl <;> trivial
theorem Big.ne {c} (h : Big c) : c ≠ .bool := by rcases h with rfl | rfl | rfl | rfl <;> decide
theorem Big.wide {c} (h : Big c) : wideSize (c.bits / 8) = true := by rcases h with rfl | rfl | rfl | rfl <;> decide
theorem Big.bits {c} (h : Big c) : c.bits = 32 ∨ c.bits = 64 := by rcases h with rfl | rfl | rfl | rfl <;> decide

theorem bits_size {t} (h : isInteger t) : 8 * (t.bits / 8) = t.bits := by cases t <;> first | exact absurd h id | rfl
theorem size_ok {t} (h : isInteger t) : okSize (t.bits / 8) = true := by cases t <;> first | exact absurd h id | rfl
theorem size_pow {t} (h : isInteger t) : 256 ^ (t.bits / 8) = 2 ^ t.bits := by cases t <;> first | exact absurd h id | rfl

theorem mod_dvd (a n : Nat) : (2 ^ n : Int) ∣ ((a % 2 ^ n : Nat) : Int) - a := by
  have := Nat.div_add_mod a (2 ^ n)
  refine ⟨-(a / 2 ^ n : Nat), ?_⟩
  have h2 : (a : Int) = 2 ^ n * (a / 2 ^ n : Nat) + (a % 2 ^ n : Nat) := by exact_mod_cast this.symm
  rw [Int.mul_neg]; omega

theorem congr_dvd {a b n : Nat} (h : a % 2 ^ n = b % 2 ^ n) : (2 ^ n : Int) ∣ (a : Int) - b := by
  have h1 := dvd_swap (mod_dvd a n)
  rw [h] at h1
  exact dvd_chain h1 (mod_dvd b n)

/-- Only the low bits matter. -/
theorem holds_congr {t a b v} (h : Holds t b v) (hab : a % 2 ^ t.bits = b % 2 ^ t.bits) : Holds t a v :=
  ⟨h.1, h.2.1, dvd_chain (congr_dvd hab) h.2.2⟩

theorem holds_mod {t a v} (h : Holds t a v) : Holds t (a % 2 ^ t.bits) v := holds_congr h (Nat.mod_mod _ _)

theorem sext_cases (m v : Nat) : (v % 2 ^ m < 2 ^ (m - 1) ∧ sext m v = (v % 2 ^ m : Nat)) ∨
    (2 ^ (m - 1) ≤ v % 2 ^ m ∧ sext m v = (v % 2 ^ m : Nat) - 2 ^ m) := by
  unfold sext
  split
  · rename_i h; exact .inl ⟨h, rfl⟩
  · rename_i h; exact .inr ⟨Nat.le_of_not_lt h, rfl⟩

theorem val_signed {c a x} (hb : Big c) (hs : c.isSigned = true) (h : Holds c a x) : sext c.bits a = x := by
  obtain ⟨_, h2, h3⟩ := h
  have h4 := sext_cases c.bits a
  generalize sext c.bits a = s at *
  rcases hb with rfl | rfl | rfl | rfl <;> first | (cases hs; done) |
    (simp only [Ty.bits, InRange, minVal, maxVal, Nat.reducePow, Int.reducePow, Nat.reduceSub] at *; omega)

theorem val_unsigned {c a x} (hb : Big c) (hs : c.isSigned = false) (h : Holds c a x) : ((a % 2 ^ c.bits : Nat) : Int) = x := by
  obtain ⟨_, h2, h3⟩ := h
  rcases hb with rfl | rfl | rfl | rfl <;> first | (cases hs; done) |
    (simp only [Ty.bits, InRange, minVal, maxVal, Nat.reducePow, Int.reducePow] at *; omega)

theorem pattern_dvd (n : Nat) (v : Int) : (2 ^ n : Int) ∣ (pattern n v : Int) - v := pat_dvd n v

theorem pattern_eq {n a : Nat} {x : Int} (h : (2 ^ n : Int) ∣ (a : Int) - x) : (x % 2 ^ n).toNat = a % 2 ^ n := by
  have h2 : x % 2 ^ n = (a : Int) % 2 ^ n := (Int.emod_eq_emod_iff_emod_sub_eq_zero.2 (Int.emod_eq_zero_of_dvd h)).symm
  rw [h2]
  have : (a : Int) % 2 ^ n = ((a % 2 ^ n : Nat) : Int) := by simp
  rw [this, Int.toNat_natCast]

/-- A result in the range of the type that is right modulo 2^n. -/
theorem holds_conv {c} {a : Nat} {e : Int} (hb : Big c) (h : (2 ^ c.bits : Int) ∣ (a : Int) - e) : Holds c a (hostConv c.bits c.isSigned e) :=
  ⟨hb.int, converts_range hb.ne (hostConv_converts hb.int hb.ne e), dvd_chain h (dvd_swap (Props.Fold.hostConv_dvd _ _ _))⟩

theorem dvd_add_sub {n a a' b b' : Int} (h1 : n ∣ a - a') (h2 : n ∣ b - b') : n ∣ (a + b) - (a' + b') := by
  have := Int.dvd_add h1 h2; rwa [show a - a' + (b - b') = (a + b) - (a' + b') by omega] at this

theorem dvd_sub_sub {n a a' b b' : Int} (h1 : n ∣ a - a') (h2 : n ∣ b - b') : n ∣ (a - b) - (a' - b') := by
  have := Int.dvd_sub h1 h2; rwa [show a - a' - (b - b') = (a - b) - (a' - b') by omega] at this

theorem sem_binary {op c a b w x y z} (hb : Big c) (hx : Holds c a x) (hy : Holds c b y) (hw : binary op c.bits a b = some w)
    (hz : runOp c op x y = some z) : Holds c w z := by
  cases op with
  | add =>
    cases hw; cases hz
    refine holds_conv hb (dvd_chain (mod_dvd _ _) ?_)
    rw [Int.natCast_add]
    exact dvd_add_sub hx.2.2 hy.2.2
  | sub =>
    cases hw; cases hz
    exact holds_conv hb (dvd_chain (pattern_dvd _ _) (dvd_sub_sub hx.2.2 hy.2.2))
  | and =>
    cases hw; cases hz
    refine holds_conv hb ?_
    dsimp only
    rw [pattern_eq hx.2.2, pattern_eq hy.2.2, Nat.and_mod_two_pow, Int.sub_self]; exact Int.dvd_zero _
  | or =>
    cases hw; cases hz
    refine holds_conv hb ?_
    dsimp only
    rw [pattern_eq hx.2.2, pattern_eq hy.2.2, Nat.or_mod_two_pow, Int.sub_self]; exact Int.dvd_zero _
  | xor =>
    cases hw; cases hz
    refine holds_conv hb ?_
    dsimp only
    rw [pattern_eq hx.2.2, pattern_eq hy.2.2, Nat.xor_mod_two_pow, Int.sub_self]; exact Int.dvd_zero _
  | _ => cases hw

theorem sem_neg {c a x} (hb : Big c) (hx : Holds c a x) : Holds c (neg c.bits a) (hostConv c.bits c.isSigned (-x)) := by
  refine holds_conv hb (dvd_chain (pattern_dvd _ _) ?_)
  have := dvd_swap hx.2.2
  rwa [show x - (a : Int) = -(a : Int) - -x by omega] at this

theorem sem_not {c a x} (hb : Big c) (hx : Holds c a x) : Holds c (not c.bits a) (hostConv c.bits c.isSigned (-x - 1)) := by
  refine holds_conv hb (dvd_chain (pattern_dvd _ _) ?_)
  have := dvd_swap hx.2.2
  rwa [show x - (a : Int) = (-(a : Int) - 1) - (-x - 1) by omega] at this

/-! ## Multiplication and division -/

theorem sem_mul {c a b hi x y z p} (hb : Big c) (hx : Holds c a x) (hy : Holds c b y)
    (hp : mulInst .mul c.isSigned c.bits hi a b = some p) (hz : runOp c .mul x y = some z) : Holds c p.2 z := by
  cases hz
  cases hs : c.isSigned with
  | true =>
    rw [hs] at hp
    cases hp
    have e1 := val_signed hb hs hx
    have e2 := val_signed hb hs hy
    rw [← hs]
    refine holds_conv hb ?_
    show (2 ^ c.bits : Int) ∣ (pattern c.bits (sext c.bits a * sext c.bits b) : Int) - x * y
    rw [e1, e2]; exact pattern_dvd _ _
  | false =>
    rw [hs] at hp
    cases hp
    have e1 := val_unsigned hb hs hx
    have e2 := val_unsigned hb hs hy
    rw [← hs]
    refine holds_conv hb ?_
    show (2 ^ c.bits : Int) ∣ ((a % 2 ^ c.bits * (b % 2 ^ c.bits) % 2 ^ c.bits : Nat) : Int) - x * y
    rw [← e1, ← e2, ← Int.natCast_mul]
    exact mod_dvd _ _

/-- The double-width dividend of a signed division. -/
theorem dividend {c a lo hi x} (hb : Big c) (hs : c.isSigned = true) (ha : Holds c a x) (hlo : Holds c lo x)
    (hhi : hi % 2 ^ c.bits = signOf c.bits a % 2 ^ c.bits) : sext c.bits hi * 2 ^ c.bits + (lo % 2 ^ c.bits : Nat) = x := by
  have e1 := val_signed hb hs ha
  obtain ⟨_, h2, h3⟩ := hlo
  unfold signOf at hhi
  rw [e1] at hhi
  have h4 := sext_cases c.bits hi
  generalize sext c.bits hi = s at *
  have h5 : (0 ≤ x ∧ hi % 2 ^ c.bits = 0 % 2 ^ c.bits) ∨ (x < 0 ∧ hi % 2 ^ c.bits = (2 ^ c.bits - 1) % 2 ^ c.bits) := by
    split at hhi
    · exact .inr ⟨by assumption, hhi⟩
    · exact .inl ⟨by omega, hhi⟩
  clear hhi ha e1
  rcases hb with rfl | rfl | rfl | rfl <;> first | (cases hs; done) |
    (simp only [Ty.bits, InRange, minVal, maxVal, Nat.reducePow, Int.reducePow, Nat.reduceSub] at *; omega)

theorem tdiv_range {c : Ty} {q : Int} (hb : Big c) (hs : c.isSigned = true) (h : hostConv c.bits c.isSigned q = q) :
    -2 ^ (c.bits - 1) ≤ q ∧ q < 2 ^ (c.bits - 1) := by
  have := converts_range hb.ne (hostConv_converts hb.int hb.ne q)
  rw [h] at this
  rcases hb with rfl | rfl | rfl | rfl <;> first | (cases hs; done) |
    (simp only [Ty.bits, InRange, minVal, maxVal, Int.reducePow, Nat.reduceSub] at *; omega)

theorem sem_div {k op c a lo hi b x y z} (hb : Big c) (hk : (k = .div ∧ op = .div) ∨ (k = .mod ∧ op = .mod))
    (ha : Holds c a x) (hlo : Holds c lo x) (hy : Holds c b y)
    (hhi : hi % 2 ^ c.bits = (if c.isSigned then signOf c.bits a else 0) % 2 ^ c.bits)
    (hz : runOp c op x y = some z) :
    ∃ p, mulInst k c.isSigned c.bits hi lo b = some p ∧ Holds c (if k = .mod then p.1 else p.2) z := by
  have hy0 : y ≠ 0 := by
    rintro rfl
    rcases hk with ⟨_, rfl⟩ | ⟨_, rfl⟩ <;> simp [runOp] at hz
  have hq : hostConv c.bits c.isSigned (Int.tdiv x y) = Int.tdiv x y := by
    rcases hk with ⟨_, rfl⟩ | ⟨_, rfl⟩ <;>
    · simp only [runOp, if_neg hy0] at hz
      split at hz
      · assumption
      · cases hz
  have hzq : z = if k = .mod then Int.tmod x y else Int.tdiv x y := by
    rcases hk with ⟨rfl, rfl⟩ | ⟨rfl, rfl⟩ <;>
    · simp only [runOp, if_neg hy0, if_pos hq] at hz
      exact (Option.some.inj hz).symm
  have hzr : InRange c z := by
    rw [hzq]
    split
    · have h1 := hlo.2.1
      have h2 := hy.2.1
      have e1 := tmod_range (x := x) hy0
      have e2 : 0 ≤ x → 0 ≤ x.tmod y := fun h => Int.tmod_nonneg y h
      rcases hb with rfl | rfl | rfl | rfl <;> (simp only [InRange, minVal, maxVal] at *; omega)
    · rw [← hq]; exact converts_range hb.ne (hostConv_converts hb.int hb.ne _)
  cases hs : c.isSigned with
  | true =>
    rw [if_pos hs] at hhi
    have e1 := dividend hb hs ha hlo hhi
    have e2 := val_signed hb hs hy
    have hr := tdiv_range hb hs hq
    have hi' : idiv c.bits hi lo b = some (pattern c.bits (x.tmod y), pattern c.bits (x.tdiv y)) := by
      unfold idiv
      dsimp only
      rw [e1, e2, if_neg hy0, if_pos hr]
    refine ⟨(pattern c.bits (x.tmod y), pattern c.bits (x.tdiv y)), ?_, ?_⟩
    · rcases hk with ⟨rfl, _⟩ | ⟨rfl, _⟩ <;> exact hi'
    · refine ⟨hb.int, hzr, ?_⟩
      rw [hzq]
      split <;> exact pattern_dvd _ _
  | false =>
    rw [if_neg (by rw [hs]; simp), Nat.zero_mod] at hhi
    have e1 := val_unsigned hb hs hlo
    have e2 := val_unsigned hb hs hy
    have hbn : b % 2 ^ c.bits ≠ 0 := by omega
    have hd : div c.bits hi lo b = some (lo % 2 ^ c.bits % (b % 2 ^ c.bits), lo % 2 ^ c.bits / (b % 2 ^ c.bits)) := by
      unfold div
      dsimp only
      rw [hhi, Nat.zero_mul, Nat.zero_add, if_neg hbn, if_pos]
      exact Nat.lt_of_le_of_lt (Nat.div_le_self _ _) (Nat.mod_lt _ (Nat.pow_pos (by omega)))
    have ex : Int.tdiv x y = ((lo % 2 ^ c.bits / (b % 2 ^ c.bits) : Nat) : Int) := by
      rw [← e1, ← e2]; rfl
    have em : Int.tmod x y = ((lo % 2 ^ c.bits % (b % 2 ^ c.bits) : Nat) : Int) := by
      rw [← e1, ← e2]; rfl
    refine ⟨(lo % 2 ^ c.bits % (b % 2 ^ c.bits), lo % 2 ^ c.bits / (b % 2 ^ c.bits)), ?_, ?_⟩
    · rcases hk with ⟨rfl, _⟩ | ⟨rfl, _⟩ <;> exact hd
    · refine ⟨hb.int, hzr, ?_⟩
      rw [hzq]
      split
      · rw [em, Int.sub_self]; exact Int.dvd_zero _
      · rw [ex, Int.sub_self]; exact Int.dvd_zero _

/-! ## Shifts -/

theorem sem_shl {c : Ty} {a b} {sgn : Bool} {v w z : Int} (hb : Big c) (hx : Holds c a v) (hc : (b % 256 : Nat) = w) (h1 : w < c.bits)
    (hz : Converts c (v * 2 ^ w.toNat) z) : Holds c (shiftInst true sgn c.bits a b) z := by
  have hcount : shiftCount c.bits b = w.toNat := by
    unfold shiftCount
    rcases hb.bits with h | h <;> rw [h] at h1 ⊢ <;> simp <;> omega
  refine ⟨hb.int, converts_range hb.ne hz, ?_⟩
  have e := dvd_of_converts hb.int hb.ne hz
  show (2 ^ c.bits : Int) ∣ ((a * 2 ^ shiftCount c.bits b % 2 ^ c.bits : Nat) : Int) - z
  rw [hcount]
  refine dvd_chain (mod_dvd _ _) (dvd_chain ?_ (dvd_swap e))
  rw [Int.natCast_mul]
  have : ((2 ^ w.toNat : Nat) : Int) = 2 ^ w.toNat := by simp
  rw [this]
  exact dvd_mul_sub hx.2.2 (by rw [Int.sub_self]; exact Int.dvd_zero _)

theorem sem_shr {c : Ty} {a b} {v w : Int} (hb : Big c) (hx : Holds c a v) (hc : (b % 256 : Nat) = w) (h1 : w < c.bits) :
    Holds c (shiftInst false c.isSigned c.bits a b) (v / 2 ^ w.toNat) := by
  have hcount : shiftCount c.bits b = w.toNat := by
    unfold shiftCount
    rcases hb.bits with h | h <;> rw [h] at h1 ⊢ <;> simp <;> omega
  refine ⟨hb.int, div_pow_range hb.int hx.2.1 _, ?_⟩
  cases hs : c.isSigned with
  | true =>
    have e1 := val_signed hb hs hx
    show (2 ^ c.bits : Int) ∣ (pattern c.bits (sext c.bits a / 2 ^ shiftCount c.bits b) : Int) - _
    rw [hcount, e1]
    exact pattern_dvd _ _
  | false =>
    have e1 := val_unsigned hb hs hx
    show (2 ^ c.bits : Int) ∣ ((a % 2 ^ c.bits / 2 ^ shiftCount c.bits b : Nat) : Int) - _
    have : ((2 ^ w.toNat : Nat) : Int) = 2 ^ w.toNat := by simp
    rw [hcount, Int.natCast_ediv, e1, this, Int.sub_self]
    exact Int.dvd_zero _

/-! ## Comparisons -/

theorem ir_facts {c} (hb : Big c) : Props.Cond.isInt (irType c) = true ∧ Props.Cond.bits (irType c) = c.bits := by
  rcases hb with rfl | rfl | rfl | rfl <;> decide

theorem val_ir {c a x} (hb : Big c) (ha : a < 2 ^ c.bits) (h : Holds c a x) : Props.Cond.val (irType c) a = x := by
  obtain ⟨_, h2, h3⟩ := h
  rcases hb with rfl | rfl | rfl | rfl <;>
    (simp only [irType, Props.Cond.val, Spec.Flags.signedVal, Ty.bits, InRange, minVal, maxVal, Nat.reducePow, Int.reducePow] at *
     try split
     all_goals omega)

theorem rel_related (op : Cond.Op) (x y : Int) : Props.Cond.rel op x y = decide (Related op x y) := by
  cases op <;> rfl

theorem sem_compare {c a b x y} (op : Cond.Op) (hb : Big c) (ha : a < 2 ^ c.bits) (hb' : b < 2 ^ c.bits) (hx : Holds c a x) (hy : Holds c b y) :
    ∃ t' cc, Cond.decodeIr (Cond.select op (irType c)) = some (t', cc) ∧
      Props.Cond.Implements cc (Spec.Flags.cmp c.bits a b false) (decide (Related op x y)) := by
  obtain ⟨h1, h2⟩ := ir_facts hb
  obtain ⟨t', cc, h3, h4, h5, h6⟩ := Props.Cond.C36_integer_compare op (irType c) h1 a b (by rw [h2]; exact ha) (by rw [h2]; exact hb') false
  rw [h5, h2, val_ir hb ha hx, val_ir hb hb' hy, rel_related] at h6
  exact ⟨t', cc, h3, h6⟩

/-- The condition "not zero" after `test`. -/
theorem sem_test {n a} (ha : a < 2 ^ n) : Props.Cond.Implements 2 (Spec.Flags.cmp n a 0 false) (decide (a ≠ 0)) := by
  have hz : (Spec.Flags.cmp n a 0 false).zf = decide (a = 0) := by
    show decide ((a + (2 ^ n - 0)) % 2 ^ n = 0) = _
    rw [Nat.sub_zero, Nat.add_mod_right, Nat.mod_eq_of_lt ha]
  refine ⟨⟨_, rfl, rfl, ?_⟩, ⟨_, rfl, rfl, ?_⟩, ⟨_, rfl, rfl, ?_⟩⟩ <;>
    (simp only [Spec.Flags.holds, Nat.reduceMod, hz]; simp)

theorem zero_iff {t : Ty} {a v} (ha : a < 2 ^ t.bits) (h : Holds t a v) : a = 0 ↔ v = 0 := by
  obtain ⟨h1, h2, h3⟩ := h
  cases t <;> first | exact absurd h1 id |
    (simp only [Ty.bits, InRange, minVal, maxVal, Nat.reducePow, Int.reducePow] at *; omega)

/-! ## Casts -/

theorem kind_cases (s t : Ty) (hs : isInteger s) (ht : isInteger t) :
    (Cast.kind s t = .none ∧ s.bits = t.bits) ∨ (Cast.kind s t = .toBool ∧ t = .bool) ∨ (Cast.kind s t = .signExtend s.bits t.bits) ∨
    (Cast.kind s t = .zeroExtend s.bits t.bits) ∨ (Cast.kind s t = .truncate t.bits ∧ t.bits ≤ s.bits) := by
  cases s <;> first | exact absurd hs id | (cases t <;> first | exact absurd ht id | decide)

theorem writeReg_low {size old v} (h : okSize size = true) : writeReg (8 * size) old v % 2 ^ (8 * size) = v % 2 ^ (8 * size) := by
  simp only [okSize, Bool.or_eq_true, decide_eq_true_eq] at h
  rcases h with ((rfl | rfl) | rfl) | rfl <;> (unfold writeReg; simp) <;> omega

theorem sem_extend {s t : Ty} {old a sgn} {v w : Int} (hs : isInteger s) (ht : isInteger t)
    (hk : Cast.kind s t = if sgn then .signExtend s.bits t.bits else .zeroExtend s.bits t.bits) (h : Holds s a v) (hw : Converts t v w) :
    Holds t (extend sgn s.bits t.bits old a) w := by
  have h1 := Props.Cast.C18_memory_cast s t ht 0 a v w (by decide) h hw
  rw [hk] at h1
  refine holds_congr h1 ?_
  have e : ∀ old, extend sgn s.bits t.bits old a % 2 ^ t.bits = extend sgn s.bits t.bits 0 a % 2 ^ t.bits := by
    intro old
    have hb := bits_size ht
    have hok := size_ok ht
    unfold extend movsx movzx mov
    split
    · rw [← hb, writeReg_low hok, writeReg_low hok]
    · split
      · rfl
      · rw [← hb, writeReg_low hok, writeReg_low hok]
  rw [e]
  cases sgn <;> rfl

theorem sem_same {s t : Ty} {a v w} (hs : isInteger s) (ht : isInteger t) (hk : Cast.kind s t = .none) (h : Holds s a v) (hw : Converts t v w) :
    Holds t a w := by
  have h1 := Props.Cast.C18_memory_cast s t ht 0 a v w (by decide) h hw
  rw [hk] at h1
  exact h1

theorem sem_truncate {s t : Ty} {a n v w} (ht : isInteger t) (hk : Cast.kind s t = .truncate n) (h : Holds s a v) (hw : Converts t v w) :
    Holds t a w := by
  have h1 := Props.Cast.C18_memory_cast s t ht 0 a v w (by decide) h hw
  rw [hk] at h1
  exact h1

theorem sem_bool {a} {v w : Int} (h : a = 0 ↔ v = 0) (hw : Converts .bool v w) : Holds .bool (if a = 0 then 0 else 1) w := by
  have : w = if v = 0 then 0 else 1 := hw
  subst this
  by_cases hv : v = 0
  · rw [if_pos hv, if_pos (h.2 hv)]; decide
  · rw [if_neg hv, if_neg (fun e => hv (h.1 e))]; decide

/-! ## Literals -/

/-- A parsed literal of the given type and value. -/
structure IsLit (l : Lit) (t : Ty) (v : Int) : Prop where
  ty : l.ty = t
  rep : Spec.Fold.Represents l v
  fits : l.payload < 2 ^ 64

theorem IsLit.int {l t v} (h : IsLit l t v) : isInteger t := h.ty ▸ h.rep.1
theorem IsLit.range {l t v} (h : IsLit l t v) : InRange t v := h.ty ▸ h.rep.2.1

theorem lit_holds {l t v} (h : IsLit l t v) : Holds t (litBytes l % 2 ^ t.bits) v := by
  refine holds_mod ⟨h.int, h.range, ?_⟩
  unfold litBytes
  rw [get_eq h.rep]
  have hr := h.range
  have hi := h.int
  generalize t = t at *
  cases t <;> first | exact absurd hi id |
    (simp [hostConv, rd, Ty.bits, InRange, minVal, maxVal] at *; omega)

theorem wr_lt {n p v} (hn : n ≤ 64) (hp : p < 2 ^ 64) : wr n p v < 2 ^ 64 := by
  unfold wr
  have h1 : (v % 2 ^ n).toNat < 2 ^ n := by
    have := Int.emod_lt_of_pos v (show (0 : Int) < 2 ^ n from Int.pow_pos (by omega))
    have h0 := Int.emod_nonneg v (show (2 : Int) ^ n ≠ 0 from Int.pow_ne_zero (by omega))
    have hc : ((2 ^ n : Nat) : Int) = 2 ^ n := by simp
    omega
  have h2 : p - p % 2 ^ n + 2 ^ n ≤ 2 ^ 64 := by
    have e1 := Nat.div_add_mod p (2 ^ n)
    have e2 : p - p % 2 ^ n = 2 ^ n * (p / 2 ^ n) := by omega
    rw [e2, ← Nat.mul_succ]
    have e3 : (2 : Nat) ^ 64 = 2 ^ n * 2 ^ (64 - n) := by rw [← Nat.pow_add]; congr 1; omega
    rw [e3]
    refine Nat.mul_le_mul_left _ ?_
    have : p / 2 ^ n < 2 ^ (64 - n) := by
      rw [Nat.div_lt_iff_lt_mul (Nat.pow_pos (by omega)), Nat.mul_comm, ← e3]; exact hp
    omega
  omega

theorem bits_le (t : Ty) : t.bits ≤ 64 := by cases t <;> decide

theorem cast_lit {l s t v w} (ht : isInteger t) (h : IsLit l s v) (hw : Converts t v w) : IsLit (castLit t l) t w := by
  obtain ⟨h1, h2⟩ := Props.Fold.C18_literal_cast t ht l v w h.rep h.fits hw
  refine ⟨h1, h2, ?_⟩
  unfold castLit
  split
  · exact h.fits
  · split
    · exact wr_lt (by omega) h.fits
    · exact wr_lt (by omega) h.fits

theorem promote_lit {l s v} (h : IsLit l s v) : IsLit (promoteLit l) (promoted s) v := by
  obtain ⟨h1, h2, h3⟩ := Props.Fold.promoteLit_represents h.rep h.fits
  exact ⟨by rw [h1, h.ty], h2, h3⟩

theorem of_yields {o t v low} (h : Spec.Fold.Yields o t v) (ho : ofOut o = some low) (hf : ∀ l, o = .ok l → l.payload < 2 ^ 64) :
    ∃ l, low = .lit l ∧ IsLit l t v := by
  obtain ⟨l, h1, h2, h3⟩ := h
  rw [h1] at ho
  exact ⟨l, (Option.some.inj ho).symm, h2, h3, hf l h1⟩

theorem promoted_big {t} (h : isInteger t) : Big (promoted t) := Props.Fold.promoted_cases h

/-- The bits of the complement determine the value. -/
theorem compl_value {c : Ty} {v w : Int} (hb : Big c) (hr : InRange c w) (h : ∀ i, i < c.bits → Spec.Fold.bit w i = 1 - Spec.Fold.bit v i) :
    Converts c (-v - 1) w := by
  refine converts_of_dvd hb.int hb.ne hr (Props.Fold.dvd_of_bits fun i hi => ?_)
  rw [h i hi]
  have hp : (0 : Int) < 2 ^ i := Int.pow_pos (by omega)
  unfold Spec.Fold.bit
  have e : (-v - 1) / 2 ^ i = -(v / 2 ^ i) - 1 := by
    have h1 := Int.mul_ediv_add_emod v (2 ^ i)
    have h2 := Int.emod_nonneg v (show (2 : Int) ^ i ≠ 0 by omega)
    have h3 := Int.emod_lt_of_pos v hp
    have h4 : -v - 1 = (2 ^ i - 1 - v % 2 ^ i) + (-(v / 2 ^ i) - 1) * 2 ^ i := by
      rw [Int.sub_mul, Int.neg_mul, Int.mul_comm (v / 2 ^ i)]; omega
    rw [h4, Int.add_mul_ediv_right _ _ (by omega), Int.ediv_eq_zero_of_lt (by omega) (by omega)]
    omega
  rw [e]; omega

theorem lit_plus {l s v low} (h : IsLit l s v) (hlow : lowerUnary .plus (.lit l) = some low) :
    ∃ l', low = .lit l' ∧ IsLit l' (promoted s) v :=
  ⟨_, (Option.some.inj hlow).symm, promote_lit h⟩

theorem rd_half {c : Ty} {p : Nat} (hb : Big c) (h : (2 ^ c.bits : Int) ∣ (p : Int) - 2 ^ (c.bits - 1)) :
    ¬ -rd c.bits true p < 2 ^ (c.bits - 1) := by
  have : rd c.bits true p = ((p % 2 ^ c.bits : Nat) : Int) - 2 ^ c.bits := by
    unfold rd
    rw [if_pos]
    refine ⟨rfl, ?_⟩
    rcases hb.bits with e | e <;> rw [e] at h ⊢ <;> simp only [Nat.reducePow, Int.reducePow, Nat.reduceSub] at * <;> omega
  rw [this]
  rcases hb.bits with e | e <;> rw [e] at h ⊢ <;> simp only [Nat.reducePow, Int.reducePow, Nat.reduceSub] at * <;> omega

theorem lit_minus {l s v low} {w : Int} (h : IsLit l s v) (hlow : lowerUnary .minus (.lit l) = some low)
    (hs : signed (promoted s) → InRange (promoted s) (-v)) (hw : Converts (promoted s) (-v) w) :
    ∃ l', low = .lit l' ∧ IsLit l' (promoted s) w := by
  have hpb := promoted_big h.int
  have hty := h.ty
  subst hty
  have hp := promote_lit h
  have hub : ∀ {c}, Big c → promoted l.ty = c → v = 2 ^ (c.bits - 1) → False := by
    intro c hb hc hv
    have hlow' : ofOut (foldNegate l) = some low := hlow
    obtain ⟨p1, p2, p3⟩ := hp
    unfold foldNegate at hlow'
    generalize promoteLit l = q at *
    obtain ⟨ty, p⟩ := q
    dsimp only at p1 p2 p3 hlow'
    rw [hc] at p1
    subst p1
    obtain ⟨_, hr, hd⟩ := p2
    dsimp only at hr hd
    rw [hv] at hd
    rw [if_neg (rd_half hb hd)] at hlow'
    cases hlow'
  refine of_yields (Props.Fold.C16_negate_partial l _ _ h.rep h.fits hw ⟨hub hpb rfl, ?_⟩) hlow ?_
  · intro hc
    have h1 := hp.range
    by_cases hsg : signed (promoted l.ty)
    · have h2 := hs hsg
      rcases hpb with e | e | e | e <;> rw [e] at hc h1 h2 <;> simp [InRange, minVal, maxVal, Ty.bits] at * <;> omega
    · rcases hpb with e | e | e | e <;> rw [e] at hc h1 hsg <;> first | exact hsg (by decide) | (simp [InRange, minVal, maxVal, Ty.bits] at *; omega)
  · intro l' hl'
    unfold foldNegate at hl'
    dsimp only at hl'
    split at hl'
    · cases hl'
      exact wr_lt (bits_le _) hp.fits
    · cases hl'

theorem lit_compl {l s v low} {w : Int} (h : IsLit l s v) (hlow : lowerUnary .compl (.lit l) = some low) (hr : InRange (promoted s) w)
    (hb : ∀ i, i < (promoted s).bits → Spec.Fold.bit w i = 1 - Spec.Fold.bit v i) : ∃ l', low = .lit l' ∧ IsLit l' (promoted s) w := by
  have hty := h.ty
  subst hty
  refine of_yields (Props.Fold.C16_bitwise_not l _ _ h.rep h.fits (compl_value (promoted_big h.int) hr hb)) hlow ?_
  intro l' hl'
  cases hl'
  show 2 ^ 64 - 1 - _ < 2 ^ 64
  omega

theorem lit_not {l s v low} (h : IsLit l s v) (hlow : lowerUnary .not (.lit l) = some low) :
    ∃ l', low = .lit l' ∧ IsLit l' .s32 (if v = 0 then 1 else 0) := by
  refine of_yields (Props.Fold.C16_logical_not l _ h.rep) hlow ?_
  intro l' hl'
  cases hl'
  dsimp only
  split <;> decide

theorem fold_fits {op l r l'} (hl : l.payload < 2 ^ 64) (h : fold op l r = .ok l') : l'.payload < 2 ^ 64 := by
  unfold fold at h
  split at h
  · cases h
  · rename_i t ht
    split at h
    · rename_i x y h1 h2
      split at h
      · cases h
      · cases h
      · rename_i p hp
        cases h
        dsimp only
        have key : ∀ v q, (hostArith t v).map (fun v => some (wr t.bits l.payload v)) = some (some q) → q < 2 ^ 64 := by
          intro v q hq
          cases ha : hostArith t v with
          | none => rw [ha] at hq; cases hq
          | some w => rw [ha] at hq; cases hq; exact wr_lt (bits_le _) hl
        have key2 : ∀ v, wr 64 l.payload v < 2 ^ 64 := fun v => wr_lt (by omega) hl
        cases op <;> simp only [operate] at hp
        all_goals
          first
          | exact key _ _ hp
          | (cases hp; exact key2 _)
          | (split at hp
             · cases hp
             · first
               | exact key _ _ hp
               | (cases hq : hostArith t (Int.tdiv x y) with
                  | none => rw [hq] at hp; cases hp
                  | some w => rw [hq] at hp; exact key _ _ hp))
    · cases h

theorem lit_compare {l r s u v w c x y low} (op : Cond.Op) (hl : IsLit l s v) (hr : IsLit r u w) (hc : Common s u c) (hx : Converts c v x)
    (hy : Converts c w y) (hlow : lowerCompare op (.lit l) (.lit r) = some low) :
    ∃ l', low = .lit l' ∧ IsLit l' .s32 (if Related op x y then 1 else 0) := by
  have h1 := hl.ty; have h2 := hr.ty
  subst h1; subst h2
  have ho : Props.Fold.Operands l r c x y := ⟨v, w, hl.rep, hr.rep, hl.fits, hc, hx, hy⟩
  have hlow' : ofOut (fold (compareTok op) l r) = some low := hlow
  have hf := fun l' h => fold_fits (op := compareTok op) (r := r) (l' := l') hl.fits h
  cases op
  case ge => exact of_yields (Props.Fold.C16_compare .ge l r c x y _ ho rfl rfl) hlow' hf
  case le => exact of_yields (Props.Fold.C16_compare .le l r c x y _ ho rfl rfl) hlow' hf
  case gt => exact of_yields (Props.Fold.C16_compare .gt l r c x y _ ho rfl rfl) hlow' hf
  case lt => exact of_yields (Props.Fold.C16_compare .lt l r c x y _ ho rfl rfl) hlow' hf
  case eq => exact of_yields (Props.Fold.C16_compare .eq l r c x y _ ho rfl rfl) hlow' hf
  case ne =>
    refine of_yields (Props.Fold.C16_compare .ne l r c x y _ ho rfl ?_) hlow' hf
    by_cases h : x = y <;> simp [exact, Related, h]

theorem arith_yields {l r s u v w c z} (op : Compound.Op) (hl : IsLit l s v) (hr : IsLit r u w) (hz : Spec.Compound.Value op s u v w c z) :
    Spec.Fold.Yields (foldArith op l r) c z ∧ ∀ l', foldArith op l r = .ok l' → l'.payload < 2 ^ 64 := by
  have h1 := hl.ty; have h2 := hr.ty
  subst h1; subst h2
  cases hz with
  | arith ho hc hx hy he hsg hq hz =>
    rename_i op' x y e
    have hop : Props.Fold.Operands l r c x y := ⟨v, w, hl.rep, hr.rep, hl.fits, hc, hx, hy⟩
    have hfold : foldArith op l r = fold (Spec.Fold.tokOf op') l r := by
      rcases mem_arith ho with ⟨rfl, rfl⟩ | ⟨rfl, rfl⟩ | ⟨rfl, rfl⟩ | ⟨rfl, rfl⟩ | ⟨rfl, rfl⟩ <;> rfl
    have hcmp : Spec.IntType.isCompare op' = false := by
      rcases mem_arith ho with ⟨rfl, rfl⟩ | ⟨rfl, rfl⟩ | ⟨rfl, rfl⟩ | ⟨rfl, rfl⟩ | ⟨rfl, rfl⟩ <;> rfl
    have hmod : op' = .mod → op = .mod := by
      rcases mem_arith ho with ⟨rfl, rfl⟩ | ⟨rfl, rfl⟩ | ⟨rfl, rfl⟩ | ⟨rfl, rfl⟩ | ⟨rfl, rfl⟩ <;> simp
    rw [hfold]
    obtain ⟨hu, hci, hcb, _⟩ := common_facts hl.rep.1 hr.rep.1 hc
    refine ⟨?_, fun l' h => fold_fits hl.fits h⟩
    by_cases hs : signed c
    · have : e = z := by
        have := (converts_iff hci hcb).1 hz
        rw [hostConv_id hci hcb (hsg hs)] at this
        exact this.symm
      subst this
      exact Props.Fold.C16_signed_arithmetic op' l r c x y _ hop hcmp hs he (hsg hs) (fun h => hq hs (hmod h))
    · exact Props.Fold.C16_unsigned_arithmetic op' l r c x y e z hop hcmp hs he hz
  | bitwise ho hc hx hy hzr hb =>
    rename_i bop x y
    have hop : Props.Fold.Operands l r c x y := ⟨v, w, hl.rep, hr.rep, hl.fits, hc, hx, hy⟩
    have hfold : foldArith op l r = foldBitwise bop l r := by
      simp at ho
      rcases ho with ⟨rfl, rfl⟩ | ⟨rfl, rfl⟩ | ⟨rfl, rfl⟩ <;> rfl
    rw [hfold]
    obtain ⟨z', hy', hb'⟩ := Props.Fold.C16_bitwise bop l r c x y hop
    have hbig : Big c := (Props.Fold.fold_operands hop .plus).1
    have hzz : z' = z := by
      obtain ⟨l', _, h2, h3⟩ := hy'
      refine Props.Fold.C16_bits_determine c hbig z' z (h2 ▸ h3.2.1) hzr (fun i hi => ?_)
      rw [hb' i hi, hb i hi]
    subst hzz
    refine ⟨hy', ?_⟩
    intro l' hl'
    unfold foldBitwise at hl'
    split at hl'
    · cases hl'
    · cases hl'
      have hh : ∀ v : Int, (hostConv 64 false v).toNat < 2 ^ 64 := by intro v; simp [hostConv, rd]; omega
      dsimp only
      cases bop
      · exact Nat.lt_of_le_of_lt Nat.and_le_left (hh _)
      · exact Nat.xor_lt_two_pow (hh _) (hh _)
      · exact Nat.or_lt_two_pow (hh _) (hh _)
  | shl h0 h1 hs hz =>
    refine ⟨?_, ?_⟩
    · show Spec.Fold.Yields (foldShift .left l r) _ _
      by_cases hsg : signed (promoted l.ty)
      · have hbig := promoted_big hl.rep.1
        have : v * 2 ^ w.toNat = z := by
          have := (converts_iff hbig.int hbig.ne).1 hz
          rw [hostConv_id hbig.int hbig.ne (hs hsg).2] at this
          exact this.symm
        rw [← this]
        exact Props.Fold.C16_shift_left_signed l r v w hl.rep hr.rep hl.fits hr.fits h0 h1 hsg (hs hsg).1 (hs hsg).2
      · exact Props.Fold.C16_shift_left_unsigned l r v w z hl.rep hr.rep hl.fits hr.fits h0 h1 hsg hz
    · exact fun l' h => shift_fits (op := .left) (r := r) hl.fits h
  | shr h0 h1 =>
    refine ⟨?_, ?_⟩
    · exact Props.Fold.C16_shift_right l r v w hl.rep hr.rep hl.fits hr.fits h0 h1
    · exact fun l' h => shift_fits (op := .right) (r := r) hl.fits h
where
  castLit_fits {t l} (hl : l.payload < 2 ^ 64) : (castLit t l).payload < 2 ^ 64 := by
    unfold castLit
    split
    · exact hl
    · split <;> exact wr_lt (by omega) hl
  shift_fits {op l r l'} (hl : l.payload < 2 ^ 64) (h : foldShift op l r = .ok l') : l'.payload < 2 ^ 64 := by
    have hc := castLit_fits (t := promote l.ty) hl
    unfold foldShift at h
    dsimp only at h
    repeat' split at h
    all_goals first | (cases h; done) | (cases h; exact wr_lt (bits_le _) hc)

theorem lit_arith {l r s u v w c z low} (op : Compound.Op) (hl : IsLit l s v) (hr : IsLit r u w) (hz : Spec.Compound.Value op s u v w c z)
    (hlow : lowerArith op (.lit l) (.lit r) = some low) : ∃ l', low = .lit l' ∧ IsLit l' c z :=
  of_yields (arith_yields op hl hr hz).1 hlow (arith_yields op hl hr hz).2

/-! ## Folding succeeds -/

theorem yields_some {o t v} (h : Spec.Fold.Yields o t v) : ∃ low, ofOut o = some low := by
  obtain ⟨l, h, _⟩ := h
  exact ⟨.lit l, by rw [h]; rfl⟩

theorem minus_some {l s v} {w : Int} (h : IsLit l s v) (hw : Converts (promoted s) (-v) w)
    (hs : signed (promoted s) → InRange (promoted s) (-v)) (hv : v ≠ 2 ^ ((promoted s).bits - 1)) : ∃ low, lowerUnary .minus (.lit l) = some low := by
  have hpb := promoted_big h.int
  have hty := h.ty
  subst hty
  have hp := promote_lit h
  refine yields_some (Props.Fold.C16_negate_partial l _ _ h.rep h.fits hw ⟨hv, ?_⟩)
  intro hc
  have h1 := hp.range
  by_cases hsg : signed (promoted l.ty)
  · have h2 := hs hsg
    rcases hpb with e | e | e | e <;> rw [e] at hc h1 h2 <;> simp [InRange, minVal, maxVal, Ty.bits] at * <;> omega
  · rcases hpb with e | e | e | e <;> rw [e] at hc h1 hsg <;> first | exact hsg (by decide) | (simp [InRange, minVal, maxVal, Ty.bits] at *; omega)

theorem compare_some {l r s u v w c x y} (op : Cond.Op) (hl : IsLit l s v) (hr : IsLit r u w) (hc : Common s u c) (hx : Converts c v x)
    (hy : Converts c w y) : ∃ low, lowerCompare op (.lit l) (.lit r) = some low := by
  have h1 := hl.ty; have h2 := hr.ty
  subst h1; subst h2
  have ho : Props.Fold.Operands l r c x y := ⟨v, w, hl.rep, hr.rep, hl.fits, hc, hx, hy⟩
  cases op
  case ge => exact yields_some (Props.Fold.C16_compare .ge l r c x y _ ho rfl rfl)
  case le => exact yields_some (Props.Fold.C16_compare .le l r c x y _ ho rfl rfl)
  case gt => exact yields_some (Props.Fold.C16_compare .gt l r c x y _ ho rfl rfl)
  case lt => exact yields_some (Props.Fold.C16_compare .lt l r c x y _ ho rfl rfl)
  case eq => exact yields_some (Props.Fold.C16_compare .eq l r c x y _ ho rfl rfl)
  case ne =>
    exact yields_some (Props.Fold.C16_compare .ne l r c x y _ ho rfl rfl)

end Verif.Lemmas.ExprSem
