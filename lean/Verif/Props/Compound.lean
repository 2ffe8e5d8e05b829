import Verif.Spec.Compound
import Verif.Props.Fold

/-!
# C20: compound assignment
-/
namespace Verif.Props.Compound
open Verif.IntType Verif.Spec.IntType Verif.Spec.Fold Verif.Compound Verif.Spec.Compound Verif.Lemmas.Fold
open Verif.Props.Fold (hostConv_dvd bit_congr bit_nat nat_bit)
open Verif.Fold (hostConv)

theorem conv_converts {t : Ty} (ht : isInteger t) (v : Int) : Converts t v (conv t v) := by
  by_cases hb : t = .bool
  · subst hb; rfl
  · simp only [conv, if_neg hb]; exact hostConv_converts ht hb v

theorem conv_of_converts {t : Ty} (ht : isInteger t) {v w : Int} (h : Converts t v w) : conv t v = w :=
  converts_unique ht (conv_converts ht v) h

theorem dvd_of_converts {t : Ty} (ht : isInteger t) (hb : t ≠ .bool) {v w : Int} (h : Converts t v w) :
    (2 ^ t.bits : Int) ∣ w - v := by
  rw [(converts_iff ht hb).1 h]; exact hostConv_dvd _ _ _

theorem converts_of_dvd {t : Ty} (ht : isInteger t) (hb : t ≠ .bool) {v w : Int} (hr : InRange t w)
    (h : (2 ^ t.bits : Int) ∣ w - v) : Converts t v w := by
  simp only [Converts, if_neg hb]
  refine ⟨hr, ?_⟩
  rw [(Props.IntType.C15_representation t ht hb).2]; exact h

theorem hostConv_congr {t : Ty} (ht : isInteger t) (hb : t ≠ .bool) {v v' : Int} (h : (2 ^ t.bits : Int) ∣ v - v') :
    hostConv t.bits t.isSigned v = hostConv t.bits t.isSigned v' := by
  refine converts_unique ht (hostConv_converts ht hb v) (converts_of_dvd ht hb (converts_range hb (hostConv_converts ht hb v')) ?_)
  have h1 := hostConv_dvd t.bits t.isSigned v'
  have h2 := Int.dvd_sub h1 h
  rwa [show hostConv t.bits t.isSigned v' - v' - (v - v') = hostConv t.bits t.isSigned v' - v by omega] at h2

theorem dvd_pow_of_le {m n : Nat} (h : m ≤ n) {a : Int} (hd : (2 ^ n : Int) ∣ a) : (2 ^ m : Int) ∣ a :=
  by
  obtain ⟨k, hk⟩ := hd
  exact ⟨2 ^ (n - m) * k, by rw [← Int.mul_assoc, ← Int.pow_add, hk]; congr 2; omega⟩

theorem hostConv_id {t : Ty} (ht : isInteger t) (hb : t ≠ .bool) {v : Int} (h : InRange t v) :
    hostConv t.bits t.isSigned v = v :=
  converts_unique ht (hostConv_converts ht hb v) (converts_of_dvd ht hb h (by simp))

/-- The value of an assignment to a sized type only depends on the result modulo 2^n. -/
theorem stored_of_dvd {l : Ty} (hl : isInteger l) (hb : l ≠ .bool) {z s a : Int} (hs : Converts l z s)
    (h : (2 ^ l.bits : Int) ∣ a - z) : hostConv l.bits l.isSigned a = s := by
  rw [hostConv_congr hl hb h]; exact ((converts_iff hl hb).1 hs).symm

theorem common_facts {l r c : Ty} (hl : isInteger l) (hr : isInteger r) (h : Common l r c) :
    usualConversions l r = some c ∧ isInteger c ∧ c ≠ .bool ∧ l.bits ≤ c.bits := by
  have hu := (Props.IntType.C15_common_type _ _ _).2 h
  obtain ⟨hcc, hb1, -⟩ := common_big hl hr hu
  refine ⟨hu, ?_, ?_, hb1⟩ <;> rcases hcc with rfl | rfl | rfl | rfl <;> first | trivial | decide

theorem dvd_mul_sub {n a a' b b' : Int} (h1 : n ∣ a - a') (h2 : n ∣ b - b') : n ∣ a * b - a' * b' := by
  have e1 : n ∣ (a - a') * b := Int.dvd_trans h1 ⟨b, rfl⟩
  have e2 : n ∣ a' * (b - b') := Int.dvd_trans h2 ⟨a', Int.mul_comm _ _⟩
  have := Int.dvd_add e1 e2
  rwa [Int.sub_mul, Int.mul_sub, show a * b - a' * b + (a' * b - a' * b') = a * b - a' * b' by omega] at this

theorem pat_dvd (n : Nat) (v : Int) : (2 ^ n : Int) ∣ ((v % 2 ^ n).toNat : Int) - v := by
  have hpos : (0 : Int) < 2 ^ n := Int.pow_pos (by omega)
  rw [Int.toNat_of_nonneg (Int.emod_nonneg _ (by omega))]
  exact ⟨-(v / 2 ^ n), by have := Int.mul_ediv_add_emod v (2 ^ n); rw [Int.mul_neg]; omega⟩

theorem dvd_swap {n a b : Int} (h : n ∣ a - b) : n ∣ b - a := by
  have := Int.dvd_neg.2 h; rwa [Int.neg_sub] at this

theorem dvd_chain {n a b c : Int} (h : n ∣ a - b) (h' : n ∣ b - c) : n ∣ a - c := by
  have := Int.dvd_add h h'; rwa [show a - b + (b - c) = a - c by omega] at this

/-- The common result of the code in either path for a homomorphic operation: `f` is the
operation, compatible with congruence modulo every power of two. -/
theorem assign_hom {op : Compound.Op} {l r c : Ty} {lit : Bool} {v w z s : Int} (f : Int → Int → Int)
    (hf : ∀ n : Nat, ∀ a a' b b' : Int, (2 ^ n : Int) ∣ a - a' → (2 ^ n : Int) ∣ b - b' → (2 ^ n : Int) ∣ f a b - f a' b')
    (hop : ∀ t a b, isInteger t → runOp t op a b = some (hostConv t.bits t.isSigned (f a b)))
    (hne : op ≠ .div ∧ op ≠ .mod ∧ op ≠ .shl ∧ op ≠ .shr)
    (hl : isInteger l) (hr : isInteger r)
    (hc : Common l r c) (hz : (2 ^ c.bits : Int) ∣ f v w - z) (hzr : InRange c z) (hs : Converts l z s) :
    assign op l r lit v w = .stored s := by
  obtain ⟨hu, hci, hcb, hle⟩ := common_facts hl hr hc
  unfold assign
  rw [if_neg (by simp [hne])]
  split
  · simp only [hu, hop c _ _ hci]
    have h1 : hostConv c.bits c.isSigned (f (conv c v) (conv c w)) = z := by
      refine converts_unique hci (hostConv_converts hci hcb _) (converts_of_dvd hci hcb hzr ?_)
      refine dvd_swap (dvd_chain (hf _ _ _ _ _ ?_ ?_) hz)
      · exact dvd_of_converts hci hcb (conv_converts hci v)
      · exact dvd_of_converts hci hcb (conv_converts hci w)
    rw [h1, conv_of_converts hl hs]
  · rename_i hp
    have hb : l ≠ .bool := by intro h; subst h; simp [punts] at hp
    have hy : rightOperand op l w = conv l w := by simp [rightOperand, hne]
    simp only [hy, hop l _ _ hl]
    congr 1
    apply stored_of_dvd hl hb hs
    refine dvd_chain (hf _ _ _ _ _ (by simp) (dvd_of_converts hl hb (conv_converts hl w))) (dvd_pow_of_le hle hz)

theorem run_bitwise {op : Compound.Op} {bop : Fold.Bitwise}
    (ho : (op, bop) ∈ [(Compound.Op.and, Fold.Bitwise.and), (.or, .or), (.xor, .xor)]) (t : Ty) (a b : Int) :
    runOp t op a b = some (hostConv t.bits t.isSigned (bop.run (a % 2 ^ t.bits).toNat (b % 2 ^ t.bits).toNat : Nat)) := by
  simp at ho
  rcases ho with ⟨rfl, rfl⟩ | ⟨rfl, rfl⟩ | ⟨rfl, rfl⟩ <;> rfl

/-- The bits of the stored result of a bitwise operator. -/
theorem bits_of_run (bop : Fold.Bitwise) {n m : Nat} {a b x y : Int} (hmn : m ≤ n)
    (ha : (2 ^ m : Int) ∣ a - x) (hb : (2 ^ m : Int) ∣ b - y) (i : Nat) (hi : i < m) :
    bit (bop.run (a % 2 ^ n).toNat (b % 2 ^ n).toNat : Nat) i = bitOp bop (bit x i) (bit y i) := by
  rw [bit_nat, nat_bit, ← bit_nat, ← bit_nat]
  rw [bit_congr (dvd_chain (dvd_pow_of_le hmn (pat_dvd n a)) ha) hi, bit_congr (dvd_chain (dvd_pow_of_le hmn (pat_dvd n b)) hb) hi]

theorem mem_arith {op : Compound.Op} {op' : Spec.IntType.Op}
    (h : (op, op') ∈ [(Compound.Op.add, Spec.IntType.Op.add), (.sub, .sub), (.mul, .mul), (.div, .div), (.mod, .mod)]) :
    (op = .add ∧ op' = .add) ∨ (op = .sub ∧ op' = .sub) ∨ (op = .mul ∧ op' = .mul) ∨ (op = .div ∧ op' = .div) ∨
      (op = .mod ∧ op' = .mod) := by simpa using h

/-- C20 for `+= -= *= &= |= ^=`: whatever the types and values, if C defines `E1 = E1 op E2`
then `E1 op= E2` stores the same value. -/
theorem C20_ring_and_bitwise (op : Compound.Op) (hop : op = .add ∨ op = .sub ∨ op = .mul ∨ op = .and ∨ op = .or ∨ op = .xor)
    (l r : Ty) (hl : isInteger l) (hr : isInteger r) (lit : Bool) (v w s : Int)
    (h : Assigns op l r v w s) : assign op l r lit v w = .stored s := by
  obtain ⟨c, z, hv, hs⟩ := h
  cases hv with
  | arith ho hc hx hy he hsg hq hz =>
    rename_i op' x y e
    obtain ⟨hu, hci, hcb, hle⟩ := common_facts hl hr hc
    have dx := dvd_of_converts hci hcb hx
    have dy := dvd_of_converts hci hcb hy
    have dz := dvd_of_converts hci hcb hz
    have rz := converts_range hcb hz
    rcases mem_arith ho with ⟨rfl, rfl⟩ | ⟨rfl, rfl⟩ | ⟨rfl, rfl⟩ | ⟨rfl, rfl⟩ | ⟨rfl, rfl⟩
    · cases he
      refine assign_hom (· + ·) (fun n a a' b b' h1 h2 => ?_) (fun _ _ _ _ => rfl) (by decide) hl hr hc ?_ rz hs
      · have := Int.dvd_add h1 h2; rwa [show a - a' + (b - b') = a + b - (a' + b') by omega] at this
      · refine dvd_swap (dvd_chain dz ?_)
        have := Int.dvd_add dx dy; rwa [show x - v + (y - w) = x + y - (v + w) by omega] at this
    · cases he
      refine assign_hom (· - ·) (fun n a a' b b' h1 h2 => ?_) (fun _ _ _ _ => rfl) (by decide) hl hr hc ?_ rz hs
      · have := Int.dvd_sub h1 h2; rwa [show a - a' - (b - b') = a - b - (a' - b') by omega] at this
      · refine dvd_swap (dvd_chain dz ?_)
        have := Int.dvd_sub dx dy; rwa [show x - v - (y - w) = x - y - (v - w) by omega] at this
    · cases he
      refine assign_hom (· * ·) (fun n a a' b b' h1 h2 => dvd_mul_sub h1 h2) (fun _ _ _ _ => rfl) (by decide) hl hr hc ?_ rz hs
      exact dvd_swap (dvd_chain dz (dvd_mul_sub dx dy))
    · simp at hop
    · simp at hop
  | bitwise ho hc hx hy hzr hb =>
    rename_i bop x y
    obtain ⟨hu, hci, hcb, hle⟩ := common_facts hl hr hc
    have dx := dvd_of_converts hci hcb hx
    have dy := dvd_of_converts hci hcb hy
    have hne : op ≠ .div ∧ op ≠ .mod ∧ op ≠ .shl ∧ op ≠ .shr := by
      simp at ho; rcases ho with ⟨rfl, -⟩ | ⟨rfl, -⟩ | ⟨rfl, -⟩ <;> decide
    unfold assign
    rw [if_neg (by simp [hne])]
    split
    · simp only [hu, run_bitwise ho]
      have h1 : hostConv c.bits c.isSigned (bop.run (conv c v % 2 ^ c.bits).toNat (conv c w % 2 ^ c.bits).toNat : Nat) = z := by
        rw [conv_of_converts hci hx, conv_of_converts hci hy]
        refine converts_unique hci (hostConv_converts hci hcb _) (converts_of_dvd hci hcb hzr ?_)
        apply Props.Fold.dvd_of_bits
        intro i hi
        rw [hb i hi, bits_of_run bop (Nat.le_refl _) (x := x) (y := y) (by simp) (by simp) i hi]
      rw [h1, conv_of_converts hl hs]
    · rename_i hp
      have hlb : l ≠ .bool := by intro h; subst h; simp [punts] at hp
      have hy : rightOperand op l w = conv l w := by simp [rightOperand, hne]
      simp only [hy, run_bitwise ho]
      congr 1
      apply stored_of_dvd hl hlb hs
      apply Props.Fold.dvd_of_bits
      intro i hi
      rw [hb i (by omega)]
      refine bits_of_run bop (Nat.le_refl _) (dvd_swap (dvd_pow_of_le hle dx)) ?_ i hi
      exact dvd_chain (dvd_of_converts hl hlb (conv_converts hl w)) (dvd_swap (dvd_pow_of_le hle dy))
  | shl => simp at hop
  | shr => simp at hop

example : Assigns .mul .s8 .u32 (-3) 5 (-15) :=
  ⟨.u32, 4294967281, .arith (op' := .mul) (x := 4294967293) (y := 5) (e := 21474836465) (by simp) (by decide) (by decide) (by decide)
    (by decide) (by decide) (by decide) (by decide), by decide⟩
example : assign .mul .s8 .u32 false (-3) 5 = .stored (-15) := by decide

/-! ## Shifts -/

theorem shift_count {l : Ty} {w : Int} (h0 : 0 ≤ w) (hw : w < (promoted l).bits) (hl : isInteger l) :
    w < 64 ∧ ((promoted l).bits = 32 → w < 32) := by
  cases l <;> first | exact absurd hl id | (simp [promoted, rank, minVal, maxVal, Ty.bits] at *; omega)

theorem count_id {t : Ty} {w : Int} (h0 : 0 ≤ w) (h64 : w < 64) (h32 : t.bits ≠ 64 → w < 32) :
    (w % 256).toNat % (if t.bits = 64 then 64 else 32) = w.toNat := by
  by_cases h : t.bits = 64
  · simp only [h, if_true]; omega
  · have := h32 h; simp only [h, if_false]; omega

theorem div_pow_range {l : Ty} (hl : isInteger l) {v : Int} (hv : InRange l v) (n : Nat) : InRange l (v / 2 ^ n) := by
  have hpos : (0 : Int) < 2 ^ n := Int.pow_pos (by omega)
  have hlo : 0 ≤ v → 0 ≤ v / 2 ^ n ∧ v / 2 ^ n ≤ v := fun h =>
    ⟨Int.ediv_nonneg h (by omega), Int.ediv_le_self _ h⟩
  have hneg : v < 0 → v ≤ v / 2 ^ n ∧ v / 2 ^ n < 0 := fun h => by
    refine ⟨?_, Int.ediv_neg_of_neg_of_pos h hpos⟩
    apply Int.le_ediv_of_mul_le hpos
    have : v * 2 ^ n ≤ v * 1 := Int.mul_le_mul_of_nonpos_left (by omega) (by omega)
    omega
  cases l <;> first | exact absurd hl id |
    (simp only [InRange, minVal, maxVal] at *
     rcases Int.lt_or_le v 0 with hh | hh
     · have := hneg hh; omega
     · have := hlo hh; omega)

/-- C20 for `<<=` and `>>=` on integer objects: if C defines `E1 = E1 op E2`, the same value is
stored. The operation is done in the narrow type (or, for `_Bool`, in the common type instead of
`int`), which makes no difference. -/
theorem C20_shift (op : Compound.Op) (hop : op = .shl ∨ op = .shr) (l r : Ty) (hl : isInteger l) (hr : isInteger r)
    (lit : Bool) (v w s : Int) (hv : InRange l v)
    (h : Assigns op l r v w s) : assign op l r lit v w = .stored s := by
  obtain ⟨c, z, hval, hs⟩ := h
  have hbnd : 0 ≤ w ∧ w < (promoted l).bits := by
    cases hval with
    | shl h0 h1 => exact ⟨h0, h1⟩
    | shr h0 h1 => exact ⟨h0, h1⟩
    | arith ho => rcases mem_arith ho with ⟨rfl, -⟩ | ⟨rfl, -⟩ | ⟨rfl, -⟩ | ⟨rfl, -⟩ | ⟨rfl, -⟩ <;> simp at hop
    | bitwise ho => simp at ho; rcases ho with ⟨rfl, -⟩ | ⟨rfl, -⟩ | ⟨rfl, -⟩ <;> simp at hop
  obtain ⟨h64, h32⟩ := shift_count hbnd.1 hbnd.2 hl
  unfold assign
  rw [if_neg (by rcases hop with rfl | rfl <;> simp)]
  by_cases hb : l = .bool
  · subst hb
    have hw32 : w < 32 := h32 (by decide)
    rw [if_pos (by simp [punts])]
    obtain ⟨c', hc'⟩ := (Props.IntType.C15_total_and_symmetric .bool r).1
    obtain ⟨hcc, -, -⟩ := common_big (a := .bool) trivial hr hc'
    have hci : isInteger c' := by rcases hcc with rfl | rfl | rfl | rfl <;> trivial
    have hcb : c' ≠ .bool := by rcases hcc with rfl | rfl | rfl | rfl <;> decide
    have hv' : conv c' v = v := by
      simp only [conv, if_neg hcb]; apply hostConv_id hci hcb
      simp [InRange, minVal, maxVal] at hv
      rcases hcc with rfl | rfl | rfl | rfl <;> (simp [InRange, minVal, maxVal]; omega)
    have hw' : conv c' w = w := by
      simp only [conv, if_neg hcb]; apply hostConv_id hci hcb
      rcases hcc with rfl | rfl | rfl | rfl <;> (simp [InRange, minVal, maxVal]; omega)
    have hcount := count_id (t := c') hbnd.1 h64 (fun _ => hw32)
    have hv01 : v = 0 ∨ v = 1 := by simp [InRange, minVal, maxVal] at hv; omega
    rcases hop with rfl | rfl
    · simp only [hc', runOp, hv', hw', hcount]
      cases hval with
      | arith ho => simp at ho
      | bitwise ho => simp at ho
      | shl h0 h1 hsg hz =>
        have hsg := hsg (by decide)
        have hz' : z = v * 2 ^ w.toNat :=
          converts_unique (t := .s32) trivial hz (converts_of_dvd (t := .s32) trivial (by decide) hsg.2 (by simp))
        subst hz'
        have hne : hostConv c'.bits c'.isSigned (v * 2 ^ w.toNat) = v * 2 ^ w.toNat := by
          apply hostConv_id hci hcb
          have := hsg.2
          simp [promoted, rank, InRange, minVal, maxVal] at this
          have hp : (0 : Int) ≤ v * 2 ^ w.toNat := by
            have : (0 : Int) < 2 ^ w.toNat := Int.pow_pos (by omega)
            rcases hv01 with rfl | rfl <;> omega
          rcases hcc with rfl | rfl | rfl | rfl <;> (simp [InRange, minVal, maxVal]; omega)
        rw [hne]
        congr 1
        exact conv_of_converts hl hs
    · simp only [hc', runOp, hv', hw', hcount]
      cases hval with
      | arith ho => simp at ho
      | bitwise ho => simp at ho
      | shr h0 h1 => congr 1; exact conv_of_converts hl hs
  · rw [if_neg (by simp [punts, hb]; rcases hop with rfl | rfl <;> simp)]
    have hy : rightOperand op l w = w := by
      simp only [rightOperand, if_pos hop, conv, reduceCtorEq, if_false]
      exact hostConv_id (t := .u8) trivial (by decide) (by simp [InRange, minVal, maxVal]; omega)
    have hcount : (w % 256).toNat % (if l.bits = 64 then 64 else 32) = w.toNat := by
      refine count_id hbnd.1 h64 fun h => h32 ?_
      cases l <;> first | exact absurd hl id | rfl | exact absurd rfl h
    have hle : l.bits ≤ (promoted l).bits := by
      cases l <;> first | exact absurd hl id | decide
    have hpi : isInteger (promoted l) := by cases l <;> first | exact absurd hl id | trivial
    have hpb : promoted l ≠ .bool := by cases l <;> first | exact absurd hl id | decide
    rcases hop with rfl | rfl
    · simp only [hy, runOp, hcount]
      cases hval with
      | arith ho => simp at ho
      | bitwise ho => simp at ho
      | shl h0 h1 hsg hz =>
        congr 1
        exact stored_of_dvd hl hb hs (dvd_swap (dvd_pow_of_le hle (dvd_of_converts hpi hpb hz)))
    · simp only [hy, runOp, hcount]
      cases hval with
      | arith ho => simp at ho
      | bitwise ho => simp at ho
      | shr h0 h1 =>
        congr 1
        exact converts_unique hl (converts_of_dvd hl hb (div_pow_range hl hv _) (by simp)) hs

example : Assigns .shr .s8 .s32 (-100) 3 (-13) := ⟨.s32, -13, .shr (l := .s8) (by decide) (by decide), by decide⟩
example : assign .shr .s8 .s32 false (-100) 3 = .stored (-13) := by decide

/-! ## Division and remainder -/

/-- C20 for `/=` and `%=`. The code only matches C if (a) the operation is done in the common type
anyway (punted, or the left operand already has that type), or (b) both operands keep their value
when converted to the common type and the right one also when converted to the type of the left;
in addition the quotient must fit the left type. Otherwise see the findings below. -/
theorem C20_division_partial (op : Compound.Op) (hop : op = .div ∨ op = .mod) (l r : Ty) (hl : isInteger l) (hr : isInteger r)
    (lit : Bool) (v w s : Int) (c : Ty) (hc : Common l r c) (hw0 : w ≠ 0) (hvr : InRange l v)
    (hgood : punts op l r lit w = true ∨ c = l ∨ (InRange c v ∧ InRange c w ∧ InRange l w ∧ ¬ (w = -1 ∧ v = minVal l)))
    (h : Assigns op l r v w s) : assign op l r lit v w = .stored s := by
  obtain ⟨hu, hci, hcb, hle⟩ := common_facts hl hr hc
  obtain ⟨c', z, hval, hs⟩ := h
  cases hval with
  | bitwise ho => simp at ho; rcases ho with ⟨rfl, -⟩ | ⟨rfl, -⟩ | ⟨rfl, -⟩ <;> simp at hop
  | shl => simp at hop
  | shr => simp at hop
  | arith ho hc' hx hy he hsg hq hz =>
    rename_i op' x y e
    have hcc : c = c' := by
      have := (Props.IntType.C15_common_type _ _ _).2 hc'
      rw [hu] at this; exact Option.some.inj this
    subst hcc
    have hx' := conv_of_converts hci hx
    have hy' := conv_of_converts hci hy
    have hxr := converts_range hcb hx
    have hyr := converts_range hcb hy
    -- the run-time operation in the common type gives `z`
    have hy0 : y ≠ 0 := by
      intro h; subst h
      rcases mem_arith ho with ⟨rfl, rfl⟩ | ⟨rfl, rfl⟩ | ⟨rfl, rfl⟩ | ⟨rfl, rfl⟩ | ⟨rfl, rfl⟩ <;>
        simp [exact] at he hop
    have htm : x.tmod y = x - x.tdiv y * y := by rw [Int.tmod_def, Int.mul_comm]
    have hquot : InRange c (x.tdiv y) := by
      by_cases hsc : signed c
      · rcases hop with rfl | rfl
        · have hs' := hsg hsc
          rcases mem_arith ho with ⟨h, rfl⟩ | ⟨h, rfl⟩ | ⟨h, rfl⟩ | ⟨h, rfl⟩ | ⟨h, rfl⟩ <;> cases h
          simp [exact, hy0] at he; subst he; exact hs'
        · exact hq hsc rfl
      · have h0 : minVal c = 0 := by
          unfold signed at hsc; cases c <;> first | rfl | exact absurd (by decide) hsc
        have h1 := hxr; have h2 := hyr
        simp only [InRange, h0] at h1 h2 ⊢
        have := tdiv_range_of_nonneg h1.1 (show 0 < y by omega)
        omega
    have hrem : InRange c (x.tmod y) := by
      have h1 := hxr; have h2 := hyr
      have e1 := tmod_range (x := x) hy0
      have e2 : 0 ≤ x → 0 ≤ x.tmod y := fun h => Int.tmod_nonneg y h
      cases c <;> first | exact absurd hci id | exact absurd rfl hcb | (simp only [InRange, minVal, maxVal] at *; omega)
    have hrun : runOp c op x y = some z := by
      rcases hop with rfl | rfl
      · rcases mem_arith ho with ⟨h, rfl⟩ | ⟨h, rfl⟩ | ⟨h, rfl⟩ | ⟨h, rfl⟩ | ⟨h, rfl⟩ <;> cases h
        simp [exact, hy0] at he; subst he
        simp only [runOp, if_neg hy0, hostConv_id hci hcb hquot, if_true]
        rw [← hostConv_id hci hcb hquot, (converts_iff hci hcb).1 hz]
      · rcases mem_arith ho with ⟨h, rfl⟩ | ⟨h, rfl⟩ | ⟨h, rfl⟩ | ⟨h, rfl⟩ | ⟨h, rfl⟩ <;> cases h
        simp [exact, hy0, ← htm] at he; subst he
        simp only [runOp, if_neg hy0, hostConv_id hci hcb hquot, if_true]
        rw [← hostConv_id hci hcb hrem, (converts_iff hci hcb).1 hz]
    unfold assign
    rw [if_neg (by simp [hw0])]
    by_cases hp : punts op l r lit w = true
    · rw [if_pos hp]
      simp only [hu, hx', hy', hrun]
      rw [conv_of_converts hl hs]
    · rw [if_neg hp]
      have hlb : l ≠ .bool := by intro h; subst h; simp [punts] at hp
      have hro : rightOperand op l w = conv l w := by rcases hop with rfl | rfl <;> simp [rightOperand]
      rw [hro]
      rcases hgood with hg | hg | ⟨hg1, hg2, hg3, hg4⟩
      · exact absurd hg hp
      · subst hg
        have : x = v := by rw [← hx']; exact conv_of_converts hci (converts_of_dvd hci hcb hvr (by simp))
        rw [← this, hy', hrun]
        congr 1
        exact converts_unique hl (converts_of_dvd hl hlb (converts_range hcb hz) (by simp)) hs |>.symm ▸ rfl
      · have e1 : x = v := by rw [← hx']; exact conv_of_converts hci (converts_of_dvd hci hcb hg1 (by simp))
        have e2 : y = w := by rw [← hy']; exact conv_of_converts hci (converts_of_dvd hci hcb hg2 (by simp))
        have e3 : conv l w = w := conv_of_converts hl (converts_of_dvd hl hlb hg3 (by simp))
        subst e1 e2
        rw [e3]
        -- quotient and remainder are in the range of the left type
        have hql : InRange l (x.tdiv y) := by
          have hab := Int.natAbs_tdiv x y
          have hlt : 2 ≤ y.natAbs → (x.tdiv y).natAbs ≤ x.natAbs / 2 := fun h => hab ▸ Nat.div_le_div_left h (by omega)
          have hone : y = 1 → x.tdiv y = x := fun h => by subst h; exact Int.tdiv_one x
          have hmone : y = -1 → x.tdiv y = -x := fun h => by subst h; simp
          have hpos : 0 ≤ x → 0 ≤ y → 0 ≤ x.tdiv y := Int.tdiv_nonneg
          clear hrun hsg hq hz he hxr hyr hquot hrem hx hy hx' hy' htm
          generalize x.tdiv y = q at *
          cases l <;> first | exact absurd hl id | exact absurd rfl hlb | (simp only [InRange, minVal, maxVal] at hvr hg3 hg4 ⊢; omega)
        have hrl : InRange l (x.tmod y) := by
          have e1 := Int.natAbs_tmod x y
          have e2 := Nat.mod_le x.natAbs y.natAbs
          have e3 : 0 ≤ x → 0 ≤ x.tmod y := Int.tmod_nonneg y
          have e4 : x ≤ 0 → x.tmod y ≤ 0 := fun h => by
            have := Int.tmod_nonneg y (show 0 ≤ -x by omega)
            rw [Int.neg_tmod] at this; omega
          clear hrun hsg hq hz he hxr hyr hquot hrem hx hy hx' hy' htm
          cases l <;> first | exact absurd hl id | exact absurd rfl hlb | (simp only [InRange, minVal, maxVal] at hvr ⊢; omega)
        rcases hop with rfl | rfl
        · simp only [runOp, if_neg hy0, hostConv_id hci hcb hquot, if_true, Option.some.injEq] at hrun
          subst hrun
          simp only [runOp, if_neg hy0, hostConv_id hl hlb hql, if_true]
          congr 1
          exact converts_unique hl (converts_of_dvd hl hlb hql (by simp)) hs
        · simp only [runOp, if_neg hy0, hostConv_id hci hcb hquot, if_true, Option.some.injEq] at hrun
          subst hrun
          simp only [runOp, if_neg hy0, hostConv_id hl hlb hql, if_true]
          congr 1
          exact converts_unique hl (converts_of_dvd hl hlb hrl (by simp)) hs

/-- Users' common cases: if both operands are non-negative, or the types are the same and not
narrower than `int`, `/=` and `%=` are right whatever the literal/punt decision. -/
theorem C20_division_nonnegative (op : Compound.Op) (hop : op = .div ∨ op = .mod) (l r : Ty) (hl : isInteger l) (hr : isInteger r)
    (lit : Bool) (v w s : Int) (hv : InRange l v) (hw : InRange r w) (hv0 : 0 ≤ v) (hw0 : 0 < w)
    (hwl : InRange l w) (h : Assigns op l r v w s) : assign op l r lit v w = .stored s := by
  obtain ⟨c, hc⟩ := (Props.IntType.C15_total_and_symmetric l r).1
  have hc' := (Props.IntType.C15_common_type _ _ _).1 hc
  refine C20_division_partial op hop l r hl hr lit v w s c hc' (by omega) hv (Or.inr (Or.inr ⟨?_, ?_, hwl, by omega⟩)) h
  · exact Props.IntType.C15_value_preserved l r c hl hr hc v hv (Or.inl hv0)
  · refine Props.IntType.C15_value_preserved r l c hr hl ?_ w hw (Or.inl (by omega))
    rw [(Props.IntType.C15_total_and_symmetric r l).2]; exact hc

theorem C20_division_same_type (op : Compound.Op) (hop : op = .div ∨ op = .mod) (l : Ty)
    (hl : l = .s32 ∨ l = .u32 ∨ l = .s64 ∨ l = .u64) (lit : Bool) (v w s : Int) (hv : InRange l v) (hw0 : w ≠ 0)
    (h : Assigns op l l v w s) : assign op l l lit v w = .stored s := by
  have hi : isInteger l := by rcases hl with rfl | rfl | rfl | rfl <;> trivial
  have hc : Common l l l := by rcases hl with rfl | rfl | rfl | rfl <;> decide
  exact C20_division_partial op hop l l hi hi lit v w s l hc hw0 hv (Or.inr (Or.inl rfl)) h

/-- A zero literal divisor is reported, whatever the types. -/
theorem C20_zero_literal (op : Compound.Op) (hop : op = .div ∨ op = .mod) (l r : Ty) (v : Int) :
    assign op l r true v 0 = .error := by
  simp [assign, hop]

/-! ### Findings: `/=` and `%=` differ from C -/

/-- `int a = -6; a /= 3u;` is an unsigned division in C, the code divides signed. -/
theorem C20_signed_by_unsigned_wrong :
    Assigns .div .s32 .u32 (-6) 3 1431655763 ∧ assign .div .s32 .u32 false (-6) 3 = .stored (-2) :=
  ⟨⟨.u32, 1431655763, .arith (op' := .div) (x := 4294967290) (y := 3) (e := 1431655763) (by simp) (by decide) (by decide) (by decide)
    (by decide) (by decide) (by decide) (by decide), by decide⟩, by decide⟩

/-- `unsigned char a = 10; signed char b = -1; a /= b;` stores 246 in C and 0 here. -/
theorem C20_narrow_negative_divisor_wrong :
    Assigns .div .u8 .s8 10 (-1) 246 ∧ assign .div .u8 .s8 false 10 (-1) = .stored 0 :=
  ⟨⟨.s32, -10, .arith (op' := .div) (x := 10) (y := -1) (e := -10) (by simp) (by decide) (by decide) (by decide)
    (by decide) (by decide) (by decide) (by decide), by decide⟩, by decide⟩

/-- `short a = -5; a /= 3ull;`: a small literal suppresses the promotion to the common type. -/
theorem C20_small_literal_wrong :
    Assigns .div .s16 .u64 (-5) 3 21843 ∧ assign .div .s16 .u64 true (-5) 3 = .stored (-1) :=
  ⟨⟨.u64, 6148914691236517203, .arith (op' := .div) (x := 18446744073709551611) (y := 3) (e := 6148914691236517203) (by simp) (by decide) (by decide)
    (by decide) (by decide) (by decide) (by decide) (by decide), by decide⟩, by decide⟩

/-- `signed char a = -128, b = -1; a /= b;` (and `a %= b`) is defined in C but the 8-bit `idiv`
raises an exception. -/
theorem C20_narrow_min_traps :
    (Assigns .div .s8 .s8 (-128) (-1) (-128) ∧ assign .div .s8 .s8 false (-128) (-1) = .trap) ∧
    (Assigns .mod .s8 .s8 (-128) (-1) 0 ∧ assign .mod .s8 .s8 false (-128) (-1) = .trap) :=
  ⟨⟨⟨.s32, 128, .arith (op' := .div) (x := -128) (y := -1) (e := 128) (by simp) (by decide) (by decide) (by decide)
    (by decide) (by decide) (by decide) (by decide), by decide⟩, by decide⟩,
   ⟨⟨.s32, 0, .arith (op' := .mod) (x := -128) (y := -1) (e := 0) (by simp) (by decide) (by decide) (by decide)
    (by decide) (by decide) (by decide) (by decide), by decide⟩, by decide⟩⟩

/-! ## Bit-fields -/

/-- Operations other than shifts, done in the common type, give the C value. -/
theorem run_value {op : Compound.Op} {l r c : Ty} {v w z : Int} (hl : isInteger l) (hr : isInteger r) (hop : op ≠ .shl ∧ op ≠ .shr)
    (h : Value op l r v w c z) : usualConversions l r = some c ∧ runOp c op (conv c v) (conv c w) = some z := by
  cases h with
  | shl => exact absurd rfl hop.1
  | shr => exact absurd rfl hop.2
  | arith ho hc hx hy he hsg hq hz =>
    rename_i op' x y e
    obtain ⟨hu, hci, hcb, hle⟩ := common_facts hl hr hc
    refine ⟨hu, ?_⟩
    rw [conv_of_converts hci hx, conv_of_converts hci hy]
    have hxr := converts_range hcb hx
    have hyr := converts_range hcb hy
    have hzz := ((converts_iff hci hcb).1 hz).symm
    rcases mem_arith ho with ⟨rfl, rfl⟩ | ⟨rfl, rfl⟩ | ⟨rfl, rfl⟩ | ⟨rfl, rfl⟩ | ⟨rfl, rfl⟩
    · cases he; simp only [runOp, hzz]
    · cases he; simp only [runOp, hzz]
    · cases he; simp only [runOp, hzz]
    · have hy0 : y ≠ 0 := by intro h; subst h; simp [exact] at he
      simp [exact, hy0] at he; subst he
      have hquot : InRange c (x.tdiv y) := by
        by_cases hsc : signed c
        · exact hsg hsc
        · have h0 : minVal c = 0 := by
            unfold signed at hsc; cases c <;> first | rfl | exact absurd (by decide) hsc
          have h1 := hxr; have h2 := hyr
          simp only [InRange, h0] at h1 h2 ⊢
          have := tdiv_range_of_nonneg h1.1 (show 0 < y by omega)
          omega
      have hid := hostConv_id hci hcb hquot
      simp only [runOp, if_neg hy0, hid, if_true]
      rw [← hzz, hid]
    · have hy0 : y ≠ 0 := by intro h; subst h; simp [exact] at he
      have htm : x.tmod y = x - x.tdiv y * y := by rw [Int.tmod_def, Int.mul_comm]
      simp [exact, hy0, ← htm] at he; subst he
      have hquot : InRange c (x.tdiv y) := by
        by_cases hsc : signed c
        · exact hq hsc rfl
        · have h0 : minVal c = 0 := by
            unfold signed at hsc; cases c <;> first | rfl | exact absurd (by decide) hsc
          have h1 := hxr; have h2 := hyr
          simp only [InRange, h0] at h1 h2 ⊢
          have := tdiv_range_of_nonneg h1.1 (show 0 < y by omega)
          omega
      have hrem : InRange c (x.tmod y) := by
        have h1 := hxr; have h2 := hyr
        have e1 := tmod_range (x := x) hy0
        have e2 : 0 ≤ x → 0 ≤ x.tmod y := fun h => Int.tmod_nonneg y h
        cases c <;> first | exact absurd hci id | exact absurd rfl hcb | (simp only [InRange, minVal, maxVal] at *; omega)
      simp only [runOp, if_neg hy0, hostConv_id hci hcb hquot, if_true]
      rw [← hzz, hostConv_id hci hcb hrem]
  | bitwise ho hc hx hy hzr hb =>
    rename_i bop x y
    obtain ⟨hu, hci, hcb, hle⟩ := common_facts hl hr hc
    refine ⟨hu, ?_⟩
    rw [run_bitwise ho, conv_of_converts hci hx, conv_of_converts hci hy]
    congr 1
    refine converts_unique hci (hostConv_converts hci hcb _) (converts_of_dvd hci hcb hzr ?_)
    apply Props.Fold.dvd_of_bits
    intro i hi
    rw [hb i hi, bits_of_run bop (Nat.le_refl _) (x := x) (y := y) (by simp) (by simp) i hi]

theorem convBits_holds (base : Ty) (width : Nat) (hw : 0 < width) (z : Int) : FieldHolds base width z (convBits base.isSigned width z) := by
  have hsg : signed base ↔ base.isSigned = true := by cases base <;> decide
  refine ⟨?_, hostConv_dvd _ _ _⟩
  have h2 : (2 : Int) ^ width = 2 * 2 ^ (width - 1) := by rw [← Int.pow_succ']; congr 1; omega
  have h2n : (2 : Nat) ^ width = 2 * 2 ^ (width - 1) := by rw [← Nat.pow_succ']; congr 1; omega
  have hc : ((2 ^ (width - 1) : Nat) : Int) = 2 ^ (width - 1) := by simp
  have hlt := Int.emod_lt_of_pos z (show (0 : Int) < 2 ^ width from Int.pow_pos (by omega))
  have hge := Int.emod_nonneg z (show (2 : Int) ^ width ≠ 0 from Int.ne_of_gt (Int.pow_pos (by omega)))
  have hmod : (z % 2 ^ width).toNat % 2 ^ width = (z % 2 ^ width).toNat := by
    apply Nat.mod_eq_of_lt
    have : (((2 ^ width : Nat)) : Int) = 2 ^ width := by simp
    omega
  simp only [convBits, hostConv, Fold.rd, hmod]
  generalize (2 : Int) ^ width = P at *
  generalize (2 : Int) ^ (width - 1) = Q at *
  generalize (2 : Nat) ^ (width - 1) = Qn at *
  by_cases hs : base.isSigned = true
  · rw [if_pos (hsg.2 hs)]
    simp only [hs, true_and]
    split <;> omega
  · rw [if_neg (fun h => hs (hsg.1 h)), if_neg (fun h => hs h.1)]
    omega

/-- The type the parser gives the left operand is the promoted type of C. -/
theorem field_type {base : Ty} (hb : isInteger base) {width : Nat} (h0 : 0 < width) (h1 : width ≤ base.bits) :
    (if width < 32 then Ty.s32 else if width = 32 then (if base.isSigned then .s32 else .u32) else base) = fieldPromoted base width := by
  have hpow : ∀ k : Nat, k < 65 → width = k → (if width < 32 then Ty.s32 else if width = 32 then (if base.isSigned then .s32 else .u32) else base) = fieldPromoted base width := by
    intro k hk e
    subst e
    have : ∀ k : Fin 65, ∀ b ∈ [Ty.bool, .s8, .u8, .s16, .u16, .s32, .u32, .s64, .u64], 0 < k.val → k.val ≤ b.bits →
      (if k.val < 32 then Ty.s32 else if k.val = 32 then (if b.isSigned then .s32 else .u32) else b) = fieldPromoted b k.val := by decide
    refine this ⟨width, hk⟩ base ?_ h0 h1
    cases base <;> first | exact absurd hb id | decide
  have : base.bits ≤ 64 := by cases base <;> decide
  exact hpow width (by omega) rfl

/-- C20 for bit-fields: if C defines `E1 op E2` with the promoted type of the field, `E1 op= E2`
stores that value in the field. For `>>=` a negative field needs a signed common type, see
`C20_bitfield_shift_wrong`. -/
theorem C20_bitfield_partial (op : Compound.Op) (base : Ty) (width : Nat) (r : Ty) (hb : isInteger base) (h0 : 0 < width) (h1 : width ≤ base.bits)
    (hr : isInteger r) (lit : Bool) (v w z : Int) (c : Ty) (hv : InRange (fieldPromoted base width) v)
    (hshr : op = .shr → 0 ≤ v ∨ ∃ c', Common (fieldPromoted base width) r c' ∧ signed c')
    (h : Value op (fieldPromoted base width) r v w c z) :
    ∃ s, assignBitfield op base width r lit v w = .stored s ∧ FieldHolds base width z s := by
  have hpi : isInteger (fieldPromoted base width) := by
    rw [← field_type hb h0 h1]; split; trivial; split; split <;> trivial; exact hb
  have hpw : width ≤ (fieldPromoted base width).bits ∧ 32 ≤ (fieldPromoted base width).bits := by
    rw [← field_type hb h0 h1]; split
    · simp [Ty.bits]; omega
    · split
      · split <;> (simp [Ty.bits]; omega)
      · omega
  simp only [assignBitfield]
  rw [field_type hb h0 h1]
  generalize fieldPromoted base width = l at *
  have herr : ¬ (lit = true ∧ w = 0 ∧ (op = .div ∨ op = .mod)) := by
    rintro ⟨-, rfl, ho⟩
    cases h with
    | arith ho' hc hx hy he =>
      obtain ⟨-, hci, hcb, -⟩ := common_facts hpi hr hc
      have : conv c 0 = 0 := by simp [conv, hcb, hostConv, Fold.rd]
      have hy' := conv_of_converts hci hy
      rw [this] at hy'; subst hy'
      rcases mem_arith ho' with ⟨rfl, rfl⟩ | ⟨rfl, rfl⟩ | ⟨rfl, rfl⟩ | ⟨rfl, rfl⟩ | ⟨rfl, rfl⟩ <;> simp [exact] at he ho
    | bitwise ho' => simp at ho'; rcases ho' with ⟨rfl, -⟩ | ⟨rfl, -⟩ | ⟨rfl, -⟩ <;> simp at ho
    | shl => simp at ho
    | shr => simp at ho
  rw [if_neg herr]
  by_cases hop : op ≠ .shl ∧ op ≠ .shr
  · obtain ⟨e1, e2⟩ := run_value hpi hr hop h
    simp only [e1, e2]
    exact ⟨_, rfl, convBits_holds base width h0 z⟩
  · obtain ⟨c', hc'⟩ := (Props.IntType.C15_total_and_symmetric l r).1
    obtain ⟨hcc, hle, -⟩ := common_big hpi hr hc'
    have hci : isInteger c' := by rcases hcc with rfl | rfl | rfl | rfl <;> trivial
    have hcb : c' ≠ .bool := by rcases hcc with rfl | rfl | rfl | rfl <;> decide
    have hbnd : 0 ≤ w ∧ w < (promoted l).bits := by
      cases h with
      | shl h0 h1 => exact ⟨h0, h1⟩
      | shr h0 h1 => exact ⟨h0, h1⟩
      | arith ho => rcases mem_arith ho with ⟨rfl, -⟩ | ⟨rfl, -⟩ | ⟨rfl, -⟩ | ⟨rfl, -⟩ | ⟨rfl, -⟩ <;> simp at hop
      | bitwise ho => simp at ho; rcases ho with ⟨rfl, -⟩ | ⟨rfl, -⟩ | ⟨rfl, -⟩ <;> simp at hop
    have hpl : promoted l = l := by
      have := hpw.2
      cases l <;> first | rfl | (simp [Ty.bits] at this; done) | exact absurd hpi id
    have hl64 : l.bits = 64 → c'.bits = 64 := by
      intro h; rw [h] at hle; rcases hcc with rfl | rfl | rfl | rfl <;> first | rfl | exact absurd hle (by decide)
    have hl3264 : l.bits = 32 ∨ l.bits = 64 := by cases l <;> simp [Ty.bits] at hpw ⊢
    rw [hpl] at hbnd
    have hw' : conv c' w = w := by
      simp only [conv, if_neg hcb]; apply hostConv_id hci hcb
      rcases hcc with rfl | rfl | rfl | rfl <;> (simp [InRange, minVal, maxVal]; omega)
    have hcount := count_id (t := c') (w := w) hbnd.1 (by omega) (fun h => by
      have : l.bits ≠ 64 := fun h' => h (hl64 h')
      omega)
    simp only [hc', hw']
    have hcv : (2 ^ c'.bits : Int) ∣ conv c' v - v := dvd_of_converts hci hcb (conv_converts hci v)
    cases h with
    | arith ho => rcases mem_arith ho with ⟨rfl, -⟩ | ⟨rfl, -⟩ | ⟨rfl, -⟩ | ⟨rfl, -⟩ | ⟨rfl, -⟩ <;> simp at hop
    | bitwise ho => simp at ho; rcases ho with ⟨rfl, -⟩ | ⟨rfl, -⟩ | ⟨rfl, -⟩ <;> simp at hop
    | shl hh0 hh1 hsg hz =>
      simp only [runOp, hcount]
      refine ⟨_, rfl, ?_⟩
      have hh := convBits_holds base width h0 (hostConv c'.bits c'.isSigned (conv c' v * 2 ^ w.toNat))
      refine ⟨hh.1, dvd_chain hh.2 ?_⟩
      have d1 := dvd_pow_of_le (show width ≤ c'.bits by omega) (hostConv_dvd c'.bits c'.isSigned (conv c' v * 2 ^ w.toNat))
      have d2 := dvd_pow_of_le (show width ≤ c'.bits by omega) (dvd_mul_sub hcv (show (2 ^ c'.bits : Int) ∣ 2 ^ w.toNat - 2 ^ w.toNat by simp))
      have hlb : l ≠ .bool := by rintro rfl; simp [Ty.bits] at hl3264
      rw [hpl] at hz
      have d3 := dvd_pow_of_le hpw.1 (dvd_of_converts hpi hlb hz)
      exact dvd_chain d1 (dvd_chain d2 (dvd_swap d3))
    | shr hh0 hh1 =>
      simp only [runOp, hcount]
      have hcv' : conv c' v = v := by
        refine conv_of_converts hci (converts_of_dvd hci hcb ?_ (by simp))
        rcases hshr rfl with hv0 | ⟨c'', hc'', hsc⟩
        · exact Props.IntType.C15_value_preserved l r c' hpi hr hc' v hv (Or.inl hv0)
        · have := (Props.IntType.C15_common_type _ _ _).2 hc''
          rw [hc'] at this; cases this
          exact Props.IntType.C15_value_preserved l r c' hpi hr hc' v hv (Or.inr hsc)
      rw [hcv']
      exact ⟨_, rfl, convBits_holds base width h0 _⟩

example : Value .mul (fieldPromoted .u32 5) .s32 17 3 .s32 51 ∧ assignBitfield .mul .u32 5 .s32 false 17 3 = .stored 19 :=
  ⟨.arith (op' := .mul) (x := 17) (y := 3) (e := 51) (by simp) (by decide) (by decide) (by decide) (by decide) (by decide) (by decide) (by decide), by decide⟩

/-- `struct { int x : 31; } s = { -1 }; s.x >>= 4u;` keeps -1 in C (the promoted left operand is
`int`); the code shifts in the common type `unsigned`. -/
theorem C20_bitfield_shift_wrong :
    Value .shr .s32 .u32 (-1) 4 .s32 (-1) ∧ assignBitfield .shr .s32 31 .u32 false (-1) 4 = .stored 268435455 := by
  refine ⟨?_, by decide⟩
  have := Value.shr (l := .s32) (r := .u32) (v := -1) (w := 4) (by decide) (by decide)
  exact this

-- the partial theorem's hypotheses are met by a punted division and by an int division
example : punts .div .s8 .s32 false 256 = true ∧ Common .s8 .s32 .s32 ∧ assign .mod .s8 .s32 false 1 256 = .stored 1 := by decide

end Verif.Props.Compound
