import Verif.Model.Crc32
import Verif.Spec.Crc32
import Mathlib.Tactic.Ring
import Mathlib.Algebra.Polynomial.Monic
import Mathlib.Algebra.Polynomial.Degree.Operations
import Mathlib.Algebra.CharP.Two

/-!
# C45: CRC-32
-/
namespace Verif.Props.Crc32
open Verif.Crc32 Verif.Spec.Crc32 Polynomial

theorem poly_append (a b : List Bool) : poly (a ++ b) = poly a * X ^ b.length + poly b := by
  induction b using List.reverseRecOn with
  | nil => simp [poly]
  | append_singleton b x ih =>
    rw [← List.append_assoc]
    have h : ∀ l, poly (l ++ [x]) = poly l * X + (if x then 1 else 0) := fun l => by simp [poly]
    rw [h, h, ih, List.length_append, List.length_singleton, pow_succ]
    ring

theorem poly_cons (x : Bool) (b : List Bool) : poly (x :: b) = (if x then 1 else 0) * X ^ b.length + poly b := by
  have := poly_append [x] b
  rw [List.singleton_append] at this
  rw [this]
  simp [poly]

theorem poly_zeros (n : Nat) : poly (List.replicate n false) = 0 := by
  induction n with
  | zero => simp [poly]
  | succ n ih => rw [List.replicate_succ, poly_cons, ih]; simp

theorem poly_xor (a : List Bool) : ∀ b, a.length = b.length → poly (List.zipWith xor a b) = poly a + poly b := by
  induction a with
  | nil => intro b h; cases b <;> simp_all [poly]
  | cons x a ih =>
    intro b h
    cases b with
    | nil => simp at h
    | cons y b =>
      simp only [List.length_cons, Nat.add_right_cancel_iff] at h
      rw [List.zipWith_cons_cons, poly_cons, poly_cons, poly_cons, ih b h, List.length_zipWith, h, Nat.min_self]
      cases x <;> cases y <;> simp
      · ring
      · ring
      · have : (X ^ b.length + X ^ b.length : (ZMod 2)[X]) = 0 := CharTwo.add_self_eq_zero _
        calc poly a + poly b = (X ^ b.length + X ^ b.length) + (poly a + poly b) := by rw [this, zero_add]
          _ = _ := by ring

theorem poly_degree (a : List Bool) : (poly a).degree < a.length := by
  induction a with
  | nil => simp [poly]
  | cons x a ih =>
    rw [poly_cons, List.length_cons]
    refine lt_of_le_of_lt (degree_add_le _ _) (max_lt ?_ ?_)
    · cases x
      · simp
      · simp
        exact_mod_cast Nat.lt_succ_self _
    · exact lt_trans ih (by exact_mod_cast Nat.lt_succ_self _)

theorem bits_xor {w : Nat} (a b : BitVec w) : bits (a ^^^ b) = List.zipWith xor (bits a) (bits b) := by
  simp only [bits]
  apply List.ext_getElem
  · simp
  · intro i h1 h2
    simp

theorem bits_length {w : Nat} (a : BitVec w) : (bits a).length = w := by simp [bits]

theorem poly_bits_xor {w : Nat} (a b : BitVec w) : poly (bits (a ^^^ b)) = poly (bits a) + poly (bits b) := by
  rw [bits_xor, poly_xor _ _ (by rw [bits_length, bits_length])]

/-- One bit of the long division on the reflected register. -/
def step1 (c : BitVec 32) : BitVec 32 := (c >>> 1) ^^^ (if c.getLsbD 0 then 0xedb88320#32 else 0#32)

theorem bits_shift (c : BitVec 32) : bits c = c.getLsbD 0 :: ((List.range 31).map fun i => c.getLsbD (i + 1)) ∧
    bits (c >>> 1) = ((List.range 31).map fun i => c.getLsbD (i + 1)) ++ [false] := by
  constructor
  · simp only [bits]
    rw [List.range_succ_eq_map]
    simp [Function.comp_def]
  · simp only [bits]
    rw [List.range_succ]
    simp [Nat.add_comm]

theorem poly_gen : X ^ 32 + poly (bits 0xedb88320#32) = gen := by
  have : bits 0xedb88320#32 = [false, false, false, false, false, true, false, false, true, true, false, false, false, false, false, true,
    false, false, false, true, true, true, false, true, true, false, true, true, false, true, true, true] := by decide
  rw [this]
  simp only [poly, List.foldl, gen, Bool.false_eq_true, if_true, if_false]
  ring

theorem gen_monic : gen.Monic := by
  rw [← poly_gen]
  exact monic_X_pow_add (by have := poly_degree (bits 0xedb88320#32); rwa [bits_length] at this)

theorem gen_degree : gen.degree = 32 := by
  rw [← poly_gen]
  have := poly_degree (bits 0xedb88320#32)
  rw [bits_length] at this
  rw [degree_add_eq_left_of_degree_lt]
  · simp
  · rw [degree_X_pow]; exact this

/-- One bit of the division multiplies by `X` modulo the generator. -/
theorem step1_poly (c : BitVec 32) : ∃ q, poly (bits (step1 c)) + gen * q = X * poly (bits c) := by
  obtain ⟨h1, h2⟩ := bits_shift c
  rw [step1, poly_bits_xor, h2, h1, poly_append, poly_cons (c.getLsbD 0)]
  simp only [List.length_map, List.length_range, List.length_singleton, pow_one]
  generalize poly ((List.range 31).map fun i => c.getLsbD (i + 1)) = r
  have hz : poly [false] = 0 := poly_zeros 1
  rw [hz]
  cases c.getLsbD 0 with
  | false =>
    refine ⟨0, ?_⟩
    have : poly (bits (0#32)) = 0 := by
      rw [show bits 0#32 = List.replicate 32 false by decide, poly_zeros]
    simp only [Bool.false_eq_true, if_false, this]
    ring
  | true =>
    refine ⟨1, ?_⟩
    simp only [if_true]
    rw [← poly_gen]
    generalize hP : poly (bits 0xedb88320#32) = P
    have : P + P = 0 := CharTwo.add_self_eq_zero _
    calc _ = X ^ 32 + r * X + (P + P) := by ring
      _ = _ := by rw [this]; ring

/-- `n` bits. -/
def steps : Nat → BitVec 32 → BitVec 32
  | 0, c => c
  | n + 1, c => steps n (step1 c)

theorem steps_poly (n : Nat) : ∀ c, ∃ q, poly (bits (steps n c)) + gen * q = X ^ n * poly (bits c) := by
  induction n with
  | zero => intro c; exact ⟨0, by simp [steps]⟩
  | succ n ih =>
    intro c
    obtain ⟨q1, h1⟩ := ih (step1 c)
    obtain ⟨q2, h2⟩ := step1_poly c
    refine ⟨q1 + X ^ n * q2, ?_⟩
    rw [steps]
    calc _ = (poly (bits (steps n (step1 c))) + gen * q1) + X ^ n * (gen * q2) := by ring
      _ = X ^ n * (poly (bits (step1 c)) + gen * q2) := by rw [h1]; ring
      _ = _ := by rw [h2]; ring

theorem step1_xor (a b : BitVec 32) : step1 (a ^^^ b) = step1 a ^^^ step1 b := by
  simp only [step1, BitVec.getLsbD_xor, BitVec.ushiftRight_xor_distrib]
  cases a.getLsbD 0 <;> cases b.getLsbD 0 <;> simp only [Bool.xor_false, Bool.xor_true, Bool.not_true, Bool.not_false, Bool.false_eq_true, if_true, if_false, BitVec.xor_zero]
  · ac_rfl
  · ac_rfl
  · rw [show ∀ x y z : BitVec 32, (x ^^^ z) ^^^ (y ^^^ z) = (x ^^^ y) ^^^ (z ^^^ z) from fun x y z => by ac_rfl, BitVec.xor_self, BitVec.xor_zero]

theorem steps_xor (n : Nat) : ∀ a b, steps n (a ^^^ b) = steps n a ^^^ steps n b := by
  induction n with
  | zero => intro a b; rfl
  | succ n ih => intro a b; simp only [steps]; rw [step1_xor, ih]

theorem steps_shift (n : Nat) : ∀ a : BitVec 32, (∀ i, i < n → a.getLsbD i = false) → steps n a = a >>> n := by
  induction n with
  | zero => intro a _; simp [steps]
  | succ n ih =>
    intro a h
    have h0 : step1 a = a >>> 1 := by rw [step1, h 0 (by omega)]; simp
    rw [steps, h0, ih _ (fun i hi => by rw [BitVec.getLsbD_ushiftRight]; exact h _ (by omega)), ← BitVec.shiftRight_add, Nat.add_comm]

set_option maxRecDepth 8000 in
theorem table_ok : ∀ b : Fin 256, table.getD b.val 0#32 = steps 8 (BitVec.ofNat 32 b.val) := by decide

theorem update_eq (c : BitVec 32) (b : BitVec 8) : update c b = steps 8 (c ^^^ b.setWidth 32) := by
  have hidx : (c &&& 0xff#32) ^^^ b.setWidth 32 = (c ^^^ b.setWidth 32) &&& 0xff#32 := by
    apply BitVec.eq_of_getLsbD_eq
    intro i hi
    have : (0xff#32).getLsbD i = decide (i < 8) := by
      have : ∀ i : Fin 32, (0xff#32).getLsbD i.val = decide (i.val < 8) := by decide
      exact this ⟨i, hi⟩
    simp only [BitVec.getLsbD_xor, BitVec.getLsbD_and, this, BitVec.getLsbD_setWidth]
    by_cases h8 : i < 8
    · simp [h8]
    · simp [h8, BitVec.getLsbD_of_ge b i (by omega)]
  have hsh : c >>> 8 = (c ^^^ b.setWidth 32) >>> 8 := by
    apply BitVec.eq_of_getLsbD_eq
    intro i hi
    simp only [BitVec.getLsbD_ushiftRight, BitVec.getLsbD_xor, BitVec.getLsbD_setWidth]
    rw [BitVec.getLsbD_of_ge b (8 + i) (by omega)]
    simp
  rw [Verif.Crc32.update, hidx, hsh]
  generalize c ^^^ b.setWidth 32 = x
  have hlt : (x &&& 0xff#32).toNat < 256 := by
    rw [BitVec.toNat_and]
    exact Nat.lt_of_le_of_lt Nat.and_le_right (by decide)
  have ht := table_ok ⟨_, hlt⟩
  simp only [BitVec.ofNat_toNat, BitVec.setWidth_eq] at ht
  rw [ht]
  have hsplit : x = (x &&& 0xffffff00#32) ^^^ (x &&& 0xff#32) := by
    apply BitVec.eq_of_getLsbD_eq
    intro i hi
    have : ∀ i : Fin 32, (0xffffff00#32).getLsbD i.val = !(0xff#32).getLsbD i.val := by decide
    have := this ⟨i, hi⟩
    simp only at this
    simp only [BitVec.getLsbD_xor, BitVec.getLsbD_and, this]
    cases x.getLsbD i <;> cases (0xff#32).getLsbD i <;> rfl
  have hhi : steps 8 (x &&& 0xffffff00#32) = x >>> 8 := by
    rw [steps_shift]
    · apply BitVec.eq_of_getLsbD_eq
      intro i hi
      simp only [BitVec.getLsbD_ushiftRight, BitVec.getLsbD_and]
      by_cases h : 8 + i < 32
      · have : ∀ i : Fin 32, 8 ≤ i.val → (0xffffff00#32).getLsbD i.val = true := by decide
        rw [this ⟨8 + i, h⟩ (by simp), Bool.and_true]
      · rw [BitVec.getLsbD_of_ge x _ (by omega), Bool.false_and]
    · intro i hi
      have : ∀ i : Fin 8, (0xffffff00#32).getLsbD i.val = false := by decide
      rw [BitVec.getLsbD_and, this ⟨i, hi⟩, Bool.and_false]
  conv => rhs; rw [hsplit, steps_xor, hhi]

theorem poly_byte (b : BitVec 8) : poly (bits (b.setWidth 32)) = poly (bits b) * X ^ 24 := by
  have : bits (b.setWidth 32) = bits b ++ List.replicate 24 false := by
    apply List.ext_getElem
    · simp [bits]
    · intro i h1 h2
      simp only [bits_length] at h1
      by_cases h : i < 8
      · rw [List.getElem_append_left (by simpa [bits] using h)]
        simp [bits, BitVec.getLsbD_setWidth, h1]
      · rw [List.getElem_append_right (by simp [bits]; omega)]
        rw [List.getElem_replicate]
        simp [bits, BitVec.getLsbD_of_ge b i (by omega)]
  rw [this, poly_append, poly_zeros, List.length_replicate, add_zero]

theorem message_length (data : List (BitVec 8)) : (message data).length = 8 * data.length := by
  induction data with
  | nil => rfl
  | cons b data ih =>
    rw [message, List.flatMap_cons, List.length_append, bits_length, List.length_cons]
    rw [message] at ih
    omega

theorem crc_poly (data : List (BitVec 8)) : ∀ init, ∃ q, poly (bits (crc32 init data)) + gen * q = X ^ (8 * data.length) * poly (bits init) + X ^ 32 * poly (message data) := by
  induction data with
  | nil => intro init; exact ⟨0, by simp [crc32, message, poly]⟩
  | cons b data ih =>
    intro init
    obtain ⟨q1, h1⟩ := ih (update init b)
    obtain ⟨q2, h2⟩ := steps_poly 8 (init ^^^ b.setWidth 32)
    rw [← update_eq, poly_bits_xor, poly_byte] at h2
    refine ⟨q1 + X ^ (8 * data.length) * q2, ?_⟩
    have e1 : crc32 init (b :: data) = crc32 (update init b) data := rfl
    have e2 : message (b :: data) = bits b ++ message data := rfl
    rw [e1, e2, poly_append, message_length, List.length_cons]
    calc _ = (poly (bits (crc32 (update init b) data)) + gen * q1) + X ^ (8 * data.length) * (gen * q2) := by ring
      _ = X ^ (8 * data.length) * (poly (bits (update init b)) + gen * q2) + X ^ 32 * poly (message data) := by rw [h1]; ring
      _ = _ := by rw [h2]; ring

/-- C45: for data of any length the result is the remainder of the message, multiplied by `X ^ 32`
and preceded by the initial value, after division by the CRC-32 polynomial. -/
theorem C45_crc32 (init : BitVec 32) (data : List (BitVec 8)) :
    poly (bits (crc32 init data)) = (X ^ (8 * data.length) * poly (bits init) + X ^ 32 * poly (message data)) %ₘ gen := by
  obtain ⟨q, h⟩ := crc_poly data init
  refine ((div_modByMonic_unique q _ gen_monic ⟨h, ?_⟩).2).symm
  rw [gen_degree]
  have := poly_degree (bits (crc32 init data))
  rwa [bits_length] at this

/-- A polynomial determines the register, so `C45_crc32` determines the result. -/
theorem C45_poly_injective (a b : BitVec 32) (h : poly (bits a) = poly (bits b)) : a = b := by
  have inj : ∀ l m : List Bool, l.length = m.length → poly l = poly m → l = m := by
    intro l
    induction l with
    | nil => intro m hm _; exact (List.eq_nil_of_length_eq_zero hm.symm).symm
    | cons x l ih =>
      intro m hm hp
      cases m with
      | nil => simp at hm
      | cons y m =>
        simp only [List.length_cons, Nat.add_right_cancel_iff] at hm
        have hl := poly_degree l
        have hm' := poly_degree m
        have hx : ∀ (z : Bool) (k : List Bool), (poly (z :: k)).coeff k.length = if z then 1 else 0 := by
          intro z k
          rw [poly_cons, coeff_add, coeff_eq_zero_of_degree_lt (poly_degree k)]
          cases z <;> simp
        have h1 := hx x l
        rw [hp, hm, hx y m] at h1
        have exy : x = y := by cases x <;> cases y <;> simp_all
        subst exy
        rw [poly_cons, poly_cons, hm] at hp
        rw [ih m hm (add_left_cancel hp)]
  have := inj _ _ (by rw [bits_length, bits_length]) h
  apply BitVec.eq_of_getLsbD_eq
  intro i hi
  have h' := congrArg (fun l => l[i]?) this
  simpa [bits, hi] using h'

-- the check value of CRC-32 ("123456789", with the customary initial value and final complement)
example : ~~~ crc32 0xffffffff#32 [0x31, 0x32, 0x33, 0x34, 0x35, 0x36, 0x37, 0x38, 0x39] = 0xcbf43926#32 := by decide

end Verif.Props.Crc32
