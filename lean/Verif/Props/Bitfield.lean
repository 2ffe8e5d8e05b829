import Verif.Model.Bitfield
import Verif.Spec.Bitfield

/-!
# C25 and C37: bit-fields
-/
namespace Verif.Props.Bitfield
open Verif.Bitfield Verif.Spec.X64 Verif.Spec.Bitfield

/-- A field the layout pass can produce (C12): inside one unit of 1, 2, 4 or 8 bytes. -/
structure Valid (f : Field) : Prop where
  unit : f.unit = 8 ∨ f.unit = 16 ∨ f.unit = 32 ∨ f.unit = 64
  pos : 0 < f.width
  fits : f.index + f.width ≤ f.unit

theorem two_pow_ne (n : Nat) : (2 ^ n : Int) ≠ 0 := by
  have := Nat.two_pow_pos n
  have h : ((2 ^ n : Nat) : Int) ≠ 0 := by omega
  simpa using h

theorem writeReg_mod (n old v : Nat) : writeReg n old v % 2 ^ n = v % 2 ^ n := by
  unfold writeReg
  have hp : 0 < 2 ^ n := Nat.two_pow_pos n
  split
  · exact Nat.mod_mod _ _
  · have h : old - old % 2 ^ n = 2 ^ n * (old / 2 ^ n) := by have := Nat.div_add_mod old (2 ^ n); omega
    rw [h, Nat.mul_add_mod, Nat.mod_mod]

theorem testBit_writeReg {n i : Nat} (old v : Nat) (h : i < n) : (writeReg n old v).testBit i = v.testBit i := by
  have := congrArg (·.testBit i) (writeReg_mod n old v)
  simpa [Nat.testBit_mod_two_pow, h] using this

theorem testBit_loadImm {n i : Nat} (v : Nat) (hn : n = 8 ∨ n = 16 ∨ n = 32 ∨ n = 64) (h : i < n) :
    (loadImm n v).testBit i = v.testBit i := by
  unfold loadImm
  split
  · have : i < 64 := by omega
    rw [Nat.testBit_mod_two_pow]; simp [this]
  · have : i < 32 := by omega
    rw [Nat.testBit_mod_two_pow]; simp [this]

/-- Bit `i` of `0xff..ff - x`. -/
theorem testBit_complement {x i : Nat} (hi : i < 64) (hx : x < 2 ^ 64) : (2 ^ 64 - 1 - x).testBit i = !x.testBit i := by
  have h : 2 ^ 64 - 1 - x = 2 ^ 64 - (x + 1) := by omega
  rw [h, Nat.testBit_two_pow_sub_succ hx]
  simp [hi]

theorem testBit_mask (w b i : Nat) (hi : i < 64) :
    ((2 ^ w - 1) * 2 ^ b % 2 ^ 64).testBit i = decide (b ≤ i ∧ i < b + w) := by
  rw [Nat.testBit_mod_two_pow, Nat.testBit_mul_two_pow, Nat.testBit_two_pow_sub_one]
  simp only [hi, decide_true, Bool.true_and]
  by_cases h : b ≤ i
  · simp [h]; omega
  · simp [h]

theorem store_bits {f : Field} (hf : Valid f) (h64 : f.width < 64) (g rhs mem : Nat) :
    ∃ m', store f g rhs mem = some m' ∧ m' < 2 ^ f.unit ∧ ∀ i, i < f.unit →
      m'.testBit i = if f.index ≤ i ∧ i < f.index + f.width then rhs.testBit (i - f.index) else mem.testBit i := by
  refine ⟨_, by rw [store, if_pos h64], Nat.mod_lt _ (Nat.two_pow_pos _), fun i hi => ?_⟩
  have hu := hf.unit
  have hfits := hf.fits
  have hn : f.unit ≤ opBits f.unit := by unfold opBits; split <;> omega
  have hi' : i < opBits f.unit := by omega
  have hi64 : i < 64 := by omega
  have hrb : ∀ j, j < f.unit → (andR (opBits f.unit) rhs (loadImm f.unit (2 ^ f.width - 1))).testBit j
      = (rhs.testBit j && decide (j < f.width)) := by
    intro j hj
    rw [andR, testBit_writeReg _ _ (by omega : j < opBits f.unit), Nat.testBit_and, Nat.testBit_mod_two_pow,
      Nat.testBit_mod_two_pow, testBit_loadImm _ hu hj, Nat.testBit_two_pow_sub_one]
    simp [show j < opBits f.unit by omega]
  have hr : (if f.index ≠ 0 then shl (opBits f.unit) (andR (opBits f.unit) rhs (loadImm f.unit (2 ^ f.width - 1))) f.index
      else andR (opBits f.unit) rhs (loadImm f.unit (2 ^ f.width - 1))).testBit i
      = if f.index ≤ i ∧ i < f.index + f.width then rhs.testBit (i - f.index) else false := by
    split
    · rw [shl, testBit_writeReg _ _ hi', Nat.testBit_mul_two_pow, Nat.testBit_mod_two_pow, hrb _ (by omega)]
      by_cases hc : f.index ≤ i
      · by_cases hw : i < f.index + f.width
        · simp [hc, hw, show i - f.index < f.width by omega, show i - f.index < opBits f.unit by omega]
        · simp [hw, show ¬ i - f.index < f.width by omega]
      · simp [hc]
    · have h0 : f.index = 0 := by omega
      rw [hrb _ hi, h0]
      by_cases hw : i < f.width <;> simp [hw]
  rw [Nat.testBit_mod_two_pow, orR, testBit_writeReg _ _ hi', Nat.testBit_or, Nat.testBit_mod_two_pow,
    Nat.testBit_mod_two_pow, hr, andR, testBit_writeReg _ _ hi', Nat.testBit_and, Nat.testBit_mod_two_pow,
    Nat.testBit_mod_two_pow, testBit_loadImm _ hu hi, loadGpr, mov, testBit_writeReg _ _ hi,
    testBit_complement hi64 (Nat.mod_lt _ (Nat.two_pow_pos _)), testBit_mask _ _ _ hi64]
  by_cases hc : f.index ≤ i ∧ i < f.index + f.width <;> simp [hc, hi, hi']

theorem testBit_pattern (n i : Nat) (v : Int) (h : i < n) :
    (pattern n v).testBit i = ((v / 2 ^ i) % 2 == 1) := by
  have e : (pattern n v : Int) = v % 2 ^ n := by
    unfold pattern; exact Int.toNat_of_nonneg (Int.emod_nonneg _ (two_pow_ne n))
  rw [Nat.testBit_eq_decide_div_mod_eq]
  have h2 : ((pattern n v / 2 ^ i % 2 : Nat) : Int) = v / 2 ^ i % 2 := by
    rw [Int.natCast_emod, Int.natCast_ediv, e]
    have hsplit : (2 ^ n : Int) = 2 ^ i * (2 * 2 ^ (n - i - 1)) := by
      rw [← Int.mul_assoc, ← Int.pow_succ, ← Int.pow_add]; congr 1; omega
    have hq := Int.emod_add_mul_ediv v (2 ^ n)
    have hv : v = v % 2 ^ n + (2 * (2 ^ (n - i - 1) * (v / 2 ^ n))) * 2 ^ i := by
      have : 2 ^ n * (v / 2 ^ n) = (2 * (2 ^ (n - i - 1) * (v / 2 ^ n))) * 2 ^ i := by
        generalize v / 2 ^ n = q
        rw [hsplit]; grind
      omega
    have hpos : (2 ^ i : Int) ≠ 0 := two_pow_ne i
    conv => rhs; rw [hv, Int.add_mul_ediv_right _ _ hpos]
    push_cast
    omega
  rw [← h2]
  rcases Nat.mod_two_eq_zero_or_one (pattern n v / 2 ^ i) with h | h <;> simp [h]

/-- C37: storing the value `v` (whose two's complement bits are in the register) replaces
exactly the bits of the field, whatever was in the unit and in the registers before.
Missing: `width = 64`, see `C37_width_64_host_ub`. -/
theorem C37_store_partial {f : Field} (hf : Valid f) (h64 : f.width < 64) (g mem : Nat) (v : Int) (rhs : Nat)
    (hr : rhs % 2 ^ f.unit = pattern f.unit v) :
    ∃ m', store f g rhs mem = some m' ∧ Stored f.unit f.index f.width v mem m' := by
  obtain ⟨m', h1, h2, h3⟩ := store_bits hf h64 g rhs mem
  refine ⟨m', h1, h2, fun i hi => ?_⟩
  rw [h3 i hi]
  split
  · have hj : i - f.index < f.unit := by omega
    have := congrArg (·.testBit (i - f.index)) hr
    simp only [Nat.testBit_mod_two_pow, hj, decide_true, Bool.true_and] at this
    rw [this, testBit_pattern _ _ _ hj]
  · rfl

theorem pow_split (a b : Nat) : 2 ^ (a + b) = 2 ^ a * 2 ^ b := Nat.pow_add 2 a b

/-- The register after the load, as an integer in `n` bits. -/
theorem load_core (n b w x : Nat) (hfit : b + w ≤ n) (hw : 0 < w) (hn : n = 32 ∨ n = 64) :
    let r := if b + w < n then shl n x (n - (b + w)) else x
    let v : Int := ((x / 2 ^ b % 2 ^ w : Nat) : Int)
    ((if w ≠ n then shr n r (n - w) else r) % 2 ^ n : Nat) = v ∧
    sext n (if w ≠ n then sar n r (n - w) else r) = if v < 2 ^ (w - 1) then v else v - 2 ^ w := by
  intro r v
  have hx : ∃ y, r % 2 ^ n = y ∧ y / 2 ^ (n - w) = x / 2 ^ b % 2 ^ w := by
    refine ⟨_, rfl, ?_⟩
    have hb : r % 2 ^ n = 2 ^ (n - (b + w)) * (x % 2 ^ (b + w)) := by
      show (if b + w < n then shl n x (n - (b + w)) else x) % 2 ^ n = _
      split
      · rename_i hlt
        rw [shl, writeReg_mod]
        have hs : n = (n - (b + w)) + (b + w) := by omega
        have : 2 ^ n = 2 ^ (n - (b + w)) * 2 ^ (b + w) := by rw [← pow_split]; congr 1
        rw [Nat.mul_comm (x % 2 ^ n), this, Nat.mul_mod_mul_left, ← this,
          Nat.mod_mod_of_dvd _ (Nat.pow_dvd_pow 2 hfit)]
      · have : b + w = n := by omega
        simp [this]
    have hs : 2 ^ (n - w) = 2 ^ (n - (b + w)) * 2 ^ b := by rw [← pow_split]; congr 1; omega
    rw [hb, hs, Nat.mul_div_mul_left _ _ (Nat.two_pow_pos _), pow_split, Nat.mod_mul_right_div_self]
  obtain ⟨y, hy, hd⟩ := hx
  have hylt : y < 2 ^ n := by rw [← hy]; exact Nat.mod_lt _ (Nat.two_pow_pos _)
  have hvlt : x / 2 ^ b % 2 ^ w < 2 ^ w := Nat.mod_lt _ (Nat.two_pow_pos _)
  have hsplit : 2 ^ n = 2 ^ (n - w) * 2 ^ w := by rw [← pow_split]; congr 1; omega
  have hw1 : 2 ^ w = 2 * 2 ^ (w - 1) := by rw [Nat.mul_comm, ← Nat.pow_succ]; congr 1; omega
  have hn1 : 2 ^ n = 2 * 2 ^ (n - 1) := by rw [Nat.mul_comm, ← Nat.pow_succ]; congr 1; omega
  have hn2 : 2 ^ (n - 1) = 2 ^ (n - w) * 2 ^ (w - 1) := by rw [← pow_split]; congr 1; omega
  have hsgn : y < 2 ^ (n - 1) ↔ x / 2 ^ b % 2 ^ w < 2 ^ (w - 1) := by
    rw [← hd, hn2, Nat.mul_comm, Nat.div_lt_iff_lt_mul (Nat.two_pow_pos _)]
  have hvi : v < 2 ^ (w - 1) ↔ x / 2 ^ b % 2 ^ w < 2 ^ (w - 1) := by
    show ((x / 2 ^ b % 2 ^ w : Nat) : Int) < 2 ^ (w - 1) ↔ _
    rw [show (2 ^ (w - 1) : Int) = ((2 ^ (w - 1) : Nat) : Int) by push_cast; rfl, Int.ofNat_lt]
  have hsy : sext n r = if v < 2 ^ (w - 1) then (y : Int) else y - 2 ^ n := by
    unfold sext
    rw [hy]
    by_cases h : y < 2 ^ (n - 1)
    · rw [if_pos h, if_pos (hvi.2 (hsgn.1 h))]
    · rw [if_neg h, if_neg (fun h' => h (hsgn.2 (hvi.1 h')))]
  constructor
  · by_cases hwn : w = n
    · have : n - w = 0 := by omega
      rw [if_neg (by omega)]
      show ((r % 2 ^ n : Nat) : Int) = ((x / 2 ^ b % 2 ^ w : Nat) : Int)
      rw [hy, ← hd, this]; simp
    · rw [if_pos hwn, shr, writeReg_mod, hy, hd, Nat.mod_eq_of_lt]
      exact Nat.lt_of_lt_of_le hvlt (Nat.pow_le_pow_right (by decide) (by omega))
  · by_cases hwn : w = n
    · have h0 : n - w = 0 := by omega
      have hvy : v = y := by
        show ((x / 2 ^ b % 2 ^ w : Nat) : Int) = y
        rw [← hd, h0]; simp
      rw [if_neg (by omega), hsy, hvy, hwn]
    · rw [if_pos hwn]
      have hq : sext n r / 2 ^ (n - w) = if v < 2 ^ (w - 1) then v else v - 2 ^ w := by
        rw [hsy]
        have hyv : (y : Int) / 2 ^ (n - w) = v := by
          show (y : Int) / 2 ^ (n - w) = ((x / 2 ^ b % 2 ^ w : Nat) : Int)
          rw [← hd]; push_cast; rfl
        split
        · exact hyv
        · have : (y : Int) - 2 ^ n = y + (-(2 ^ w)) * 2 ^ (n - w) := by
            rw [show (2 ^ n : Int) = 2 ^ (n - w) * 2 ^ w by exact_mod_cast hsplit]; grind
          rw [this, Int.add_mul_ediv_right _ _ (two_pow_ne _), hyv]; omega
      have hvlt' : v < 2 ^ w := by
        show ((x / 2 ^ b % 2 ^ w : Nat) : Int) < 2 ^ w
        exact_mod_cast hvlt
      have hv0 : 0 ≤ v := by show (0 : Int) ≤ ((x / 2 ^ b % 2 ^ w : Nat) : Int); omega
      have hle : (2 : Int) ^ w ≤ 2 ^ (n - 1) := by
        exact_mod_cast Nat.pow_le_pow_right (n := 2) (by decide) (show w ≤ n - 1 by omega)
      have hw1' : (2 : Int) ^ w = 2 * 2 ^ (w - 1) := by exact_mod_cast hw1
      have hn1' : (2 : Int) ^ n = 2 * 2 ^ (n - 1) := by exact_mod_cast hn1
      unfold sar
      rw [hq]
      unfold sext
      rw [writeReg_mod]
      unfold pattern
      have hpos : (0 : Int) < 2 ^ (w - 1) := by exact_mod_cast Nat.two_pow_pos (w - 1)
      generalize hV : (if v < 2 ^ (w - 1) then v else v - 2 ^ w) = V at *
      have hVr : -2 ^ (w - 1) ≤ V ∧ V < 2 ^ (w - 1) := by
        split at hV <;> omega
      have key : ((V % 2 ^ n).toNat % 2 ^ n : Nat) = if 0 ≤ V then V else V + 2 ^ n := by
        have hnn : 0 ≤ V % 2 ^ n := Int.emod_nonneg _ (two_pow_ne n)
        push_cast
        rw [Int.toNat_of_nonneg hnn, Int.emod_emod]
        split
        · exact Int.emod_eq_of_lt (by omega) (by omega)
        · rw [← Int.add_emod_right, Int.emod_eq_of_lt (by omega) (by omega)]
      rw [key]
      have hcast : ((V % 2 ^ n).toNat % 2 ^ n < 2 ^ (n - 1)) ↔ (((V % 2 ^ n).toNat % 2 ^ n : Nat) : Int) < 2 ^ (n - 1) := by
        rw [show (2 ^ (n - 1) : Int) = ((2 ^ (n - 1) : Nat) : Int) by push_cast; rfl, Int.ofNat_lt]
      by_cases h0 : 0 ≤ V
      · rw [if_pos (hcast.2 (by rw [key]; simp [h0]; omega)), if_pos h0]
      · rw [if_neg (fun h => by have := hcast.1 h; rw [key] at this; simp [h0] at this; omega), if_neg h0]; omega

/-- The bits of the field, as a number. -/
def raw (b w m : Nat) : Nat := m / 2 ^ b % 2 ^ w

theorem raw_congr {b w unit m m' : Nat} (h : b + w ≤ unit) (he : m % 2 ^ unit = m' % 2 ^ unit) : raw b w m = raw b w m' := by
  have : ∀ x, raw b w x = raw b w (x % 2 ^ unit) := by
    intro x
    apply Nat.eq_of_testBit_eq
    intro i
    simp only [raw, Nat.testBit_mod_two_pow, Nat.testBit_div_two_pow]
    by_cases hi : i < w
    · simp [hi, show i + b < unit by omega]
    · simp [hi]
  rw [this m, this m', he]

/-- The field's bits, as the field's value. -/
def value (w : Nat) (sgn : Bool) (u : Nat) : Int :=
  if sgn then (if (u : Int) < 2 ^ (w - 1) then (u : Int) else u - 2 ^ w) else u

theorem value_isValue {b w : Nat} (hw : 0 < w) (sgn : Bool) (m : Nat) : IsValue b w sgn m (value w sgn (raw b w m)) := by
  have hlt : raw b w m < 2 ^ w := Nat.mod_lt _ (Nat.two_pow_pos _)
  have hlt' : (raw b w m : Int) < 2 ^ w := by exact_mod_cast hlt
  have hw1 : (2 : Int) ^ w = 2 * 2 ^ (w - 1) := by
    rw [Int.mul_comm, ← Int.pow_succ]; congr 1; omega
  have hbit : ∀ i, i < w → (raw b w m).testBit i = m.testBit (b + i) := by
    intro i hi
    simp [raw, Nat.testBit_mod_two_pow, Nat.testBit_div_two_pow, hi, Nat.add_comm]
  have hpat : pattern w (value w sgn (raw b w m)) = raw b w m := by
    unfold pattern
    have : value w sgn (raw b w m) % 2 ^ w = (raw b w m : Int) := by
      unfold value
      split
      · split
        · exact Int.emod_eq_of_lt (by omega) hlt'
        · rw [Int.sub_emod_right, Int.emod_eq_of_lt (by omega) hlt']
      · exact Int.emod_eq_of_lt (by omega) hlt'
    rw [this]; rfl
  refine ⟨fun i hi => ?_, ?_⟩
  · rw [← testBit_pattern w i _ hi, hpat, hbit i hi]
  · unfold value
    cases sgn
    · simp only [Bool.false_eq_true, if_false]; omega
    · simp only [if_true]; split <;> omega

theorem sext_of_mod {n r u : Nat} (h : r % 2 ^ n = u) (hlt : u < 2 ^ (n - 1)) : sext n r = u := by
  unfold sext; rw [h, if_pos hlt]

theorem loadedValue_eq {f : Field} (hf : Valid f) (g mem : Nat) :
    loadedValue f g mem = value f.width f.isSigned (raw f.index f.width mem) := by
  have hu := hf.unit; have hfits := hf.fits; have hpos := hf.pos
  have hraw : raw f.index f.width (loadGpr f.unit g mem) = raw f.index f.width mem :=
    raw_congr hfits (by rw [loadGpr, mov, writeReg_mod])
  have hcore := load_core (if f.unit ≤ 32 then 32 else 64) f.index f.width (loadGpr f.unit g mem)
    (by split <;> omega) hpos (by split <;> simp)
  simp only at hcore
  rw [show loadGpr f.unit g mem / 2 ^ f.index % 2 ^ f.width = raw f.index f.width mem from hraw] at hcore
  have hlt : raw f.index f.width mem < 2 ^ f.width := Nat.mod_lt _ (Nat.two_pow_pos _)
  have hu1 : f.isSigned = false → load f g mem % 2 ^ (if f.unit ≤ 32 then 32 else 64) = raw f.index f.width mem := by
    intro h
    have := hcore.1
    simp only [load, h, Bool.false_eq_true, if_false]
    exact_mod_cast this
  have hs1 : f.isSigned = true → sext (if f.unit ≤ 32 then 32 else 64) (load f g mem) = value f.width true (raw f.index f.width mem) := by
    intro h
    have := hcore.2
    simp only [load, h, if_true]
    exact this
  have hval := (value_isValue (b := f.index) hpos f.isSigned mem).2
  generalize hV : value f.width f.isSigned (raw f.index f.width mem) = V at *
  generalize raw f.index f.width mem = u at *
  unfold loadedValue
  have hp31 : f.width < 32 → 2 ^ f.width ≤ 2 ^ 31 := fun h => Nat.pow_le_pow_right (by decide) (by omega)
  have hp31' : f.width ≤ 32 → (2 : Int) ^ (f.width - 1) ≤ 2 ^ 31 := fun h => by
    exact_mod_cast Nat.pow_le_pow_right (n := 2) (by decide) (show f.width - 1 ≤ 31 by omega)
  generalize load f g mem = r at *
  cases hsg : f.isSigned
  · rw [hsg] at hV
    have hu1 := hu1 hsg
    have hVu : V = u := by rw [← hV]; rfl
    simp only [Bool.false_eq_true, if_false]
    by_cases h32 : f.unit ≤ 32
    · rw [if_pos h32] at hu1
      by_cases hw : f.width < 32
      · rw [if_pos hw, sext_of_mod hu1 (by have := hp31 hw; omega), hVu]
      · have : f.width = 32 := by omega
        rw [if_neg hw, if_pos this, hu1, hVu]
    · rw [if_neg h32] at hu1
      by_cases hw : f.width < 32
      · have := hp31 hw
        rw [if_pos hw, sext_of_mod (u := u) (by omega) (by omega), hVu]
      · by_cases hw2 : f.width = 32
        · rw [hw2] at hlt
          rw [if_neg hw, if_pos hw2, hVu]; omega
        · rw [if_neg hw, if_neg hw2, hu1, hVu]
  · rw [hsg] at hV hval
    have hs1 := hs1 hsg
    rw [hV] at hs1
    simp only [if_true] at hval ⊢
    by_cases h32 : f.unit ≤ 32
    · rw [if_pos h32] at hs1
      by_cases hw : f.width < 32
      · rw [if_pos hw, hs1]
      · rw [if_neg hw, if_pos (by omega), hs1]
    · rw [if_neg h32] at hs1
      by_cases hw : f.width ≤ 32
      · have := hp31' hw
        have hgoal : sext 32 r = V := by
          unfold sext at hs1 ⊢
          generalize (2 : Int) ^ (f.width - 1) = P at *
          split at hs1 <;> split <;> omega
        split
        · exact hgoal
        · rw [if_pos (by omega), hgoal]
      · rw [if_neg (by omega), if_neg (by omega), hs1]

/-- C37: reading a bit-field gives its value: the field's bits, sign-extended if its type is
signed, independent of the other bits of the unit and of old register contents. -/
theorem C37_load {f : Field} (hf : Valid f) (g mem : Nat) :
    IsValue f.index f.width f.isSigned mem (loadedValue f g mem) := by
  rw [loadedValue_eq hf]; exact value_isValue hf.pos _ _

theorem pattern_of_bits {w : Nat} {v v' : Int} (h : ∀ i, i < w → ((v / 2 ^ i) % 2 == 1) = ((v' / 2 ^ i) % 2 == 1)) :
    v % 2 ^ w = v' % 2 ^ w := by
  have hp : pattern w v = pattern w v' := by
    apply Nat.eq_of_testBit_eq
    intro i
    by_cases hi : i < w
    · rw [testBit_pattern _ _ _ hi, testBit_pattern _ _ _ hi, h i hi]
    · have hb : ∀ x, (pattern w x).testBit i = false := by
        intro x
        have hx : pattern w x < 2 ^ w := by
          have h1 : (pattern w x : Int) = x % 2 ^ w := by
            unfold pattern; exact Int.toNat_of_nonneg (Int.emod_nonneg _ (two_pow_ne w))
          have h2 := Int.emod_lt_of_pos x (show (0 : Int) < 2 ^ w by exact_mod_cast Nat.two_pow_pos w)
          rw [← h1] at h2
          exact_mod_cast h2
        exact Nat.testBit_lt_two_pow (Nat.lt_of_lt_of_le hx (Nat.pow_le_pow_right (by decide) (by omega)))
      rw [hb, hb]
  have h1 : ∀ x : Int, ((pattern w x : Nat) : Int) = x % 2 ^ w := fun x => by
    unfold pattern; exact Int.toNat_of_nonneg (Int.emod_nonneg _ (two_pow_ne w))
  rw [← h1, ← h1, hp]

/-- The value of a field is determined by the memory. -/
theorem IsValue_unique {b w : Nat} {sgn : Bool} {m : Nat} {v v' : Int} (hw : 0 < w) (h : IsValue b w sgn m v) (h' : IsValue b w sgn m v') :
    v = v' := by
  have he := pattern_of_bits (w := w) (v := v) (v' := v') (fun i hi => by rw [h.1 i hi, h'.1 i hi])
  have hw1 : (2 : Int) ^ w = 2 * 2 ^ (w - 1) := by rw [Int.mul_comm, ← Int.pow_succ]; congr 1; omega
  have hd : (2 ^ w : Int) ∣ v - v' := Int.dvd_of_emod_eq_zero (Int.emod_emod_of_dvd _ (Int.dvd_refl _) ▸ Int.emod_eq_emod_iff_emod_sub_eq_zero.1 he)
  have h1 := h.2; have h2 := h'.2
  have habs : (v - v').natAbs < ((2 : Int) ^ w).natAbs := by
    cases sgn
    · simp only [Bool.false_eq_true, if_false] at h1 h2; omega
    · simp only [if_true] at h1 h2; omega
  have := Int.eq_zero_of_dvd_of_natAbs_lt_natAbs hd habs
  omega

/-- C37: reading back a stored value gives it, wrapped to the width of the field. -/
theorem C37_round_trip {f : Field} (hf : Valid f) (h64 : f.width < 64) (g g' mem : Nat) (v : Int) (rhs : Nat)
    (hr : rhs % 2 ^ f.unit = pattern f.unit v) :
    ∃ m', store f g rhs mem = some m' ∧ Wraps f.width f.isSigned v (loadedValue f g' m') := by
  obtain ⟨m', h1, h2⟩ := C37_store_partial hf h64 g mem v rhs hr
  refine ⟨m', h1, ?_, (C37_load hf g' m').2⟩
  have hfits := hf.fits
  have he := pattern_of_bits (w := f.width) (v := v) (v' := loadedValue f g' m') (fun i hi => by
    rw [(C37_load hf g' m').1 i hi, h2.2 (f.index + i) (by omega), if_pos (by omega), Nat.add_sub_cancel_left])
  exact Int.dvd_of_emod_eq_zero (Int.emod_eq_emod_iff_emod_sub_eq_zero.1 he)

/-- C37: storing to a field does not change the value of another field of the same unit. -/
theorem C37_neighbours {f f2 : Field} (hf : Valid f) (hf2 : Valid f2) (h64 : f.width < 64) (hu : f2.unit = f.unit)
    (hdis : f2.index + f2.width ≤ f.index ∨ f.index + f.width ≤ f2.index) (g g1 g2 rhs mem : Nat) :
    ∃ m', store f g rhs mem = some m' ∧ loadedValue f2 g1 m' = loadedValue f2 g2 mem := by
  obtain ⟨m', h1, h2, h3⟩ := store_bits hf h64 g rhs mem
  refine ⟨m', h1, IsValue_unique hf2.pos (C37_load hf2 g1 m') ⟨fun i hi => ?_, (C37_load hf2 g2 mem).2⟩⟩
  have := hf2.fits
  rw [(C37_load hf2 g2 mem).1 i hi, h3 _ (by omega), if_neg (by omega)]

/-- Finding (C37, C25): for a bit-field of 64 bits the compiler computes `1ull << 64`, for a
store as well as for a static initializer. -/
theorem C37_width_64_host_ub : Valid ⟨64, false, 0, 64⟩ ∧ store ⟨64, false, 0, 64⟩ 0 1 0 = none ∧
    staticStore ⟨64, false, 0, 64⟩ 1 0 = none := by
  exact ⟨⟨by decide, by decide, by decide⟩, by decide, by decide⟩

/-- C25: a static initializer writes exactly the field if the literal, as an unsigned 64-bit
number, fits in the width. (Full property: for every literal the field gets the wrapped value
and no other bit changes; false, see below.) -/
theorem C25_static_bitfield_partial {f : Field} (hf : Valid f) (h64 : f.width < 64) (value old : Nat)
    (hv : value < 2 ^ f.width) :
    ∃ m', staticStore f value old = some m' ∧ Stored f.unit f.index f.width value old m' := by
  refine ⟨_, by rw [staticStore, if_pos h64], Nat.mod_lt _ (Nat.two_pow_pos _), fun i hi => ?_⟩
  have hu := hf.unit
  have hfits := hf.fits
  have hi64 : i < 64 := by omega
  rw [Nat.testBit_mod_two_pow, Nat.testBit_or, Nat.testBit_and, testBit_complement hi64 (Nat.mod_lt _ (Nat.two_pow_pos _)),
    testBit_mask _ _ _ hi64, Nat.testBit_mod_two_pow, Nat.testBit_mul_two_pow]
  by_cases hc : f.index ≤ i ∧ i < f.index + f.width
  · have hb := testBit_pattern 64 (i - f.index) value (by omega)
    have hp : pattern 64 (value : Int) = value := by
      have : 2 ^ f.width ≤ 2 ^ 64 := Nat.pow_le_pow_right (by decide) (by omega)
      unfold pattern; omega
    rw [hp] at hb
    rw [if_pos hc, ← hb]
    simp [hi, hi64, hc]
  · rw [if_neg hc]
    by_cases hle : f.index ≤ i
    · have : value.testBit (i - f.index) = false :=
        Nat.testBit_lt_two_pow (Nat.lt_of_lt_of_le hv (Nat.pow_le_pow_right (by decide) (by omega)))
      simp [hi, hc, this]
    · simp [hi, hle]

/-- C25: a constant initializer and an assignment at run time of the same in-range unsigned value
leave the same bytes. -/
theorem C25_agrees_with_run_time {f : Field} (hf : Valid f) (h64 : f.width < 64) (g value old : Nat)
    (hv : value < 2 ^ f.width) : staticStore f value old = store f g value old := by
  obtain ⟨m, h1, h2⟩ := C25_static_bitfield_partial hf h64 value old hv
  have hfits := hf.fits
  have hle : 2 ^ f.width ≤ 2 ^ f.unit := Nat.pow_le_pow_right (by decide) (by omega)
  obtain ⟨m', h3, h4⟩ := C37_store_partial hf h64 g old value value (by
    unfold pattern
    rw [Int.emod_eq_of_lt (by omega) (by exact_mod_cast Nat.lt_of_lt_of_le hv hle), Nat.mod_eq_of_lt (by omega)]; rfl)
  rw [h1, h3]
  congr 1
  apply Nat.eq_of_testBit_eq
  intro i
  by_cases hi : i < f.unit
  · rw [h2.2 i hi, h4.2 i hi]
  · have hb : ∀ x, x < 2 ^ f.unit → x.testBit i = false := fun x hx =>
      Nat.testBit_lt_two_pow (Nat.lt_of_lt_of_le hx (Nat.pow_le_pow_right (by decide) (by omega)))
    rw [hb m h2.1, hb m' h4.1]

/-- Finding (C25): the value is not masked. `struct { int a : 3; int b : 5; } s = { -1 };`
initializes `b` to -1 as well, although C requires 0. -/
theorem C25_unmasked_value_wrong :
    let a : Field := ⟨32, true, 0, 3⟩
    let b : Field := ⟨32, true, 3, 5⟩
    Valid a ∧ Valid b ∧ staticStore a (2 ^ 64 - 1) 0 = some (2 ^ 32 - 1) ∧
    loadedValue b 0 (2 ^ 32 - 1) = -1 ∧ loadedValue b 0 0 = 0 := by
  exact ⟨⟨by decide, by decide, by decide⟩, ⟨by decide, by decide, by decide⟩, by decide, by decide, by decide⟩

example : Valid ⟨8, true, 2, 5⟩ ∧ store ⟨8, true, 2, 5⟩ 0xdeadbeef 0x1f 0x83 = some 0xff ∧
    loadedValue ⟨8, true, 2, 5⟩ 0xdeadbeef 0xff = -1 ∧ loadedValue ⟨64, false, 31, 33⟩ 7 (2 ^ 64 - 1) = 2 ^ 33 - 1 ∧
    (0x1f : Nat) % 2 ^ 8 = pattern 8 31 :=
  ⟨⟨by decide, by decide, by decide⟩, by decide, by decide, by decide, by decide⟩

end Verif.Props.Bitfield
