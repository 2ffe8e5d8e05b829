import Verif.Model.Leaf
import Verif.Spec.Leaf

/-!
# C47: CodeView numeric leaves
-/
namespace Verif.Props.Leaf
open Verif.Leaf Verif.Spec.Leaf

theorem le_length (n v : Nat) : (le n v).length = n := by
  induction n generalizing v with
  | zero => rfl
  | succ n ih => simp [le, ih]

theorem fromLe_le (n v : Nat) : fromLe (le n v) = v % 2 ^ (8 * n) := by
  induction n generalizing v with
  | zero => simp [le, fromLe, Nat.mod_one]
  | succ n ih =>
    rw [le, fromLe, ih]
    have e : 2 ^ (8 * (n + 1)) = 256 * 2 ^ (8 * n) := by
      rw [Nat.mul_add, Nat.pow_add]; omega
    rw [e, Nat.mod_mul]

theorem pushAligned_two (junk address v : Nat) (h : address % 2 = 0) : pushAligned junk address 2 v = le 2 v := by
  have : (address + (2 - 1)) / 2 * 2 - address = 0 := by omega
  simp only [pushAligned, this, List.replicate_zero, List.nil_append]

/-- Reading a small leaf. -/
theorem read_small (v : Nat) (rest : List Nat) (h : v < 0x8000) : readLeaf (le 2 v ++ rest) = some ((v : Int), rest) := by
  have ht : (le 2 v ++ rest).take 2 = le 2 v := by rw [List.take_left' (le_length 2 v)]
  have hd : (le 2 v ++ rest).drop 2 = rest := by rw [List.drop_left' (le_length 2 v)]
  have hf : fromLe (le 2 v) = v := by rw [fromLe_le]; omega
  have hl : ¬ (le 2 v ++ rest).length < 2 := by rw [List.length_append, le_length]; omega
  simp only [readLeaf, ht, hd, hf, if_neg hl, if_pos h]

/-- Reading a leaf with a tag. -/
theorem read_tagged (tag n v : Nat) (s : Bool) (rest : List Nat) (h1 : 0x8000 ≤ tag) (h2 : tag < 0x10000)
    (hk : kind tag = some (n, s)) :
    readLeaf (le 2 tag ++ (le n v ++ rest)) =
      some (if s then signed n (v % 2 ^ (8 * n)) else ((v % 2 ^ (8 * n) : Nat) : Int), rest) := by
  have ht : (le 2 tag ++ (le n v ++ rest)).take 2 = le 2 tag := by rw [List.take_left' (le_length 2 tag)]
  have hd : (le 2 tag ++ (le n v ++ rest)).drop 2 = le n v ++ rest := by rw [List.drop_left' (le_length 2 tag)]
  have hd2 : (le 2 tag ++ (le n v ++ rest)).drop (2 + n) = rest := by
    rw [← List.drop_drop, hd, List.drop_left' (le_length n v)]
  have ht2 : (le n v ++ rest).take n = le n v := by rw [List.take_left' (le_length n v)]
  have hf : fromLe (le 2 tag) = tag := by rw [fromLe_le]; omega
  have hl : (le 2 tag ++ (le n v ++ rest)).length = 2 + (n + rest.length) := by
    simp only [List.length_append, le_length]
  simp only [readLeaf, ht, hf, if_neg (show ¬ tag < 0x8000 by omega), hk, hd, ht2, fromLe_le, hd2]
  rw [hl, if_neg (by omega), if_neg (by omega)]

/-- The length the reader of the type records expects. -/
def sizeAgrees (bs : List Nat) : Prop := leafSize (fromLe (bs.take 2)) = some bs.length

theorem sizeAgrees_tagged (tag n v : Nat) (h2 : tag < 0x10000) (hs : leafSize tag = some (2 + n)) :
    sizeAgrees (le 2 tag ++ le n v) := by
  have ht : (le 2 tag ++ le n v).take 2 = le 2 tag := by rw [List.take_left' (le_length 2 tag)]
  have hf : fromLe (le 2 tag) = tag := by rw [fromLe_le]; omega
  simp only [sizeAgrees, ht, hf, hs, List.length_append, le_length]

theorem leafSize_small (v : Nat) (h : v < 0x8000) : leafSize v = some 2 := by
  have e : v &&& 0x8000 = 0 := by
    apply Nat.eq_of_testBit_eq
    intro i
    rw [Nat.testBit_and, Nat.zero_testBit, show (0x8000 : Nat) = 2 ^ 15 from rfl, Nat.testBit_two_pow]
    by_cases hi : 15 = i
    · subst hi
      rw [Nat.testBit_lt_two_pow (by omega)]; rfl
    · simp [hi]
  simp only [leafSize, e, if_true]

theorem sizeAgrees_small (v : Nat) (h : v < 0x8000) : sizeAgrees (le 2 v) := by
  have ht : (le 2 v).take 2 = le 2 v := List.take_of_length_le (by rw [le_length]; omega)
  have hf : fromLe (le 2 v) = v := by rw [fromLe_le]; omega
  simp only [sizeAgrees, ht, hf, le_length, leafSize_small v h]

/-- C47 (unsigned): for every 64-bit number, at every even address and whatever follows, reading the leaf gives the
number and the rest back, and its length is the one the reader of type records computes from its first two bytes. -/
theorem C47_unsigned (junk address value : Nat) (ha : address % 2 = 0) (hv : value < 2 ^ 64) (rest : List Nat) :
    readLeaf (pushUnsigned junk address value ++ rest) = some ((value : Int), rest) ∧
    sizeAgrees (pushUnsigned junk address value) := by
  have hl := le_length 2
  unfold pushUnsigned
  split
  · rename_i h
    rw [pushAligned_two _ _ _ ha]
    exact ⟨read_small _ _ h, sizeAgrees_small _ h⟩
  · rename_i h
    split
    · rename_i h'
      simp only [pushAligned_two junk address _ ha, hl]
      rw [pushAligned_two _ _ _ (by omega), List.append_assoc]
      refine ⟨?_, sizeAgrees_tagged _ _ _ (by decide) (by decide)⟩
      rw [read_tagged _ _ _ false _ (by decide) (by decide) rfl]
      simp only [Bool.false_eq_true, if_false]
      rw [show value % 2 ^ 16 % 2 ^ (8 * 2) = value by omega]
    · rename_i h'
      split
      · simp only [pushAligned_two junk address _ ha]
        rw [List.append_assoc]
        refine ⟨?_, sizeAgrees_tagged _ _ _ (by decide) (by decide)⟩
        rw [read_tagged _ _ _ false _ (by decide) (by decide) rfl]
        simp only [Bool.false_eq_true, if_false]
        rw [show value % 2 ^ 32 % 2 ^ (8 * 4) = value by omega]
      · simp only [pushAligned_two junk address _ ha]
        rw [List.append_assoc]
        refine ⟨?_, sizeAgrees_tagged _ _ _ (by decide) (by decide)⟩
        rw [read_tagged _ _ _ false _ (by decide) (by decide) rfl]
        simp only [Bool.false_eq_true, if_false]
        rw [show value % 2 ^ (8 * 8) = value by omega]

theorem signed_toUnsigned (n : Nat) (hn : 0 < n) (v : Int) (h1 : -2 ^ (8 * n - 1) ≤ v) (h2 : v < 2 ^ (8 * n - 1)) :
    signed n (toUnsigned n v % 2 ^ (8 * n)) = v := by
  have hp : (2 : Int) ^ (8 * n) = 2 * 2 ^ (8 * n - 1) := by
    have : 8 * n = (8 * n - 1) + 1 := by omega
    conv => lhs; rw [this, Int.pow_succ]
    omega
  have hpos : (0 : Int) < 2 ^ (8 * n - 1) := Int.pow_pos (by omega)
  have hcast : ((2 ^ (8 * n) : Nat) : Int) = 2 ^ (8 * n) := by norm_cast
  have hcast' : ((2 ^ (8 * n - 1) : Nat) : Int) = 2 ^ (8 * n - 1) := by norm_cast
  have hmod : 0 ≤ v % (2 ^ (8 * n) : Int) := Int.emod_nonneg _ (by omega)
  have hlt : v % (2 ^ (8 * n) : Int) < 2 ^ (8 * n) := Int.emod_lt_of_pos _ (by omega)
  have hto : ((toUnsigned n v : Nat) : Int) = v % (2 ^ (8 * n) : Int) := Int.toNat_of_nonneg hmod
  have hmod2 : toUnsigned n v % 2 ^ (8 * n) = toUnsigned n v := Nat.mod_eq_of_lt (by
    have : ((toUnsigned n v : Nat) : Int) < ((2 ^ (8 * n) : Nat) : Int) := by rw [hto, hcast]; exact hlt
    exact Int.ofNat_lt.1 this)
  rw [hmod2, signed]
  by_cases hv : 0 ≤ v
  · have e : v % (2 ^ (8 * n) : Int) = v := Int.emod_eq_of_lt hv (by omega)
    rw [e] at hto
    have : toUnsigned n v < 2 ^ (8 * n - 1) := by
      have : ((toUnsigned n v : Nat) : Int) < ((2 ^ (8 * n - 1) : Nat) : Int) := by rw [hto, hcast']; exact h2
      exact Int.ofNat_lt.1 this
    rw [if_pos this]
    exact hto
  · have e : v % (2 ^ (8 * n) : Int) = v + 2 ^ (8 * n) := by
      rw [← Int.add_emod_right, Int.emod_eq_of_lt (by omega) (by omega)]
    rw [e] at hto
    have : ¬ toUnsigned n v < 2 ^ (8 * n - 1) := by
      intro h
      have : ((toUnsigned n v : Nat) : Int) < ((2 ^ (8 * n - 1) : Nat) : Int) := Int.ofNat_lt.2 h
      rw [hto, hcast'] at this
      omega
    rw [if_neg this, hto]
    omega

/-- The addresses at which a negative number of more than 16 bits is written without a gap. -/
def NoGap (address : Nat) (value : Int) : Prop :=
  value ≥ -2 ^ 15 ∨ (value ≥ -2 ^ 31 ∧ address % 4 = 2) ∨ (value < -2 ^ 31 ∧ address % 8 = 6)

/-- C47 (signed), part: the same for signed numbers. Missing: numbers below -32768 at the addresses where debug
information writes them, see `C47_signed_wrong`. -/
theorem C47_signed_partial (junk address : Nat) (value : Int) (ha : address % 2 = 0) (h1 : -2 ^ 63 ≤ value)
    (h2 : value < 2 ^ 63) (hg : NoGap address value) (rest : List Nat) :
    readLeaf (pushSigned junk address value ++ rest) = some (value, rest) ∧ sizeAgrees (pushSigned junk address value) := by
  have hl := le_length 2
  have tagged : ∀ (tag n : Nat), 0 < n → kind tag = some (n, true) → 0x8000 ≤ tag → tag < 0x10000 →
      leafSize tag = some (2 + n) → -2 ^ (8 * n - 1) ≤ value → value < 2 ^ (8 * n - 1) →
      readLeaf (le 2 tag ++ le n (toUnsigned n value) ++ rest) = some (value, rest) ∧
      sizeAgrees (le 2 tag ++ le n (toUnsigned n value)) := by
    intro tag n hn hk t1 t2 hs b1 b2
    refine ⟨?_, sizeAgrees_tagged _ _ _ t2 hs⟩
    rw [List.append_assoc, read_tagged _ _ _ true _ t1 t2 hk]
    simp only [if_true]
    rw [signed_toUnsigned n hn value b1 b2]
  unfold pushSigned
  split
  · rename_i h0
    split
    · rename_i h
      obtain ⟨v, rfl⟩ := Int.eq_ofNat_of_zero_le h0
      have e : toUnsigned 2 (v : Int) = v := by
        simp only [toUnsigned]; omega
      rw [e, pushAligned_two _ _ _ ha]
      exact ⟨read_small _ _ (by omega), sizeAgrees_small _ (by omega)⟩
    · split
      · omega
      · split
        · simp only [pushAligned_two junk address _ ha]
          exact tagged _ _ (by decide) rfl (by decide) (by decide) (by decide) (by omega) (by omega)
        · simp only [pushAligned_two junk address _ ha]
          exact tagged _ _ (by decide) rfl (by decide) (by decide) (by decide) (by omega) (by omega)
  · rename_i h0
    split
    · simp only [pushAligned_two junk address _ ha]
      exact tagged _ _ (by decide) rfl (by decide) (by decide) (by decide) (by omega) (by omega)
    · split
      · simp only [pushAligned_two junk address _ ha, hl]
        rw [pushAligned_two _ _ _ (by omega)]
        exact tagged _ _ (by decide) rfl (by decide) (by decide) (by decide) (by omega) (by omega)
      · split
        · simp only [pushAligned_two junk address _ ha, hl]
          have hg' : address % 4 = 2 := by unfold NoGap at hg; omega
          have e : pushAligned junk (address + 2) 4 (toUnsigned 4 value) = le 4 (toUnsigned 4 value) := by
            have : (address + 2 + (4 - 1)) / 4 * 4 - (address + 2) = 0 := by omega
            simp only [pushAligned, this, List.replicate_zero, List.nil_append]
          rw [e]
          exact tagged _ _ (by decide) rfl (by decide) (by decide) (by decide) (by omega) (by omega)
        · simp only [pushAligned_two junk address _ ha, hl]
          have hg' : address % 8 = 6 := by unfold NoGap at hg; omega
          have e : pushAligned junk (address + 2) 8 (toUnsigned 8 value) = le 8 (toUnsigned 8 value) := by
            have : (address + 2 + (8 - 1)) / 8 * 8 - (address + 2) = 0 := by omega
            simp only [pushAligned, this, List.replicate_zero, List.nil_append]
          rw [e]
          exact tagged _ _ (by decide) rfl (by decide) (by decide) (by decide) (by omega) (by omega)

/-- C47, counterexample: at an address that is a multiple of 4, where the symbol record of an enumerator has its leaf,
every number from -2^31 to -32769 is written with two bytes in between that belong to nothing: the leaf is longer than
its reader computes, and for zero bytes in between the number read is another one. -/
theorem C47_signed_wrong (junk address : Nat) (value : Int) (ha : address % 4 = 0) (h1 : -2 ^ 31 ≤ value)
    (h2 : value < -2 ^ 15) :
    ¬ sizeAgrees (pushSigned junk address value) ∧
    ∀ rest v rest', readLeaf (pushSigned 0 address value ++ rest) = some (v, rest') → v ≠ value := by
  have hl := le_length 2
  have e : ∀ junk, pushSigned junk address value = le 2 0x8003 ++ ([junk, junk] ++ le 4 (toUnsigned 4 value)) := by
    intro junk
    unfold pushSigned
    rw [if_neg (by omega), if_neg (by omega), if_neg (by omega), if_pos (by omega)]
    simp only [pushAligned_two junk address _ (by omega), hl]
    have : (address + 2 + (4 - 1)) / 4 * 4 - (address + 2) = 2 := by omega
    simp only [pushAligned, this]
    rfl
  constructor
  · rw [e]
    intro h
    have ht : (le 2 0x8003 ++ ([junk, junk] ++ le 4 (toUnsigned 4 value))).take 2 = le 2 0x8003 := by
      rw [List.take_left' (le_length 2 _)]
    simp only [sizeAgrees, ht, List.length_append, le_length, List.length_cons, List.length_nil] at h
    revert h
    decide
  · intro rest v rest' h
    rw [e] at h
    have hb : toUnsigned 4 value % 2 ^ 32 = (value + 2 ^ 32).toNat := by simp only [toUnsigned]; omega
    have hle : le 2 0x8003 ++ ([0, 0] ++ le 4 (toUnsigned 4 value)) ++ rest =
        le 2 0x8003 ++ (le 4 (65536 * (toUnsigned 4 value % 65536)) ++
          ((le 4 (toUnsigned 4 value)).drop 2 ++ rest)) := by
      have : 65536 * (toUnsigned 4 value % 65536) / 256 / 256 = toUnsigned 4 value % 65536 := by omega
      have t1 : 65536 * (toUnsigned 4 value % 65536) % 256 = 0 := by omega
      have t2 : 65536 * (toUnsigned 4 value % 65536) / 256 % 256 = 0 := by omega
      have t3 : toUnsigned 4 value % 65536 % 256 = toUnsigned 4 value % 256 := by omega
      have t4 : toUnsigned 4 value % 65536 / 256 % 256 = toUnsigned 4 value / 256 % 256 := by omega
      simp only [le, this, t1, t2, t3, t4, List.cons_append, List.nil_append, List.drop_succ_cons,
        List.drop_zero]
    rw [hle, read_tagged _ _ _ true _ (by decide) (by decide) rfl] at h
    simp only [if_true, Option.some.injEq, Prod.mk.injEq] at h
    rw [← h.1]
    intro hv
    simp only [signed] at hv
    split at hv <;> omega

/-- The enumerator -40000 in the program database reads as another number and its name starts with two wrong bytes. -/
example : readLeaf (pushSigned 0 0x1008 (-40000) ++ [65, 0]) = some (1673527296, [255, 255, 65, 0]) := by decide

example : readLeaf (pushUnsigned 0 0x1008 100000 ++ [65, 0]) = some (100000, [65, 0]) ∧ NoGap 0x1008 (-200) := by
  refine ⟨by decide, Or.inl (by decide)⟩

end Verif.Props.Leaf
