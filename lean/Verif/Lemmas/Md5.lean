import Verif.Spec.Md5
import Verif.Model.Md5
import Verif.Lemmas.Sine

/-!
# Lemmas about the model of MD5
-/
namespace Verif.Lemmas.Md5
open Verif.Model.Md5
open Verif.Spec.Md5 (F G H I T X op lines)

/-- The bounds that `Sine.floor_of` needs. -/
theorem table : ∀ i : Fin 64, ((sines.getD i.val 0 : ℕ) : ℤ) * 2 ^ 128 ≤ |(Sine.approx (i.val + 1)).1| - (Sine.approx (i.val + 1)).2.2 ∧
    |(Sine.approx (i.val + 1)).1| + (Sine.approx (i.val + 1)).2.2 < (((sines.getD i.val 0 : ℕ) : ℤ) + 1) * 2 ^ 128 := by
  decide +kernel

theorem sines_eq (i : Nat) (h : i < 64) : BitVec.ofNat 32 (sines.getD i 0) = T (i + 1) := by
  have := table ⟨i, h⟩
  show _ = BitVec.ofNat 32 _
  rw [Sine.floor_of (i + 1) (by omega) _ this.1 this.2]

theorem mixF (x y z : BitVec 32) : z ^^^ (x &&& (y ^^^ z)) = F x y z := by
  unfold F
  apply BitVec.eq_of_getLsbD_eq
  intro i hi
  simp only [BitVec.getLsbD_xor, BitVec.getLsbD_and, BitVec.getLsbD_or, BitVec.getLsbD_not, hi, decide_true, Bool.true_and]
  cases x.getLsbD i <;> cases y.getLsbD i <;> cases z.getLsbD i <;> rfl

theorem mixG (x y z : BitVec 32) : y ^^^ (z &&& (x ^^^ y)) = G x y z := by
  unfold G
  apply BitVec.eq_of_getLsbD_eq
  intro i hi
  simp only [BitVec.getLsbD_xor, BitVec.getLsbD_and, BitVec.getLsbD_or, BitVec.getLsbD_not, hi, decide_true, Bool.true_and]
  cases x.getLsbD i <;> cases y.getLsbD i <;> cases z.getLsbD i <;> rfl

theorem rotate (x : BitVec 32) {s : Nat} (h : s < 32) : (x <<< s) ||| (x >>> (32 - s)) = x.rotateLeft s := by
  rw [BitVec.rotateLeft_def, Nat.mod_eq_of_lt h]

/-- A step of the code and an operation of the description. -/
theorem step_eq (f : BitVec 32 → BitVec 32 → BitVec 32 → BitVec 32) (msg b : List Nat) (p i k s : Nat) (a bb c d : BitVec 32) (hi : i < 64)
    (hm : mix ⟨a, bb, c, d⟩ i = (f bb c d, k)) (hs : shifts.getD i 0 = s) (hs' : s < 32) (hw : word msg p k = X b k) :
    step msg p ⟨a, bb, c, d⟩ i = ⟨d, op f b a bb c d (k, s, i + 1), bb, c⟩ := by
  unfold step
  rw [hm]
  dsimp only
  rw [hs, rotate _ hs', hw, sines_eq i hi]
  unfold op
  rw [show a + f bb c d + T (i + 1) + X b k = a + f bb c d + X b k + T (i + 1) by rw [BitVec.add_assoc, BitVec.add_comm (T _), ← BitVec.add_assoc]]

abbrev State := BitVec 32 × BitVec 32 × BitVec 32 × BitVec 32
abbrev Ops := (Nat × Nat × Nat) × (Nat × Nat × Nat) × (Nat × Nat × Nat) × (Nat × Nat × Nat)

def toHash (s : State) : Hash := ⟨s.1, s.2.1, s.2.2.1, s.2.2.2⟩

/-- The index of the word of a step. -/
def index (i : Nat) : Nat := if i < 16 then i else if i < 32 then (5 * i + 1) &&& 15 else if i < 48 then (3 * i + 5) &&& 15 else (7 * i) &&& 15

/-- The numbers of an operation are those of a step. -/
def Same (i : Nat) (o : Nat × Nat × Nat) : Prop := o.1 = index i ∧ o.2.1 = shifts.getD i 0 ∧ o.2.1 < 32 ∧ o.2.2 = i + 1 ∧ o.1 < 16 ∧ i < 64

instance (i : Nat) (o : Nat × Nat × Nat) : Decidable (Same i o) := inferInstanceAs (Decidable (_ ∧ _))

/-- The operations of a round are those of the steps from `i` on. -/
def Matches : Nat → List Ops → Prop
  | _, [] => True
  | i, (o₁, o₂, o₃, o₄) :: rest => Same i o₁ ∧ Same (i + 1) o₂ ∧ Same (i + 2) o₃ ∧ Same (i + 3) o₄ ∧ Matches (i + 4) rest

instance decMatches : ∀ (i : Nat) (l : List Ops), Decidable (Matches i l)
  | _, [] => isTrue trivial
  | i, (o₁, o₂, o₃, o₄) :: rest =>
    have := decMatches (i + 4) rest
    inferInstanceAs (Decidable (Same i o₁ ∧ Same (i + 1) o₂ ∧ Same (i + 2) o₃ ∧ Same (i + 3) o₄ ∧ Matches (i + 4) rest))

theorem step_same {f : BitVec 32 → BitVec 32 → BitVec 32 → BitVec 32} {msg b : List Nat} {p i : Nat} {o : Nat × Nat × Nat} {a bb c d : BitVec 32}
    (ho : Same i o) (hm : ∀ a b c d, mix ⟨a, b, c, d⟩ i = (f b c d, index i)) (hw : ∀ k, k < 16 → word msg p k = X b k) :
    step msg p ⟨a, bb, c, d⟩ i = ⟨d, op f b a bb c d o, bb, c⟩ := by
  obtain ⟨k, s, t⟩ := o
  obtain ⟨h1, h2, h3, h4, h5, h6⟩ := ho
  simp only at h1 h2 h3 h4 h5
  subst h4
  exact step_eq f msg b p i k s a bb c d h6 (by rw [hm, h1]) h2.symm h3 (hw k h5)

theorem lines_eq (f : BitVec 32 → BitVec 32 → BitVec 32 → BitVec 32) (msg b : List Nat) (p : Nat) (hw : ∀ k, k < 16 → word msg p k = X b k) :
    ∀ (l : List Ops) (i : Nat), Matches i l → (∀ j, i ≤ j → j < i + 4 * l.length → ∀ a b c d, mix ⟨a, b, c, d⟩ j = (f b c d, index j)) → ∀ s : State,
      (List.range' i (4 * l.length)).foldl (step msg p) (toHash s) = toHash (lines f b l s)
  | [], _, _, _, _ => rfl
  | (o₁, o₂, o₃, o₄) :: rest, i, hl, hm, (A, B, C, D) => by
    obtain ⟨h1, h2, h3, h4, h5⟩ := hl
    rw [List.length_cons, show 4 * (rest.length + 1) = 4 * rest.length + 1 + 1 + 1 + 1 by omega, List.range'_succ, List.range'_succ, List.range'_succ, List.range'_succ]
    simp only [List.foldl_cons, List.length_cons] at hm ⊢
    rw [show toHash (A, B, C, D) = ⟨A, B, C, D⟩ from rfl]
    rw [step_same h1 (hm i (by omega) (by omega)) hw, step_same h2 (hm (i + 1) (by omega) (by omega)) hw,
      step_same h3 (hm (i + 1 + 1) (by omega) (by omega)) hw, step_same h4 (hm (i + 1 + 1 + 1) (by omega) (by omega)) hw]
    exact lines_eq f msg b p hw rest (i + 4) h5 (fun j h h' => hm j (by omega) (by omega)) (_, _, _, _)

theorem mix1 (j : Nat) (h : j < 16) (a b c d : BitVec 32) : mix ⟨a, b, c, d⟩ j = (F b c d, index j) := by
  unfold mix index
  rw [if_pos h, if_pos h, mixF]

theorem mix2 (j : Nat) (h' : 16 ≤ j) (h : j < 32) (a b c d : BitVec 32) : mix ⟨a, b, c, d⟩ j = (G b c d, index j) := by
  unfold mix index
  have n1 : ¬ j < 16 := by omega
  rw [if_neg n1, if_neg n1, if_pos h, if_pos h, mixG]

theorem mix3 (j : Nat) (h' : 32 ≤ j) (h : j < 48) (a b c d : BitVec 32) : mix ⟨a, b, c, d⟩ j = (H b c d, index j) := by
  unfold mix index
  have n1 : ¬ j < 16 := by omega
  have n2 : ¬ j < 32 := by omega
  rw [if_neg n1, if_neg n1, if_neg n2, if_neg n2, if_pos h, if_pos h]
  rfl

theorem mix4 (j : Nat) (h' : 48 ≤ j) (a b c d : BitVec 32) : mix ⟨a, b, c, d⟩ j = (I b c d, index j) := by
  unfold mix index
  have n1 : ¬ j < 16 := by omega
  have n2 : ¬ j < 32 := by omega
  have n3 : ¬ j < 48 := by omega
  rw [if_neg n1, if_neg n1, if_neg n2, if_neg n2, if_neg n3, if_neg n3]
  rfl

theorem block_eq (msg b : List Nat) (p : Nat) (hw : ∀ k, k < 16 → word msg p k = X b k) (s : State) :
    blockStep msg (toHash s) p = toHash (Verif.Spec.Md5.block b s) := by
  have e : (List.range 64) = List.range' 0 16 ++ (List.range' 16 16 ++ (List.range' 32 16 ++ List.range' 48 16)) := by decide +kernel
  unfold blockStep
  rw [e]
  simp only [List.foldl_append]
  have r1 := lines_eq F msg b p hw Verif.Spec.Md5.round1 0 (by decide +kernel) (fun j _ h => mix1 j h)
  have r2 := lines_eq G msg b p hw Verif.Spec.Md5.round2 16 (by decide +kernel) (fun j h' h => mix2 j h' h)
  have r3 := lines_eq H msg b p hw Verif.Spec.Md5.round3 32 (by decide +kernel) (fun j h' h => mix3 j h' h)
  have r4 := lines_eq I msg b p hw Verif.Spec.Md5.round4 48 (by decide +kernel) (fun j h' _ => mix4 j h')
  have l1 : 4 * Verif.Spec.Md5.round1.length = 16 := rfl
  have l2 : 4 * Verif.Spec.Md5.round2.length = 16 := rfl
  have l3 : 4 * Verif.Spec.Md5.round3.length = 16 := rfl
  have l4 : 4 * Verif.Spec.Md5.round4.length = 16 := rfl
  rw [l1] at r1
  rw [l2] at r2
  rw [l3] at r3
  rw [l4] at r4
  rw [r1, r2, r3, r4]
  rfl

/-- The words of a block of the memory. -/
theorem word_eq (msg : List Nat) (p : Nat) (k : Nat) (hk : k < 16) : word msg p k = X ((msg.drop p).take 64) k := by
  unfold word X
  have g : ∀ j, j < 64 → ((msg.drop p).take 64).getD j 0 = msg.getD (p + j) 0 := by
    intro j hj
    rw [List.getD_eq_getElem?_getD, List.getElem?_take_of_lt hj, List.getElem?_drop, ← List.getD_eq_getElem?_getD]
  rw [g _ (by omega), g _ (by omega), g _ (by omega), g _ (by omega)]
  rfl

theorem blocks_eq (msg : List Nat) : ∀ (n j : Nat) (s : State),
    (List.range' j n).foldl (fun h j => blockStep msg h (64 * j)) (toHash s) = toHash (Verif.Spec.Md5.blocks n (msg.drop (64 * j)) s)
  | 0, _, _ => rfl
  | n + 1, j, s => by
    rw [List.range'_succ, List.foldl_cons, block_eq msg _ _ (word_eq msg (64 * j)), blocks_eq msg n (j + 1)]
    show _ = toHash (Verif.Spec.Md5.blocks n ((msg.drop (64 * j)).drop 64) _)
    rw [List.drop_drop, show 64 * j + 64 = 64 * (j + 1) by omega]

theorem le_eq : ∀ k v, le k v = Verif.Spec.Md5.bytes k v
  | 0, _ => rfl
  | k + 1, v => by
    show v % 256 :: le k (v / 256) = v % 256 :: Verif.Spec.Md5.bytes k (v / 256)
    rw [le_eq k]

theorem le_length : ∀ k v, (le k v).length = k
  | 0, _ => rfl
  | k + 1, v => by
    show (le k _).length + 1 = _
    rw [le_length k]

theorem length_eq (n : Nat) : alignUp64 (n + 1 + 8) = n + 1 + (119 - n % 64) % 64 + 8 := by
  unfold alignUp64
  omega

/-- After the preparation, the memory starts with the message and its padding; what is behind is unchanged. -/
theorem prepare_eq (m rest : List Nat) :
    prepare (m ++ rest) m.length = Verif.Spec.Md5.padded m ++ rest.drop (alignUp64 (m.length + 1 + 8) - m.length) := by
  unfold prepare Verif.Spec.Md5.padded
  have hl := length_eq m.length
  generalize (119 - m.length % 64) % 64 = z at *
  generalize alignUp64 (m.length + 1 + 8) = L at *
  simp only
  have e1 : write (m ++ rest) m.length (List.replicate (L - m.length) 0) = m ++ (List.replicate (L - m.length) 0 ++ rest.drop (L - m.length)) := by
    unfold write
    rw [List.take_left, List.length_replicate, List.drop_append, List.append_assoc, List.drop_eq_nil_of_le (by omega), List.nil_append,
      Nat.add_sub_cancel_left]
  have e2 : write (m ++ (List.replicate (L - m.length) 0 ++ rest.drop (L - m.length))) m.length [1 <<< 7] =
      m ++ ([0x80] ++ (List.replicate (z + 8) 0 ++ rest.drop (L - m.length))) := by
    unfold write
    rw [List.take_left, List.drop_append, List.drop_eq_nil_of_le (by simp), List.nil_append, List.append_assoc]
    congr 1
    rw [show m.length + [1 <<< 7].length - m.length = 1 by simp, show L - m.length = z + 8 + 1 by omega, List.replicate_succ]
    rfl
  have e3 : m ++ ([0x80] ++ (List.replicate (z + 8) 0 ++ rest.drop (L - m.length))) =
      (m ++ [0x80] ++ List.replicate z 0) ++ (List.replicate 8 0 ++ rest.drop (L - m.length)) := by
    rw [← List.replicate_append_replicate]
    simp only [List.append_assoc]
  have hlen : (m ++ [0x80] ++ List.replicate z 0).length = L - 8 := by
    simp only [List.length_append, List.length_replicate, List.length_cons, List.length_nil]
    omega
  rw [e1, e2, e3, ← hlen, ← le_eq]
  generalize m ++ [0x80] ++ List.replicate z 0 = q
  unfold write
  rw [List.take_left, le_length, List.drop_append, List.drop_eq_nil_of_le (by omega), List.nil_append, Nat.add_sub_cancel_left]
  rfl

theorem padded_length (m : List Nat) : (Verif.Spec.Md5.padded m).length = alignUp64 (m.length + 1 + 8) := by
  rw [length_eq]
  unfold Verif.Spec.Md5.padded
  rw [← le_eq]
  simp only [List.length_append, List.length_replicate, List.length_cons, List.length_nil, le_length]

/-- The blocks of a longer list. -/
theorem blocks_append : ∀ (n : Nat) (a b : List Nat) (s : State), 64 * n ≤ a.length → Verif.Spec.Md5.blocks n (a ++ b) s = Verif.Spec.Md5.blocks n a s
  | 0, _, _, _, _ => rfl
  | n + 1, a, b, s, h => by
    show Verif.Spec.Md5.blocks n ((a ++ b).drop 64) (Verif.Spec.Md5.block ((a ++ b).take 64) s) = Verif.Spec.Md5.blocks n (a.drop 64) (Verif.Spec.Md5.block (a.take 64) s)
    rw [List.take_append_of_le_length (by omega), List.drop_append_of_le_length (by omega), blocks_append n _ _ _ (by rw [List.length_drop]; omega)]

theorem hash_eq (m rest : List Nat) (max : Nat) (h : alignUp64 (m.length + 1 + 8) ≤ m.length + rest.length) (hm : alignUp64 (m.length + 1 + 8) ≤ max) :
    ∃ hash, hashInplace (m ++ rest) m.length max = some (Verif.Spec.Md5.padded m ++ rest.drop (alignUp64 (m.length + 1 + 8) - m.length), hash) ∧
      hash.bytes = Verif.Spec.Md5.digest m := by
  unfold hashInplace
  simp only
  rw [if_neg (by omega), if_neg (by rw [List.length_append]; omega), prepare_eq m rest]
  refine ⟨_, rfl, ?_⟩
  have hb := blocks_eq (Verif.Spec.Md5.padded m ++ rest.drop (alignUp64 (m.length + 1 + 8) - m.length)) (alignUp64 (m.length + 1 + 8) / 64) 0 Verif.Spec.Md5.start
  rw [← List.range_eq_range'] at hb
  rw [show (⟨0x67452301, 0xefcdab89, 0x98badcfe, 0x10325476⟩ : Hash) = toHash Verif.Spec.Md5.start from rfl, hb, Nat.mul_zero, List.drop_zero,
    blocks_append _ _ _ _ (by rw [padded_length]; omega)]
  unfold Verif.Spec.Md5.digest
  rw [padded_length]
  simp only [← le_eq]
  rfl

end Verif.Lemmas.Md5
