import Verif.Spec.AsmCond
import Verif.Model.AsmCond

/-!
# C97: conditions in inline assembly
-/
namespace Verif.Props.AsmCond
open Verif.Model.AsmCond Verif.Spec.AsmCond

/-- The number of each relation. -/
def number : Relation → Nat
  | .equal => 4
  | .notEqual => 5
  | .below => 2
  | .notBelow => 3
  | .belowEqual => 6
  | .above => 7
  | .less => 12
  | .notLess => 13
  | .lessEqual => 14
  | .greater => 15

theorem opcodes : ∀ f ∈ families, ∀ e ∈ relations, opcode (f.1 ++ e.1) = some (f.2 + number e.2) := by decide +kernel

theorem less_flags (w : Nat) (x y : Int) (p : Bool) (hx : - 2 ^ w ≤ x ∧ x < 2 ^ w) (hy : - 2 ^ w ≤ y ∧ y < 2 ^ w) : ((cmp w x y p).sign != (cmp w x y p).overflow) = decide (x < y) := by
  show (decide (wrap w (x - y) < 0) != decide (wrap w (x - y) ≠ x - y)) = decide (x < y)
  have h : (wrap w (x - y) < 0 ∧ wrap w (x - y) = x - y) ∨ (¬ wrap w (x - y) < 0 ∧ wrap w (x - y) ≠ x - y) ↔ x < y := by
    unfold wrap
    generalize (2 : Int) ^ w = m at *
    split
    · omega
    · split <;> omega
  generalize hd : wrap w (x - y) = d at h ⊢
  by_cases h1 : d < 0 <;> by_cases h2 : d = x - y <;> by_cases h3 : x < y <;> simp [h1, h2, h3] <;> omega

theorem unsigned_eq (w : Nat) (x y : Int) (hx : - 2 ^ w ≤ x ∧ x < 2 ^ w) (hy : - 2 ^ w ≤ y ∧ y < 2 ^ w) : unsigned w x = unsigned w y ↔ x = y := by
  unfold unsigned
  generalize (2 : Int) ^ w = m at *
  split <;> split <;> omega

/-- **C97, integers.** For every jump, set and conditional move with any of the names of a relation, the opcode is that of the instruction with a condition which, after `cmp x, y`, holds exactly if the relation
holds for `x` and `y`; for numbers of every size. -/
theorem C97_relation (f : String × Nat) (hf : f ∈ families) (e : String × Relation) (he : e ∈ relations) :
    ∃ op, opcode (f.1 ++ e.1) = some op ∧ op / 16 * 16 = f.2 ∧
      ∀ (w : Nat) (x y : Int) (p : Bool), - 2 ^ w ≤ x ∧ x < 2 ^ w → - 2 ^ w ≤ y ∧ y < 2 ^ w → (holds (op % 16) (cmp w x y p) = true ↔ e.2.Holds w x y) := by
  refine ⟨_, opcodes f hf e he, ?_, ?_⟩
  · have : ∀ f ∈ families, ∀ e ∈ relations, (f.2 + number e.2) / 16 * 16 = f.2 := by decide +kernel
    exact this f hf e he
  · intro w x y p hx hy
    have hn : (f.2 + number e.2) % 16 = number e.2 := by
      have : ∀ f ∈ families, ∀ e ∈ relations, (f.2 + number e.2) % 16 = number e.2 := by decide +kernel
      exact this f hf e he
    rw [hn]
    have hl := less_flags w x y p hx hy
    have hu := unsigned_eq w x y hx hy
    have hc : (cmp w x y p).carry = decide (unsigned w x < unsigned w y) := rfl
    have hz : (cmp w x y p).zero = decide (x = y) := rfl
    cases e.2 with
    | equal => show ((cmp w x y p).zero != false) = true ↔ x = y; rw [hz]; simp
    | notEqual => show ((cmp w x y p).zero != true) = true ↔ x ≠ y; rw [hz]; simp
    | below => show ((cmp w x y p).carry != false) = true ↔ unsigned w x < unsigned w y; rw [hc]; simp
    | notBelow => show ((cmp w x y p).carry != true) = true ↔ unsigned w y ≤ unsigned w x; rw [hc]; simp
    | belowEqual =>
      show (((cmp w x y p).carry || (cmp w x y p).zero) != false) = true ↔ unsigned w x ≤ unsigned w y
      rw [hc, hz]; simp; omega
    | above =>
      show (((cmp w x y p).carry || (cmp w x y p).zero) != true) = true ↔ unsigned w y < unsigned w x
      rw [hc, hz]; simp; omega
    | less => show (((cmp w x y p).sign != (cmp w x y p).overflow) != false) = true ↔ x < y; rw [hl]; simp
    | notLess => show (((cmp w x y p).sign != (cmp w x y p).overflow) != true) = true ↔ y ≤ x; rw [hl]; simp
    | lessEqual => show (((cmp w x y p).zero || ((cmp w x y p).sign != (cmp w x y p).overflow)) != false) = true ↔ x ≤ y; rw [hl, hz]; simp; omega
    | greater => show (((cmp w x y p).zero || ((cmp w x y p).sign != (cmp w x y p).overflow)) != true) = true ↔ y < x; rw [hl, hz]; simp; omega

example : opcode "jnae" = some 0x82 ∧ opcode "setg" = some 0x9F ∧ opcode "cmovz" = some 0x44 := by decide +kernel
example : ("j", 0x80) ∈ families ∧ (- 2 ^ 7 ≤ (-128 : Int) ∧ (-128 : Int) < 2 ^ 7) ∧ (- 2 ^ 7 ≤ (127 : Int) ∧ (127 : Int) < 2 ^ 7) := by decide

/-- **C97, flags.** The names of conditions on a single flag stand for it, whatever the flags are. -/
theorem C97_flag (f : String × Nat) (hf : f ∈ families) (e : String × (Flags → Bool)) (he : e ∈ single) :
    ∃ op, opcode (f.1 ++ e.1) = some op ∧ op / 16 * 16 = f.2 ∧ ∀ fl, holds (op % 16) fl = e.2 fl := by
  have h1 : ∀ f ∈ families, ∀ k : Fin 8, opcode (f.1 ++ (["o", "no", "s", "ns", "p", "pe", "np", "po"][k.1]?.getD "")) = some (f.2 + ([0, 1, 8, 9, 10, 10, 11, 11][k.1]?.getD 0)) := by decide +kernel
  have h2 : ∀ f ∈ families, ∀ k : Fin 8, (f.2 + ([0, 1, 8, 9, 10, 10, 11, 11][k.1]?.getD 0)) / 16 * 16 = f.2 ∧ (f.2 + ([0, 1, 8, 9, 10, 10, 11, 11][k.1]?.getD 0)) % 16 = ([0, 1, 8, 9, 10, 10, 11, 11][k.1]?.getD 0) := by decide +kernel
  have key : ∀ k : Fin 8, e.1 = ["o", "no", "s", "ns", "p", "pe", "np", "po"][k.1]?.getD "" → (∀ fl, holds ([0, 1, 8, 9, 10, 10, 11, 11][k.1]?.getD 0) fl = e.2 fl) → ∃ op, opcode (f.1 ++ e.1) = some op ∧ op / 16 * 16 = f.2 ∧ ∀ fl, holds (op % 16) fl = e.2 fl := by
    intro k hk hh
    refine ⟨_, hk ▸ h1 f hf k, (h2 f hf k).1, ?_⟩
    rw [(h2 f hf k).2]
    exact hh
  have bool : ∀ b : Bool, (b != false) = b ∧ (b != true) = !b := by decide
  unfold single at he
  rcases List.mem_cons.1 he with rfl | he
  · exact key 0 rfl fun fl => (bool _).1
  rcases List.mem_cons.1 he with rfl | he
  · exact key 1 rfl fun fl => (bool _).2
  rcases List.mem_cons.1 he with rfl | he
  · exact key 2 rfl fun fl => (bool _).1
  rcases List.mem_cons.1 he with rfl | he
  · exact key 3 rfl fun fl => (bool _).2
  rcases List.mem_cons.1 he with rfl | he
  · exact key 4 rfl fun fl => (bool _).1
  rcases List.mem_cons.1 he with rfl | he
  · exact key 5 rfl fun fl => (bool _).1
  rcases List.mem_cons.1 he with rfl | he
  · exact key 6 rfl fun fl => (bool _).2
  rcases List.mem_cons.1 he with rfl | he
  · exact key 7 rfl fun fl => (bool _).2
  · cases he

theorem immediates : ∀ k ∈ kinds, ∀ i : Fin 8, immediate ("cmp" ++ (["eq", "lt", "le", "unord", "neq", "nlt", "nle", "ord"][i.1]?.getD "") ++ k) = some i.1 := by decide +kernel

/-- **C97, floating-point numbers, without those named "greater".** The comparisons give what their names say, for all kinds of operands and also if an operand is not a number.
What is missing: the names with "greater", see `C97_greater_wrong`. -/
theorem C97_comparison_partial (k : String) (hk : k ∈ kinds) (e : String × (Order → Bool)) (he : e ∈ comparisons) :
    ∃ n, immediate ("cmp" ++ e.1 ++ k) = some n ∧ n < 256 ∧ ∀ o, predicate n o = e.2 o := by
  have h := immediates k hk
  unfold comparisons at he
  rcases List.mem_cons.1 he with rfl | he
  · exact ⟨0, h 0, by decide, fun _ => rfl⟩
  rcases List.mem_cons.1 he with rfl | he
  · exact ⟨1, h 1, by decide, fun _ => rfl⟩
  rcases List.mem_cons.1 he with rfl | he
  · exact ⟨2, h 2, by decide, fun _ => rfl⟩
  rcases List.mem_cons.1 he with rfl | he
  · exact ⟨3, h 3, by decide, fun _ => rfl⟩
  rcases List.mem_cons.1 he with rfl | he
  · exact ⟨4, h 4, by decide, fun _ => rfl⟩
  rcases List.mem_cons.1 he with rfl | he
  · exact ⟨5, h 5, by decide, fun _ => rfl⟩
  rcases List.mem_cons.1 he with rfl | he
  · exact ⟨6, h 6, by decide, fun _ => rfl⟩
  rcases List.mem_cons.1 he with rfl | he
  · exact ⟨7, h 7, by decide, fun _ => rfl⟩
  · cases he

/-- **C97, finding: "greater" of something that is not a number.** `cmpge`, `cmpgt`, `cmpnge` and `cmpngt` are aliases of the negations of "less": they give what the names say if both operands are numbers, and the
opposite if one is not. -/
theorem C97_greater_wrong (k : String) (hk : k ∈ kinds) (e : String × (Order → Bool)) (he : e ∈ greater) :
    ∃ n, immediate ("cmp" ++ e.1 ++ k) = some n ∧ (∀ o, o ≠ .unordered → predicate n o = e.2 o) ∧ predicate n .unordered ≠ e.2 .unordered := by
  have h : ∀ k ∈ kinds, ∀ i : Fin 4, immediate ("cmp" ++ (["ge", "gt", "nge", "ngt"][i.1]?.getD "") ++ k) = some ([5, 6, 1, 2][i.1]?.getD 0) := by decide +kernel
  have h := h k hk
  unfold greater at he
  rcases List.mem_cons.1 he with rfl | he
  · exact ⟨5, h 0, fun o ho => by cases o <;> first | rfl | contradiction, by decide⟩
  rcases List.mem_cons.1 he with rfl | he
  · exact ⟨6, h 1, fun o ho => by cases o <;> first | rfl | contradiction, by decide⟩
  rcases List.mem_cons.1 he with rfl | he
  · exact ⟨1, h 2, fun o ho => by cases o <;> first | rfl | contradiction, by decide⟩
  rcases List.mem_cons.1 he with rfl | he
  · exact ⟨2, h 3, fun o ho => by cases o <;> first | rfl | contradiction, by decide⟩
  · cases he

end Verif.Props.AsmCond
