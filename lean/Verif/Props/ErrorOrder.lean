import Verif.Model.ErrorOrder
import Verif.Props.Sort

/-!
# C40, C58: the orders that are sorted by, and what the user sees
-/
namespace Verif.Props.ErrorOrder
open Verif.ErrorOrder Verif.Sort Verif.Props.Sort

/-- Position of a report: unit, stage, then the position in the sources (a report without
position first). -/
def key (n : Node) : List Nat :=
  [n.unit, n.stage.num] ++
    match n.token with
    | none => []
    | some t => if n.stage = .tokenizeFiles then [t.fileIndex, t.line, t.column] else [t.address]

/-- Lexicographic order of lists, a prefix being smaller. -/
def LexLt : List Nat → List Nat → Prop
  | a :: as, b :: bs => a < b ∨ (a = b ∧ LexLt as bs)
  | [], _ :: _ => True
  | _, [] => False

theorem lexLt_irrefl (a : List Nat) : ¬ LexLt a a := by
  induction a with
  | nil => simp [LexLt]
  | cons x xs ih => simp [LexLt, ih]

theorem lexLt_trans : ∀ (a b c : List Nat), LexLt a b → LexLt b c → LexLt a c
  | [], [], _, h, _ => by simp [LexLt] at h
  | [], _ :: _, [], _, h => by simp [LexLt] at h
  | [], _ :: _, _ :: _, _, _ => by simp [LexLt]
  | _ :: _, [], _, h, _ => by simp [LexLt] at h
  | _ :: _, _ :: _, [], _, h => by simp [LexLt] at h
  | x :: xs, y :: ys, z :: zs, h1, h2 => by
    simp only [LexLt] at *
    rcases h1 with h1 | ⟨rfl, h1⟩ <;> rcases h2 with h2 | ⟨rfl, h2⟩
    · left; omega
    · left; omega
    · left; omega
    · right; exact ⟨rfl, lexLt_trans xs ys zs h1 h2⟩

theorem lexLt_total : ∀ (a b : List Nat), LexLt a b ∨ a = b ∨ LexLt b a
  | [], [] => by simp
  | [], _ :: _ => by simp [LexLt]
  | _ :: _, [] => by simp [LexLt]
  | x :: xs, y :: ys => by
    simp only [LexLt, List.cons.injEq]
    rcases Nat.lt_trichotomy x y with h | rfl | h
    · simp [h]
    · rcases lexLt_total xs ys with h | h | h <;> simp [h]
    · simp [h]

/-- C40: reports are compared by position. -/
theorem C40_error_order (a b : Node) : errorSmaller a b = true ↔ LexLt (key a) (key b) := by
  obtain ⟨ua, sa, ta, ea⟩ := a
  obtain ⟨ub, sb, tb, eb⟩ := b
  simp only [errorSmaller, key]
  cases ta <;> cases tb <;> cases sa <;> cases sb <;>
    simp [LexLt, Stage.num] <;> omega

/-- C40: strings are compared lexicographically. -/
theorem C40_lex_order : ∀ (a b : List Nat), lexSmaller a b = true ↔ LexLt a b
  | [], [] => by simp [lexSmaller, LexLt]
  | [], _ :: _ => by simp [lexSmaller, LexLt]
  | _ :: _, [] => by simp [lexSmaller, LexLt]
  | x :: xs, y :: ys => by
    simp only [lexSmaller, LexLt]
    rcases Nat.lt_trichotomy x y with h | rfl | h
    · simp [h]
    · simp [C40_lex_order xs ys]
    · simp [show ¬ x < y by omega, h, show x ≠ y by omega]

theorem strictWeak_of_key {α : Type} (lt : α → α → Bool) (k : α → List Nat) (h : ∀ a b, lt a b = true ↔ LexLt (k a) (k b)) : StrictWeak lt := by
  have hn : ∀ a b, lt a b = false ↔ ¬ LexLt (k a) (k b) := fun a b => by rw [← h]; simp
  refine ⟨fun a b hab => ?_, fun a b c h1 h2 => ?_⟩
  · rw [hn]; intro hba
    exact lexLt_irrefl _ (lexLt_trans _ _ _ ((h a b).1 hab) hba)
  · rw [hn] at *; intro hac
    rcases lexLt_total (k a) (k b) with h3 | h3 | h3
    · exact h1 h3
    · rw [h3] at hac; exact h2 hac
    · rcases lexLt_total (k b) (k c) with h4 | h4 | h4
      · exact h2 h4
      · rw [h4] at h3; exact lexLt_irrefl _ (lexLt_trans _ _ _ hac h3)
      · exact lexLt_irrefl _ (lexLt_trans _ _ _ hac (lexLt_trans _ _ _ h4 h3))

theorem C40_error_strict_weak : StrictWeak errorSmaller := strictWeak_of_key _ key C40_error_order
theorem C40_lex_strict_weak : StrictWeak lexSmaller := strictWeak_of_key _ id C40_lex_order

/-- Two sorted permutations of the same reports are equal if no two reports compare equal. -/
theorem sorted_unique {α : Type} (lt : α → α → Bool) : ∀ (xs ys : List α), xs.Perm ys → Sorted lt xs → Sorted lt ys →
    (∀ a ∈ xs, ∀ b ∈ xs, lt a b = false → lt b a = false → a = b) → xs = ys := by
  intro xs
  induction xs with
  | nil => intro ys hp _ _ _; exact (List.nil_perm.1 hp).symm
  | cons x xs ih =>
    intro ys hp hx hy hc
    cases ys with
    | nil => exact absurd hp.symm (by simp)
    | cons y ys =>
      have hx' := List.pairwise_cons.1 hx
      have hy' := List.pairwise_cons.1 hy
      have e : x = y := by
        have h1 : x ∈ y :: ys := hp.mem_iff.1 (by simp)
        have h2 : y ∈ x :: xs := hp.mem_iff.2 (by simp)
        rcases List.mem_cons.1 h1 with h1 | h1
        · exact h1
        · rcases List.mem_cons.1 h2 with h2' | h2'
          · exact h2'.symm
          · exact hc x (by simp) y h2 (hy'.1 x h1) (hx'.1 y h2')
      subst e
      congr 1
      exact ih ys (List.Perm.cons_inv hp) hx'.2 hy'.2 (fun a ha b hb => hc a (by simp [ha]) b (by simp [hb]))

/-- C58: the order in which reports are printed does not depend on the order in which the threads
made them: if every two reports are at different positions, every distribution of the same
reports over the lists of the threads prints the same. -/
theorem C58_report_order (a b : List Node) (h : a.Perm b)
    (hd : ∀ x ∈ a, ∀ y ∈ a, key x = key y → x = y) (fa fb : Nat) (ha : 6 * a.length < fa) (hb : 6 * b.length < fb) :
    ∃ r, sllSort errorSmaller fa a = some r ∧ sllSort errorSmaller fb b = some r ∧ r.Perm a := by
  obtain ⟨r, hr, hp, hs⟩ := C40_sort C40_error_strict_weak a fa ha
  obtain ⟨r', hr', hp', hs'⟩ := C40_sort C40_error_strict_weak b fb hb
  have e : r = r' := by
    refine sorted_unique errorSmaller r r' (hp.trans (h.trans hp'.symm)) hs hs' ?_
    intro x hx y hy h1 h2
    refine hd x (hp.mem_iff.1 hx) y (hp.mem_iff.1 hy) ?_
    rcases lexLt_total (key x) (key y) with h3 | h3 | h3
    · rw [(C40_error_order x y).2 h3] at h1; cases h1
    · exact h3
    · rw [(C40_error_order y x).2 h3] at h2; cases h2
  subst e
  exact ⟨r, hr, hr', hp⟩

/-- C58: without that condition the order is that of the threads: two reports at one position are
printed in an order that depends on the input order. -/
theorem C58_same_position_not_deterministic :
    let t : Token := ⟨1, 2, 3, 40⟩
    let a : Node := ⟨0, .parseFunction, some t, [65]⟩
    let b : Node := ⟨0, .parseFunction, some t, [66]⟩
    sllSort errorSmaller 100 [a, b] ≠ sllSort errorSmaller 100 [b, a] := by decide

/-- C40: the export names are sorted as the loader's binary search needs them, lexicographically
by unsigned bytes. -/
theorem C40_exports_sorted (names : List (List Nat)) (fuel : Nat) (hf : 6 * names.length < fuel) :
    ∃ r, sllSort lexSmaller fuel names = some r ∧ r.Perm names ∧ r.Pairwise fun a b => LexLt a b ∨ a = b := by
  obtain ⟨r, h1, h2, h3⟩ := C40_sort C40_lex_strict_weak names fuel hf
  refine ⟨r, h1, h2, h3.imp ?_⟩
  intro a b hba
  rcases lexLt_total a b with h | h | h
  · exact Or.inl h
  · exact Or.inr h
  · rw [(C40_lex_order b a).2 h] at hba; cases hba

def n1 : Node := ⟨0, .parseFunction, some ⟨1, 2, 3, 40⟩, []⟩
def n2 : Node := ⟨0, .tokenizeFiles, none, []⟩
def n3 : Node := ⟨0, .tokenizeFiles, some ⟨1, 9, 3, 7⟩, []⟩
example : sllSort errorSmaller 100 [n1, n3, n2] = some [n2, n3, n1] ∧ sllSort errorSmaller 100 [n2, n1, n3] = some [n2, n3, n1] ∧
    (∀ x ∈ [n1, n3, n2], ∀ y ∈ [n1, n3, n2], key x = key y → x = y) ∧
    sllSort lexSmaller 100 [[98], [97, 98], [97]] = some [[97], [97, 98], [98]] := by decide

end Verif.Props.ErrorOrder
