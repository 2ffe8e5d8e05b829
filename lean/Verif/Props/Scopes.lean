import Verif.Lemmas.ScopesRead

/-!
# C87: debuggers see the local variables whose blocks they are in
-/
namespace Verif.Props.Scopes
open Verif.Model.Scopes Verif.Lemmas.Scopes Verif.Lemmas.ScopesRead
open Verif.Model.BaseReloc (u32 u16)
open Verif.Spec.Image (byte number Holds)
open Verif.Lemmas.Image (holds_append)
open Verif.Spec.Scopes (Declaration Body Variable variablesOf variablesAt variablesIn shown functionAt variablesFrom kind next)

/-- What the theorems assume of a module: positions fit into 32 bits and the number of the section into 16, names are not too long, and no two functions have a byte of the
code in common. -/
structure ModuleFits (section_ : Nat) (objectName : List Nat) (fs : List Function) : Prop where
  section_ : section_ < 2 ^ 16
  objectName : objectName.length < 65000
  functions : ∀ f ∈ fs, FunctionFits f
  disjoint : fs.Pairwise (fun f g => ∀ A, ¬((f.textOffset ≤ A ∧ A < f.textOffset + f.byteSize) ∧ g.textOffset ≤ A ∧ A < g.textOffset + g.byteSize))

/-- The assertion on the offsets of scopes holds, and there are symbols. -/
theorem C87_total {section_ : Nat} {objectName : List Nat} {buildInfo : Nat} {fs : List Function} (h : ModuleFits section_ objectName fs) :
    ∃ b, symbols section_ objectName buildInfo fs = some b := by
  obtain ⟨r, hr⟩ := functions_total section_ fs (4 + (header objectName).length) h.functions
  refine ⟨u32 4 ++ header objectName ++ r ++ record 0x114c (u32 buildInfo), ?_⟩
  unfold symbols
  rw [hr]
  rfl

theorem start {section_ : Nat} {objectName : List Nat} {buildInfo : Nat} {fs : List Function} {b : List Nat} (h : ModuleFits section_ objectName fs)
    (hb : symbols section_ objectName buildInfo fs = some b) (A : Nat) :
    ∃ r, functions section_ fs (4 + (header objectName).length) = some r ∧ Holds (byte b) (4 + (header objectName).length) r ∧
      b.length = 4 + (header objectName).length + r.length + 8 ∧ 2 ≤ (header objectName).length ∧
      Holds (byte b) (4 + (header objectName).length + r.length) (record 0x114c (u32 buildInfo)) ∧
      ∀ n, functionAt b section_ A (n + 2) 4 = functionAt b section_ A n (4 + (header objectName).length) := by
  obtain ⟨r, hr⟩ := functions_total section_ fs (4 + (header objectName).length) h.functions
  unfold symbols at hb
  rw [hr] at hb
  have hb : u32 4 ++ header objectName ++ r ++ record 0x114c (u32 buildInfo) = b := Option.some.inj hb
  have hh : Holds (byte b) 0 b := by
    intro i hi
    rw [Nat.zero_add]
    exact getD_in b i hi
  have hl : b.length = 4 + (header objectName).length + r.length + 8 := by
    rw [← hb]
    simp only [List.length_append, u32_length, record_length]
  conv at hh => rhs; rw [← hb]
  have h1 := holds_append.1 hh
  have h2 := holds_append.1 h1.1
  have h3 := holds_append.1 h2.1
  simp only [List.length_append, u32_length, Nat.zero_add] at h1 h2 h3
  have h4 := holds_append.1 h3.2
  have hn := h.objectName
  have r1 := record_read h4.1 (by omega) (by simp only [List.length_append, u32_length, List.length_cons, List.length_nil]; omega)
  have r2 := record_read h4.2 (by omega) (by decide)
  generalize hR1 : (record 0x1101 (u32 0 ++ objectName ++ [0])).length = R1 at r1 r2
  have hH : (header objectName).length = R1 + 32 := by
    show (record _ _ ++ record _ _).length = _
    rw [List.length_append, hR1]
    rfl
  refine ⟨r, hr, h2.2, hl, by omega, h1.2, fun n => ?_⟩
  have hst : ∀ n p, functionAt b section_ A (n + 1) p = if b.length ≤ p then none else if kind b p = 0x110f ∨ kind b p = 0x1110 then
      (if Verif.Spec.Scopes.inFunction b section_ A p then some p else functionAt b section_ A n (next b (Verif.Spec.Scopes.ending b p))) else functionAt b section_ A n (next b p) :=
    fun _ _ => rfl
  rw [hst, if_neg (by omega), if_neg (by rw [r1.1]; decide), r1.2.1, hst, if_neg (by omega), if_neg (by rw [r2.1]; decide), r2.2.1, hH, ← Nat.add_assoc]
  rfl

/-- **C87.** At every byte of the code of every function, a debugger finds exactly the local variables of the function and of the blocks that the byte is in, from the
outermost to the innermost, each with its name, its place on the stack and its type. -/
theorem C87_variables {section_ : Nat} {objectName : List Nat} {buildInfo : Nat} {fs : List Function} {b : List Nat} (h : ModuleFits section_ objectName fs)
    (hb : symbols section_ objectName buildInfo fs = some b) (hl : b.length < 2 ^ 32) {f : Function} (hf : f ∈ fs) {c : Nat} (hc : c < f.byteSize) :
    ∃ vs, shown b section_ (f.textOffset + c) = some vs ∧ (variablesIn f.declarations f.prolog f.body f.epilog)[c]? = some vs := by
  obtain ⟨r, h1, h2, h3, h4, -, h5⟩ := start h hb (f.textOffset + c)
  obtain ⟨k, q, a, hk, hw, g1, g2, g3⟩ := functions_find (A := f.textOffset + c) h.section_ hl fs _ r h.functions h1 h2 (by omega) h.disjoint f hf ⟨by omega, by omega⟩
  have hv := function_variables h.section_ (h.functions f hf) g1 g2 g3 hl c
  refine ⟨variablesOf f.declarations ++ visible c (scan (·.2) f.body f.prolog).1, ?_, ?_⟩
  · unfold shown
    obtain ⟨n, hn⟩ : ∃ n, b.length = n + k + 2 := ⟨b.length - k - 2, by omega⟩
    have hq : functionAt b section_ (f.textOffset + c) b.length 4 = some q := by
      rw [hn, h5, hw]
    rw [hq, Option.bind_eq_bind, Option.bind_some]
    exact hv
  · unfold variablesIn
    have hs : f.byteSize = f.prolog + width f.body + f.epilog := rfl
    by_cases hc1 : c < f.prolog
    · rw [visible_outside c f.body f.prolog (by omega), List.append_nil, List.append_assoc, List.getElem?_append_left (by rw [List.length_replicate]; exact hc1),
        List.getElem?_replicate, if_pos hc1]
    · rw [List.append_assoc, List.getElem?_append_right (by rw [List.length_replicate]; omega), List.length_replicate]
      by_cases hc2 : c < f.prolog + width f.body
      · rw [List.getElem?_append_left (by rw [variablesAt_length]; omega), visible_inside f.body f.prolog (c - f.prolog) _ (by omega), show f.prolog + (c - f.prolog) = c by omega]
      · rw [visible_outside c f.body f.prolog (by omega), List.append_nil, List.getElem?_append_right (by rw [variablesAt_length]; omega), List.getElem?_replicate,
          variablesAt_length, if_pos (by omega)]

/-- At other addresses there are no variables. -/
theorem C87_elsewhere {section_ : Nat} {objectName : List Nat} {buildInfo : Nat} {fs : List Function} {b : List Nat} (h : ModuleFits section_ objectName fs)
    (hb : symbols section_ objectName buildInfo fs = some b) (hl : b.length < 2 ^ 32) {A : Nat} (hA : ∀ f ∈ fs, ¬(f.textOffset ≤ A ∧ A < f.textOffset + f.byteSize)) :
    shown b section_ A = none := by
  obtain ⟨r, h1, h2, h3, h4, h6, h5⟩ := start h hb A
  obtain ⟨k, hk, hw⟩ := functions_skip (A := A) h.section_ hl fs _ r h.functions h1 h2 (by omega) hA
  obtain ⟨n, hn⟩ : ∃ n, b.length = n + 1 + 1 + k + 2 := ⟨b.length - k - 4, by omega⟩
  have r1 := record_read h6 (by omega) (by rw [u32_length]; omega)
  have hst : ∀ n p, functionAt b section_ A (n + 1) p = if b.length ≤ p then none else if kind b p = 0x110f ∨ kind b p = 0x1110 then
      (if Verif.Spec.Scopes.inFunction b section_ A p then some p else functionAt b section_ A n (next b (Verif.Spec.Scopes.ending b p))) else functionAt b section_ A n (next b p) :=
    fun _ _ => rfl
  have hz : functionAt b section_ A b.length 4 = none := by
    conv => lhs; arg 4; rw [hn]
    rw [h5, hw, hst, if_neg (by omega), if_neg (by rw [r1.1]; decide), r1.2.1, hst, if_pos (by rw [record_length, u32_length]; omega)]
  unfold shown
  rw [hz]
  rfl

/-! A function with two parameters, a block with `x`, in it a block without declarations and in that one with another `x`, and then a block with `y`; and a second function. -/

def main : Function :=
  ⟨false, [109, 97, 105, 110], 0x1003, [.variable [97] (-16) 0x74, .variable [98] (-24) 0x74],
    .code 8 3 (.block [.variable [120] 4 0x74, .other] (.code 8 2 (.block [] (.block [.variable [120] 8 0x41] (.code 16 4 .done) (.code 8 1 .done)) .done))
      (.block [.variable [121] 12 0x74] (.code 8 5 .done) .done)), 7, 3, 0, 64, 7⟩

def second : Function := ⟨true, [103], 0x1004, [], .code 8 1 .done, 7, 3, 32, 16, 7⟩

theorem sample_fits : ModuleFits 1 [111] [main, second] := by
  have hm : FunctionFits main := by
    refine ⟨?_, ?_, by decide, by decide⟩
    · refine ⟨by decide, ?_, ⟨by decide, (fun d hd => by cases hd), ⟨?_, ⟨by decide, trivial⟩, ⟨by decide, trivial⟩⟩, trivial⟩, ?_, ⟨by decide, trivial⟩, trivial⟩
      · intro d hd
        rcases List.mem_cons.1 hd with rfl | hd
        · exact ⟨by decide, by decide, by decide, by decide, by decide⟩
        · rcases List.mem_cons.1 hd with rfl | hd
          · trivial
          · cases hd
      · intro d hd
        rcases List.mem_cons.1 hd with rfl | hd
        · exact ⟨by decide, by decide, by decide, by decide, by decide⟩
        · cases hd
      · intro d hd
        rcases List.mem_cons.1 hd with rfl | hd
        · exact ⟨by decide, by decide, by decide, by decide, by decide⟩
        · cases hd
    · intro d hd
      rcases List.mem_cons.1 hd with rfl | hd
      · exact ⟨by decide, by decide, by decide, by decide, by decide⟩
      · rcases List.mem_cons.1 hd with rfl | hd
        · exact ⟨by decide, by decide, by decide, by decide, by decide⟩
        · cases hd
  have hs : FunctionFits second := ⟨⟨by decide, trivial⟩, (fun d hd => by cases hd), by decide, by decide⟩
  refine ⟨by decide, by decide, ?_, ?_⟩
  · intro f hf
    rcases List.mem_cons.1 hf with rfl | hf
    · exact hm
    · rcases List.mem_cons.1 hf with rfl | hf
      · exact hs
      · cases hf
  · refine List.pairwise_cons.2 ⟨?_, List.pairwise_cons.2 ⟨(fun g hg => by cases hg), List.Pairwise.nil⟩⟩
    intro g hg A
    rcases List.mem_cons.1 hg with rfl | hg
    · have h1 : main.textOffset + main.byteSize = 25 := by decide
      have h2 : second.textOffset = 32 := rfl
      omega
    · cases hg

/-- The byte 13 is in the inner block: both `x` are there, the inner one is the last. -/
example : ∃ b, symbols 1 [111] 0x1005 [main, second] = some b ∧ b.length = 380 ∧
    shown b 1 13 = some [⟨[97], 334, 16, 0x74⟩, ⟨[98], 334, 24, 0x74⟩, ⟨[120], 334, -4, 0x74⟩, ⟨[120], 334, -8, 0x41⟩] ∧
    shown b 1 16 = some [⟨[97], 334, 16, 0x74⟩, ⟨[98], 334, 24, 0x74⟩, ⟨[120], 334, -4, 0x74⟩] ∧
    shown b 1 17 = some [⟨[97], 334, 16, 0x74⟩, ⟨[98], 334, 24, 0x74⟩, ⟨[121], 334, -12, 0x74⟩] ∧
    shown b 1 3 = some [⟨[97], 334, 16, 0x74⟩, ⟨[98], 334, 24, 0x74⟩] ∧ shown b 1 33 = some [] ∧ shown b 1 30 = none :=
  ⟨((symbols 1 [111] 0x1005 [main, second]).getD []), by decide +kernel⟩

end Verif.Props.Scopes
