import Verif.Spec.Format
import Verif.Model.Format

/-!
# C93: the format string of a printlike function
-/
namespace Verif.Props.Format
open Verif.Model.Format Verif.Spec.Format

theorem flag_iff (c : Nat) : isFlag c = true ↔ Flag c := by simp [isFlag, Flag, or_assoc]

theorem digit_iff (c : Nat) : isDigit c = true ↔ Digit c := by simp [isDigit, Digit]

theorem letter_iff (c : Nat) : isLetter c = true ↔ Letter c := by simp [isLetter, Letter, isDigit, Digit, or_assoc]

/-- The list does not go on with such a character. -/
def Stops (p : Nat → Bool) (b : List Nat) : Prop := ∀ c ∈ b.head?, p c = false

theorem take_append (p : Nat → Bool) : ∀ (a b : List Nat), (∀ c ∈ a, p c = true) → Stops p b → (a ++ b).takeWhile p = a ∧ (a ++ b).dropWhile p = b
  | [], [], _, _ => ⟨rfl, rfl⟩
  | [], c :: b, _, h => by
    have hc : ¬ p c = true := by rw [h c rfl]; exact Bool.false_ne_true
    rw [List.nil_append, List.takeWhile_cons, List.dropWhile_cons, if_neg hc, if_neg hc]
    exact ⟨rfl, rfl⟩
  | c :: a, b, ha, h => by
    obtain ⟨h1, h2⟩ := take_append p a b (fun x hx => ha x (List.mem_cons_of_mem _ hx)) h
    rw [List.cons_append, List.takeWhile_cons, List.dropWhile_cons, if_pos (ha c List.mem_cons_self), if_pos (ha c List.mem_cons_self), h1, h2]
    exact ⟨rfl, rfl⟩

/-- What comes after the fields: nothing that they could take. -/
def Tail (z : List Nat) : Prop := ∀ c ∈ z.head?, isFlag c = false ∧ isDigit c = false ∧ c ≠ 42 ∧ c ≠ 46

theorem count_digits (call : Call) (l z : List Nat) (hl : ∀ c ∈ l, Digit c) (hz : Stops isDigit z) (hs : z.head? ≠ some 42) (used : Nat) :
    count call (l ++ z) used = some (l, z, used) := by
  obtain ⟨h1, h2⟩ := take_append isDigit l z (fun c hc => (digit_iff c).2 (hl c hc)) hz
  unfold count
  split
  · rename_i rest hx
    cases l with
    | nil =>
      rw [List.nil_append] at hx
      rw [hx] at hs
      exact absurd rfl hs
    | cons c l =>
      have hc := (List.cons.inj hx).1
      have := hl c List.mem_cons_self
      rw [hc] at this
      exact absurd this (by unfold Digit; omega)
  · rw [h1, h2]

/-- The arguments for a number. -/
def one (c : Count) : Nat := if c = .star then 1 else 0

theorem count_eq (call : Call) (c : Count) (z : List Nat) (hc : ∀ l, c = .digits l → ∀ x ∈ l, Digit x) (hz : Stops isDigit z) (hs : z.head? ≠ some 42) (used : Nat)
    (he : used + one c ≤ call.count) (hi : one c = 1 → call.integer used = true) : count call (writeCount c ++ z) used = some (writeCount c, z, used + one c) := by
  cases c with
  | digits l => exact count_digits call l z (hc l rfl) hz hs used
  | star =>
    have he : used + 1 ≤ call.count := he
    show (if used = call.count then none else if call.integer used then some ([42], z, used + 1) else none) = _
    rw [if_neg (by omega), if_pos (hi rfl)]
    rfl

def oneP : Option Count → Nat
  | none => 0
  | some c => one c

theorem stars_eq (o : Options) : stars o = one o.width + oneP o.precision := by
  unfold stars oneP one
  cases o.precision with
  | none => rfl
  | some c =>
    dsimp only
    by_cases h : c = .star
    · rw [if_pos h, if_pos (show some c = some Count.star by rw [h])]
    · rw [if_neg h, if_neg (show ¬ some c = some Count.star from fun e => h (Option.some.inj e))]

theorem precision_eq (call : Call) (c : Option Count) (z : List Nat) (hc : ∀ l, c = some (.digits l) → ∀ x ∈ l, Digit x) (hz : Tail z) (used : Nat)
    (he : used + oneP c ≤ call.count) (hi : oneP c = 1 → call.integer used = true) :
    precision call (writePrecision c ++ z) used = some (precisionText c, z, used + oneP c) := by
  have h1 : Stops isDigit z := fun x hx => (hz x hx).2.1
  have h2 : z.head? ≠ some 42 := fun e => (hz 42 (by rw [e]; rfl)).2.2.1 rfl
  cases c with
  | none =>
    unfold precision
    split
    · rename_i rest hx
      exact absurd rfl ((hz 46 (by
        have hx : z = 46 :: rest := hx
        rw [hx]; rfl)).2.2.2)
    · rfl
  | some c => exact count_eq call c z (fun l hl => hc l (by rw [hl])) h1 h2 used he hi

theorem precision_head (c : Option Count) (z : List Nat) (hz : Tail z) : ∀ x ∈ (writePrecision c ++ z).head?, isFlag x = false ∧ isDigit x = false ∧ x ≠ 42 := by
  intro x hx
  cases c with
  | none => exact ⟨(hz x hx).1, (hz x hx).2.1, (hz x hx).2.2.1⟩
  | some c =>
    have hx : some 46 = some x := hx
    obtain rfl := Option.some.inj hx
    exact ⟨rfl, rfl, by decide⟩

theorem width_head (o : Options) (ho : GoodOptions o) (z : List Nat) (hz : Tail z) : Stops isFlag (writeCount o.width ++ (writePrecision o.precision ++ z)) := by
  intro x hx
  cases hw : o.width with
  | star =>
    rw [hw] at hx
    have hx : some 42 = some x := hx
    cases hx
    rfl
  | digits l =>
    obtain ⟨h1, h2⟩ := ho.width l hw
    rw [hw] at hx
    cases l with
    | nil => exact (precision_head o.precision z hz x hx).1
    | cons c l =>
      have hx : some c = some x := hx
      rw [← Option.some.inj hx]
      have hd := h1 c List.mem_cons_self
      have h0 : c ≠ 48 := fun e => h2 (by rw [e]; rfl)
      cases hf : isFlag c with
      | false => rfl
      | true =>
        have := (flag_iff c).1 hf
        unfold Flag at this
        unfold Digit at hd
        omega

theorem fields_eq (call : Call) (o : Options) (ho : GoodOptions o) (z : List Nat) (hz : Tail z) (used : Nat) (he : used + stars o ≤ call.count)
    (hi : ∀ i ∈ List.range' used (stars o), call.integer i = true) :
    fields call (writeOptions o ++ z) used = some ⟨o.flags, writeCount o.width, precisionText o.precision, z, used + stars o⟩ := by
  rw [stars_eq] at he hi
  have e : writeOptions o ++ z = o.flags ++ (writeCount o.width ++ (writePrecision o.precision ++ z)) := by
    unfold writeOptions
    simp
  obtain ⟨h1, h2⟩ := take_append isFlag o.flags (writeCount o.width ++ (writePrecision o.precision ++ z)) (fun c hc => (flag_iff c).2 (ho.flags c hc)) (width_head o ho z hz)
  have hp := precision_head o.precision z hz
  have hw := count_eq call o.width (writePrecision o.precision ++ z) (fun l hl => (ho.width l hl).1) (fun x hx => (hp x hx).2.1) (fun e => (hp 42 (by rw [e]; rfl)).2.2 rfl) used (by omega)
    (fun h => hi used (by rw [List.mem_range'_1]; omega))
  have hpr := precision_eq call o.precision z (fun l hl => ho.precision l hl) hz (used + one o.width) (by omega) (fun h => hi _ (by rw [List.mem_range'_1]; omega))
  unfold fields
  rw [e, h1, h2, hw]
  dsimp only
  rw [hpr, stars_eq]
  dsimp only
  rw [Nat.add_assoc]

theorem count_some (call : Call) (c : Count) (z : List Nat) (hc : ∀ l, c = .digits l → ∀ x ∈ l, Digit x) (hz : Stops isDigit z) (hs : z.head? ≠ some 42) (used : Nat)
    (hu : used ≤ call.count) (w : List Nat × List Nat × Nat) (hw : count call (writeCount c ++ z) used = some w) : w = (writeCount c, z, used + one c) ∧ used + one c ≤ call.count := by
  cases c with
  | digits l =>
    rw [show writeCount (.digits l) = l from rfl, count_digits call l z (hc l rfl) hz hs used] at hw
    exact ⟨(Option.some.inj hw).symm, hu⟩
  | star =>
    have hw : (if used = call.count then none else if call.integer used then some ([42], z, used + 1) else none) = some w := hw
    by_cases h1 : used = call.count
    · rw [if_pos h1] at hw; cases hw
    · rw [if_neg h1] at hw
      by_cases h2 : call.integer used = true
      · rw [if_pos h2] at hw
        have : used + one .star = used + 1 := rfl
        exact ⟨(Option.some.inj hw).symm, by omega⟩
      · rw [if_neg h2] at hw; cases hw

theorem precision_some (call : Call) (c : Option Count) (z : List Nat) (hc : ∀ l, c = some (.digits l) → ∀ x ∈ l, Digit x) (hz : Tail z) (used : Nat)
    (hu : used ≤ call.count) (w : List Nat × List Nat × Nat) (hw : precision call (writePrecision c ++ z) used = some w) :
    w = (precisionText c, z, used + oneP c) ∧ used + oneP c ≤ call.count := by
  cases c with
  | none =>
    rw [precision_eq call none z hc hz used hu (fun h => by cases h)] at hw
    exact ⟨(Option.some.inj hw).symm, hu⟩
  | some c =>
    exact count_some call c z (fun l hl => hc l (by rw [hl])) (fun x hx => (hz x hx).2.1) (fun e => (hz 42 (by rw [e]; rfl)).2.2.1 rfl) used hu w hw

/-- Also if an argument for a `*` is not an integer: a result reads all of the arguments. -/
theorem fields_some (call : Call) (o : Options) (ho : GoodOptions o) (z : List Nat) (hz : Tail z) (used : Nat) (hu : used ≤ call.count) (f : Fields)
    (hf : fields call (writeOptions o ++ z) used = some f) :
    f = ⟨o.flags, writeCount o.width, precisionText o.precision, z, used + stars o⟩ ∧ used + stars o ≤ call.count := by
  have e : writeOptions o ++ z = o.flags ++ (writeCount o.width ++ (writePrecision o.precision ++ z)) := by
    unfold writeOptions
    simp
  obtain ⟨h1, h2⟩ := take_append isFlag o.flags (writeCount o.width ++ (writePrecision o.precision ++ z)) (fun c hc => (flag_iff c).2 (ho.flags c hc)) (width_head o ho z hz)
  have hp := precision_head o.precision z hz
  unfold fields at hf
  rw [e, h1, h2] at hf
  cases hw : count call (writeCount o.width ++ (writePrecision o.precision ++ z)) used with
  | none => rw [hw] at hf; cases hf
  | some w =>
    rw [hw] at hf
    dsimp only at hf
    obtain ⟨rfl, hle⟩ := count_some call o.width _ (fun l hl => (ho.width l hl).1) (fun x hx => (hp x hx).2.1) (fun e => (hp 42 (by rw [e]; rfl)).2.2 rfl) used hu w hw
    dsimp only at hf
    cases hq : precision call (writePrecision o.precision ++ z) (used + one o.width) with
    | none => rw [hq] at hf; cases hf
    | some q =>
      rw [hq] at hf
      obtain ⟨rfl, hle2⟩ := precision_some call o.precision z (fun l hl => ho.precision l hl) hz _ hle q hq
      rw [stars_eq, ← Nat.add_assoc]
      exact ⟨(Option.some.inj hf).symm, hle2⟩

/-- What a conversion ends with. -/
theorem length_eq (len : List Nat) (hl : len ∈ lengths) (c : Nat) (hc : c ∈ 63 :: conversions) (rest : List Nat) : Verif.Model.Format.length (len ++ c :: rest) = c :: rest := by
  unfold lengths at hl
  unfold conversions at hc
  simp only [List.mem_cons, List.not_mem_nil, or_false] at hl hc
  rcases hl with rfl | rfl | rfl | rfl | rfl | rfl | rfl | rfl | rfl <;>
    rcases hc with rfl | rfl | rfl | rfl | rfl | rfl | rfl | rfl | rfl | rfl | rfl | rfl | rfl | rfl | rfl | rfl | rfl | rfl | rfl <;> rfl

theorem length_tail (len : List Nat) (hl : len ∈ lengths) (c : Nat) (hc : c ∈ 63 :: conversions) (rest : List Nat) : Tail (len ++ c :: rest) := by
  intro x hx
  unfold lengths at hl
  unfold conversions at hc
  simp only [List.mem_cons, List.not_mem_nil, or_false] at hl hc
  rcases hl with rfl | rfl | rfl | rfl | rfl | rfl | rfl | rfl | rfl <;>
    rcases hc with rfl | rfl | rfl | rfl | rfl | rfl | rfl | rfl | rfl | rfl | rfl | rfl | rfl | rfl | rfl | rfl | rfl | rfl | rfl <;>
    (cases hx; decide)

/-- The first character after `%` is not another `%`. -/
theorem special_conversion (call : Call) (l : List Nat) (h : l.head? ≠ some 37) (used : Nat) : special call 37 l used = conversion call l used := by
  unfold special
  rw [if_pos rfl]
  split
  · exact absurd rfl h
  · rfl

theorem options_head (o : Options) (ho : GoodOptions o) (z : List Nat) (hz : z.head? ≠ some 37) : (writeOptions o ++ z).head? ≠ some 37 := by
  intro e
  have e : (o.flags ++ (writeCount o.width ++ (writePrecision o.precision ++ z))).head? = some 37 := by
    rw [← e]
    unfold writeOptions
    simp
  cases hf : o.flags with
  | cons c l =>
    rw [hf] at e
    have := ho.flags c (by rw [hf]; exact List.mem_cons_self)
    cases e
    unfold Flag at this
    omega
  | nil =>
    rw [hf] at e
    cases hw : o.width with
    | star => rw [hw] at e; cases e
    | digits l =>
      rw [hw] at e
      cases l with
      | cons c l =>
        have := (ho.width _ hw).1 c List.mem_cons_self
        cases e
        unfold Digit at this
        omega
      | nil =>
        cases hp : o.precision with
        | none => rw [hp] at e; exact hz e
        | some c => rw [hp] at e; cases e

theorem take_sub (a b : List Nat) : (a ++ b).take ((a ++ b).length - b.length) = a := by
  rw [List.length_append, Nat.add_sub_cancel, List.take_left']
  rfl

theorem end_head (len : List Nat) (hl : len ∈ lengths) (c : Nat) (hc : c ∈ 63 :: conversions) (rest : List Nat) : (len ++ c :: rest).head? ≠ some 37 := by
  intro e
  have := length_tail len hl c hc rest 37 (by rw [e]; rfl)
  unfold lengths at hl
  unfold conversions at hc
  simp only [List.mem_cons, List.not_mem_nil, or_false] at hl hc
  rcases hl with rfl | rfl | rfl | rfl | rfl | rfl | rfl | rfl | rfl <;>
    rcases hc with rfl | rfl | rfl | rfl | rfl | rfl | rfl | rfl | rfl | rfl | rfl | rfl | rfl | rfl | rfl | rfl | rfl | rfl | rfl <;> cases e

theorem conversion_eq (call : Call) (o : Options) (ho : GoodOptions o) (len : List Nat) (hl : len ∈ lengths) (c : Nat) (hc : c ∈ conversions) (rest : List Nat) (used : Nat)
    (he : used + (stars o + 1) ≤ call.count) (hi : ∀ i ∈ List.range' used (stars o), call.integer i = true) :
    special call 37 (writeOptions o ++ len ++ [c] ++ rest) used = some (bytes (37 :: (writeOptions o ++ len ++ [c])), rest, used + (stars o + 1)) := by
  have hc' : c ∈ 63 :: conversions := List.mem_cons_of_mem _ hc
  have e : writeOptions o ++ len ++ [c] ++ rest = writeOptions o ++ (len ++ c :: rest) := by simp
  have hne : c ≠ 63 := fun e => absurd (e ▸ hc) (by decide)
  have ht : (writeOptions o ++ (len ++ c :: rest)).take ((writeOptions o ++ (len ++ c :: rest)).length - rest.length) = writeOptions o ++ len ++ [c] := by
    rw [← e]
    exact take_sub _ _
  rw [e, special_conversion _ _ (options_head o ho _ (end_head len hl c hc' rest))]
  unfold conversion
  rw [fields_eq call o ho _ (length_tail len hl c hc' rest) used (by omega) hi]
  dsimp only
  rw [length_eq len hl c hc' rest]
  dsimp only
  rw [if_neg (by omega), if_neg hne, ht]
  rfl

theorem infer_eq (call : Call) (o : Options) (ho : GoodOptions o) (rest : List Nat) (used : Nat)
    (he : used + (stars o + 1) ≤ call.count) (hi : ∀ i ∈ List.range' used (stars o), call.integer i = true) :
    special call 37 (writeOptions o ++ [63] ++ rest) used = some (becomes used (.infer o), rest, used + (stars o + 1)) := by
  have hl : ([] : List Nat) ∈ lengths := List.mem_cons_self
  have hc' : 63 ∈ 63 :: conversions := List.mem_cons_self
  have e : writeOptions o ++ [63] ++ rest = writeOptions o ++ ([] ++ 63 :: rest) := by simp
  rw [e, special_conversion _ _ (options_head o ho _ (end_head [] hl 63 hc' rest))]
  unfold conversion
  rw [fields_eq call o ho _ (length_tail [] hl 63 hc' rest) used (by omega) hi]
  dsimp only
  rw [length_eq [] hl 63 hc' rest]
  dsimp only
  rw [if_neg (by omega), if_pos rfl]
  rfl

theorem conversion_few (call : Call) (o : Options) (ho : GoodOptions o) (len : List Nat) (hl : len ∈ lengths) (c : Nat) (hc : c ∈ 63 :: conversions) (rest : List Nat) (used : Nat)
    (hu : used ≤ call.count) (he : call.count < used + (stars o + 1)) : special call 37 (writeOptions o ++ len ++ [c] ++ rest) used = none := by
  have e : writeOptions o ++ len ++ [c] ++ rest = writeOptions o ++ (len ++ c :: rest) := by simp
  rw [e, special_conversion _ _ (options_head o ho _ (end_head len hl c hc rest))]
  unfold conversion
  cases hf : fields call (writeOptions o ++ (len ++ c :: rest)) used with
  | none => rfl
  | some f =>
    obtain ⟨rfl, hle⟩ := fields_some call o ho _ (length_tail len hl c hc rest) used hu f hf
    dsimp only
    rw [length_eq len hl c hc rest]
    dsimp only
    rw [if_pos (by omega)]

theorem letter_stop (c : Nat) (h : isLetter c = false) (rest : List Nat) : Stops isLetter (c :: rest) := by
  intro x hx
  have hx : some c = some x := hx
  rw [← Option.some.inj hx]
  exact h

/-- The name, and `=`. -/
theorem brace_name (call : Call) (name : List Nat) (hn : ∀ c ∈ name, Letter c) (equals : Bool) (he : name = [] → equals = false) (z : List Nat) (hz : Stops isLetter z) (hq : z.head? ≠ some 61)
    (used : Nat) : brace call (name ++ writeEquals equals ++ z) used =
      match options call z used with
      | none => none
      | some (f, type) =>
        match f.rest with
        | 125 :: rest => value call name equals f type rest
        | rest =>
          if f.flags.any (fun c => c != 32) then none
          else some (bytes (123 :: (name ++ writeEquals equals ++ z).take ((name ++ writeEquals equals ++ z).length - rest.length)), rest, f.used) := by
  have hs : Stops isLetter (writeEquals equals ++ z) := by
    cases equals with
    | false => exact hz
    | true => exact letter_stop 61 (by decide) z
  obtain ⟨h1, h2⟩ := take_append isLetter name (writeEquals equals ++ z) (fun c hc => (letter_iff c).2 (hn c hc)) hs
  have e : name ++ writeEquals equals ++ z = name ++ (writeEquals equals ++ z) := List.append_assoc ..
  have h3 : (decide (name ≠ []) && decide ((writeEquals equals ++ z).head? = some 61)) = equals := by
    cases equals with
    | false =>
      rw [show decide ((writeEquals false ++ z).head? = some 61) = false from decide_eq_false hq, Bool.and_false]
    | true =>
      have : name ≠ [] := fun h => by cases he h
      rw [decide_eq_true this]
      rfl
  have h4 : (if equals = true then (writeEquals equals ++ z).tail else writeEquals equals ++ z) = z := by
    cases equals <;> rfl
  rw [e]
  unfold brace
  dsimp only
  rw [h1, h2, h3, h4]
  cases options call z used with
  | none => rfl
  | some g => rfl

theorem value_eq (call : Call) (name : List Nat) (equals : Bool) (hg : GoodName call.declared name equals) (f : Fields) (type rest : List Nat)
    (he : f.used + (if name = [] then 1 else 0) ≤ call.count) :
    value call name equals f type rest = some (nameText name equals ++ [.infer (valueOf name f.used) f.flags f.width f.precision type], rest, f.used + if name = [] then 1 else 0) := by
  unfold value nameText valueOf
  by_cases hn : name = []
  · rw [if_pos hn] at he
    rw [if_neg (fun h => h.1 hn), if_neg (fun h => h.1 hn), if_neg (by omega), if_pos hn, if_pos hn, if_neg (fun h => h hn), hg.2.2 hn]
    rfl
  · rw [if_pos ⟨hn, hg.2.1 hn⟩, if_neg hn, if_neg hn]
    rfl

theorem value_few (call : Call) (name : List Nat) (equals : Bool) (f : Fields) (type rest : List Nat) (hu : f.used ≤ call.count)
    (he : call.count < f.used + (if name = [] then 1 else 0)) : value call name equals f type rest = none := by
  by_cases hn : name = []
  · rw [if_pos hn] at he
    unfold value
    rw [if_neg (fun h => h.1 hn), if_neg (fun h => h.1 hn), if_pos (by omega)]
  · rw [if_neg hn] at he
    omega

theorem options_short (call : Call) (rest : List Nat) (used : Nat) : options call (125 :: rest) used = some (⟨[], [], [], 125 :: rest, used⟩, []) := rfl

theorem type_tail (type : List Nat) (h1 : ∀ c ∈ type, Letter c) (h2 : ∀ c ∈ type.head?, ¬ Digit c) (rest : List Nat) : Tail (type ++ 125 :: rest) := by
  intro x hx
  cases type with
  | nil =>
    have hx : some 125 = some x := hx
    rw [← Option.some.inj hx]
    decide
  | cons c l =>
    have hx : some c = some x := hx
    rw [← Option.some.inj hx]
    have hl := h1 c List.mem_cons_self
    have hd := h2 c rfl
    refine ⟨?_, ?_, ?_, ?_⟩
    · cases hf : isFlag c with
      | false => rfl
      | true =>
        have := (flag_iff c).1 hf
        unfold Letter at hl
        unfold Digit at hl hd
        unfold Flag at this
        omega
    · cases hf : isDigit c with
      | false => rfl
      | true => exact absurd ((digit_iff c).1 hf) hd
    · unfold Letter at hl
      unfold Digit at hl
      omega
    · unfold Letter at hl
      unfold Digit at hl
      omega

theorem options_long (call : Call) (o : Options) (ho : GoodOptions o) (type : List Nat) (h1 : ∀ c ∈ type, Letter c) (h2 : ∀ c ∈ type.head?, ¬ Digit c) (rest : List Nat) (used : Nat)
    (he : used + stars o ≤ call.count) (hi : ∀ i ∈ List.range' used (stars o), call.integer i = true) :
    options call (58 :: (writeOptions o ++ (type ++ 125 :: rest))) used =
      some (⟨o.flags, writeCount o.width, precisionText o.precision, 125 :: rest, used + stars o⟩, type) := by
  obtain ⟨h3, h4⟩ := take_append isLetter type (125 :: rest) (fun c hc => (letter_iff c).2 (h1 c hc)) (letter_stop 125 (by decide) rest)
  unfold options
  dsimp only
  rw [if_pos (Or.inl rfl), if_pos rfl, fields_eq call o ho _ (type_tail type h1 h2 rest) used he hi]
  dsimp only
  rw [h3, h4]

theorem options_some (call : Call) (o : Options) (ho : GoodOptions o) (type : List Nat) (h1 : ∀ c ∈ type, Letter c) (h2 : ∀ c ∈ type.head?, ¬ Digit c) (rest : List Nat) (used : Nat)
    (hu : used ≤ call.count) (f : Fields × List Nat) (hf : options call (58 :: (writeOptions o ++ (type ++ 125 :: rest))) used = some f) :
    f = (⟨o.flags, writeCount o.width, precisionText o.precision, 125 :: rest, used + stars o⟩, type) ∧ used + stars o ≤ call.count := by
  obtain ⟨h3, h4⟩ := take_append isLetter type (125 :: rest) (fun c hc => (letter_iff c).2 (h1 c hc)) (letter_stop 125 (by decide) rest)
  unfold options at hf
  dsimp only at hf
  rw [if_pos (Or.inl rfl), if_pos rfl] at hf
  cases hg : fields call (writeOptions o ++ (type ++ 125 :: rest)) used with
  | none => rw [hg] at hf; cases hf
  | some g =>
    rw [hg] at hf
    obtain ⟨rfl, hle⟩ := fields_some call o ho _ (type_tail type h1 h2 rest) used hu g hg
    dsimp only at hf
    rw [h3, h4] at hf
    exact ⟨(Option.some.inj hf).symm, hle⟩

/-- The name of a piece is followed by something else. -/
theorem special_brace (call : Call) (l : List Nat) (used : Nat) : special call 123 l used = brace call l used := by
  unfold special
  rw [if_neg (by decide)]

/-- One piece that is not text: what is written for it without the first character. -/
theorem piece_eq (call : Call) (p : Piece) (hp : Good call.declared p) (ht : ∀ l, p ≠ .text l) (rest : List Nat) (hb : ∀ word, p = .brace word → Ends rest) (used : Nat)
    (he : used + reads p ≤ call.count) (hi : ∀ i ∈ starred used p, call.integer i = true) :
    ∃ c l, write p ++ rest = c :: l ∧ (c = 37 ∨ c = 123) ∧ special call c l used = some (becomes used p, rest, used + reads p) := by
  cases p with
  | text l => exact absurd rfl (ht l)
  | percent => exact ⟨37, 37 :: rest, rfl, Or.inl rfl, rfl⟩
  | conversion o len c => exact ⟨37, _, rfl, Or.inl rfl, conversion_eq call o hp.1 len hp.2.1 c hp.2.2 rest used he hi⟩
  | infer o => exact ⟨37, _, rfl, Or.inl rfl, infer_eq call o hp rest used he hi⟩
  | brace word =>
    refine ⟨123, word ++ rest, rfl, Or.inr rfl, ?_⟩
    have hr := hb word rfl
    have hs : Stops isLetter rest := fun c hc => by
      cases h : isLetter c with
      | false => rfl
      | true => exact absurd ((letter_iff c).1 h) (hr c hc).1
    have hb := brace_name call word hp false (fun _ => rfl) rest hs (fun e => (hr 61 (by rw [e]; rfl)).2.1 rfl) used
    have e : word ++ writeEquals false ++ rest = word ++ rest := by
      rw [show writeEquals false = [] from rfl, List.append_nil]
    rw [e] at hb
    have ho : options call rest used = some (⟨[], [], [], rest, used⟩, []) := by
      cases rest with
      | nil => rfl
      | cons c l =>
        have := hr c rfl
        unfold options
        dsimp only
        rw [if_neg (fun h => by omega)]
    rw [special_brace, hb, ho]
    dsimp only
    split
    · exact absurd rfl (hr 125 rfl).2.2.2.2.2.2
    · rw [if_neg (by decide), take_sub]
      rfl
  | short name equals =>
    have e : write (.short name equals) ++ rest = 123 :: (name ++ writeEquals equals ++ 125 :: rest) := by
      show 123 :: (name ++ writeEquals equals ++ [125]) ++ rest = _
      simp
    refine ⟨123, _, e, Or.inr rfl, ?_⟩
    rw [special_brace, brace_name call name hp.1 equals hp.2.2 _ (letter_stop 125 (by decide) rest) (fun h => by cases h), options_short]
    exact value_eq call name equals hp _ _ rest he
  | long name equals o type =>
    have e : write (.long name equals o type) ++ rest = 123 :: (name ++ writeEquals equals ++ 58 :: (writeOptions o ++ (type ++ 125 :: rest))) := by
      show 123 :: (name ++ writeEquals equals ++ [58] ++ writeOptions o ++ type ++ [125]) ++ rest = _
      simp
    have he : used + (stars o + if name = [] then 1 else 0) ≤ call.count := he
    refine ⟨123, _, e, Or.inr rfl, ?_⟩
    rw [special_brace, brace_name call name hp.1.1 equals hp.1.2.2 _ (letter_stop 58 (by decide) _) (fun h => by cases h),
      options_long call o hp.2.1 type hp.2.2.1 hp.2.2.2 rest used (by omega) hi]
    have := value_eq call name equals hp.1 ⟨o.flags, writeCount o.width, precisionText o.precision, 125 :: rest, used + stars o⟩ type rest
      (show used + stars o + (if name = [] then 1 else 0) ≤ call.count by omega)
    refine Eq.trans this ?_
    dsimp only
    rw [Nat.add_assoc]
    rfl

theorem piece_few (call : Call) (p : Piece) (hp : Good call.declared p) (rest : List Nat) (used : Nat) (hu : used ≤ call.count) (he : call.count < used + reads p) :
    ∃ c l, write p ++ rest = c :: l ∧ (c = 37 ∨ c = 123) ∧ special call c l used = none := by
  cases p with
  | text l => exact absurd he (by show ¬ call.count < used + 0; omega)
  | percent => exact absurd he (by show ¬ call.count < used + 0; omega)
  | brace word => exact absurd he (by show ¬ call.count < used + 0; omega)
  | conversion o len c => exact ⟨37, _, rfl, Or.inl rfl, conversion_few call o hp.1 len hp.2.1 c (List.mem_cons_of_mem _ hp.2.2) rest used hu he⟩
  | infer o =>
    refine ⟨37, _, rfl, Or.inl rfl, ?_⟩
    have := conversion_few call o hp [] List.mem_cons_self 63 List.mem_cons_self rest used hu he
    rw [List.append_nil] at this
    exact this
  | short name equals =>
    have e : write (.short name equals) ++ rest = 123 :: (name ++ writeEquals equals ++ 125 :: rest) := by
      show 123 :: (name ++ writeEquals equals ++ [125]) ++ rest = _
      simp
    refine ⟨123, _, e, Or.inr rfl, ?_⟩
    rw [special_brace, brace_name call name hp.1 equals hp.2.2 _ (letter_stop 125 (by decide) rest) (fun h => by cases h), options_short]
    exact value_few call name equals _ _ rest hu he
  | long name equals o type =>
    have e : write (.long name equals o type) ++ rest = 123 :: (name ++ writeEquals equals ++ 58 :: (writeOptions o ++ (type ++ 125 :: rest))) := by
      show 123 :: (name ++ writeEquals equals ++ [58] ++ writeOptions o ++ type ++ [125]) ++ rest = _
      simp
    have he : call.count < used + (stars o + if name = [] then 1 else 0) := he
    refine ⟨123, _, e, Or.inr rfl, ?_⟩
    rw [special_brace, brace_name call name hp.1.1 equals hp.1.2.2 _ (letter_stop 58 (by decide) _) (fun h => by cases h)]
    cases hf : options call (58 :: (writeOptions o ++ (type ++ 125 :: rest))) used with
    | none => rfl
    | some f =>
      obtain ⟨rfl, hle⟩ := options_some call o hp.2.1 type hp.2.2.1 hp.2.2.2 rest used hu f hf
      dsimp only
      exact value_few call name equals _ _ rest hle (by dsimp only; omega)

/-- The condition of the loop. -/
abbrev plain (c : Nat) : Bool := c != 37 && c != 123

theorem scan_text (call : Call) (n : Nat) (t rest : List Nat) (ht : ∀ c ∈ t, c ≠ 37 ∧ c ≠ 123) (used : Nat) :
    scan call (n + 1) (t ++ rest) used = (scan call (n + 1) rest used).map (fun r => (bytes t ++ r.1, r.2)) := by
  have hd : (t ++ rest).dropWhile plain = rest.dropWhile plain ∧ (t ++ rest).takeWhile plain = t ++ rest.takeWhile plain := by
    induction t with
    | nil => exact ⟨rfl, rfl⟩
    | cons c t ih =>
      have hc : plain c = true := by
        have := ht c List.mem_cons_self
        unfold plain
        rw [Bool.and_eq_true, bne_iff_ne, bne_iff_ne]
        exact this
      obtain ⟨h1, h2⟩ := ih (fun x hx => ht x (List.mem_cons_of_mem _ hx))
      rw [List.cons_append, List.dropWhile_cons, List.takeWhile_cons, if_pos hc, if_pos hc, h1, h2]
      exact ⟨rfl, rfl⟩
  rw [scan, scan]
  rw [hd.1, hd.2]
  cases rest.dropWhile plain with
  | nil =>
    unfold bytes
    rw [List.map_append]
    rfl
  | cons c l =>
    dsimp only
    cases special call c l used with
    | none => rfl
    | some s =>
      obtain ⟨a, r, u⟩ := s
      dsimp only
      cases scan call n r u with
      | none => rfl
      | some r =>
        unfold bytes
        dsimp only
        rw [List.map_append, List.append_assoc]
        rfl

theorem scan_special (call : Call) (n : Nat) (c : Nat) (hc : c = 37 ∨ c = 123) (l : List Nat) (used : Nat) :
    scan call (n + 1) (c :: l) used =
      match special call c l used with
      | none => none
      | some (atoms, rest, used) => (scan call n rest used).map (fun r => (atoms ++ r.1, r.2)) := by
  have hp : ¬ plain c = true := by
    rcases hc with rfl | rfl <;> decide
  have h1 : (c :: l).dropWhile plain = c :: l := by rw [List.dropWhile_cons, if_neg hp]
  have h2 : (c :: l).takeWhile plain = [] := by rw [List.takeWhile_cons, if_neg hp]
  rw [scan]
  rw [h1, h2]
  dsimp only
  cases special call c l used with
  | none => rfl
  | some s =>
    obtain ⟨a, r, u⟩ := s
    dsimp only
    cases scan call n r u with
    | none => rfl
    | some r => rfl

theorem scan_eq (call : Call) : ∀ (ps : List Piece) (n used : Nat), ps.length < n → Format call.declared ps → used + readsAll ps ≤ call.count →
    (∀ i ∈ starredAll used ps, call.integer i = true) → scan call n (ps.flatMap write) used = some (becomesAll used ps, used + readsAll ps)
  | [], n, used, hn, _, _, _ => by
    obtain ⟨m, rfl⟩ : ∃ m, n = m + 1 := ⟨n - 1, by have : 0 < n := hn; omega⟩
    rfl
  | p :: ps, n, used, hn, hf, he, hi => by
    have hn : ps.length + 1 < n := hn
    obtain ⟨m, rfl⟩ : ∃ m, n = m + 1 := ⟨n - 1, by omega⟩
    have hr : readsAll (p :: ps) = reads p + readsAll ps := by
      unfold readsAll
      rw [List.map_cons, List.sum_cons]
    rw [hr] at he
    have hi1 : ∀ i ∈ starred used p, call.integer i = true := fun i h => hi i (List.mem_append_left _ h)
    have hi2 : ∀ i ∈ starredAll (used + reads p) ps, call.integer i = true := fun i h => hi i (List.mem_append_right _ h)
    rw [List.flatMap_cons, hr, ← Nat.add_assoc]
    by_cases ht : ∃ l, p = .text l
    · obtain ⟨l, rfl⟩ := ht
      rw [show write (.text l) = l from rfl, scan_text call m l _ hf.1 used, scan_eq call ps (m + 1) used (by omega) hf.2.2 (by have : reads (.text l) = 0 := rfl; omega) hi2]
      rfl
    · obtain ⟨c, l, e, hc, hs⟩ := piece_eq call p hf.1 (fun l h => ht ⟨l, h⟩) (ps.flatMap write) hf.2.1 used (by omega) hi1
      rw [e, scan_special call m c hc, hs]
      dsimp only
      rw [scan_eq call ps m (used + reads p) (by omega) hf.2.2 (by omega) hi2]
      rfl

theorem scan_few (call : Call) : ∀ (ps : List Piece) (n used : Nat), Format call.declared ps → used ≤ call.count → call.count < used + readsAll ps →
    (∀ i, call.integer i = true) → scan call n (ps.flatMap write) used = none
  | [], n, used, _, hu, he, _ => absurd he (by show ¬ call.count < used + 0; omega)
  | p :: ps, 0, used, _, _, _, _ => rfl
  | p :: ps, m + 1, used, hf, hu, he, hi => by
    have hr : readsAll (p :: ps) = reads p + readsAll ps := by
      unfold readsAll
      rw [List.map_cons, List.sum_cons]
    rw [hr] at he
    rw [List.flatMap_cons]
    by_cases ht : ∃ l, p = .text l
    · obtain ⟨l, rfl⟩ := ht
      rw [show write (.text l) = l from rfl, scan_text call m l _ hf.1 used, scan_few call ps (m + 1) used hf.2.2 hu (by have : reads (.text l) = 0 := rfl; omega) hi]
      rfl
    · by_cases h : call.count < used + reads p
      · obtain ⟨c, l, e, hc, hs⟩ := piece_few call p hf.1 (ps.flatMap write) used hu h
        rw [e, scan_special call m c hc, hs]
      · obtain ⟨c, l, e, hc, hs⟩ := piece_eq call p hf.1 (fun l h => ht ⟨l, h⟩) (ps.flatMap write) hf.2.1 used (by omega) (fun i _ => hi i)
        rw [e, scan_special call m c hc, hs]
        dsimp only
        rw [scan_few call ps m (used + reads p) hf.2.2 (by omega) (by omega) hi]
        rfl

theorem write_pos (p : Piece) (ht : ∀ l, p ≠ .text l) : 0 < (write p).length := by
  cases p with
  | text l => exact absurd rfl (ht l)
  | percent => exact Nat.succ_pos _
  | conversion o l c => exact Nat.succ_pos _
  | infer o => exact Nat.succ_pos _
  | brace w => exact Nat.succ_pos _
  | short n e => exact Nat.succ_pos _
  | long n e o t => exact Nat.succ_pos _

/-- Without empty texts. -/
theorem length_le : ∀ (ps : List Piece), Piece.text [] ∉ ps → ps.length ≤ (ps.flatMap write).length
  | [], _ => Nat.le_refl _
  | p :: ps, h => by
    have h1 := length_le ps (fun hx => h (List.mem_cons_of_mem _ hx))
    have h2 : 0 < (write p).length := by
      by_cases ht : ∃ l, p = .text l
      · obtain ⟨l, rfl⟩ := ht
        cases l with
        | nil => exact absurd List.mem_cons_self h
        | cons c l => exact Nat.succ_pos _
      · exact write_pos p (fun l hl => ht ⟨l, hl⟩)
    rw [List.flatMap_cons, List.length_append]
    show ps.length + 1 ≤ _
    omega

/-- **C93 (partial)**: a format string is read piece by piece: text, `%%`, conversions and braces that are text are kept as they are, the others are replaced; every piece reads its arguments in order.
Missing: braces as text that are followed by a part of a specifier, see `C93_star_wrong`, and `{` with options but without `:`. -/
theorem C93_format_partial (call : Call) (ps : List Piece) (h : Format call.declared ps) (hne : Piece.text [] ∉ ps) (he : readsAll ps ≤ call.count)
    (hi : ∀ i ∈ starredAll 0 ps, call.integer i = true) : format call (ps.flatMap write) = some (becomesAll 0 ps, readsAll ps) := by
  have := scan_eq call ps ((ps.flatMap write).length + 1) 0 (by have := length_le ps hne; omega) h (by omega) hi
  rw [Nat.zero_add] at this
  exact this

/-- A piece of a format string for `printf`, or text. -/
def Classic : Piece → Prop
  | .text _ | .percent | .conversion _ _ _ | .brace _ => True
  | _ => False

theorem classic_eq : ∀ (ps : List Piece) (i : Nat), (∀ p ∈ ps, Classic p) → becomesAll i ps = bytes (ps.flatMap write)
  | [], _, _ => rfl
  | p :: ps, i, h => by
    have hp := h p List.mem_cons_self
    have e : becomes i p = bytes (write p) := by
      cases p with
      | text l => rfl
      | percent => rfl
      | conversion o l c => rfl
      | brace w => rfl
      | infer o => exact hp.elim
      | short n e => exact hp.elim
      | long n e o t => exact hp.elim
    show becomes i p ++ becomesAll (i + reads p) ps = _
    rw [e, classic_eq ps _ (fun q hq => h q (List.mem_cons_of_mem _ hq)), List.flatMap_cons]
    unfold bytes
    rw [List.map_append]

/-- **C93 (partial)**: a format string for `printf` is not changed, and as many arguments are read as `printf` reads. Missing as above. -/
theorem C93_printf_partial (call : Call) (ps : List Piece) (h : Format call.declared ps) (hne : Piece.text [] ∉ ps) (hc : ∀ p ∈ ps, Classic p) (he : readsAll ps ≤ call.count)
    (hi : ∀ i ∈ starredAll 0 ps, call.integer i = true) : format call (ps.flatMap write) = some (bytes (ps.flatMap write), readsAll ps) := by
  rw [C93_format_partial call ps h hne he hi, classic_eq ps 0 hc]

/-- **C93 (partial)**: too few arguments are reported. Missing as above. -/
theorem C93_few_partial (call : Call) (ps : List Piece) (h : Format call.declared ps) (he : call.count < readsAll ps) (hi : ∀ i, call.integer i = true) :
    format call (ps.flatMap write) = none := scan_few call ps _ 0 h (Nat.zero_le _) (by omega) hi

/-- **C93**: text without `%` and `{` is kept for every call. -/
theorem C93_text (call : Call) (l : List Nat) (h : ∀ c ∈ l, c ≠ 37 ∧ c ≠ 123) : format call l = some (bytes l, 0) := by
  have := scan_text call l.length l [] h 0
  rw [List.append_nil] at this
  unfold format
  rw [this]
  show some (bytes l ++ bytes [], 0) = _
  rw [show bytes [] = [] from rfl, List.append_nil]

/-- **C93 is wrong of the code**: `{*` without `}` is text, but an argument is read for the `*`: without arguments there is an error, with an integer it is lost. -/
theorem C93_star_wrong (l : List Nat) (hl : 125 ∉ l ∧ 37 ∉ l ∧ 123 ∉ l ∧ 46 ∉ l) (call : Call) :
    (call.count = 0 → format call (123 :: 42 :: l) = none) ∧
    (0 < call.count → call.integer 0 = true → format call (123 :: 42 :: l) = some (bytes (123 :: 42 :: l), 1)) := by
  have hb : ∀ n, scan call (n + 1) (123 :: 42 :: l) 0 = match brace call (42 :: l) 0 with
      | none => none
      | some (atoms, rest, used) => (scan call n rest used).map (fun r => (atoms ++ r.1, r.2)) := by
    intro n
    rw [scan_special call n 123 (Or.inr rfl), special_brace]
  constructor
  · intro h0
    have hf : fields call (42 :: l) 0 = none := by
      show (match (if 0 = call.count then none else if call.integer 0 then some ([42], l, 0 + 1) else none : Option (List Nat × List Nat × Nat)) with
        | none => none
        | some w => _) = _
      rw [if_pos h0.symm]
    have ho : options call (42 :: l) 0 = none := by
      show (match fields call (42 :: l) 0 with
        | none => none
        | some f => some ({ f with rest := f.rest.dropWhile isLetter }, f.rest.takeWhile isLetter)) = _
      rw [hf]
    have hbr : brace call (42 :: l) 0 = none := by
      show (match options call (42 :: l) 0 with
        | none => none
        | some (f, type) => _) = _
      rw [ho]
    unfold format
    rw [hb, hbr]
  · intro h0 h1
    have hp : precision call l 1 = some ([], l, 1) := by
      unfold precision
      split
      · exact absurd List.mem_cons_self hl.2.2.2
      · rfl
    have hf : fields call (42 :: l) 0 = some ⟨[], [42], [], l, 1⟩ := by
      show (match (if 0 = call.count then none else if call.integer 0 then some ([42], l, 0 + 1) else none : Option (List Nat × List Nat × Nat)) with
        | none => none
        | some w =>
          match precision call w.2.1 w.2.2 with
          | none => none
          | some p => some (Fields.mk [] w.1 p.1 p.2.1 p.2.2)) = _
      rw [if_neg (by omega), if_pos h1]
      dsimp only
      rw [hp]
    have ho : options call (42 :: l) 0 = some (⟨[], [42], [], l.dropWhile isLetter, 1⟩, l.takeWhile isLetter) := by
      show (match fields call (42 :: l) 0 with
        | none => none
        | some f => some ({ f with rest := f.rest.dropWhile isLetter }, f.rest.takeWhile isLetter)) = _
      rw [hf]
    have hsub : ∀ c ∈ l.dropWhile isLetter, c ∈ l := fun c hc => (List.dropWhile_sublist isLetter).subset hc
    have hbr : brace call (42 :: l) 0 = some (bytes (123 :: 42 :: l.takeWhile isLetter), l.dropWhile isLetter, 1) := by
      show (match options call (42 :: l) 0 with
        | none => none
        | some (f, type) =>
          match f.rest with
          | 125 :: rest => value call [] false f type rest
          | rest =>
            if f.flags.any (fun c => c != 32) then none
            else some (bytes (123 :: (42 :: l).take ((42 :: l).length - rest.length)), rest, f.used)) = _
      rw [ho]
      dsimp only
      split
      · rename_i r hx
        exact absurd (hsub 125 (by rw [hx]; exact List.mem_cons_self)) hl.1
      · rw [if_neg (by decide)]
        have : 42 :: l = (42 :: l.takeWhile isLetter) ++ l.dropWhile isLetter := by
          rw [List.cons_append, List.takeWhile_append_dropWhile]
        have ht := take_sub (42 :: l.takeWhile isLetter) (l.dropWhile isLetter)
        rw [← this] at ht
        rw [ht]
    unfold format
    rw [hb, hbr]
    dsimp only
    have := scan_text call (l.length + 1) (l.dropWhile isLetter) [] (fun c hc => ⟨(fun e => hl.2.1 (e ▸ hsub c hc)), (fun e => hl.2.2.1 (e ▸ hsub c hc))⟩) 1
    rw [List.append_nil] at this
    rw [show (123 :: 42 :: l).length = l.length + 1 + 1 from rfl, this]
    show some (bytes (123 :: 42 :: l.takeWhile isLetter) ++ (bytes (l.dropWhile isLetter) ++ bytes []), 1) = _
    have hm : bytes (123 :: 42 :: l.takeWhile isLetter) ++ (bytes (l.dropWhile isLetter) ++ bytes []) = bytes (123 :: 42 :: l) := by
      unfold bytes
      rw [List.map_nil, List.append_nil, ← List.map_append, List.cons_append, List.cons_append, List.takeWhile_append_dropWhile]
    rw [hm]

/-- `{*a`. -/
example : format ⟨0, (fun _ => true), (fun _ => false)⟩ [123, 42, 97] = none := (C93_star_wrong [97] (by decide) ⟨0, (fun _ => true), (fun _ => false)⟩).1 rfl

/-- `x = %-*.3ld{ %% {:#x} {n=}`. -/
def sample : List Piece :=
  [.text [120, 32, 61, 32], .conversion ⟨[45], .star, some (.digits [51])⟩ [108] 100, .brace [], .text [32], .percent, .text [32], .long [] false ⟨[35], .digits [], none⟩ [120], .text [32],
    .short [110] true]

def sampleCall : Call := ⟨3, (fun i => i == 0), (fun n => n == [110])⟩

example : readsAll sample = 3 ∧ starredAll 0 sample = [0] ∧ Piece.text [] ∉ sample ∧
    format sampleCall (sample.flatMap write) =
      some (bytes [120, 32, 61, 32, 37, 45, 42, 46, 51, 108, 100, 123, 32, 37, 37, 32] ++ [.infer (.argument 2) [35] [] [] [120]] ++ bytes [32] ++ bytes [110, 32, 61, 32] ++
        [.infer (.variable_ [110]) [] [] [] []], 3) ∧
    format { sampleCall with count := 2 } (sample.flatMap write) = none := by
  refine ⟨by decide, by decide, ?_, by decide +kernel, by decide +kernel⟩
  simp [sample]

example : Format sampleCall.declared sample := by
  refine ⟨by intro c hc; revert hc; revert c; decide, (fun w h => by cases h), ?_⟩
  refine ⟨⟨⟨by intro c hc; rw [List.mem_singleton.1 hc]; exact Or.inr (Or.inl rfl), (fun l h => by cases h), (fun l h => by
    cases h
    intro c hc
    rw [List.mem_singleton.1 hc]
    exact ⟨by decide, by decide⟩)⟩, by decide, by decide⟩, (fun w h => by cases h), ?_⟩
  refine ⟨(fun c hc => nomatch hc), (fun w _ => ?_), ?_⟩
  · intro c hc
    have hc : some 32 = some c := hc
    rw [← Option.some.inj hc]
    unfold Letter Digit
    omega
  refine ⟨by intro c hc; revert hc; revert c; decide, (fun w h => by cases h), ?_⟩
  refine ⟨trivial, (fun w h => by cases h), ?_⟩
  refine ⟨by intro c hc; revert hc; revert c; decide, (fun w h => by cases h), ?_⟩
  refine ⟨⟨⟨(fun c hc => nomatch hc), (fun h => absurd rfl h), (fun _ => rfl)⟩, ⟨by intro c hc; rw [List.mem_singleton.1 hc]; exact Or.inr (Or.inr (Or.inr (Or.inl rfl))), (fun l h => by
    cases h
    exact ⟨(fun c hc => nomatch hc), by decide⟩), (fun l h => by cases h)⟩, by intro c hc; rw [List.mem_singleton.1 hc]; exact Or.inl ⟨by decide, by decide⟩, by
      intro c hc
      have hc : some 120 = some c := hc
      rw [← Option.some.inj hc]
      unfold Digit
      omega⟩, (fun w h => by cases h), ?_⟩
  refine ⟨by intro c hc; revert hc; revert c; decide, (fun w h => by cases h), ?_⟩
  refine ⟨⟨by intro c hc; rw [List.mem_singleton.1 hc]; exact Or.inl ⟨by decide, by decide⟩, (fun _ => rfl), (fun h => by cases h)⟩, (fun w h => by cases h), trivial⟩

end Verif.Props.Format
