import Verif.Spec.AsmBytes
import Verif.Model.AsmBytes

/-!
# C96: instructions without operands in inline assembly
-/
namespace Verif.Props.AsmBytes
open Verif.Model.AsmBytes Verif.Spec.AsmBytes

theorem digit_parse : ∀ (u v : Bool) (a b : Fin 16), (StringLit.parseHex 0 false [digit u a, digit v b]).1 = 16 * a.1 + b.1 := by decide +kernel

theorem digit_strip : ∀ (u v : Bool) (a b : Fin 16), strip [digit u a, digit v b] = [digit u a, digit v b] := by decide +kernel

theorem strip_written (w : Written) (t : Tok) (l : List Tok) (h : w.tokens = t :: l) : strip (spelling t) = [digit w.upperHigh w.high, digit w.upperLow w.low] ∧ t ≠ .close := by
  obtain ⟨base, uh, hi, ul, lo, c⟩ := w
  cases h
  refine ⟨?_, fun h => nomatch h⟩
  rcases base with _ | b
  · exact digit_strip uh ul hi lo
  · cases b <;> rfl

theorem grow_length (data : List Nat) (amount : Nat) (h : amount ≤ data.length) (h0 : 0 < data.length) : amount < (grow data amount).length := by
  unfold grow
  split
  · rw [List.length_append, List.length_take, List.length_replicate]
    omega
  · omega

theorem grow_take (data : List Nat) (amount : Nat) (h : amount ≤ data.length) : (grow data amount).take amount = data.take amount := by
  unfold grow
  split
  · rw [List.take_append_of_le_length (by rw [List.length_take]; omega), List.take_take, Nat.min_self]
  · rfl

theorem take_set (l : List Nat) (n v : Nat) (h : n < l.length) : (l.set n v).take (n + 1) = l.take n ++ [v] := by
  rw [List.take_add_one, List.take_set_of_le (Nat.le_refl n), List.getElem?_set_self h]
  rfl

/-- Nothing begins with a comma. -/
def NoComma : List Tok → Prop
  | .comma :: _ => False
  | _ => True

theorem eatComma_none (l : List Tok) (h : NoComma l) : eatComma l = l := by
  cases l with
  | nil => rfl
  | cons t l => cases t <;> first | rfl | exact h.elim

theorem bytes_noComma (l : List Written) (rest : List Tok) : NoComma (l.flatMap Written.tokens ++ .close :: rest) := by
  cases l with
  | nil => exact trivial
  | cons w l => exact trivial

/-- The loop reads the bytes that are written, whatever the size of the buffer. -/
theorem loop_bytes (l : List Written) (rest : List Tok) : ∀ (n : Nat) (data : List Nat) (amount : Nat), l.length < n → amount ≤ data.length → 0 < data.length →
    bytesLoop n (l.flatMap Written.tokens ++ .close :: rest) data amount = .value (data.take amount ++ l.map Written.value) rest := by
  induction l with
  | nil =>
    intro n data amount hn _ _
    cases n with
    | zero => exact absurd hn (Nat.lt_irrefl 0)
    | succ n =>
      show (if Tok.close = .close then Outcome.value (data.take amount) rest else _) = _
      rw [if_pos rfl, List.map_nil, List.append_nil]
  | cons w l ih =>
    intro n data amount hn ha h0
    cases n with
    | zero => exact absurd hn (Nat.not_lt_zero _)
    | succ n =>
      obtain ⟨t, c, ht⟩ : ∃ t c, w.tokens = t :: c := ⟨_, _, rfl⟩
      obtain ⟨h1, h2⟩ := strip_written w t c ht
      have hc : eatComma (c ++ (l.flatMap Written.tokens ++ .close :: rest)) = l.flatMap Written.tokens ++ .close :: rest := by
        obtain ⟨base, uh, hi, ul, lo, comma⟩ := w
        cases ht
        cases comma
        · exact eatComma_none _ (bytes_noComma l rest)
        · rfl
      have e : (w :: l).flatMap Written.tokens ++ .close :: rest = t :: (c ++ (l.flatMap Written.tokens ++ .close :: rest)) := by
        rw [List.flatMap_cons, ht, List.cons_append, List.cons_append, List.append_assoc]
      rw [e]
      show (if t = .close then _ else if (strip (spelling t)).length ≠ 2 then _ else
        bytesLoop n (eatComma (c ++ (l.flatMap Written.tokens ++ .close :: rest))) ((grow data amount).set amount ((StringLit.parseHex 0 false (strip (spelling t))).1 % 256)) (amount + 1)) = _
      rw [if_neg h2, h1, if_neg (show ¬ [digit w.upperHigh w.high, digit w.upperLow w.low].length ≠ 2 from fun h => h rfl), hc, digit_parse]
      have hv : (16 * w.high.1 + w.low.1) % 256 = w.value := by
        have a := w.high.2
        have b := w.low.2
        show _ = 16 * w.high.1 + w.low.1
        omega
      have hg := grow_length data amount ha h0
      rw [hv, ih n _ _ (by rw [List.length_cons] at hn; omega) (by rw [List.length_set]; exact hg) (by rw [List.length_set]; omega), take_set _ _ _ hg, grow_take _ _ ha, List.append_assoc]
      rfl

theorem tokens_length (l : List Written) : l.length ≤ (l.flatMap Written.tokens).length := by
  induction l with
  | nil => exact Nat.le_refl _
  | cons w l ih =>
    rw [List.flatMap_cons, List.length_append, List.length_cons]
    have : 1 ≤ w.tokens.length := by unfold Written.tokens; rw [List.length_cons]; omega
    omega

/-- `rep movsd`. -/
def RepMovsd : Item → Prop
  | .string (some _) e => e.1 = "movsd"
  | _ => False

/-- Something that begins with a mnemonic or ends the block. -/
def Starts : List Tok → Prop
  | .close :: _ => True
  | .text s :: _ => (lookup s).isSome = true
  | _ => False

theorem lookup_simple : ∀ e ∈ simple, ∃ m, lookup (ascii e.1) = some m ∧ m ≠ .repe ∧ m ≠ .movsd ∧ m ≠ .bytes ∧ emit ⟨m, false, []⟩ = e.2 := by
  intro e he
  have : ∀ e ∈ simple, (match lookup (ascii e.1) with | none => false | some m => decide (m ≠ .repe ∧ m ≠ .movsd ∧ m ≠ .bytes ∧ emit ⟨m, false, []⟩ = e.2)) = true := by decide +kernel
  have h := this e he
  cases hl : lookup (ascii e.1) with
  | none => rw [hl] at h; cases h
  | some m => rw [hl] at h; exact ⟨m, rfl, of_decide_eq_true h⟩

theorem lookup_string : ∀ e ∈ strings, e.1 ≠ "movsd" → ∃ m, lookup (ascii e.1) = some m ∧ m ≠ .repe ∧ m ≠ .movsd ∧ m ≠ .bytes
    ∧ (∀ r : Bool, emit ⟨m, r, []⟩ = (if r then [0xF3] else []) ++ (if e.2.2 = 2 then [0x66] else []) ++ (if e.2.2 = 8 then [0x48] else []) ++ [e.2.1]) := by
  intro e he hn
  have : ∀ e ∈ strings, e.1 ≠ "movsd" → (match lookup (ascii e.1) with | none => false | some m => decide (m ≠ .repe ∧ m ≠ .movsd ∧ m ≠ .bytes
    ∧ (∀ r : Bool, emit ⟨m, r, []⟩ = (if r then [0xF3] else []) ++ (if e.2.2 = 2 then [0x66] else []) ++ (if e.2.2 = 8 then [0x48] else []) ++ [e.2.1]))) = true := by decide +kernel
  have h := this e he hn
  cases hl : lookup (ascii e.1) with
  | none => rw [hl] at h; cases h
  | some m => rw [hl] at h; exact ⟨m, rfl, of_decide_eq_true h⟩

theorem lookup_movsd : lookup (ascii "movsd") = some .movsd := by decide +kernel
theorem lookup_bytes : lookup (ascii "bytes") = some .bytes := by decide +kernel
theorem lookup_rep : ∀ s ∈ ["rep", "repe"], lookup (ascii s) = some .repe := by decide +kernel

theorem instruction_plain (r : Bool) (s : List Nat) (m : Mnemonic) (rest : List Tok) (h : lookup s = some m) (h1 : m ≠ .repe) (h2 : m ≠ .movsd) (h3 : m ≠ .bytes) :
    instruction r (.text s :: rest) = .value ⟨m, r, []⟩ rest := by
  unfold instruction
  simp only [h]

theorem instruction_rep (r : Bool) (s : List Nat) (rest : List Tok) (h : lookup s = some .repe) : instruction r (.text s :: rest) = instruction true rest := by
  conv => lhs; unfold instruction
  simp only [h]

theorem instruction_movsd (r : Bool) (rest : List Tok) (hs : Starts rest) : instruction r (.text (ascii "movsd") :: rest) = .value ⟨.movsd, false, []⟩ rest := by
  unfold instruction
  simp only [lookup_movsd]
  cases rest with
  | nil => exact hs.elim
  | cons t l =>
    cases t with
    | close => rfl
    | text s =>
      have hs : (lookup s).isSome = true := hs
      show (if (lookup s).isSome then Outcome.value (⟨.movsd, false, []⟩ : Inst) (.text s :: l) else .unmodelled) = _
      rw [if_pos hs]
    | comma => exact hs.elim
    | open_ => exact hs.elim

theorem instruction_bytes (r : Bool) (l : List Written) (rest : List Tok) :
    instruction r (.text (ascii "bytes") :: .open_ :: (l.flatMap Written.tokens ++ .close :: rest)) = .value ⟨.bytes, false, l.map Written.value⟩ rest := by
  unfold instruction
  simp only [lookup_bytes]
  rw [loop_bytes l rest _ _ 0 (by have := tokens_length l; rw [List.length_append, List.length_cons]; omega) (Nat.zero_le _) (by rw [List.length_replicate]; decide)]
  rfl

theorem instruction_item (i : Item) (hk : i.Known) (hr : ¬ RepMovsd i) (rest : List Tok) (hs : Starts rest) :
    ∃ x, instruction false (i.tokens ++ rest) = .value x rest ∧ emit x = i.code := by
  cases i with
  | simple e =>
    obtain ⟨m, h, h1, h2, h3, h4⟩ := lookup_simple e hk
    exact ⟨_, instruction_plain false _ m rest h h1 h2 h3, h4⟩
  | string rep e =>
    cases rep with
    | none =>
      by_cases hm : e.1 = "movsd"
      · refine ⟨⟨.movsd, false, []⟩, ?_, ?_⟩
        · show instruction false (.text (ascii e.1) :: rest) = _
          rw [hm]
          exact instruction_movsd false rest hs
        · have : ∀ e ∈ strings, e.1 = "movsd" → emit ⟨.movsd, false, []⟩ = (Item.string none e).code := by decide +kernel
          exact this e hk.1 hm
      · obtain ⟨m, h, h1, h2, h3, h4⟩ := lookup_string e hk.1 hm
        exact ⟨_, instruction_plain false _ m rest h h1 h2 h3, h4 false⟩
    | some s =>
      obtain ⟨m, h, h1, h2, h3, h4⟩ := lookup_string e hk.1 hr
      refine ⟨⟨m, true, []⟩, ?_, h4 true⟩
      show instruction false (.text (ascii s) :: .text (ascii e.1) :: rest) = _
      rw [instruction_rep _ _ _ (lookup_rep s (hk.2 s rfl)), instruction_plain true _ m rest h h1 h2 h3]
  | bytes l =>
    refine ⟨⟨.bytes, false, l.map Written.value⟩, ?_, rfl⟩
    rw [show (Item.bytes l).tokens ++ rest = .text (ascii "bytes") :: .open_ :: (l.flatMap Written.tokens ++ .close :: rest) by simp [Item.tokens]]
    exact instruction_bytes false l rest

theorem item_starts (i : Item) (hk : i.Known) (rest : List Tok) : Starts (i.tokens ++ rest) := by
  cases i with
  | simple e =>
    obtain ⟨m, h, _⟩ := lookup_simple e hk
    show (lookup (ascii e.1)).isSome = true
    rw [h]; rfl
  | string rep e =>
    cases rep with
    | none =>
      have : ∀ e ∈ strings, (lookup (ascii e.1)).isSome = true := by decide +kernel
      exact this e hk.1
    | some s =>
      show (lookup (ascii s)).isSome = true
      rw [lookup_rep s (hk.2 s rfl)]; rfl
  | bytes l =>
    show (lookup (ascii "bytes")).isSome = true
    rw [lookup_bytes]; rfl

theorem items_start (l : List Item) (hk : ∀ i ∈ l, i.Known) (rest : List Tok) : Starts (l.flatMap Item.tokens ++ .close :: rest) := by
  cases l with
  | nil => exact trivial
  | cons i l =>
    rw [List.flatMap_cons, List.append_assoc]
    exact item_starts i (hk i (List.mem_cons_self ..)) _

theorem item_tokens (i : Item) : ∃ s l, i.tokens = .text s :: l := by
  cases i with
  | simple e => exact ⟨_, _, rfl⟩
  | string rep e => cases rep <;> exact ⟨_, _, rfl⟩
  | bytes l => exact ⟨_, _, rfl⟩

theorem block_items (rest : List Tok) (l : List Item) : ∀ n, l.length < n → (∀ i ∈ l, i.Known) → (∀ i ∈ l, ¬ RepMovsd i) →
    ∃ is, block n (l.flatMap Item.tokens ++ .close :: rest) = .value is rest ∧ is.flatMap emit = l.flatMap Item.code := by
  induction l with
  | nil =>
    intro n hn _ _
    cases n with
    | zero => exact absurd hn (Nat.lt_irrefl 0)
    | succ n => exact ⟨[], rfl, rfl⟩
  | cons i l ih =>
    intro n hn hk hr
    cases n with
    | zero => exact absurd hn (Nat.not_lt_zero _)
    | succ n =>
      obtain ⟨is, h1, h2⟩ := ih n (by rw [List.length_cons] at hn; omega) (fun j hj => hk j (List.mem_cons_of_mem _ hj)) (fun j hj => hr j (List.mem_cons_of_mem _ hj))
      obtain ⟨x, h3, h4⟩ := instruction_item i (hk i (List.mem_cons_self ..)) (hr i (List.mem_cons_self ..)) (l.flatMap Item.tokens ++ .close :: rest) (items_start l (fun j hj => hk j (List.mem_cons_of_mem _ hj)) rest)
      refine ⟨x :: is, ?_, ?_⟩
      · rw [List.flatMap_cons, List.append_assoc]
        obtain ⟨s, c, ht⟩ := item_tokens i
        rw [ht] at h3 ⊢
        rw [List.cons_append] at h3 ⊢
        unfold block
        simp only [h3, h1]
      · rw [List.flatMap_cons, List.flatMap_cons, h4, h2]

theorem items_length (l : List Item) : l.length ≤ (l.flatMap Item.tokens).length := by
  induction l with
  | nil => exact Nat.le_refl _
  | cons i l ih =>
    obtain ⟨s, c, ht⟩ := item_tokens i
    rw [List.flatMap_cons, List.length_append, List.length_cons, ht, List.length_cons]
    omega

/-- **C96, without `rep movsd`.** Every block of instructions without operands, with `rep` before those that move or store strings, and of `bytes` with any number of bytes in any spelling, becomes the bytes
that the manual says and the bytes that are written, in order. What is missing: `rep movsd`, see `C96_rep_wrong`. -/
theorem C96_block_partial (l : List Item) (rest : List Tok) (hk : ∀ i ∈ l, i.Known) (hr : ∀ i ∈ l, ¬ RepMovsd i) :
    assemble (l.flatMap Item.tokens ++ .close :: rest) = .value (l.flatMap Item.code) rest := by
  obtain ⟨is, h1, h2⟩ := block_items rest l ((l.flatMap Item.tokens ++ .close :: rest).length + 1) (by have := items_length l; rw [List.length_append, List.length_cons]; omega) hk hr
  unfold assemble
  rw [h1, ← h2]

/-- `movsd rep stosq bytes { 0F, 0xa2 cc } int3`. -/
def sample : List Item :=
  [.string none ("movsd", 0xA5, 4), .string (some "rep") ("stosq", 0xAB, 8), .bytes [⟨none, false, 0, true, 15, true⟩, ⟨some false, false, 10, false, 2, false⟩, ⟨none, false, 12, false, 12, false⟩], .simple ("int3", [0xCC])]

example : (∀ i ∈ sample, i.Known) ∧ ∀ i ∈ sample, ¬ RepMovsd i := by
  refine ⟨?_, ?_⟩
  · intro i hi
    rcases List.mem_cons.1 hi with rfl | hi
    · exact ⟨by decide, fun _ h => nomatch h⟩
    rcases List.mem_cons.1 hi with rfl | hi
    · exact ⟨by decide, fun _ h => by cases h; decide⟩
    rcases List.mem_cons.1 hi with rfl | hi
    · exact trivial
    rcases List.mem_cons.1 hi with rfl | hi
    · show _ ∈ simple; decide
    · cases hi
  · intro i hi
    rcases List.mem_cons.1 hi with rfl | hi
    · exact id
    rcases List.mem_cons.1 hi with rfl | hi
    · show ¬ "stosq" = "movsd"; decide
    rcases List.mem_cons.1 hi with rfl | hi
    · exact id
    rcases List.mem_cons.1 hi with rfl | hi
    · exact id
    · cases hi

example : assemble (sample.flatMap Item.tokens ++ [.close]) = .value [0xA5, 0xF3, 0x48, 0xAB, 0x0F, 0xA2, 0xCC, 0xCC] [] := by decide +kernel

/-- **C96, errors.** In `bytes`, a word whose length, without `0x`, is not two is reported, wherever it is. -/
theorem C96_length (l : List Written) (s : List Nat) (rest : List Tok) (hs : (strip s).length ≠ 2) :
    assemble (.text (ascii "bytes") :: .open_ :: (l.flatMap Written.tokens ++ .text s :: rest)) = .error := by
  have loop : ∀ (l : List Written) (n : Nat) (data : List Nat) (amount : Nat), amount ≤ data.length → 0 < data.length →
      bytesLoop n (l.flatMap Written.tokens ++ .text s :: rest) data amount = .error := by
    intro l
    induction l with
    | nil =>
      intro n data amount _ _
      cases n with
      | zero => rfl
      | succ n =>
        show (if Tok.text s = .close then _ else if (strip s).length ≠ 2 then Outcome.error else _) = _
        rw [if_neg (fun h => nomatch h), if_pos hs]
    | cons w l ih =>
      intro n data amount ha h0
      cases n with
      | zero => rfl
      | succ n =>
        obtain ⟨t, c, ht⟩ : ∃ t c, w.tokens = t :: c := ⟨_, _, rfl⟩
        obtain ⟨h1, h2⟩ := strip_written w t c ht
        have hc : eatComma (c ++ (l.flatMap Written.tokens ++ .text s :: rest)) = l.flatMap Written.tokens ++ .text s :: rest := by
          obtain ⟨base, uh, hi, ul, lo, comma⟩ := w
          cases ht
          cases comma
          · refine eatComma_none _ ?_
            cases l <;> exact trivial
          · rfl
        have e : (w :: l).flatMap Written.tokens ++ .text s :: rest = t :: (c ++ (l.flatMap Written.tokens ++ .text s :: rest)) := by
          rw [List.flatMap_cons, ht, List.cons_append, List.cons_append, List.append_assoc]
        rw [e]
        show (if t = .close then _ else if (strip (spelling t)).length ≠ 2 then _ else
          bytesLoop n (eatComma (c ++ (l.flatMap Written.tokens ++ .text s :: rest))) ((grow data amount).set amount ((StringLit.parseHex 0 false (strip (spelling t))).1 % 256)) (amount + 1)) = _
        rw [if_neg h2, h1, if_neg (show ¬ [digit w.upperHigh w.high, digit w.upperLow w.low].length ≠ 2 from fun h => h rfl), hc]
        have hg := grow_length data amount ha h0
        exact ih n _ _ (by rw [List.length_set]; exact hg) (by rw [List.length_set]; omega)
  have hi : instruction false (.text (ascii "bytes") :: .open_ :: (l.flatMap Written.tokens ++ .text s :: rest)) = .error := by
    unfold instruction
    simp only [lookup_bytes]
    rw [loop l _ _ 0 (Nat.zero_le _) (by rw [List.length_replicate]; decide)]
  unfold assemble
  rw [show block ((Tok.text (ascii "bytes") :: .open_ :: (l.flatMap Written.tokens ++ .text s :: rest)).length + 1) (.text (ascii "bytes") :: .open_ :: (l.flatMap Written.tokens ++ .text s :: rest)) = .error by
    unfold block
    simp only [hi]]

example : assemble [.text (ascii "bytes"), .open_, .text (ascii "0xabc"), .close] = .error := C96_length [] (ascii "0xabc") [.close] (by decide +kernel)

/-- **C96, finding: `rep movsd` moves once.** The prefix before `movsd` is lost in every block: the code is that of `movsd` alone. -/
theorem C96_rep_wrong (r : String) (hr : r ∈ ["rep", "repe"]) (rest : List Tok) :
    assemble (.text (ascii r) :: .text (ascii "movsd") :: .close :: rest) = .value [0xA5] rest
      ∧ (Item.string (some r) ("movsd", 0xA5, 4)).code = [0xF3, 0xA5] := by
  refine ⟨?_, rfl⟩
  have hi : instruction false (.text (ascii r) :: .text (ascii "movsd") :: .close :: rest) = .value ⟨.movsd, false, []⟩ (.close :: rest) := by
    rw [instruction_rep _ _ _ (lookup_rep r hr)]
    exact instruction_movsd true (.close :: rest) trivial
  have hb : block ((Tok.text (ascii r) :: .text (ascii "movsd") :: .close :: rest).length + 1) (.text (ascii r) :: .text (ascii "movsd") :: .close :: rest) = .value [⟨.movsd, false, []⟩] rest := by
    rw [show (Tok.text (ascii r) :: .text (ascii "movsd") :: .close :: rest).length + 1 = rest.length + 2 + 1 + 1 from rfl]
    unfold block
    simp only [hi]
    rfl
  unfold assemble
  rw [hb]
  rfl

/-- **C96, finding: digits are not checked.** Words of two characters that are not hexadecimal numbers are accepted: `bytes { zz 4g }` is `00 04`. -/
theorem C96_digits_wrong : assemble [.text (ascii "bytes"), .open_, .text (ascii "zz"), .text (ascii "4g"), .close, .close] = .value [0x00, 0x04] [] := by decide +kernel

end Verif.Props.AsmBytes
