import Verif.Props.StringLit

/-!
# C03: the value of string literals
-/
namespace Verif.Props.StringLit
open Verif.StringLit Verif.Spec.StringLit Verif.Spec.Utf

/-! ### UTF-8 -/

theorem lead2 : ∀ x < 32, (192 + x) &&& 128 = 128 ∧ ones (192 + x) 7 = 1 ∧ (192 + x) &&& 63 = x := by decide
theorem lead3 : ∀ x < 16, (224 + x) &&& 128 = 128 ∧ ones (224 + x) 7 = 2 ∧ (224 + x) &&& 31 = x := by decide
theorem lead4 : ∀ x < 8, (240 + x) &&& 128 = 128 ∧ ones (240 + x) 7 = 3 ∧ (240 + x) &&& 15 = x := by decide
theorem cont1 : ∀ x < 64, (128 + x) &&& 192 = 128 ∧ (128 + x) &&& 63 = x := by decide
theorem ascii : ∀ x < 128, x &&& 128 ≠ 128 := by decide

theorem or_low {a b k : Nat} (h : b < 2 ^ k) : 2 ^ k * a ||| b = 2 ^ k * a + b :=
  (Nat.two_pow_add_eq_or_of_lt h a).symm

theorem utf8_cons (c : Nat) : ∃ b bs, utf8 c = b :: bs := by
  unfold utf8
  split
  · exact ⟨_, _, rfl⟩
  · split
    · exact ⟨_, _, rfl⟩
    · split <;> exact ⟨_, _, rfl⟩

/-- Reading a code point gives back what UTF-8 encodes. -/
theorem readCodepoint_utf8 (c : Nat) (hc : c < 0x110000) (s : List Nat) (b : Nat) (bs : List Nat) (hb : utf8 c = b :: bs) :
    readCodepoint b (bs ++ s) = some ⟨c, s, false⟩ := by
  unfold utf8 at hb
  split at hb
  · rename_i h
    simp only [List.cons.injEq] at hb
    obtain ⟨rfl, rfl⟩ := hb
    rw [readCodepoint, if_pos (ascii _ h)]
    rfl
  · split at hb
    · rename_i h
      simp only [List.cons.injEq] at hb
      obtain ⟨rfl, rfl⟩ := hb
      obtain ⟨h1, h2, h3⟩ := lead2 (c / 64) (by omega)
      obtain ⟨c1, c2⟩ := cont1 (c % 64) (by omega)
      rw [readCodepoint, if_neg (by simpa using h1)]
      dsimp only
      rw [h2, if_neg (by simp), if_neg (by omega)]
      simp only [List.cons_append, List.nil_append, continuation]
      rw [if_neg (by simpa using c1), show (2 ^ (8 - (1 + 1)) - 1 : Nat) = 63 from rfl, h3, c2]
      dsimp only [continuation]
      rw [Nat.mod_eq_of_lt (b := 2 ^ 32) (by omega), Nat.mod_eq_of_lt (b := 2 ^ 32) (by omega), show 6 * 1 = 6 from rfl, show 6 * 0 = 0 from rfl,
        Nat.pow_zero, Nat.one_mul, or_low (by omega)]
      simp only [Option.some.injEq, Esc.mk.injEq, and_true, true_and]
      omega
    · split at hb
      · rename_i h
        simp only [List.cons.injEq] at hb
        obtain ⟨rfl, rfl⟩ := hb
        obtain ⟨h1, h2, h3⟩ := lead3 (c / 4096) (by omega)
        obtain ⟨c1, c2⟩ := cont1 (c / 64 % 64) (by omega)
        obtain ⟨c3, c4⟩ := cont1 (c % 64) (by omega)
        rw [readCodepoint, if_neg (by simpa using h1)]
        dsimp only
        rw [h2, if_neg (by simp), if_neg (by omega)]
        simp only [List.cons_append, List.nil_append, continuation]
        rw [if_neg (by simpa using c1), if_neg (by simpa using c3), show (2 ^ (8 - (2 + 1)) - 1 : Nat) = 31 from rfl, h3, c2, c4]
        dsimp only [continuation]
        have e : 2 ^ (6 * 2) * (c / 4096) ||| 2 ^ (6 * 1) * (c / 64 % 64) = 2 ^ 6 * (c / 64) := by
          rw [show 6 * 2 = 12 from rfl, show 6 * 1 = 6 from rfl, or_low (by omega)]
          omega
        rw [Nat.mod_eq_of_lt (b := 2 ^ 32) (by omega), Nat.mod_eq_of_lt (b := 2 ^ 32) (by omega), Nat.mod_eq_of_lt (b := 2 ^ 32) (by omega), e,
          show 6 * 0 = 0 from rfl, Nat.pow_zero, Nat.one_mul, or_low (by omega)]
        simp only [Option.some.injEq, Esc.mk.injEq, and_true, true_and]
        omega
      · rename_i h
        simp only [List.cons.injEq] at hb
        obtain ⟨rfl, rfl⟩ := hb
        obtain ⟨h1, h2, h3⟩ := lead4 (c / 262144) (by omega)
        obtain ⟨c5, c6⟩ := cont1 (c / 4096 % 64) (by omega)
        obtain ⟨c1, c2⟩ := cont1 (c / 64 % 64) (by omega)
        obtain ⟨c3, c4⟩ := cont1 (c % 64) (by omega)
        rw [readCodepoint, if_neg (by simpa using h1)]
        dsimp only
        rw [h2, if_neg (by simp), if_neg (by omega)]
        simp only [List.cons_append, List.nil_append, continuation]
        rw [if_neg (by simpa using c5), if_neg (by simpa using c1), if_neg (by simpa using c3),
          show (2 ^ (8 - (3 + 1)) - 1 : Nat) = 15 from rfl, h3, c2, c4, c6]
        dsimp only [continuation]
        have e0 : 2 ^ (6 * 3) * (c / 262144) ||| 2 ^ (6 * 2) * (c / 4096 % 64) = 2 ^ 12 * (c / 4096) := by
          rw [show 6 * 2 = 12 from rfl, show 6 * 3 = 18 from rfl, or_low (by omega)]
          omega
        have e : 2 ^ 12 * (c / 4096) ||| 2 ^ (6 * 1) * (c / 64 % 64) = 2 ^ 6 * (c / 64) := by
          rw [show 6 * 1 = 6 from rfl, or_low (by omega)]
          omega
        rw [Nat.mod_eq_of_lt (b := 2 ^ 32) (by omega), Nat.mod_eq_of_lt (b := 2 ^ 32) (by omega), Nat.mod_eq_of_lt (b := 2 ^ 32) (by omega),
          Nat.mod_eq_of_lt (b := 2 ^ 32) (by omega), e0, e, show 6 * 0 = 0 from rfl, Nat.pow_zero, Nat.one_mul, or_low (by omega)]
        simp only [Option.some.injEq, Esc.mk.injEq, and_true, true_and]
        omega

theorem or192 : ∀ x < 32, 192 ||| x = 192 + x := by decide
theorem or224 : ∀ x < 16, 224 ||| x = 224 + x := by decide
theorem or240 : ∀ x < 8, 240 ||| x = 240 + x := by decide
theorem or128 : ∀ x < 64, 128 ||| x = 128 + x := by decide

theorem shift_and (c k : Nat) : 128 ||| (c >>> k &&& 63) = 128 + c / 2 ^ k % 64 := by
  have h : c >>> k &&& 63 = c / 2 ^ k % 64 := by
    rw [Nat.shiftRight_eq_div_pow]
    exact Nat.and_two_pow_sub_one_eq_mod (c / 2 ^ k) 6
  rw [h, or128 _ (Nat.mod_lt _ (by omega))]

theorem log2_range {c a b : Nat} (h1 : 2 ^ a ≤ c) (h2 : c < 2 ^ b) : a ≤ Nat.log2 c ∧ Nat.log2 c < b := by
  have hc : c ≠ 0 := by
    have := Nat.two_pow_pos a
    omega
  exact ⟨(Nat.le_log2 hc).2 h1, (Nat.log2_lt hc).2 h2⟩

/-- The encoder of `\u` and `\U` is UTF-8. -/
theorem encodeUtf8_eq (c : Nat) (hc : c < 0x110000) : encodeUtf8 c = some (utf8 c) := by
  unfold encodeUtf8 utf8
  by_cases h0 : c < 128
  · rw [if_pos h0, if_pos h0]
  · rw [if_neg h0, if_neg h0]
    dsimp only
    by_cases h1 : c < 0x800
    · have hl := log2_range (c := c) (a := 7) (b := 11) (by omega) (by omega)
      have hn : trailingBytes (Nat.log2 c + 1) = 1 := by unfold trailingBytes; split <;> omega
      have e : c >>> 6 = c / 64 := Nat.shiftRight_eq_div_pow c 6
      rw [hn, if_neg (by omega), if_pos h1]
      simp only [List.range_succ, List.range_zero, List.nil_append, List.map_cons, List.map_nil, shift_and]
      rw [show ((2 ^ (1 + 1) - 1) <<< (8 - (1 + 1)) % 256 : Nat) = 192 from rfl, show 6 * 1 = 6 from rfl, e,
        or192 _ (by omega), Nat.mod_eq_of_lt (by omega)]
      simp only [Nat.sub_self, Nat.sub_zero, Nat.mul_zero, Nat.pow_zero, Nat.div_one]
    · rw [if_neg h1]
      by_cases h2 : c < 0x10000
      · have hl := log2_range (c := c) (a := 11) (b := 16) (by omega) (by omega)
        have hn : trailingBytes (Nat.log2 c + 1) = 2 := by unfold trailingBytes; split <;> omega
        have e : c >>> 12 = c / 4096 := Nat.shiftRight_eq_div_pow c 12
        rw [hn, if_neg (by omega), if_pos h2]
        simp only [List.range_succ, List.range_zero, List.nil_append, List.map_cons, List.map_nil, shift_and,
          List.cons_append]
        rw [show ((2 ^ (2 + 1) - 1) <<< (8 - (2 + 1)) % 256 : Nat) = 224 from rfl, show 6 * 2 = 12 from rfl, e,
          or224 _ (by omega), Nat.mod_eq_of_lt (by omega)]
        simp only [show 6 * (2 - 1 - 0) = 6 from rfl, show 6 * (2 - 1 - 1) = 0 from rfl, Nat.pow_zero, Nat.div_one]
      · have hl := log2_range (c := c) (a := 16) (b := 21) (by omega) (by omega)
        have hn : trailingBytes (Nat.log2 c + 1) = 3 := by unfold trailingBytes; split <;> omega
        have e : c >>> 18 = c / 262144 := Nat.shiftRight_eq_div_pow c 18
        rw [hn, if_neg (by omega), if_neg h2]
        simp only [List.range_succ, List.range_zero, List.nil_append, List.map_cons, List.map_nil, shift_and,
          List.cons_append]
        rw [show ((2 ^ (3 + 1) - 1) <<< (8 - (3 + 1)) % 256 : Nat) = 240 from rfl, show 6 * 3 = 18 from rfl, e,
          or240 _ (by omega), Nat.mod_eq_of_lt (by omega)]
        simp only [show 6 * (3 - 1 - 0) = 12 from rfl, show 6 * (3 - 1 - 1) = 6 from rfl, show 6 * (3 - 1 - 2) = 0 from rfl,
          Nat.pow_zero, Nat.div_one]

/-! ### Numbers -/

theorem octal_digits (k : Nat) (ds rest : List Nat) (v : Nat) (hd : ∀ c ∈ ds, OctalDigit c) (hk : ds.length ≤ k)
    (hr : ds.length = k ∨ ∀ c, rest.head? = some c → ¬ OctalDigit c) :
    octal k v (ds ++ rest) = (ds.foldl (fun v c => 8 * v + (c - 48)) v, rest) := by
  induction ds generalizing k v with
  | nil =>
    cases k with
    | zero => rfl
    | succ k =>
      cases rest with
      | nil => rfl
      | cons c rest =>
        rcases hr with hr | hr
        · simp at hr
        · rw [List.nil_append, octal, if_neg (show ¬ (48 ≤ c ∧ c ≤ 55) from hr c rfl)]
          rfl
  | cons d ds ih =>
    cases k with
    | zero => simp at hk
    | succ k =>
      rw [List.cons_append, octal, if_pos (show 48 ≤ d ∧ d ≤ 55 from hd d List.mem_cons_self),
        ih k _ (fun c hc => hd c (List.mem_cons_of_mem _ hc)) (by simpa using hk) (by simpa using hr)]
      rfl

theorem parseHex_cons (v : Nat) (o : Bool) (c : Nat) (s : List Nat) (hc : HexDigit c) :
    parseHex v o (c :: s) = parseHex ((v * 16 % 2 ^ 64 + hexDigitValue c) % 2 ^ 64) (o || 2 ^ 60 ≤ v) s := by
  simp only [HexDigit, show '0'.toNat = 48 from rfl, show '9'.toNat = 57 from rfl, show 'a'.toNat = 97 from rfl,
    show 'f'.toNat = 102 from rfl, show 'A'.toNat = 65 from rfl, show 'F'.toNat = 70 from rfl] at hc
  simp only [hexDigitValue, show '0'.toNat = 48 from rfl, show '9'.toNat = 57 from rfl, show 'a'.toNat = 97 from rfl,
    show 'A'.toNat = 65 from rfl, show 'F'.toNat = 70 from rfl]
  rw [parseHex]
  by_cases h1 : 57 ≥ c ∧ c ≥ 48
  · rw [if_pos h1, if_pos h1.1]
  · rw [if_neg h1]
    by_cases h2 : 102 ≥ c ∧ c ≥ 97
    · rw [if_pos h2, if_neg (by omega), if_neg (by omega)]
    · rw [if_neg h2, if_pos (by omega), if_neg (by omega), if_pos (by omega)]

theorem parseHex_stop (v : Nat) (o : Bool) (s : List Nat) (h : ∀ c, s.head? = some c → ¬ HexDigit c) :
    parseHex v o s = (v, o, s) := by
  cases s with
  | nil => rfl
  | cons c s =>
    have hc := h c rfl
    simp only [HexDigit, show '0'.toNat = 48 from rfl, show '9'.toNat = 57 from rfl, show 'a'.toNat = 97 from rfl,
      show 'f'.toNat = 102 from rfl, show 'A'.toNat = 65 from rfl, show 'F'.toNat = 70 from rfl] at hc
    rw [parseHex, if_neg (by omega), if_neg (by omega), if_neg (by omega)]

theorem hexDigitValue_lt (c : Nat) (hc : HexDigit c) : hexDigitValue c < 16 := by
  simp only [HexDigit, show '0'.toNat = 48 from rfl, show '9'.toNat = 57 from rfl, show 'a'.toNat = 97 from rfl,
    show 'f'.toNat = 102 from rfl, show 'A'.toNat = 65 from rfl, show 'F'.toNat = 70 from rfl] at hc
  simp only [hexDigitValue, show '0'.toNat = 48 from rfl, show '9'.toNat = 57 from rfl, show 'a'.toNat = 97 from rfl,
    show 'A'.toNat = 65 from rfl, show 'F'.toNat = 70 from rfl]
  split
  · omega
  · split <;> omega

def hexFrom (v : Nat) (ds : List Nat) : Nat := ds.foldl (fun v c => 16 * v + hexDigitValue c) v

theorem hexFrom_ge (v : Nat) (ds : List Nat) : v ≤ hexFrom v ds := by
  induction ds generalizing v with
  | nil => exact Nat.le_refl _
  | cons d ds ih =>
    have := ih (16 * v + hexDigitValue d)
    simp only [hexFrom, List.foldl_cons] at this ⊢
    omega

/-- The digits are read; either the value is exact, or it does not fit 64 bits and the overflow is noticed. -/
theorem parseHex_digits (v : Nat) (hv : v < 2 ^ 64) (ds rest : List Nat) (hd : ∀ c ∈ ds, HexDigit c)
    (hr : ∀ c, rest.head? = some c → ¬ HexDigit c) :
    (parseHex v false (ds ++ rest) = (hexFrom v ds, false, rest)) ∨
    (2 ^ 64 ≤ hexFrom v ds ∧ ∃ w, parseHex v false (ds ++ rest) = (w, true, rest)) := by
  have hov : ∀ (w : Nat) (ds : List Nat), (∀ c ∈ ds, HexDigit c) → ∃ w', parseHex w true (ds ++ rest) = (w', true, rest) := by
    intro w ds
    induction ds generalizing w with
    | nil => intro _; exact ⟨w, parseHex_stop w true rest hr⟩
    | cons d ds ih =>
      intro hd
      rw [List.cons_append, parseHex_cons _ _ _ _ (hd d List.mem_cons_self), Bool.true_or]
      exact ih _ (fun c hc => hd c (List.mem_cons_of_mem _ hc))
  induction ds generalizing v with
  | nil => exact Or.inl (parseHex_stop v false rest hr)
  | cons d ds ih =>
    have h1 := hexDigitValue_lt d (hd d List.mem_cons_self)
    rw [List.cons_append, parseHex_cons _ _ _ _ (hd d List.mem_cons_self), Bool.false_or]
    by_cases h : v < 2 ^ 60
    · have e1 : decide (2 ^ 60 ≤ v) = false := decide_eq_false (by omega)
      have e2 : (v * 16 % 2 ^ 64 + hexDigitValue d) % 2 ^ 64 = 16 * v + hexDigitValue d := by
        rw [Nat.mod_eq_of_lt (a := v * 16) (by omega), Nat.mod_eq_of_lt (by omega)]
        omega
      rw [e1, e2]
      exact ih (16 * v + hexDigitValue d) (by omega) (fun c hc => hd c (List.mem_cons_of_mem _ hc))
    · have e1 : decide (2 ^ 60 ≤ v) = true := decide_eq_true (by omega)
      rw [e1]
      refine Or.inr ⟨?_, hov _ ds (fun c hc => hd c (List.mem_cons_of_mem _ hc))⟩
      have := hexFrom_ge (16 * v + hexDigitValue d) ds
      simp only [hexFrom, List.foldl_cons] at this ⊢
      omega

theorem isHex_iff (c : Nat) : isHex c = true ↔ HexDigit c := by
  simp only [isHex, HexDigit, Bool.or_eq_true, Bool.and_eq_true, decide_eq_true_eq,
    show '0'.toNat = 48 from rfl, show '9'.toNat = 57 from rfl, show 'a'.toNat = 97 from rfl,
    show 'f'.toNat = 102 from rfl, show 'A'.toNat = 65 from rfl, show 'F'.toNat = 70 from rfl]
  omega

theorem hex_eq (max : Nat) (hm : max < 2 ^ 32) (ds rest : List Nat) (h1 : 1 ≤ ds.length) (hd : ∀ c ∈ ds, HexDigit c)
    (hr : ∀ c, rest.head? = some c → ¬ HexDigit c) :
    (hex max (ds ++ rest)).rest = rest ∧ (hex max (ds ++ rest)).error = decide (¬ hexValue ds ≤ max) ∧
    (hexValue ds ≤ max → (hex max (ds ++ rest)).value = hexValue ds) := by
  have hh : isHex ((ds ++ rest).headD 0) = true := by
    cases ds with
    | nil => simp at h1
    | cons d ds => exact (isHex_iff d).2 (hd d List.mem_cons_self)
  have hne : ¬ isHex ((ds ++ rest).headD 0) = false := by rw [hh]; simp
  rw [hex, if_neg hne]
  dsimp only
  have hv : hexValue ds = hexFrom 0 ds := rfl
  rcases parseHex_digits 0 (by omega) ds rest hd hr with h | ⟨h, w, hw⟩
  · rw [h, hv]
    refine ⟨rfl, ?_, fun hle => Nat.mod_eq_of_lt (by omega)⟩
    dsimp only
    rw [Bool.false_or]
    exact decide_eq_decide.2 (by omega)
  · rw [hw, hv]
    refine ⟨rfl, ?_, fun hle => by omega⟩
    dsimp only
    rw [Bool.true_or, decide_eq_true (by omega)]

theorem hexFrom_lt (v n : Nat) (ds : List Nat) (hv : v < 16 ^ n) (hd : ∀ c ∈ ds, HexDigit c) :
    hexFrom v ds < 16 ^ (n + ds.length) := by
  induction ds generalizing v n with
  | nil => exact hv
  | cons d ds ih =>
    have h1 := hexDigitValue_lt d (hd d List.mem_cons_self)
    have := ih (16 * v + hexDigitValue d) (n + 1) (by rw [Nat.pow_succ]; omega) (fun c hc => hd c (List.mem_cons_of_mem _ hc))
    rw [List.length_cons, show n + (ds.length + 1) = n + 1 + ds.length by omega]
    exact this

theorem ucn_eq (n : Nat) (hn : n ≤ 8) (ds rest : List Nat) (h1 : ds.length = n) (hd : ∀ c ∈ ds, HexDigit c) :
    ucn n (ds ++ rest) = ⟨hexValue ds, rest, false⟩ := by
  rw [ucn, if_neg (by rw [List.length_append]; omega)]
  have e1 : (ds ++ rest).take n = ds ++ [] := by rw [← h1, List.take_left, List.append_nil]
  have e2 : (ds ++ rest).drop n = rest := by rw [← h1, List.drop_left]
  have hlt : hexFrom 0 ds < 16 ^ 8 := by
    have := hexFrom_lt 0 0 ds (by omega) hd
    refine Nat.lt_of_lt_of_le this (Nat.pow_le_pow_right (by omega) (by omega))
  rw [e1, e2]
  rcases parseHex_digits 0 (by omega) ds [] hd (by simp) with h | ⟨h, _⟩
  · rw [h]
    simp only [ne_eq, not_true_eq_false, decide_false, Esc.mk.injEq, and_true]
    exact Nat.mod_eq_of_lt (by omega)
  · omega

/-! ### UTF-16 -/

theorem orHigh : ∀ x < 1024, 0xD800 ||| x = 0xD800 + x := by decide +kernel
theorem orLow : ∀ x < 1024, x / 256 % 2 = 1 → 0xDD00 ||| x = 0xDC00 + x := by decide +kernel

/-- The code points that `encodeUtf16` gets right. -/
def Good16 (c : Nat) : Prop := c < 0x10000 ∨ c / 256 % 2 = 1

theorem encodeUtf16_eq (c : Nat) (hs : Scalar c) (hg : Good16 c) : encodeUtf16 c = some (utf16 c, false) := by
  have he : decide (0xD800 ≤ c ∧ c < 0xE000) = false := by
    apply decide_eq_false
    rcases hs with h | h <;> omega
  unfold encodeUtf16 utf16
  dsimp only
  rw [he]
  by_cases h : c < 0x10000
  · rw [if_pos h, if_pos h]
  · have hs' : c ≤ 0x10FFFF := by rcases hs with h | h <;> omega
    rw [if_neg h, if_neg h, if_pos (by omega)]
    have e1 : (c - 0x10000) >>> 10 &&& 1023 = (c - 0x10000) / 1024 := by
      rw [Nat.shiftRight_eq_div_pow]
      have := Nat.and_two_pow_sub_one_eq_mod ((c - 0x10000) / 2 ^ 10) 10
      rw [show (2 ^ 10 - 1 : Nat) = 1023 from rfl] at this
      rw [this]
      omega
    have e2 : (c - 0x10000) &&& 1023 = (c - 0x10000) % 1024 := Nat.and_two_pow_sub_one_eq_mod (c - 0x10000) 10
    rw [e1, e2, orHigh _ (by omega), orLow _ (by omega) (by rcases hg with h | h <;> omega)]

/-! ### Elements -/

theorem Elem.render_cons (e : Elem) (h : e.Wf) : ∃ b bs, e.render = b :: bs := by
  cases e with
  | char c => exact utf8_cons c
  | splice b => cases b <;> exact ⟨_, _, rfl⟩
  | simple => exact ⟨_, _, rfl⟩
  | octal => exact ⟨_, _, rfl⟩
  | hex => exact ⟨_, _, rfl⟩
  | ucn4 => exact ⟨_, _, rfl⟩
  | ucn8 => exact ⟨_, _, rfl⟩

theorem render_head (es : List Elem) (h : ∀ e ∈ es, e.Wf) (c : Nat) (hc : (render es).head? = some c) :
    c = 92 ∨ nextChar es = some c := by
  cases es with
  | nil => simp [render] at hc
  | cons e es =>
    obtain ⟨b, bs, hb⟩ := Elem.render_cons e (h e List.mem_cons_self)
    have hc' : b = c := by
      rw [render, List.flatMap_cons, hb] at hc
      simpa using hc
    subst hc'
    cases e with
    | splice x =>
      left
      cases x
      · simp only [Elem.render, List.cons.injEq] at hb
        exact hb.1.symm
      · simp only [Elem.render, List.cons.injEq] at hb
        exact hb.1.symm
    | _ => right; simp only [nextChar, hb, List.head?_cons]

theorem needsEncoding_cons (c : Nat) (s : List Nat) : needsEncoding (c :: s) = (c ||| 32 == 117) := rfl

theorem simple_escape (max : Nat) (c : Char) (v : Nat) (h : (c, v) ∈ simpleEscapes) (rest : List Nat) :
    escape max (c.toNat :: rest) = some ⟨v, rest, false⟩ ∧ eatNewline (c.toNat :: rest) = none ∧
      needsEncoding (c.toNat :: rest) = false ∧ v < 256 := by
  simp only [simpleEscapes, List.mem_cons, Prod.mk.injEq, List.not_mem_nil, or_false] at h
  rcases h with h | h | h | h | h | h | h | h | h | h | h | h <;> obtain ⟨rfl, rfl⟩ := h <;>
    exact ⟨rfl, rfl, (needsEncoding_cons _ _).trans (by decide), by decide⟩

theorem octal_escape (max : Nat) (d : Nat) (s : List Nat) (h : OctalDigit d) :
    escape max (d :: s) = some ⟨(octal 2 (d - 48) s).1, (octal 2 (d - 48) s).2, max < (octal 2 (d - 48) s).1⟩ ∧
      eatNewline (d :: s) = none ∧ needsEncoding (d :: s) = false := by
  have : d = 48 ∨ d = 49 ∨ d = 50 ∨ d = 51 ∨ d = 52 ∨ d = 53 ∨ d = 54 ∨ d = 55 := by
    obtain ⟨h1, h2⟩ := h
    simp only [show '0'.toNat = 48 from rfl, show '7'.toNat = 55 from rfl] at h1 h2
    omega
  rcases this with rfl | rfl | rfl | rfl | rfl | rfl | rfl | rfl <;>
    exact ⟨rfl, rfl, (needsEncoding_cons _ _).trans (by decide)⟩

theorem max_lt (k : Enc) : k.max < 2 ^ 32 := by cases k <;> decide

/-- The largest value each branch passes. -/
theorem max_eq : Enc.utf8.max = 0xff ∧ Enc.utf16.max = 0xffff ∧ Enc.utf32.max = 0xffffffff := ⟨rfl, rfl, rfl⟩

theorem stepEscape_plain (k : Enc) (s rest : List Nat) (v : Nat) (err : Bool) (hv : err = false → v ≤ k.max)
    (h1 : escape k.max s = some ⟨v, rest, err⟩) (h2 : eatNewline s = none) (h3 : needsEncoding s = false) :
    ∃ us, stepEscape k s = .out us rest err ∧ (err = false → us = [v]) := by
  have h3' : ¬ needsEncoding s = true := by rw [h3]; simp
  unfold stepEscape
  rw [h2]
  dsimp only
  cases k with
  | utf8 =>
    rw [max_eq.1] at h1
    dsimp only
    rw [h1]
    dsimp only
    rw [if_neg h3']
    exact ⟨_, rfl, fun he => by
      have := hv he
      rw [max_eq.1] at this
      rw [Nat.mod_eq_of_lt (by omega)]⟩
  | utf16 =>
    rw [max_eq.2.1] at h1
    dsimp only
    rw [h1]
    dsimp only
    rw [if_neg h3']
    exact ⟨_, rfl, fun he => by
      have := hv he
      rw [max_eq.2.1] at this
      rw [Nat.mod_eq_of_lt (by omega)]⟩
  | utf32 =>
    rw [max_eq.2.2] at h1
    dsimp only
    rw [h1]
    exact ⟨_, rfl, fun _ => rfl⟩

theorem stepEscape_ucn (k : Enc) (s rest : List Nat) (v : Nat) (hs : Scalar v) (hg : k = .utf16 → Good16 v)
    (h1 : ∀ max, escape max s = some ⟨v, rest, false⟩) (h2 : eatNewline s = none) (h3 : needsEncoding s = true) :
    stepEscape k s = .out (encode k v) rest false := by
  have hs' : v < 0x110000 := by rcases hs with h | h <;> omega
  unfold stepEscape
  rw [h2]
  dsimp only
  cases k with
  | utf8 =>
    dsimp only
    rw [h1]
    dsimp only
    rw [if_pos h3, encodeUtf8_eq _ hs']
    rfl
  | utf16 =>
    dsimp only
    rw [h1]
    dsimp only
    rw [if_pos h3, encodeUtf16_eq _ hs (hg rfl)]
    rfl
  | utf32 =>
    dsimp only
    rw [h1]
    rfl

/-- The element's escapes and splices take one iteration. -/
theorem step_elem (k : Enc) (e : Elem) (es : List Elem) (hw : e.Wf) (hws : ∀ e ∈ es, e.Wf) (hl : Longest (e :: es))
    (hg : k = .utf16 → ∀ c, e.codepoint? = some c → Good16 c) (hc : k = .utf8 → ∀ c, e ≠ .char c) :
    ∃ us, step k (e.render ++ render es) = .out us (render es) (decide (¬ e.Fits k)) ∧ (e.Fits k → us = e.meaning k) := by
  have fits : ∀ (h : e.Fits k), decide (¬ e.Fits k) = false := fun h => by simpa using h
  have hstep : ∀ s, step k (92 :: s) = stepEscape k s := fun s => rfl
  cases e with
  | char c =>
    obtain ⟨h1, h2⟩ := hw
    have h1' : c < 0x110000 := by rcases h1 with h | h <;> omega
    obtain ⟨b, bs, hb⟩ := utf8_cons c
    have hr := readCodepoint_utf8 c h1' (render es) b bs hb
    have hb92 : b ≠ 92 := by
      unfold utf8 at hb
      split at hb
      · simp only [List.cons.injEq] at hb
        rw [← hb.1]
        exact h2
      · split at hb
        · simp only [List.cons.injEq] at hb; omega
        · split at hb
          · simp only [List.cons.injEq] at hb; omega
          · simp only [List.cons.injEq] at hb; omega
    rw [fits trivial, Elem.render, hb, List.cons_append, step, if_pos hb92]
    unfold stepChar
    cases k with
    | utf8 => exact absurd rfl (hc rfl c)
    | utf16 =>
      dsimp only
      rw [hr]
      dsimp only
      rw [encodeUtf16_eq c h1 (hg rfl c rfl)]
      exact ⟨_, rfl, fun _ => rfl⟩
    | utf32 =>
      dsimp only
      rw [hr]
      exact ⟨_, rfl, fun _ => rfl⟩
  | simple c v =>
    obtain ⟨h1, h2, h3, h4⟩ := simple_escape k.max c v hw (render es)
    rw [fits trivial]
    obtain ⟨us, h5, h6⟩ := stepEscape_plain k (c.toNat :: render es) (render es) v false (fun _ => by
      cases k <;> simp [Enc.max, Enc.size] <;> omega) h1 h2 h3
    exact ⟨us, h5, fun _ => h6 rfl⟩
  | octal ds =>
    obtain ⟨h1, h2, h3⟩ := hw
    cases ds with
    | nil => simp at h1
    | cons d ds =>
      have hr : (d :: ds).length = 3 ∨ ∀ c, (render es).head? = some c → ¬ OctalDigit c := by
        rcases hl.1 with h | h
        · exact Or.inl h
        · right
          intro c hc
          rcases render_head es hws c hc with rfl | hn
          · decide
          · exact h c hn
      obtain ⟨e1, e2, e3⟩ := octal_escape k.max d (ds ++ render es) (h3 d List.mem_cons_self)
      have hoct := octal_digits 2 ds (render es) (d - 48) (fun c hc => h3 c (List.mem_cons_of_mem _ hc))
        (by simpa using h2) (by simpa using hr)
      have hval : octalValue (d :: ds) = ds.foldl (fun v c => 8 * v + (c - 48)) (d - 48) := by
        simp only [octalValue, List.foldl_cons, Nat.mul_zero, Nat.zero_add]
        rfl
      rw [hoct, ← hval] at e1
      have hdec : decide (k.max < octalValue (d :: ds)) = decide (¬ (Elem.octal (d :: ds)).Fits k) :=
        decide_eq_decide.2 (by simp only [Elem.Fits]; omega)
      rw [hdec] at e1
      obtain ⟨us, h5, h6⟩ := stepEscape_plain k (d :: ds ++ render es) (render es) _ _ (fun he => by
        simpa [Elem.Fits] using he) e1 e2 e3
      exact ⟨us, h5, fun hf => h6 (fits hf)⟩
  | hex ds =>
    obtain ⟨h1, h2⟩ := hw
    have hr : ∀ c, (render es).head? = some c → ¬ HexDigit c := by
      intro c hc
      rcases render_head es hws c hc with rfl | hn
      · decide
      · exact hl.1 c hn
    obtain ⟨e1, e2, e3⟩ := hex_eq k.max (max_lt k) ds (render es) h1 h2 hr
    have hesc : escape k.max (120 :: (ds ++ render es)) = some (hex k.max (ds ++ render es)) := rfl
    generalize hx : hex k.max (ds ++ render es) = x at e1 e2 e3 hesc
    obtain ⟨xv, xr, xe⟩ := x
    dsimp only at e1 e2 e3
    subst e1 e2
    obtain ⟨us, h5, h6⟩ := stepEscape_plain k (120 :: (ds ++ render es)) (render es) xv _ (fun he => by
      have he : hexValue ds ≤ k.max := by simpa using he
      rw [e3 he]
      exact he) hesc rfl ((needsEncoding_cons _ _).trans (by decide))
    exact ⟨us, h5, fun hf => by rw [h6 (fits hf), e3 hf]; rfl⟩
  | ucn4 ds =>
    obtain ⟨h1, h2, h3⟩ := hw
    rw [fits trivial]
    exact ⟨_, stepEscape_ucn k (117 :: (ds ++ render es)) (render es) (hexValue ds) h3 (fun hk => hg hk _ rfl)
      (fun max => by
        show some (ucn 4 (ds ++ render es)) = _
        rw [ucn_eq 4 (by omega) ds _ h1 h2]) rfl ((needsEncoding_cons _ _).trans (by decide)), fun _ => rfl⟩
  | ucn8 ds =>
    obtain ⟨h1, h2, h3⟩ := hw
    rw [fits trivial]
    exact ⟨_, stepEscape_ucn k (85 :: (ds ++ render es)) (render es) (hexValue ds) h3 (fun hk => hg hk _ rfl)
      (fun max => by
        show some (ucn 8 (ds ++ render es)) = _
        rw [ucn_eq 8 (by omega) ds _ h1 h2]) rfl ((needsEncoding_cons _ _).trans (by decide)), fun _ => rfl⟩
  | splice b =>
    rw [fits trivial]
    cases b <;> exact ⟨[], rfl, fun _ => rfl⟩

/-! ### Strings -/

theorem run_step (k : Enc) (size fuel : Nat) (out : List Nat) (err : Bool) (c : Nat) (s us rest : List Nat) (e : Bool)
    (h : step k (c :: s) = .out us rest e) (hs : out.length + us.length ≤ size) :
    run k size (fuel + 1) out err (c :: s) = run k size fuel (out ++ us) (err || e) rest := by
  rw [run]
  · rw [h]
    dsimp only
    rw [if_neg (by omega)]
  · simp

theorem run_bytes (size : Nat) (bs rest : List Nat) (hb : ∀ c ∈ bs, c ≠ 92) (fuel : Nat) (out : List Nat) (err : Bool)
    (hs : out.length + bs.length ≤ size) :
    run .utf8 size (fuel + bs.length) out err (bs ++ rest) = run .utf8 size fuel (out ++ bs) err rest := by
  induction bs generalizing fuel out with
  | nil => simp
  | cons b bs ih =>
    simp only [List.length_cons] at hs ⊢
    rw [← Nat.add_assoc, List.cons_append, run_step .utf8 size _ out err b (bs ++ rest) [b] (bs ++ rest) false
      (by rw [step, if_pos (hb b List.mem_cons_self)]; rfl) (by simp; omega),
      Bool.or_false, ih (fun c hc => hb c (List.mem_cons_of_mem _ hc)) _ _ (by simp; omega)]
    simp

theorem utf8_bytes (c : Nat) (hc : c < 0x110000) : ∀ b ∈ utf8 c, b < 256 ∧ (b = 92 → c = 92) := by
  unfold utf8
  split
  · intro b hb
    simp only [List.mem_singleton] at hb
    omega
  · split
    · intro b hb
      simp only [List.mem_cons, List.not_mem_nil, or_false] at hb
      omega
    · split
      · intro b hb
        simp only [List.mem_cons, List.not_mem_nil, or_false] at hb
        omega
      · intro b hb
        simp only [List.mem_cons, List.not_mem_nil, or_false] at hb
        omega

theorem Elem.render_lt (e : Elem) (h : e.Wf) (b : Nat) (bs : List Nat) (hb : e.render = b :: bs) : b < 256 := by
  cases e with
  | char c =>
    obtain ⟨h1, _⟩ := h
    exact (utf8_bytes c (by rcases h1 with h | h <;> omega) b (by
      simp only [Elem.render] at hb; rw [hb]; exact List.mem_cons_self)).1
  | splice x =>
    cases x
    · simp only [Elem.render, List.cons.injEq] at hb; rw [← hb.1]; decide
    · simp only [Elem.render, List.cons.injEq] at hb; rw [← hb.1]; decide
  | _ => simp only [Elem.render, List.cons.injEq] at hb; rw [← hb.1]; decide

/-- A string is converted to its meaning. -/
theorem run_render (k : Enc) (size : Nat) (es : List Elem) (hw : ∀ e ∈ es, e.Wf) (hl : Longest es)
    (hg : k = .utf16 → ∀ e ∈ es, ∀ c, e.codepoint? = some c → Good16 c) (fuel : Nat) (out : List Nat) (err : Bool)
    (hf : (render es).length ≤ fuel) (hs : out.length + (render es).length ≤ size) :
    ∃ us, run k size fuel out err (render es) = .ok (out ++ us) (err || decide (∃ e ∈ es, ¬ e.Fits k)) ∧
      us.length ≤ (render es).length ∧ ((∀ e ∈ es, e.Fits k) → us = meaning k es) := by
  induction es generalizing fuel out err with
  | nil => exact ⟨[], by simp [render, run], by simp, fun _ => rfl⟩
  | cons e es ih =>
    have hr : render (e :: es) = e.render ++ render es := List.flatMap_cons
    have hm : meaning k (e :: es) = e.meaning k ++ meaning k es := List.flatMap_cons
    rw [hr, List.length_append] at hf hs
    rw [hr, hm, List.length_append]
    have hdec : ∀ err : Bool, (err || decide (¬ e.Fits k) || decide (∃ e ∈ es, ¬ e.Fits k)) =
        (err || decide (∃ e' ∈ e :: es, ¬ e'.Fits k)) := by
      intro err
      rw [Bool.or_assoc]
      congr 1
      rw [← Bool.decide_or]
      exact decide_eq_decide.2 (by simp)
    have hws : ∀ e ∈ es, e.Wf := fun e he => hw e (List.mem_cons_of_mem _ he)
    have ih := ih hws hl.2 (fun hk e he => hg hk e (List.mem_cons_of_mem _ he))
    by_cases hc : k = .utf8 ∧ ∃ c, e = .char c
    · obtain ⟨rfl, c, rfl⟩ := hc
      obtain ⟨h1, h2⟩ := hw (.char c) List.mem_cons_self
      have hcl : c < 0x110000 := by rcases h1 with h | h <;> omega
      simp only [Elem.render] at hf hs ⊢
      have hne : ∀ b ∈ utf8 c, b ≠ 92 := fun b hb e => h2 ((utf8_bytes c hcl b hb).2 e)
      obtain ⟨us, e1, e2, e3⟩ := ih (fuel - (utf8 c).length) (out ++ utf8 c) err (by omega)
        (by rw [List.length_append]; omega)
      refine ⟨utf8 c ++ us, ?_, by rw [List.length_append]; omega, fun hfit => ?_⟩
      · have : fuel = fuel - (utf8 c).length + (utf8 c).length := by omega
        rw [this, run_bytes size (utf8 c) _ hne _ _ _ (by omega), e1, ← hdec err, List.append_assoc]
        simp [Elem.Fits]
      · rw [e3 (fun e he => hfit e (List.mem_cons_of_mem _ he))]
        rfl
    · obtain ⟨us, e1, e2⟩ := step_elem k e es (hw e List.mem_cons_self) hws hl
        (fun hk => hg hk e List.mem_cons_self) (fun hk c he => hc ⟨hk, c, he⟩)
      obtain ⟨b, bs, hb⟩ := Elem.render_cons e (hw e List.mem_cons_self)
      have hlt := Elem.render_lt e (hw e List.mem_cons_self) b bs hb
      rw [hb] at e1 hf hs ⊢
      rw [List.cons_append] at e1 ⊢
      have hcon := step_consumes k b hlt _ us _ _ e1
      rw [List.length_append] at hcon
      simp only [List.length_cons] at hf hs ⊢
      cases fuel with
      | zero => omega
      | succ fuel =>
        obtain ⟨us', f1, f2, f3⟩ := ih fuel (out ++ us) (err || decide (¬ e.Fits k)) (by omega)
          (by rw [List.length_append]; omega)
        refine ⟨us ++ us', ?_, by rw [List.length_append]; omega, fun hfit => ?_⟩
        · rw [run_step k size fuel out err b _ us _ _ e1 (by omega), f1, hdec, List.append_assoc]
        · rw [e2 (hfit e List.mem_cons_self), f3 (fun e he => hfit e (List.mem_cons_of_mem _ he))]

theorem runAll_render (k : Enc) (size : Nat) (lits : List (List Elem)) (hw : ∀ es ∈ lits, Wf es)
    (hg : k = .utf16 → ∀ es ∈ lits, ∀ e ∈ es, ∀ c, e.codepoint? = some c → Good16 c) (out : List Nat) (err : Bool)
    (hs : out.length + ((lits.map render).map List.length).sum ≤ size) :
    ∃ us, runAll k size out err (lits.map render) =
        .ok (out ++ us) (err || decide (∃ es ∈ lits, ∃ e ∈ es, ¬ e.Fits k)) ∧
      ((∀ es ∈ lits, ∀ e ∈ es, e.Fits k) → us = lits.flatMap (meaning k)) := by
  induction lits generalizing out err with
  | nil => exact ⟨[], by simp [runAll], fun _ => rfl⟩
  | cons es lits ih =>
    simp only [List.map_cons, List.sum_cons] at hs ⊢
    obtain ⟨us, e1, e2, e3⟩ := run_render k size es (hw es List.mem_cons_self).1 (hw es List.mem_cons_self).2
      (fun hk => hg hk es List.mem_cons_self) (render es).length out err (Nat.le_refl _) (by omega)
    obtain ⟨us', f1, f2⟩ := ih (fun es he => hw es (List.mem_cons_of_mem _ he))
      (fun hk es he => hg hk es (List.mem_cons_of_mem _ he)) (out ++ us) (err || decide (∃ e ∈ es, ¬ e.Fits k))
      (by rw [List.length_append]; omega)
    refine ⟨us ++ us', ?_, fun hfit => ?_⟩
    · rw [runAll, e1]
      dsimp only
      rw [f1, List.append_assoc, Bool.or_assoc, ← Bool.decide_or]
      congr 2
      exact decide_eq_decide.2 (by simp)
    · rw [e3 (hfit es List.mem_cons_self), f2 (fun es he => hfit es (List.mem_cons_of_mem _ he)), List.flatMap_cons]

/-- The element type of adjacent literals: the widest. -/
def joined (lits : List (Prefix × List Elem)) : Enc := (lits.map (·.1.enc)).foldl Enc.join .utf8

theorem composed_fold (lits : List (Prefix × List Elem)) (k : Enc) :
    (lits.map spell).foldl (fun k t => composed k (stripToken 34 t).1) (some k) =
      some ((lits.map (·.1.enc)).foldl Enc.join k) := by
  induction lits generalizing k with
  | nil => rfl
  | cons l lits ih =>
    have h : composed (some k) (some l.1.enc) = some (Enc.join k l.1.enc) := by
      cases k <;> cases l.1 <;> rfl
    simp only [List.map_cons, List.foldl_cons, spell]
    rw [show ('"'.toNat : Nat) = 34 from rfl, stripToken_spell, h]
    exact ih _

theorem literal_spell (lits : List (Prefix × List Elem)) (hne : lits ≠ []) :
    literal (lits.map spell) = some (joined lits, convert (joined lits) ((lits.map Prod.snd).map render)) := by
  cases lits with
  | nil => exact absurd rfl hne
  | cons l lits =>
    have hstrip : ∀ l : Prefix × List Elem, stripToken 34 (spell l) = (some l.1.enc, render l.2) := by
      intro l
      rw [spell, show ('"'.toNat : Nat) = 34 from rfl, stripToken_spell]
    have hk : ((List.map spell (l :: lits)).map (stripToken 34)).foldl (fun k p => composed k p.1) none =
        some (joined (l :: lits)) := by
      rw [List.foldl_map, List.map_cons, List.foldl_cons, hstrip]
      show List.foldl _ (some l.1.enc) _ = _
      rw [composed_fold]
      simp only [joined, List.map_cons, List.foldl_cons]
      congr 2
      cases l.1 <;> rfl
    unfold literal
    dsimp only
    rw [hk]
    simp only [List.map_map]
    congr 4
    funext l
    simp only [Function.comp, hstrip]

/-- C03, part: one or more adjacent string literals have the element type of the widest, an error is reported exactly if a
numeric escape does not fit it, and otherwise the elements are those of the literals, in order. Missing: in literals with
16-bit elements, code points from U+10000 on that are not of the form in `Good16`, see `C03_utf16_wrong`; and splices inside
escape sequences, see `C03_splice_wrong`. -/
theorem C03_value_partial (lits : List (Prefix × List Elem)) (hne : lits ≠ []) (hw : ∀ l ∈ lits, Wf l.2)
    (hg : joined lits = .utf16 → ∀ l ∈ lits, ∀ e ∈ l.2, ∀ c, e.codepoint? = some c → Good16 c) :
    ∃ units, literal (lits.map spell) =
        some (joined lits, .ok units (decide (∃ l ∈ lits, ∃ e ∈ l.2, ¬ e.Fits (joined lits)))) ∧
      ((∀ l ∈ lits, ∀ e ∈ l.2, e.Fits (joined lits)) → units = lits.flatMap (fun l => meaning (joined lits) l.2)) := by
  have mem : ∀ {P : List Elem → Prop}, (∀ l ∈ lits, P l.2) → ∀ es ∈ lits.map Prod.snd, P es := by
    intro P h es hes
    obtain ⟨l, hl, rfl⟩ := List.mem_map.1 hes
    exact h l hl
  rw [literal_spell lits hne]
  obtain ⟨us, h1, h2⟩ := runAll_render (joined lits) (((lits.map Prod.snd).map render).map List.length).sum
    (lits.map Prod.snd) (mem hw) (fun hk => mem (hg hk)) [] false (by simp)
  refine ⟨us, ?_, fun hf => ?_⟩
  · rw [convert, h1, List.nil_append, Bool.false_or]
    congr 3
    refine decide_eq_decide.2 ⟨?_, ?_⟩
    · rintro ⟨es, hes, h⟩
      obtain ⟨l, hl, rfl⟩ := List.mem_map.1 hes
      exact ⟨l, hl, h⟩
    · rintro ⟨l, hl, h⟩
      exact ⟨l.2, List.mem_map_of_mem hl, h⟩
  · rw [h2 (mem hf), List.flatMap_map]

/-- C03 for 8-bit elements, without exceptions: `"..."` and `u8"..."`. -/
theorem C03_utf8 (lits : List (Prefix × List Elem)) (hne : lits ≠ []) (hw : ∀ l ∈ lits, Wf l.2)
    (hk : joined lits = .utf8) (hf : ∀ l ∈ lits, ∀ e ∈ l.2, e.Fits .utf8) :
    literal (lits.map spell) = some (.utf8, .ok (lits.flatMap (fun l => meaning .utf8 l.2)) false) := by
  obtain ⟨us, h1, h2⟩ := C03_value_partial lits hne hw (fun h => by rw [hk] at h; cases h)
  rw [hk] at h1 h2
  rw [h1, h2 hf, decide_eq_false]
  rintro ⟨l, hl, e, he, h⟩
  exact h (hf l hl e he)

/-- C03 for 32-bit elements, without exceptions: `U"..."`. -/
theorem C03_utf32 (lits : List (Prefix × List Elem)) (hne : lits ≠ []) (hw : ∀ l ∈ lits, Wf l.2)
    (hk : joined lits = .utf32) (hf : ∀ l ∈ lits, ∀ e ∈ l.2, e.Fits .utf32) :
    literal (lits.map spell) = some (.utf32, .ok (lits.flatMap (fun l => meaning .utf32 l.2)) false) := by
  obtain ⟨us, h1, h2⟩ := C03_value_partial lits hne hw (fun h => by rw [hk] at h; cases h)
  rw [hk] at h1 h2
  rw [h1, h2 hf, decide_eq_false]
  rintro ⟨l, hl, e, he, h⟩
  exact h (hf l hl e he)

/-- `"é\x41\u20AC\<newline>" u8"\U0001F600\0"` meets the conditions. -/
def sample : List (Prefix × List Elem) :=
  [(.none, [.char 0xE9, .hex [52, 49], .ucn4 [50, 48, 65, 67], .splice false]),
   (.u8, [.ucn8 [48, 48, 48, 49, 70, 54, 48, 48], .octal [48]])]

example : (∀ l ∈ sample, Wf l.2) ∧ joined sample = .utf8 ∧ (∀ l ∈ sample, ∀ e ∈ l.2, e.Fits .utf8) ∧
    sample.flatMap (fun l => meaning .utf8 l.2) = [0xC3, 0xA9, 0x41, 0xE2, 0x82, 0xAC, 0xF0, 0x9F, 0x98, 0x80, 0] := by
  refine ⟨?_, rfl, by decide +kernel, by decide +kernel⟩
  simp [sample, Wf, Elem.Wf, Longest, nextChar, Scalar, hexValue, hexDigitValue, HexDigit, OctalDigit, Elem.render]

/-- C03 does not hold for 16-bit elements: `u"\U0001F600"` is not the surrogate pair D83D DE00. -/
theorem C03_utf16_wrong :
    Wf [.ucn8 [48, 48, 48, 49, 70, 54, 48, 48]] ∧
    literal [spell (.u, [.ucn8 [48, 48, 48, 49, 70, 54, 48, 48]])] = some (.utf16, .ok [0xD83D, 0xDF00] false) ∧
    meaning .utf16 [.ucn8 [48, 48, 48, 49, 70, 54, 48, 48]] = [0xD83D, 0xDE00] := by
  refine ⟨?_, by decide +kernel, by decide +kernel⟩
  simp [Wf, Elem.Wf, Longest, Scalar, hexValue, hexDigitValue, HexDigit]

/-- A splice inside of an escape sequence is not removed: `"\x4\<newline>1"` is `"\x41"` in C, but becomes two elements. -/
theorem C03_splice_wrong :
    literal [[34, 92, 120, 52, 92, 10, 49, 34]] = some (.utf8, .ok [4, 49] false) := by decide +kernel

/-- C04, finding: the incomplete `"\u123\\"`, which the tokenizer accepts, gives an error and then reads behind the string,
where an assertion fails. -/
theorem C04_past_end_after_error :
    literal [[34, 92, 117, 49, 50, 51, 92, 92, 34]] = some (.utf8, .pastEnd true) := by decide +kernel

end Verif.Props.StringLit
