import Verif.Lemmas.IntLiteral

/-!
# C01, C02: integer literals

`Spec.IntLiteral.value b body` is the mathematical value of the digit string
`body` (separators `'` ignored). All theorems are about every body of any
length.
-/
namespace Verif.Props.IntLiteral
open Verif.IntLiteral Verif.Spec.IntLiteral

/-! ## C01: values -/

/-- Decimal literals have their mathematical value modulo `2^64`, and what follows
the digits is the suffix. -/
theorem C01_decimal_value (body suf : List UInt8) (hb : Body 10 body) (hs : SuffixOk 10 suf) :
    (parseBase10 (body ++ suf)).value = value 10 body % 2^64 ∧
    (parseBase10 (body ++ suf)).kind = parseIntegerSuffix suf := by
  obtain ⟨ov, h, -, -⟩ := base10Loop_spec body suf hb hs 0 false (by simp) (by simp)
  simp only [Nat.zero_mul, Nat.zero_add, Nat.zero_mod] at h
  simp [parseBase10, h]

theorem C01_hex_value (x : UInt8) (body suf : List UInt8) (hb : Body 16 body) (hs : SuffixOk 16 suf) :
    (parseHex (48 :: x :: (body ++ suf))).value = value 16 body % 2^64 ∧
    (parseHex (48 :: x :: (body ++ suf))).kind = parseIntegerSuffix suf := by
  have h := hexLoop_spec body suf hb hs 0
  simp only [Nat.zero_mul, Nat.zero_add, Nat.zero_mod, show decide (0 ≥ 2^64) = false by decide] at h
  simp [parseHex, h]

theorem C01_binary_value (x : UInt8) (body suf : List UInt8) (hb : Body 2 body) (hs : SuffixOk 2 suf) :
    (parseBinary (48 :: x :: (body ++ suf))).value = value 2 body % 2^64 ∧
    (parseBinary (48 :: x :: (body ++ suf))).kind = parseIntegerSuffix suf := by
  have h := binaryLoop_spec body suf hb hs 0
  simp only [Nat.zero_mul, Nat.zero_add, Nat.zero_mod, show decide (0 ≥ 2^64) = false by decide] at h
  simp [parseBinary, h]

/-- `0o...` octal literals. -/
theorem C01_octal_value (o : UInt8) (ho : o = 111 ∨ o = 79) (body suf : List UInt8)
    (hb : Body 8 body) (hs : SuffixOk 8 suf) :
    (parseOctal (48 :: o :: (body ++ suf))).value = value 8 body % 2^64 ∧
    (parseOctal (48 :: o :: (body ++ suf))).kind = parseIntegerSuffix suf := by
  have h := octalLoop_spec body suf hb hs 0
  simp only [Nat.zero_mul, Nat.zero_add, Nat.zero_mod, show decide (0 ≥ 2^63) = false by decide] at h
  rcases ho with rfl | rfl <;> simp [parseOctal, h]

/-- The classic form `0...` of octal literals, with at least one further digit. -/
theorem C01_octal_classic_value (body suf : List UInt8) (hne : body ≠ [])
    (hb : Body 8 body) (hs : SuffixOk 8 suf) :
    (parseOctal (48 :: (body ++ suf))).value = value 8 body % 2^64 ∧
    (parseOctal (48 :: (body ++ suf))).kind = parseIntegerSuffix suf := by
  have h := octalLoop_spec body suf hb hs 0
  simp only [Nat.zero_mul, Nat.zero_add, Nat.zero_mod, show decide (0 ≥ 2^63) = false by decide] at h
  have hst : ¬ ((48 :: (body ++ suf))[1]? = some 111 ∨ (48 :: (body ++ suf))[1]? = some 79) := by
    cases body with
    | nil => exact absurd rfl hne
    | cons c cs =>
      rcases hb c (List.mem_cons_self ..) with rfl | ⟨d, hd, hlt⟩
      · simp
      · simp only [List.cons_append, List.getElem?_cons_succ, List.getElem?_cons_zero, Option.some.injEq]
        rintro (rfl | rfl) <;> simp [digitValue] at hd
  simp only [parseOctal, hst, if_false]
  simp [h]

/-! ## C01: overflow diagnostics -/

/-- Hex literals: the overflow warning is given exactly if the value needs more
than 64 bits. -/
theorem C01_hex_overflow_iff (x : UInt8) (body suf : List UInt8) (hb : Body 16 body) (hs : SuffixOk 16 suf) :
    (parseHex (48 :: x :: (body ++ suf))).overflow = true ↔ 2^64 ≤ value 16 body := by
  have h := hexLoop_spec body suf hb hs 0
  simp only [Nat.zero_mul, Nat.zero_add, Nat.zero_mod, show decide (0 ≥ 2^64) = false by decide] at h
  simp [parseHex, h]

theorem C01_binary_overflow_iff (x : UInt8) (body suf : List UInt8) (hb : Body 2 body) (hs : SuffixOk 2 suf) :
    (parseBinary (48 :: x :: (body ++ suf))).overflow = true ↔ 2^64 ≤ value 2 body := by
  have h := binaryLoop_spec body suf hb hs 0
  simp only [Nat.zero_mul, Nat.zero_add, Nat.zero_mod, show decide (0 ≥ 2^64) = false by decide] at h
  simp [parseBinary, h]

/-- Octal literals: full statement would be `↔ 2^64 ≤ value 8 body`. The code
warns exactly from `2^63` on: no overflow is missed, but values in
`[2^63, 2^64)` get a spurious warning. -/
theorem C01_octal_overflow_partial (o : UInt8) (ho : o = 111 ∨ o = 79) (body suf : List UInt8)
    (hb : Body 8 body) (hs : SuffixOk 8 suf) :
    (parseOctal (48 :: o :: (body ++ suf))).overflow = true ↔ 2^63 ≤ value 8 body := by
  have h := octalLoop_spec body suf hb hs 0
  simp only [Nat.zero_mul, Nat.zero_add, Nat.zero_mod, show decide (0 ≥ 2^63) = false by decide] at h
  rcases ho with rfl | rfl <;> simp [parseOctal, h]

/-- Negation of the full octal statement: `0o1000000000000000000000` (= 2^63) fits
into 64 bits and is warned about. -/
theorem C01_octal_spurious_overflow_warning :
    ∃ body, Body 8 body ∧ value 8 body < 2^64 ∧ (parseOctal (48 :: 111 :: body)).overflow = true := by
  refine ⟨bytes "1000000000000000000000", ?_, by decide, by decide⟩
  intro c hc
  right
  have : c = 49 ∨ c = 48 := by revert hc; simp [bytes]
  rcases this with rfl | rfl
  · exact ⟨1, by decide, by decide⟩
  · exact ⟨0, by decide, by decide⟩

/-- Decimal literals: a warning is only given for a real overflow. -/
theorem C01_decimal_no_spurious_warning (body suf : List UInt8) (hb : Body 10 body) (hs : SuffixOk 10 suf) :
    (parseBase10 (body ++ suf)).overflow = true → 2^64 ≤ value 10 body := by
  obtain ⟨ov, h, h1, -⟩ := base10Loop_spec body suf hb hs 0 false (by simp) (by simp)
  simp only [Nat.zero_mul, Nat.zero_add, Nat.zero_mod] at h h1
  simpa [parseBase10, h] using h1

/-- Decimal literals: the full statement would be `overflow = true ↔ 2^64 ≤ value`.
For values below `10 * 2^64` (in particular for every literal with at most 20
digits) the exact behaviour is: overflow is reported except in the band
`[18446744073709551620, 18446744090889420800)`. -/
theorem C01_decimal_overflow_partial (body suf : List UInt8) (hb : Body 10 body) (hs : SuffixOk 10 suf)
    (hv : value 10 body < 10 * 2^64) :
    (parseBase10 (body ++ suf)).overflow = true ↔
      (2^64 ≤ value 10 body ∧
        ¬ (18446744073709551620 ≤ value 10 body ∧ value 10 body < 18446744090889420800)) := by
  obtain ⟨ov, h, -, h2⟩ := base10Loop_spec body suf hb hs 0 false (by simp) (by simp)
  simp only [Nat.zero_mul, Nat.zero_add, Nat.zero_mod] at h h2
  have : (parseBase10 (body ++ suf)).overflow = ov := by simp [parseBase10, h]
  rw [this, h2 hv, decide_eq_true_eq]; omega

/-- Negation of the full decimal statement: `18446744073709551620` silently becomes
`4`. -/
theorem C01_decimal_missed_overflow :
    ∃ body, Body 10 body ∧ 2^64 ≤ value 10 body ∧
      parseBase10 body = { value := 4, overflow := false, kind := .int } := by
  refine ⟨bytes "18446744073709551620", ?_, by decide, by decide⟩
  intro c hc
  right
  have : ∀ c ∈ bytes "18446744073709551620", ∃ d, digitValue c = some d ∧ d < 10 := by
    simp [bytes, digitValue]
  exact this c hc

/-- The hypotheses are met by, e.g., `1'000u`, `0xFF'ffULL`. -/
example : Body 10 (bytes "1'000") ∧ SuffixOk 10 (bytes "u") ∧ value 10 (bytes "1'000") = 1000 := by
  refine ⟨?_, ?_, by decide⟩
  · intro c hc
    have : c = 49 ∨ c = 39 ∨ c = 48 := by revert hc; simp [bytes]
    rcases this with rfl | rfl | rfl
    · exact .inr ⟨1, by decide, by decide⟩
    · exact .inl rfl
    · exact .inr ⟨0, by decide, by decide⟩
  · intro c hc
    have : c = 117 := by revert hc; simp [bytes]; intro h; exact h.symm
    subst this
    exact ⟨by decide, by rintro ⟨d, hd, -⟩; simp [digitValue] at hd⟩
example : (parseHex (bytes "0xFF'ffULL")) = { value := 65535, overflow := false, kind := .unsignedLongLong } := by
  decide

/-! ## C02: types -/

/-- The compiler type that represents each C type in LLP64. -/
def repr : CType → LitType
  | .int | .long => .s32
  | .uint | .ulong => .u32
  | .llong => .s64
  | .ullong => .u64

/-- The kind the suffix parser must produce. -/
def kindOf : Suffix → NumberKind
  | .none => .int | .u => .unsigned | .l => .long | .ul => .unsignedLong
  | .ll => .longLong | .ull => .unsignedLongLong

/-- Every spelling of a suffix that C11 allows is recognised. -/
theorem C02_suffix (σ : Suffix) : ∀ s ∈ σ.spellings, parseIntegerSuffix (bytes s) = kindOf σ := by
  cases σ <;> decide

/-- Decimal literals have the first type of the C11 list in which the value fits; if
there is none, the literal is `unsigned long long` and a warning is given. -/
theorem C02_decimal_type (σ : Suffix) (s : String) (hs : s ∈ σ.spellings) (v : Nat) (hv : v < 2^64) :
    typeBase10 (parseIntegerSuffix (bytes s)) v =
      match cType true σ v with
      | some t => some { type := repr t }
      | none => some { type := .u64, tooLarge := true } := by
  rw [C02_suffix σ s hs]
  have h4 : v ≤ 18446744073709551615 := by omega
  by_cases h1 : v ≤ 2147483647 <;> by_cases h2 : v ≤ 4294967295 <;>
    by_cases h3 : v ≤ 9223372036854775807 <;>
  cases σ <;>
    first
    | omega
    | simp [kindOf, typeBase10, cType, candidates, CType.maxValue, repr, h1, h2, h3, h4]

/-- Octal, binary and hex literals have the first type of the C11 list in which the
value fits (there always is one). -/
theorem C02_other_type (σ : Suffix) (s : String) (hs : s ∈ σ.spellings) (v : Nat) (hv : v < 2^64) :
    ∃ t, cType false σ v = some t ∧
      typeOther (parseIntegerSuffix (bytes s)) v = some { type := repr t } := by
  rw [C02_suffix σ s hs]
  have h4 : v ≤ 18446744073709551615 := by omega
  by_cases h1 : v ≤ 2147483647 <;> by_cases h2 : v ≤ 4294967295 <;>
    by_cases h3 : v ≤ 9223372036854775807 <;>
  cases σ <;>
    first
    | omega
    | simp [kindOf, typeOther, cType, candidates, CType.maxValue, repr, h1, h2, h3, h4]

/-- The chosen type always represents the value, for all standard suffixes. -/
theorem C02_value_in_range (dec : Bool) (σ : Suffix) (s : String) (hs : s ∈ σ.spellings) (v : Nat) (hv : v < 2^64)
    (t : Typed) (ht : (if dec then typeBase10 else typeOther) (parseIntegerSuffix (bytes s)) v = some t) :
    t.type.min ≤ v ∧ (v : Int) ≤ t.type.max := by
  rw [C02_suffix σ s hs] at ht
  cases dec <;> cases σ <;>
    simp only [kindOf, typeOther, typeBase10, Bool.false_eq_true, if_false, if_true] at ht
  all_goals
    (repeat' split at ht) <;> simp only [Option.some.injEq] at ht <;> subst ht <;>
      simp only [LitType.min, LitType.max] <;> omega

/-- A literal with an explicit width suffix (`i8` ... `ui64`) has that type, and a
warning is given exactly if neither the value nor its reinterpretation as a
signed 64-bit number fits into that type. -/
theorem C02_explicit_suffix (k : NumberKind) (t : LitType)
    (h : (k, t) ∈ [(NumberKind.s8, LitType.s8), (.s16, .s16), (.s32, .s32), (.s64, .s64),
                   (.u8, .u8), (.u16, .u16), (.u32, .u32), (.u64, .u64)]) (v : Nat) (hv : v < 2^64) :
    ∃ r, typeBase10 k v = some r ∧ typeOther k v = some r ∧ r.type = t ∧
      (r.truncated = true ↔ t.max < (v : Int) ∧ (v : Int) - 2^64 < t.min) := by
  simp only [List.mem_cons, Prod.mk.injEq, List.not_mem_nil, or_false] at h
  by_cases h3 : v < 9223372036854775808 <;>
  rcases h with ⟨rfl, rfl⟩ | ⟨rfl, rfl⟩ | ⟨rfl, rfl⟩ | ⟨rfl, rfl⟩ | ⟨rfl, rfl⟩ | ⟨rfl, rfl⟩ | ⟨rfl, rfl⟩ | ⟨rfl, rfl⟩ <;>
    refine ⟨_, rfl, rfl, rfl, ?_⟩ <;>
    simp [explicitKind, toSmm, LitType.min, LitType.max, h3] <;> omega

example : "uLL" ∈ Suffix.ull.spellings ∧ (2:Nat)^63 < 2^64 := by decide

end Verif.Props.IntLiteral
