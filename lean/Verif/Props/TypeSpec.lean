import Verif.Model.TypeSpec
import Verif.Spec.TypeSpec

/-!
# C22: type specifiers combine independently of order
-/

namespace Verif.Props.TypeSpec

open Verif.TypeSpec

/-- How often `k` is in the set of bits `c`. -/
def times (c : Nat) (k : Kw) : Nat :=
  (if c.testBit k.bit then 1 else 0) + (if k = .long ∧ c.testBit longLongBit = true then 1 else 0)

/-- How often `k` may be given. -/
def most (k : Kw) : Nat := if k = .long then 2 else 1

/-- Bits that mean something: nothing above `void`, and `long long` implies `long`. -/
def Proper (c : Nat) : Prop :=
  (∀ i, 14 < i → c.testBit i = false) ∧ (c.testBit longLongBit = true → c.testBit Kw.long.bit = true)

theorem bit_inj {k k' : Kw} (h : k.bit = k'.bit) : k = k' := by
  cases k <;> cases k' <;> first | rfl | (exact absurd h (by decide))

theorem bit_ne_ll (k : Kw) : k.bit ≠ longLongBit := by cases k <;> decide

theorem bit_le (k : Kw) : k.bit ≤ 14 := by cases k <;> decide

theorem testBit_set (c i j : Nat) : (c ||| 2 ^ i).testBit j = (c.testBit j || decide (i = j)) := by
  rw [Nat.testBit_or, Nat.testBit_two_pow]

theorem keyword_none {c k} (hc : Proper c) : keyword c k = none ↔ times c k = most k := by
  unfold keyword times most
  by_cases hk : k = .long
  · subst hk
    simp only [if_true, true_and]
    cases h1 : c.testBit longLongBit with
    | true => simp [hc.2 h1]
    | false => cases h2 : c.testBit Kw.long.bit <;> simp
  · simp only [hk, if_false, false_and]
    cases h1 : c.testBit k.bit <;> simp

theorem keyword_some {c k c'} (hc : Proper c) (h : keyword c k = some c') :
    Proper c' ∧ times c k < most k ∧ ∀ k', times c' k' = times c k' + if k' = k then 1 else 0 := by
  unfold keyword at h
  by_cases hk : k = .long
  · subst hk
    rw [if_pos rfl] at h
    cases h1 : c.testBit longLongBit with
    | true => rw [h1] at h; cases h
    | false =>
      cases h2 : c.testBit Kw.long.bit with
      | true =>
        rw [h1, h2] at h
        simp only [Bool.false_eq_true, if_false, if_true, Option.some.injEq] at h
        subst h
        refine ⟨⟨?_, ?_⟩, ?_, ?_⟩
        · intro i hi
          rw [testBit_set, hc.1 i hi]
          have : longLongBit ≠ i := by unfold longLongBit; omega
          simp [this]
        · intro _; rw [testBit_set, h2]; rfl
        · simp [times, most, h1, h2]
        · intro k'
          unfold times
          rw [testBit_set, testBit_set]
          by_cases hk' : k' = .long
          · subst hk'; simp [h1, h2]
          · have := (bit_ne_ll k').symm
            simp [hk', this]
      | false =>
        rw [h1, h2] at h
        simp only [Bool.false_eq_true, if_false, Option.some.injEq] at h
        subst h
        refine ⟨⟨?_, ?_⟩, ?_, ?_⟩
        · intro i hi
          rw [testBit_set, hc.1 i hi]
          have : Kw.long.bit ≠ i := by have := bit_le .long; omega
          simp [this]
        · intro _; rw [testBit_set]; simp
        · simp [times, most, h1, h2]
        · intro k'
          unfold times
          rw [testBit_set, testBit_set]
          have hl := bit_ne_ll .long
          by_cases hk' : k' = .long
          · subst hk'; simp [h1, h2, hl]
          · have : Kw.long.bit ≠ k'.bit := fun he => hk' (bit_inj he).symm
            simp [hk', this]
  · rw [if_neg hk] at h
    cases h1 : c.testBit k.bit with
    | true => rw [h1] at h; cases h
    | false =>
      rw [h1] at h
      simp only [Bool.false_eq_true, if_false, Option.some.injEq] at h
      subst h
      refine ⟨⟨?_, ?_⟩, ?_, ?_⟩
      · intro i hi
        rw [testBit_set, hc.1 i hi]
        have : k.bit ≠ i := by have := bit_le k; omega
        simp [this]
      · intro hl
        rw [testBit_set] at hl ⊢
        have := bit_ne_ll k
        simp only [this, decide_false, Bool.or_false] at hl
        rw [hc.2 hl]; rfl
      · simp [times, most, h1, hk]
      · intro k'
        unfold times
        rw [testBit_set, testBit_set]
        have hl := bit_ne_ll k
        by_cases hk' : k' = k
        · subst hk'; simp [h1, hk]
        · have : k.bit ≠ k'.bit := fun he => hk' (bit_inj he).symm
          simp [hk', this, hl]

/-- The keywords alone. -/
def keywords : List Kw → Nat → Option Nat
  | [], c => some c
  | k :: ks, c => (keyword c k).bind (keywords ks)

theorem keywords_spec : ∀ (ks : List Kw) (c : Nat), Proper c →
    ((∃ c', keywords ks c = some c') ↔ ∀ k, times c k + ks.count k ≤ most k) ∧
    (∀ c', keywords ks c = some c' → Proper c' ∧ ∀ k, times c' k = times c k + ks.count k) := by
  intro ks
  induction ks with
  | nil =>
    intro c hc
    refine ⟨⟨fun _ k => ?_, fun _ => ⟨c, rfl⟩⟩, ?_⟩
    · unfold times most
      by_cases hk : k = .long
      · simp [hk]; split <;> split <;> omega
      · simp [hk]; split <;> omega
    · intro c' h
      cases h
      exact ⟨hc, fun k => by simp⟩
  | cons a ks ih =>
    intro c hc
    unfold keywords
    cases hk : keyword c a with
    | none =>
      have := (keyword_none hc).1 hk
      refine ⟨⟨?_, ?_⟩, ?_⟩
      · rintro ⟨c', h⟩; cases h
      · intro h
        have h1 := h a
        rw [List.count_cons_self] at h1
        omega
      · intro c' h; cases h
    | some c1 =>
      obtain ⟨hp, hlt, ht⟩ := keyword_some hc hk
      obtain ⟨h1, h2⟩ := ih c1 hp
      have hcount : ∀ k, times c1 k + ks.count k = times c k + (a :: ks).count k := by
        intro k
        rw [ht k, List.count_cons]
        by_cases hka : k = a
        · subst hka; simp; omega
        · have : (a == k) = false := by simpa using fun h => hka h.symm
          simp [hka, this]
      refine ⟨?_, ?_⟩
      · show (∃ c', keywords ks c1 = some c') ↔ _
        rw [h1]
        exact ⟨fun h k => hcount k ▸ h k, fun h k => (hcount k).symm ▸ h k⟩
      · intro c' h
        obtain ⟨h3, h4⟩ := h2 c' h
        exact ⟨h3, fun k => by rw [h4 k, hcount k]⟩

theorem times_zero (k : Kw) : times 0 k = 0 := by simp [times]

theorem proper_zero : Proper 0 := ⟨fun i _ => Nat.zero_testBit i, fun h => by simp at h⟩

/-- The set of bits is determined by the number of times each keyword is in it. -/
theorem times_inj {c c' : Nat} (hc : Proper c) (hc' : Proper c') (h : ∀ k, times c k = times c' k) : c = c' := by
  have hl : c.testBit 6 = c'.testBit 6 ∧ c.testBit 7 = c'.testBit 7 := by
    have := h .long
    have h1 : c.testBit 7 = true → c.testBit 6 = true := hc.2
    have h2 : c'.testBit 7 = true → c'.testBit 6 = true := hc'.2
    simp only [times, Kw.bit, longLongBit, true_and] at this
    cases e1 : c.testBit 6 <;> cases e2 : c.testBit 7 <;> cases e3 : c'.testBit 6 <;> cases e4 : c'.testBit 7 <;>
      simp_all
  have hk : ∀ k : Kw, k ≠ .long → c.testBit k.bit = c'.testBit k.bit := by
    intro k hk
    have := h k
    simp only [times, hk, false_and, if_false] at this
    cases e1 : c.testBit k.bit <;> cases e2 : c'.testBit k.bit <;> simp_all
  apply Nat.eq_of_testBit_eq
  intro i
  by_cases hi : 14 < i
  · rw [hc.1 i hi, hc'.1 i hi]
  · have : i = 0 ∨ i = 1 ∨ i = 2 ∨ i = 3 ∨ i = 4 ∨ i = 5 ∨ i = 6 ∨ i = 7 ∨ i = 8 ∨ i = 9 ∨ i = 10 ∨ i = 11 ∨
      i = 12 ∨ i = 13 ∨ i = 14 := by omega
    rcases this with rfl | rfl | rfl | rfl | rfl | rfl | rfl | rfl | rfl | rfl | rfl | rfl | rfl | rfl | rfl
    · exact hk .unsigned (by decide)
    · exact hk .signed (by decide)
    · exact hk .Bool (by decide)
    · exact hk .char (by decide)
    · exact hk .short (by decide)
    · exact hk .int (by decide)
    · exact hl.1
    · exact hl.2
    · exact hk .int8 (by decide)
    · exact hk .int16 (by decide)
    · exact hk .int32 (by decide)
    · exact hk .int64 (by decide)
    · exact hk .float (by decide)
    · exact hk .double (by decide)
    · exact hk .void (by decide)

/-- Two sequences that are accepted with the same bits have the same keywords. -/
theorem keywords_perm {ks ks' : List Kw} {c} (h : keywords ks 0 = some c) (h' : keywords ks' 0 = some c) : ks.Perm ks' := by
  rw [List.perm_iff_count]
  intro k
  have h1 := ((keywords_spec ks 0 proper_zero).2 c h).2 k
  have h2 := ((keywords_spec ks' 0 proper_zero).2 c h').2 k
  omega

/-- The order of the keywords does not matter. -/
theorem keywords_of_perm {ks ks' : List Kw} (hp : ks.Perm ks') : keywords ks 0 = keywords ks' 0 := by
  have hcount := List.perm_iff_count.1 hp
  cases h : keywords ks 0 with
  | some c =>
    have h1 := (keywords_spec ks 0 proper_zero).1.1 ⟨c, h⟩
    obtain ⟨c', h'⟩ := (keywords_spec ks' 0 proper_zero).1.2 (fun k => hcount k ▸ h1 k)
    obtain ⟨p1, t1⟩ := (keywords_spec ks 0 proper_zero).2 c h
    obtain ⟨p2, t2⟩ := (keywords_spec ks' 0 proper_zero).2 c' h'
    rw [h', times_inj p1 p2 (fun k => by rw [t1 k, t2 k, hcount k])]
  | none =>
    cases h' : keywords ks' 0 with
    | none => rfl
    | some c' =>
      have h1 := (keywords_spec ks' 0 proper_zero).1.1 ⟨c', h'⟩
      obtain ⟨c, h2⟩ := (keywords_spec ks 0 proper_zero).1.2 (fun k => (hcount k).symm ▸ h1 k)
      rw [h] at h2; cases h2

theorem ite_step {p Q : Prop} [Decidable p] {a t : Ty} {b : Option Ty} (h : (if p then some a else b) = some t)
    (h1 : p → a = t → Q) (h2 : b = some t → Q) : Q := by
  by_cases hp : p
  · rw [if_pos hp] at h; exact h1 hp (Option.some.inj h)
  · rw [if_neg hp] at h; exact h2 h

/-- The switch and the table of the specification agree. -/
theorem combine_allowed (c : Nat) (t : Ty) (h : combine c = some t) :
    ∃ e ∈ Spec.TypeSpec.allowed, keywords e.1 0 = some c ∧ e.2 = t := by
  unfold combine at h
  iterate 43
    refine ite_step h (fun hc ht => ?_) (fun h' => ?_)
    · subst hc ht
      decide
    clear h
    have h := h'
    clear h'
  cases h

theorem allowed_combine : ∀ e ∈ Spec.TypeSpec.allowed, (keywords e.1 0).bind combine = some e.2 := by decide

theorem keywords_zero {ks : List Kw} {c} (h : keywords ks 0 = some c) : c = 0 ↔ ks = [] := by
  constructor
  · rintro rfl
    have := ((keywords_spec ks 0 proper_zero).2 0 h).2
    cases ks with
    | nil => rfl
    | cons a ks =>
      have h1 := this a
      rw [times_zero, List.count_cons_self] at h1
      omega
  · rintro rfl; cases h; rfl

/-- **C22**, keywords: a sequence of keywords denotes the type `t` exactly if it is, in some order, one of the allowed sets of
specifiers, and that set denotes `t`. -/
theorem keywords_iff (ks : List Kw) (t : Ty) :
    (keywords ks 0).bind combine = some t ↔ ∃ e ∈ Spec.TypeSpec.allowed, ks.Perm e.1 ∧ e.2 = t := by
  constructor
  · intro h
    cases hk : keywords ks 0 with
    | none => rw [hk] at h; cases h
    | some c =>
      rw [hk] at h
      obtain ⟨e, he, h1, h2⟩ := combine_allowed c t h
      exact ⟨e, he, keywords_perm hk h1, h2⟩
  · rintro ⟨e, he, hp, rfl⟩
    rw [keywords_of_perm hp]
    exact allowed_combine e he

/-! ## All tokens -/

/-- The keywords among the tokens. -/
def kwsOf : List Tok → List Kw
  | [] => []
  | .kw k :: ts => k :: kwsOf ts
  | _ :: ts => kwsOf ts

/-- The number of `struct`, `union` and `enum` specifiers. -/
def tagsOf (ts : List Tok) : Nat := ts.count .tag

theorem kwsOf_filterMap (ts : List Tok) : kwsOf ts = ts.filterMap (fun t => match t with | .kw k => some k | _ => none) := by
  induction ts with
  | nil => rfl
  | cons t ts ih => cases t <;> simp [kwsOf, ih]

theorem tokens_tagged : ∀ (ts : List Tok) (s : State), s.tagged = true → tagsOf ts ≠ 0 → tokens ts s = none := by
  intro ts
  induction ts with
  | nil => intro s _ h; exact absurd rfl h
  | cons t ts ih =>
    intro s hs h
    unfold tokens token
    cases t with
    | tag => simp [hs]
    | other => exact ih s hs (by simpa [tagsOf] using h)
    | kw k =>
      dsimp only
      cases hk : keyword s.cType k with
      | none => rfl
      | some c => exact ih _ hs (by simpa [tagsOf] using h)

theorem tokens_notag : ∀ (ts : List Tok) (s : State), tagsOf ts = 0 →
    tokens ts s = (keywords (kwsOf ts) s.cType).map (fun c => { s with cType := c }) := by
  intro ts
  induction ts with
  | nil => intro s _; rfl
  | cons t ts ih =>
    intro s h
    unfold tokens token
    cases t with
    | tag => simp [tagsOf] at h
    | other => exact ih s (by simpa [tagsOf] using h)
    | kw k =>
      dsimp only [kwsOf]
      unfold keywords
      cases hk : keyword s.cType k with
      | none => rfl
      | some c => exact ih _ (by simpa [tagsOf] using h)

theorem keyword_ne_zero {c k c'} (h : keyword c k = some c') : c' ≠ 0 := by
  have key : ∀ i, c ||| 2 ^ i ≠ 0 := by
    intro i h0
    have := congrArg (fun n => n.testBit i) h0
    simp at this
  unfold keyword at h
  split at h
  · split at h
    · cases h
    · split at h <;> (cases h; exact key _)
  · split at h
    · cases h
    · cases h; exact key _

theorem tokens_tag : ∀ (ts : List Tok) (s s' : State), s.tagged = false → tagsOf ts ≠ 0 → tokens ts s = some s' →
    s.cType = 0 ∧ tagsOf ts = 1 ∧ s'.tagged = true ∧ keywords (kwsOf ts) 0 = some s'.cType := by
  intro ts
  induction ts with
  | nil => intro s s' _ h; exact absurd rfl h
  | cons t ts ih =>
    intro s s' hs h he
    unfold tokens token at he
    cases t with
    | tag =>
      simp only [hs, Bool.false_or] at he
      split at he
      · cases he
      · rename_i hc
        have hc : s.cType = 0 := by simpa using hc
        have he : tokens ts { s with tagged := true } = some s' := he
        by_cases ht : tagsOf ts = 0
        · rw [tokens_notag ts _ ht] at he
          obtain ⟨c, h1, h2⟩ := Option.map_eq_some_iff.1 he
          subst h2
          refine ⟨hc, by simpa [tagsOf] using ht, rfl, ?_⟩
          rw [← hc]; exact h1
        · rw [tokens_tagged ts _ rfl ht] at he
          cases he
    | other => exact ih s s' hs (by simpa [tagsOf] using h) he
    | kw k =>
      dsimp only at he
      cases hk : keyword s.cType k with
      | none => rw [hk] at he; cases he
      | some c =>
        rw [hk] at he
        obtain ⟨h1, _⟩ := ih { s with cType := c } s' hs (by simpa [tagsOf] using h) he
        dsimp only at h1
        exact absurd h1 (keyword_ne_zero hk)

theorem tokens_onetag : ∀ (ts : List Tok), tagsOf ts = 1 → kwsOf ts = [] → tokens ts {} = some { tagged := true } := by
  intro ts
  induction ts with
  | nil => intro h; exact absurd h (by decide)
  | cons t ts ih =>
    intro h hk
    cases t with
    | kw k => cases hk
    | other => exact ih (by simpa [tagsOf] using h) hk
    | tag =>
      have h0 : tagsOf ts = 0 := by simpa [tagsOf] using h
      show tokens ts { tagged := true } = _
      rw [tokens_notag ts _ h0, show kwsOf ts = [] from hk]
      rfl

/-- **C22**: a sequence of specifiers denotes the type `t` exactly if either it has no `struct`, `union` or `enum` specifier,
its keywords are, in some order, one of the sets of keywords that the standard allows, and this set denotes `t`; or
it has one `struct`, `union` or `enum` specifier and no keyword, and `t` is the type of this specifier. All others are
diagnosed. -/
theorem C22_specifiers (ts : List Tok) (t : Ty) :
    specify ts = some t ↔
      (tagsOf ts = 0 ∧ ∃ e ∈ Spec.TypeSpec.allowed, (kwsOf ts).Perm e.1 ∧ e.2 = t) ∨
      (tagsOf ts = 1 ∧ kwsOf ts = [] ∧ t = .tagged) := by
  unfold specify
  by_cases htag : tagsOf ts = 0
  · rw [tokens_notag ts {} htag, ← keywords_iff]
    simp only [htag, true_and, Nat.zero_ne_one, false_and, or_false]
    cases hk : keywords (kwsOf ts) 0 with
    | none => rfl
    | some c =>
      simp only [Option.map_some, Option.bind_some, finish]
      by_cases hc : c = 0
      · subst hc; simp [combine]
      · simp [hc]
  · simp only [htag, false_and, false_or]
    constructor
    · intro h
      cases he : tokens ts {} with
      | none => rw [he] at h; cases h
      | some s' =>
        obtain ⟨_, h1, h2, h3⟩ := tokens_tag ts {} s' rfl htag he
        rw [he] at h
        simp only [Option.bind_some, finish, h2, Bool.true_and, Bool.not_true, Bool.false_and] at h
        by_cases hc : s'.cType = 0
        · simp [hc] at h
          exact ⟨h1, (keywords_zero h3).1 hc, h.symm⟩
        · simp [hc] at h
    · rintro ⟨h1, h2, rfl⟩
      rw [tokens_onetag ts h1 h2]
      rfl

/-- **C22**: the order of the specifiers does not matter. -/
theorem C22_order {ts ts' : List Tok} (h : ts.Perm ts') : specify ts = specify ts' := by
  apply Option.ext
  intro t
  rw [C22_specifiers, C22_specifiers]
  have h1 : tagsOf ts = tagsOf ts' := List.perm_iff_count.1 h _
  have h2 : (kwsOf ts).Perm (kwsOf ts') := by
    rw [kwsOf_filterMap, kwsOf_filterMap]; exact h.filterMap _
  rw [h1]
  constructor
  · rintro (⟨a, e, he, hp, ht⟩ | ⟨a, b, c⟩)
    · exact .inl ⟨a, e, he, h2.symm.trans hp, ht⟩
    · rw [b] at h2; exact .inr ⟨a, List.nil_perm.1 h2, c⟩
  · rintro (⟨a, e, he, hp, ht⟩ | ⟨a, b, c⟩)
    · exact .inl ⟨a, e, he, h2.trans hp, ht⟩
    · rw [b] at h2; exact .inr ⟨a, List.perm_nil.1 h2, c⟩

/-- Each set of keywords is in the table once: the type is unambiguous. -/
theorem C22_unambiguous (e e' : List Kw × Ty) (he : e ∈ Spec.TypeSpec.allowed) (he' : e' ∈ Spec.TypeSpec.allowed)
    (h : e.1.Perm e'.1) : e.2 = e'.2 := by
  have h1 := (keywords_iff e.1 e'.2).2 ⟨e', he', h, rfl⟩
  rw [allowed_combine e he] at h1
  exact Option.some.inj h1

example : specify [.kw .long, .other, .kw .unsigned, .kw .long] = some .u64 := by decide
example : [Tok.kw .int, .kw .long, .other, .kw .unsigned].Perm [.kw .long, .other, .kw .unsigned, .kw .int] := by decide
example : specify [.kw .int, .kw .long, .other, .kw .unsigned] = some .u32 := by decide
example : specify [.kw .unsigned, .kw .float] = none := by decide
example : specify [.kw .long, .kw .long, .kw .long] = none := by decide
example : specify [.other, .tag] = some .tagged := by decide
example : specify [.tag, .kw .int] = none := by decide
example : specify [.other] = none := by decide

end Verif.Props.TypeSpec
