import Verif.Model.Layout
import Verif.Spec.Layout
import Verif.Lemmas.Align

namespace Verif.Layout
open Verif.Align Verif.Spec.Layout

theorem declAlignment_eq (c : Config) (d : Decl) : declAlignment c d = memberAlign c d := by
  unfold declAlignment memberAlign
  split
  · rfl
  · split
    · rfl
    · cases hu : d.userAligned
      · simp only [Bool.false_eq_true, not_false_eq_true, true_and, if_false]
        split <;> omega
      · simp

theorem memberAlign_pow2 {c : Config} {d : Decl} (hc : ConfigOk c) (hd : DeclOk d) :
    IsPow2 (memberAlign c d) := by
  unfold memberAlign
  split
  · rcases hd.2 with h | h
    · contradiction
    · exact h
  · split
    · exact ⟨0, rfl⟩
    · split
      · exact hd.1
      · rw [Nat.min_def]; split
        · exact hd.1
        · exact hc.2

theorem isNext_alignUp {a : Nat} (ha : IsPow2 a) (e : Nat) : IsNext e a (alignUp e a) := by
  obtain ⟨k, rfl⟩ := ha
  exact ⟨dvd_alignUp e k, le_alignUp e k, fun o h1 h2 => alignUp_least e k o h1 h2⟩

theorem max_pow2 {a b : Nat} (ha : IsPow2 a) (hb : IsPow2 b) : IsPow2 (max a b) := by
  rw [Nat.max_def]; split <;> assumption

theorem clearLow_eq {x a : Nat} (ha : IsPow2 a) : clearLow (x + (a - 1)) a = alignUp x a := by
  obtain ⟨k, rfl⟩ := ha
  have hp := Nat.two_pow_pos k
  unfold clearLow
  rw [Nat.and_two_pow_sub_one_eq_mod]
  have h1 := Nat.div_add_mod (x + (2^k - 1)) (2^k)
  have h2 := Nat.mod_lt (x + (2^k - 1)) hp
  have e : x + (2^k - 1) - (x + (2^k - 1)) % 2^k = 2^k * ((x + (2^k - 1)) / 2^k) := by omega
  rw [e]
  apply Nat.le_antisymm
  · -- it is a multiple less than alignUp + 2^k
    obtain ⟨q, hq⟩ := dvd_alignUp x k
    have h3 := le_alignUp x k
    rw [hq] at h3 ⊢
    apply Nat.mul_le_mul_left
    have : (x + (2^k - 1)) / 2^k < q + 1 := by
      rw [Nat.div_lt_iff_lt_mul hp, Nat.add_mul, Nat.mul_comm q]; omega
    omega
  · exact alignUp_least _ _ _ ⟨_, rfl⟩ (by omega)

/-! ## structs without bit-fields -/

theorem run_plain (c : Config) (hc : ConfigOk c) (hu : c.isUnion = false) (ds : List Decl)
    (hd : ∀ d ∈ ds, DeclOk d ∧ d.bits = none ∧ (d.named = true ∨ d.compound = true)) :
    ∀ s : State, IsPow2 s.align → ∃ s' ms, run c s ds = .ok s' ∧ s'.members = ms.reverse ++ s.members ∧
      Sequential c s.size ds ms s'.size ∧ IsPow2 s'.align ∧ s.align ≤ s'.align ∧
      (∀ d ∈ ds, memberAlign c d ≤ s'.align) ∧ (s'.align = s.align ∨ ∃ d ∈ ds, s'.align = memberAlign c d) := by
  induction ds with
  | nil =>
    intro s hs
    exact ⟨s, [], rfl, by simp, .nil _, hs, by omega, by simp, .inl rfl⟩
  | cons d ds ih =>
    intro s hs
    obtain ⟨hok, hb, hn⟩ := hd d (List.mem_cons_self ..)
    have hp := memberAlign_pow2 hc hok
    have hstep : step c s d = .ok
        { s with
          size := alignUp s.size (memberAlign c d) + d.size
          align := max (memberAlign c d) s.align
          unit := none
          bitIndex := 0
          members := { offset := alignUp s.size (memberAlign c d), size := d.size, align := memberAlign c d, bits := none } :: s.members } := by
      unfold step
      rw [hb]
      simp only [hn, if_true, place, hu, Bool.false_eq_true, if_false, declAlignment_eq]
    obtain ⟨s', ms, h1, h2, h3, h4, h5, h6, h7⟩ := ih (fun d hd' => hd d (List.mem_cons_of_mem _ hd'))
        { s with
          size := alignUp s.size (memberAlign c d) + d.size
          align := max (memberAlign c d) s.align
          unit := none
          bitIndex := 0
          members := { offset := alignUp s.size (memberAlign c d), size := d.size, align := memberAlign c d, bits := none } :: s.members }
        (max_pow2 hp hs)
    refine ⟨s', _ :: ms, ?_, ?_, .cons (isNext_alignUp hp s.size) h3, h4, ?_, ?_, ?_⟩
    · unfold run; rw [hstep]; exact h1
    · rw [h2]; simp
    · simp at h5; omega
    · intro d' hd'
      rcases List.mem_cons.1 hd' with rfl | h
      · simp at h5; omega
      · exact h6 d' h
    · rcases h7 with h7 | ⟨d', hd', h7⟩
      · rw [h7]
        simp only [Nat.max_def]
        split
        · exact .inl rfl
        · exact .inr ⟨d, List.mem_cons_self .., rfl⟩
      · exact .inr ⟨d', List.mem_cons_of_mem _ hd', h7⟩

theorem sequential_facts {c e ds ms e'} (h : Sequential c e ds ms e') :
    e ≤ e' ∧ (∀ m ∈ ms, e ≤ m.offset ∧ m.offset + m.size ≤ e' ∧ m.bits = none ∧ m.align ∣ m.offset) ∧ InOrder ms ∧
    ms.map (·.size) = ds.map (·.size) ∧ ms.map (·.align) = ds.map (memberAlign c) := by
  induction h with
  | nil e => simp [InOrder]
  | cons hn hs ih =>
    obtain ⟨h1, h2, h3, h4, h5⟩ := ih
    obtain ⟨ha, hb, -⟩ := hn
    refine ⟨by omega, ?_, ?_, by simp [h4], by simp [h5]⟩
    · intro m hm
      rcases List.mem_cons.1 hm with rfl | hm
      · exact ⟨hb, by simpa using h1, rfl, ha⟩
      · have := h2 m hm
        exact ⟨by omega, this.2⟩
    · unfold InOrder
      refine List.pairwise_cons.2 ⟨?_, h3⟩
      intro m hm
      have := h2 m hm
      simp only [endBit, firstBit, this.2.2.1]
      omega

/-! ## unions without bit-fields -/

theorem run_union (c : Config) (hc : ConfigOk c) (hu : c.isUnion = true) (ds : List Decl)
    (hd : ∀ d ∈ ds, DeclOk d ∧ d.bits = none ∧ (d.named = true ∨ d.compound = true)) :
    ∀ s : State, IsPow2 s.align → ∃ s', run c s ds = .ok s' ∧
      s'.members = (ds.map (fun d => ({ offset := 0, size := d.size, align := memberAlign c d, bits := none } : Placed))).reverse ++ s.members ∧
      s.size ≤ s'.size ∧ (∀ d ∈ ds, d.size ≤ s'.size) ∧ IsPow2 s'.align ∧ s.align ≤ s'.align ∧
      (∀ d ∈ ds, memberAlign c d ≤ s'.align) ∧ (s'.size = s.size ∨ ∃ d ∈ ds, s'.size = d.size) := by
  induction ds with
  | nil =>
    intro s hs
    exact ⟨s, rfl, by simp, by omega, by simp, hs, by omega, by simp, .inl rfl⟩
  | cons d ds ih =>
    intro s hs
    obtain ⟨hok, hb, hn⟩ := hd d (List.mem_cons_self ..)
    have hp := memberAlign_pow2 hc hok
    have hstep : step c s d = .ok
        { s with
          size := max d.size s.size
          align := max (memberAlign c d) s.align
          unit := none
          bitIndex := 0
          members := { offset := 0, size := d.size, align := memberAlign c d, bits := none } :: s.members } := by
      unfold step
      rw [hb]
      simp only [hn, if_true, place, hu, Bool.false_eq_true, if_false, declAlignment_eq]
    obtain ⟨s', h1, h2, h3, h4, h5, h6, h7, h8⟩ := ih (fun d hd' => hd d (List.mem_cons_of_mem _ hd'))
        { s with
          size := max d.size s.size
          align := max (memberAlign c d) s.align
          unit := none
          bitIndex := 0
          members := { offset := 0, size := d.size, align := memberAlign c d, bits := none } :: s.members }
        (max_pow2 hp hs)
    refine ⟨s', ?_, ?_, ?_, ?_, h5, ?_, ?_, ?_⟩
    · unfold run; rw [hstep]; exact h1
    · rw [h2]; simp
    · simp at h3; omega
    · intro d' hd'
      rcases List.mem_cons.1 hd' with rfl | h
      · simp at h3; omega
      · exact h4 d' h
    · simp at h6; omega
    · intro d' hd'
      rcases List.mem_cons.1 hd' with rfl | h
      · simp at h6; omega
      · exact h7 d' h
    · rcases h8 with h8 | ⟨d', hd', h8⟩
      · rw [h8]
        simp only [Nat.max_def]
        split
        · exact .inl rfl
        · exact .inr ⟨d, List.mem_cons_self .., rfl⟩
      · exact .inr ⟨d', List.mem_cons_of_mem _ hd', h8⟩

/-! ## structs with bit-fields -/

/-- Invariant of the member loop for structs. -/
structure BInv (s : State) : Prop where
  pow : IsPow2 s.align
  order : s.members.Pairwise (fun a b => endBit b ≤ firstBit a)
  bound : ∀ m ∈ s.members, InBounds s.size m ∧ endBit m ≤ 8 * s.size
  unit : ∀ u, s.unit = some u → s.bitIndex ≤ 8 * u ∧
    (s.members = [] ∨ ∃ m rest i w, s.members = m :: rest ∧ m.bits = some (i, w) ∧ m.size = u ∧
      i + w ≤ s.bitIndex ∧ ∀ m' ∈ s.members, endBit m' ≤ 8 * m.offset + s.bitIndex)

theorem inBounds_mono {a b m} (h : InBounds a m) (hab : a ≤ b) : InBounds b m :=
  ⟨Nat.le_trans h.1 hab, h.2⟩

theorem place_new (c : Config) (hc : ConfigOk c) (hu : c.isUnion = false) (s : State) (d : Decl) (hd : DeclOk d)
    (bits : Option (Nat × Nat)) (hbits : ∀ i w, bits = some (i, w) → i + w ≤ 8 * d.size)
    (hpow : IsPow2 s.align)
    (horder : s.members.Pairwise (fun a b => endBit b ≤ firstBit a))
    (hbound : ∀ m ∈ s.members, InBounds s.size m ∧ endBit m ≤ 8 * s.size)
    (hunit : ∀ u, s.unit = some u → u = d.size ∧ s.bitIndex ≤ 8 * d.size ∧ ∃ i w, bits = some (i, w) ∧ i + w ≤ s.bitIndex ∧
       (s.bitIndex = i + w)) :
    ∃ s', place c s d false bits = .ok s' ∧ BInv s' ∧ s'.members ≠ [] ∧ s'.unit = s.unit ∧ s'.bitIndex = s.bitIndex := by
  have hp := memberAlign_pow2 hc hd
  obtain ⟨k, hk⟩ := hp
  refine ⟨{ s with
      size := alignUp s.size (declAlignment c d) + d.size
      align := max (declAlignment c d) s.align
      members := { offset := alignUp s.size (declAlignment c d), size := d.size, align := declAlignment c d, bits } :: s.members },
    by simp [place, hu], ?_, by simp, rfl, rfl⟩
  have hle : s.size ≤ alignUp s.size (declAlignment c d) := by
    rw [declAlignment_eq, hk]; exact le_alignUp _ _
  have hlow : ∀ m ∈ s.members, endBit m ≤ 8 * alignUp s.size (declAlignment c d) := by
    intro m hm; have := (hbound m hm).2; omega
  refine ⟨?_, ?_, ?_, ?_⟩
  · simp only [declAlignment_eq]
    exact max_pow2 ⟨k, hk⟩ hpow
  · refine List.pairwise_cons.2 ⟨?_, horder⟩
    intro m hm
    have := hlow m hm
    simp only [firstBit]; omega
  · intro m hm
    rcases List.mem_cons.1 hm with rfl | hm
    · refine ⟨⟨by simp, hbits⟩, ?_⟩
      simp only [endBit]
      cases hb : bits with
      | none => simp; omega
      | some p => have := hbits p.1 p.2 (by rw [hb]); simp only; omega
    · have := hbound m hm
      exact ⟨inBounds_mono this.1 (by simp; omega), by simp; omega⟩
  · intro u hu'
    obtain ⟨h1, h2, i, w, h3, h4, h5⟩ := hunit u hu'
    refine ⟨by simp; omega, .inr ⟨_, _, i, w, rfl, h3, h1.symm, h4, ?_⟩⟩
    intro m' hm'
    rcases List.mem_cons.1 hm' with rfl | hm'
    · simp only [endBit, h3]; omega
    · have := hlow m' hm'; simp only; omega

/-- The current unit as `AnonOk` sees it. -/
def unitOf (s : State) : Option (Nat × Nat) := s.unit.map (fun u => (u, s.bitIndex))

theorem step_binv (c : Config) (hc : ConfigOk c) (hu : c.isUnion = false) (s : State) (d : Decl) (ds : List Decl)
    (hd : DeclOk d) (h : BInv s) (hanon : AnonOk (unitOf s) (decide (s.members = [])) (d :: ds)) :
    step c s d = .error ∨
    ∃ s', step c s d = .ok s' ∧ BInv s' ∧ AnonOk (unitOf s') (decide (s'.members = [])) ds := by
  unfold step
  cases hb : d.bits with
  | none =>
    simp only
    split
    · right
      obtain ⟨s', h1, h2, h3, h4, h5⟩ := place_new c hc hu { s with unit := none, bitIndex := 0 } d hd none (by simp)
        h.pow h.order h.bound (by simp)
      refine ⟨s', h1, h2, ?_⟩
      simp only [AnonOk, hb] at hanon
      simp only [unitOf, h4, h3, Option.map_none, decide_false]
      exact hanon
    · left; rfl
  | some w =>
    cases w with
    | zero =>
      simp only
      split
      · left; rfl
      · right
        refine ⟨_, rfl, ⟨h.pow, h.order, h.bound, by simp⟩, ?_⟩
        simpa [AnonOk, hb, unitOf] using hanon
    | succ w =>
      simp only
      split
      · left; rfl
      · rename_i hw
        right
        simp only [AnonOk, hb] at hanon
        by_cases hsame : s.unit = some d.size ∧ s.bitIndex + (w+1) ≤ d.size * 8
        · -- fits into the current unit
          obtain ⟨hun, hfit⟩ := hsame
          obtain ⟨hbi, hcase⟩ := h.unit _ hun
          have hanon' : AnonOk (some (d.size, s.bitIndex + (w+1))) (decide (s.members = []) && !d.named) ds := by
            have hcond : s.bitIndex + (w + 1) ≤ 8 * d.size := by omega
            simpa [unitOf, hun, hcond] using hanon
          simp only [hun, hfit, true_and, if_true]
          cases hn : d.named with
          | false =>
            refine ⟨_, rfl, ⟨h.pow, h.order, h.bound, ?_⟩, ?_⟩
            · intro u hu'
              simp only at hu'
              obtain rfl : d.size = u := by first | (rw [hun] at hu'; simpa using hu') | simpa using hu'
              refine ⟨by simp only; omega, ?_⟩
              rcases hcase with h0 | ⟨m, rest, i, w', h1, h2, h3, h4, h5⟩
              · exact .inl h0
              · refine .inr ⟨m, rest, i, w', h1, h2, h3, by simp only; omega, ?_⟩
                intro m' hm'
                have := h5 m' hm'
                simp only; omega
            · simpa [unitOf, hun, hn] using hanon'
          | true =>
            simp only [if_true]
            by_cases hmem : s.members = []
            · simp only [hmem, ne_eq, not_true_eq_false, decide_false]
              have hstate : ({ s with unit := some d.size, bitIndex := s.bitIndex + (w+1) } : State).members = [] := hmem
              -- first member after leading anonymous bit-fields
              obtain ⟨k, hk⟩ := memberAlign_pow2 hc hd
              refine ⟨_, by simp [place, hu]; rfl, ⟨?_, ?_, ?_, ?_⟩, ?_⟩
              · simp only [declAlignment_eq]; exact max_pow2 ⟨k, hk⟩ h.pow
              · simp [hmem]
              · intro m hm
                simp only [hmem, List.mem_singleton] at hm
                subst hm
                refine ⟨⟨by simp, ?_⟩, by simp only [endBit]; omega⟩
                intro i w' hi
                simp at hi
                simp only; omega
              · intro u hu'
                simp only at hu'
                obtain rfl : d.size = u := by first | (rw [hun] at hu'; simpa using hu') | simpa using hu'
                refine ⟨by simp only; omega, .inr ⟨_, _, s.bitIndex, w+1, rfl, rfl, rfl, by simp, ?_⟩⟩
                intro m' hm'
                simp only [hmem, List.mem_singleton] at hm'
                subst hm'
                simp only [endBit]; omega
              · simpa [unitOf, hun, hn] using hanon'
            · rcases hcase with h0 | ⟨m, rest, i, w', h1, h2, h3, h4, h5⟩
              · exact absurd h0 hmem
              · simp only [hmem, ne_eq, not_false_eq_true, decide_true]
                refine ⟨_, by simp [place, h1, h2]; rfl, ⟨?_, ?_, ?_, ?_⟩, ?_⟩
                · obtain ⟨k, hk⟩ := memberAlign_pow2 hc hd
                  simp only [declAlignment_eq]
                  exact max_pow2 ⟨k, hk⟩ h.pow
                · have ho := h.order
                  rw [h1] at ho
                  refine List.pairwise_cons.2 ⟨?_, ho⟩
                  intro m' hm'
                  have := h5 m' (by rw [h1]; exact hm')
                  simp only [firstBit]; omega
                · intro m' hm'
                  have hmb := (h.bound m (by rw [h1]; exact List.mem_cons_self ..)).1.1
                  rcases List.mem_cons.1 hm' with rfl | hm'
                  · refine ⟨⟨by simp only; omega, ?_⟩, by simp only [endBit]; omega⟩
                    intro i' w'' hi
                    simp at hi
                    simp only; omega
                  · exact h.bound m' (by rw [h1]; exact hm')
                · intro u hu'
                  simp only at hu'
                  obtain rfl : d.size = u := by first | (rw [hun] at hu'; simpa using hu') | simpa using hu'
                  refine ⟨by simp only; omega, .inr ⟨_, _, s.bitIndex, w+1, rfl, rfl, rfl, by simp, ?_⟩⟩
                  intro m' hm'
                  rcases List.mem_cons.1 hm' with rfl | hm'
                  · simp only [endBit]; omega
                  · have := h5 m' (by rw [h1]; exact hm')
                    simp only; omega
                · simpa [unitOf, hun, hn, hmem] using hanon'
        · -- new unit
          have hanon' : (d.named = true ∨ s.members = []) ∧
              AnonOk (some (d.size, w+1)) (decide (s.members = []) && !d.named) ds := by
            cases hun : s.unit with
            | none => simpa [unitOf, hun] using hanon
            | some u =>
              have hcond : ¬ (u = d.size ∧ s.bitIndex + (w+1) ≤ 8 * d.size) := by
                rintro ⟨rfl, h2⟩; exact hsame ⟨hun, by omega⟩
              simpa [unitOf, hun, hcond] using hanon
          simp only [hsame, if_false, false_and, decide_false]
          cases hn : d.named with
          | true =>
            simp only [if_true]
            obtain ⟨s', h1, h2, h3, h4, h5⟩ := place_new c hc hu { s with unit := some d.size, bitIndex := w+1 } d hd
              (some (0, w+1)) (by rintro i w' h; simp at h; omega) h.pow h.order h.bound
              (by intro u hu'; simp at hu'; subst hu'; exact ⟨rfl, by simp only; omega, 0, w+1, rfl, by simp, by simp⟩)
            refine ⟨s', h1, h2, ?_⟩
            simp only [unitOf, h4, h5, h3, Option.map_some, decide_false]
            simpa [hn] using hanon'.2
          | false =>
            have hmem : s.members = [] := by
              rcases hanon'.1 with h | h
              · rw [hn] at h; exact absurd h (by simp)
              · exact h
            refine ⟨_, rfl, ⟨h.pow, h.order, h.bound, ?_⟩, ?_⟩
            · intro u hu'
              simp at hu'
              subst hu'
              exact ⟨by simp only; omega, .inl hmem⟩
            · simpa [unitOf, hn, hmem] using hanon'.2

theorem run_binv (c : Config) (hc : ConfigOk c) (hu : c.isUnion = false) (ds : List Decl) :
    ∀ s : State, (∀ d ∈ ds, DeclOk d) → BInv s → AnonOk (unitOf s) (decide (s.members = [])) ds →
    run c s ds = .error ∨ ∃ s', run c s ds = .ok s' ∧ BInv s' := by
  induction ds with
  | nil => intro s _ h _; exact .inr ⟨s, rfl, h⟩
  | cons d ds ih =>
    intro s hd h ha
    rcases step_binv c hc hu s d ds (hd d (List.mem_cons_self ..)) h ha with he | ⟨s', h1, h2, h3⟩
    · left; unfold run; rw [he]
    · unfold run; rw [h1]
      exact ih s' (fun d hd' => hd d (List.mem_cons_of_mem _ hd')) h2 h3

theorem binv_init (c : Config) (hc : ConfigOk c) : BInv { align := c.declspecAlign } :=
  ⟨hc.1, by simp, by simp, by simp⟩

end Verif.Layout
