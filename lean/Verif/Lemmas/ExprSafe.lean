import Verif.Lemmas.ExprStore

/-!
# Lemmas: emission does not fail

Whether a node can be emitted depends on the sizes and the kinds of the operands on the stack of locations, not on their values.
-/
namespace Verif.Lemmas.ExprSafe
open Verif.IntType Verif.Fold Verif.RegAlloc Verif.ExprCode Verif.Props.RegAlloc Verif.Spec.X64 Verif.Spec.ExprCode Verif.Spec.IntType
open Verif.Lemmas.ExprCode Verif.Lemmas.ExprSem Verif.Lemmas.ExprRun
open Verif.Spec.RegAlloc (Values create)
open Verif.Lemmas.Call (Moved lt_count Nothing create_same)

/-- What is known of an operand: a value (with its size, whether it may be an immediate, whether it can be assigned to), a condition in the flags, or
something that can only be dropped. -/
inductive Ent
  | val (size : Nat) (imm lv : Bool)
  | cond
  | any

def OpOK (m : Machine) (A : Values) (o : Opnd) : Ent → Prop
  | .val s imm lv => Usable [] m A o ∧ sizeA A o = s ∧ (imm = false → notImm o) ∧ (lv = true → (∃ a, o = .mem a s) ∨ ∃ b, o = .deref b s)
  | .cond => ∃ c c', o = .cond c 4 ∧ Cond.negate c = some c'
  | .any => ∀ id, root o = some id → Live m id

def Ops (m : Machine) (A : Values) : List Opnd → List Ent → Prop
  | [], [] => True
  | o :: os, e :: es => OpOK m A o e ∧ Ops m A os es
  | _, _ => False

def Apart : List Opnd → Prop
  | [] => True
  | o :: os => (∀ o' ∈ os, ∀ id, root o = some id → root o' ≠ some id) ∧ Apart os

structure Safe (m : Machine) (A : Values) (stack : List Opnd) (es : List Ent) : Prop where
  good : Good [] m A
  ops : Ops m A stack es
  apart : Apart stack
  occ : ∀ r j, m.s.map r = some j → ∃ o ∈ stack, root o = some j

theorem OpOK.live {m A o e} (h : OpOK m A o e) : ∀ id, root o = some id → Live m id := by
  cases e with
  | val => exact h.1.live
  | cond => obtain ⟨c, c', rfl, _⟩ := h; intro id h; cases h
  | any => exact h

theorem OpOK.frame {F m A m' A' o e} (h : OpOK m A o e) (hf : Frame F m A m' A') (hF : ∀ id, root o = some id → ¬ F id) : OpOK m' A' o e := by
  cases e with
  | val s imm lv =>
    obtain ⟨h1, h2, h3⟩ := hf.usable (L' := []) h.1 hF (by simp)
    exact ⟨h1, h2.trans h.2.1, h.2.2⟩
  | cond => exact h
  | any => exact fun id hid => hf.live (h id hid) (hF id hid)

theorem Ops.frame {F m A m' A'} : ∀ {os es}, Ops m A os es → Frame F m A m' A' → (∀ o ∈ os, ∀ id, root o = some id → ¬ F id) → Ops m' A' os es
  | [], [], _, _, _ => trivial
  | o :: os, e :: es, h, hf, hF => ⟨h.1.frame hf (hF o (by simp)), Ops.frame h.2 hf (fun o' ho => hF o' (by simp [ho]))⟩
  | [], _ :: _, h, _, _ => h.elim
  | _ :: _, [], h, _, _ => h.elim

theorem Ops.live {m A} : ∀ {os es}, Ops m A os es → ∀ o ∈ os, ∀ id, root o = some id → Live m id
  | [], _, _, o, ho => by cases ho
  | o :: os, e :: es, h, o', ho => by
    rcases List.mem_cons.1 ho with rfl | ho
    · exact h.1.live
    · exact Ops.live h.2 o' ho
  | _ :: _, [], h, _, _ => h.elim

theorem Ops.len {m A} : ∀ {os es}, Ops m A os es → os.length = es.length
  | [], [], _ => rfl
  | _ :: os, _ :: es, h => by simp [Ops.len h.2]
  | [], _ :: _, h => h.elim
  | _ :: _, [], h => h.elim

/-- The operands below those that an operation uses up. -/
structure Under (R : Nat → Prop) (m : Machine) (A : Values) (os : List Opnd) (es : List Ent) : Prop where
  good : Good [] m A
  ops : Ops m A os es
  apart : Apart os
  other : ∀ o ∈ os, ∀ id, root o = some id → ¬ R id
  occ : ∀ r j, m.s.map r = some j → R j ∨ ∃ o ∈ os, root o = some j

theorem Safe.zero {m A os es} (h : Safe m A os es) : Under Nothing m A os es :=
  ⟨h.good, h.ops, h.apart, fun _ _ _ _ h => h, fun r j hj => .inr (h.occ r j hj)⟩

theorem Safe.one {m A o os e es} (h : Safe m A (o :: os) (e :: es)) : Under (fun j => root o = some j) m A os es := by
  refine ⟨h.good, h.ops.2, h.apart.2, fun o' ho id hid hr => h.apart.1 o' ho id hr hid, fun r j hj => ?_⟩
  obtain ⟨o', ho, hr⟩ := h.occ r j hj
  rcases List.mem_cons.1 ho with rfl | ho
  · exact .inl hr
  · exact .inr ⟨o', ho, hr⟩

theorem Safe.two {m A r l os e f es} (h : Safe m A (r :: l :: os) (e :: f :: es)) : Under (fun j => root l = some j ∨ root r = some j) m A os es := by
  refine ⟨h.good, h.ops.2.2, h.apart.2.2, ?_, fun i j hj => ?_⟩
  · rintro o' ho id hid (hr | hr)
    · exact h.apart.2.1 o' ho id hr hid
    · exact h.apart.1 o' (by simp [ho]) id hr hid
  · obtain ⟨o', ho, hr⟩ := h.occ i j hj
    simp only [List.mem_cons] at ho
    rcases ho with rfl | rfl | ho
    · exact .inl (.inr hr)
    · exact .inl (.inl hr)
    · exact .inr ⟨o', ho, hr⟩

theorem Safe.disjoint {m A r l os e f es} (h : Safe m A (r :: l :: os) (e :: f :: es)) : ∀ id, root l = some id → root r ≠ some id :=
  fun id hl hr => h.apart.1 l (by simp) id hr hl

theorem Safe.swap {m A a b os e f es} (h : Safe m A (a :: b :: os) (e :: f :: es)) : Safe m A (b :: a :: os) (f :: e :: es) := by
  refine ⟨h.good, ⟨h.ops.2.1, h.ops.1, h.ops.2.2⟩, ⟨?_, fun o ho => h.apart.1 o (by simp [ho]), h.apart.2.2⟩, fun r j hj => ?_⟩
  · intro o ho id hb
    rcases List.mem_cons.1 ho with rfl | ho
    · exact fun ha => h.disjoint id hb ha
    · exact h.apart.2.1 o ho id hb
  · obtain ⟨o, ho, hr⟩ := h.occ r j hj
    refine ⟨o, ?_, hr⟩
    simp only [List.mem_cons] at ho ⊢
    rcases ho with h | h | h
    · exact .inr (.inl h)
    · exact .inl h
    · exact .inr (.inr h)

theorem Under.push {R m A os es o m' A' e} (h : Under R m A os es) (hg : Good [] m' A') (hf : Frame R m A m' A') (ho : OpOK m' A' o e)
    (hfresh : ∀ id, root o = some id → R id ∨ A.count ≤ id) (hocc : ∀ r j, m'.s.map r = some j → root o = some j ∨ (m.s.map r = some j ∧ ¬ R j)) :
    Safe m' A' (o :: os) (e :: es) := by
  refine ⟨hg, ⟨ho, h.ops.frame hf h.other⟩, ⟨?_, h.apart⟩, ?_⟩
  · intro o' ho' id hid hid'
    rcases hfresh id hid with hr | hc
    · exact h.other o' ho' id hid' hr
    · have := Live.lt h.good.inv (h.ops.live o' ho' id hid'); omega
  · intro r j hj
    rcases hocc r j hj with h1 | ⟨h1, h2⟩
    · exact ⟨o, by simp, h1⟩
    · rcases h.occ r j h1 with h3 | ⟨o', h3, h4⟩
      · exact absurd h3 h2
      · exact ⟨o', by simp [h3], h4⟩

theorem Under.out {R m A os es o m' A' size w} (h : Under R m A os es) (ho : Out [] R m A o m' A' size w) (hn : notImm o) :
    Safe m' A' (o :: os) (.val size false false :: es) :=
  h.push ho.good ho.frame ⟨ho.usable, ho.size, fun _ => hn, fun h => by cases h⟩ ho.fresh ho.occ

theorem Under.gone {R m A os es m' A'} (h : Under R m A os es) (hg : Good [] m' A') (hf : Frame R m A m' A')
    (hocc : ∀ r j, m'.s.map r = some j → m.s.map r = some j ∧ ¬ R j) : Safe m' A' os es := by
  refine ⟨hg, h.ops.frame hf h.other, h.apart, fun r j hj => ?_⟩
  obtain ⟨h1, h2⟩ := hocc r j hj
  rcases h.occ r j h1 with h3 | h3
  · exact absurd h3 h2
  · exact h3

theorem Safe.idle {m A} (h : Safe m A [] []) : Idle m := by
  intro r
  cases hm : m.s.map r with
  | none => rfl
  | some j => obtain ⟨o, ho, _⟩ := h.occ r j hm; cases ho

/-! ## What a node expects -/

/-- The sizes before and after a cast. -/
def CastOK (s t : Nat) : Cast.Kind → Prop
  | .none => False
  | .truncate n => n / 8 = t ∧ okSize t = true ∧ t ≤ s
  | .signExtend a b | .zeroExtend a b => a / 8 = s ∧ b / 8 = t ∧ okSize t = true
  | .toBool => t = 1

/-- What becomes of a condition. -/
def settled (next : Option Ir) : Ent := if next = none ∨ fuses next = true then .cond else .val 4 false false

/-- The node can be emitted for such operands, and what is on the stack afterwards. -/
inductive Takes (next : Option Ir) : Ir → List Ent → List Ent → Prop
  | literal {l es} (h : es.length < 256) (hl : isInteger l.ty) : Takes next (.literal l) es (.val (l.ty.bits / 8) true false :: es)
  | identifier {a size es} (h : es.length < 256) (hs : okSize size = true) : Takes next (.identifier a size) es (.val size false true :: es)
  | pointer {p size es} (h : es.length < 256) (hs : okSize size = true) : Takes next (.pointerLiteralDeref p size) es (.val size false true :: es)
  | deref {size imm lv es} (hs : okSize size = true) : Takes next (.deref size) (.val 8 imm lv :: es) (.val size false true :: es)
  | cast {k s t lv es} (h : CastOK s t k) : Takes next (.cast false k) (.val s false lv :: es) (.val t false false :: es)
  | castLhs {k s t lv e es} (h : CastOK s t k) : Takes next (.cast true k) (e :: .val s false lv :: es) (e :: .val t false false :: es)
  | bitwiseNot {s imm lv es} (h : wideSize s = true) : Takes next .bitwiseNot (.val s imm lv :: es) (.val s false false :: es)
  | negate {s imm lv es} (h : wideSize s = true) : Takes next .negate (.val s imm lv :: es) (.val s false false :: es)
  | logicalNot {e es} (h : e ≠ .any) : Takes next .logicalNot (e :: es) (settled next :: es)
  | compare {op t s i i' lv lv' es} (h : wideSize s = true) :
      Takes next (.compare (Cond.select op t)) (.val s i lv :: .val s i' lv' :: es) (settled next :: es)
  | mulDiv {k sgn s i i' lv lv' es} (h : wideSize s = true) : Takes next (.mulDiv k sgn) (.val s i lv :: .val s i' lv' :: es) (.val s false false :: es)
  | binary {op s i i' lv lv' es} (h : wideSize s = true) (hop : op = .add ∨ op = .sub ∨ op = .and ∨ op = .or ∨ op = .xor) :
      Takes next (.binary op) (.val s i lv :: .val s i' lv' :: es) (.val s false false :: es)
  | shift {left sgn s i i' lv lv' es} (h : wideSize s = true) :
      Takes next (.shift left sgn) (.val 1 i lv :: .val s i' lv' :: es) (.val s false false :: es)
  | store {s i i' lv} : Takes next .store [.val s i lv, .val s i' true] [.any]
  | pop {e es} : Takes next .pop (e :: es) es
  | jumpIf {b l e} (h : e ≠ .any) : Takes next (.jumpIf b l) [e] []
  | ret {s i lv} : Takes next .ret [.val s i lv] []
  | retVoid : Takes next .retVoid [] []
  | jump {l} : Takes next (.jump l) [] []
  | label {l} : Takes next (.label l) [] []

theorem codes {c c'} (h : Cond.negate c = some c') : (∃ o, Cond.setOpcode c = some o) ∧ ∀ b, ∃ o, Cond.jumpOpcode b c = some o := by
  unfold Cond.negate at h
  split at h <;> first | (cases h; done) | (refine ⟨⟨_, rfl⟩, fun b => ?_⟩; cases b <;> exact ⟨_, rfl⟩)

/-- A condition is loaded, or left for the next node. -/
theorem settle_safe {m A os es c c'} (next : Option Ir) (h : Safe m A os es) (hc : Cond.negate c = some c') :
    ∃ o m' A', settle m next c = some (o, m') ∧ Safe m' A' (o :: os) (settled next :: es) := by
  unfold settle settled
  by_cases hn : next = none ∨ fuses next = true
  · rw [if_pos hn, if_pos hn]
    exact ⟨_, m, A, rfl, h.zero.push h.good Frame.refl ⟨c, c', rfl, hc⟩ (by simp [root]) (fun r j hj => .inr ⟨hj, fun h => h⟩)⟩
  · rw [if_neg hn, if_neg hn]
    obtain ⟨⟨o, ho⟩, _⟩ := codes hc
    obtain ⟨id, m', A', h1, h2⟩ := condLoad_total (c := c) (size := 4) h.good (.inl rfl) (show condHolds m c = some _ by unfold condHolds; rw [ho]; rfl)
    rw [h1]
    exact ⟨_, m', A', rfl, h.zero.out (h2.out rfl (by split <;> decide)) trivial⟩

/-- The condition of a jump or of `!`. -/
theorem cond_safe {m A o os e es} (h : Safe m A (o :: os) (e :: es)) (he : e ≠ .any) :
    ∃ c c' m' A', condOf m o = some (c, m') ∧ Cond.negate c = some c' ∧ Safe m' A' os es := by
  cases e with
  | any => exact absurd rfl he
  | cond =>
    obtain ⟨c, c', rfl, hc⟩ := h.ops.1
    exact ⟨c, c', m, A, rfl, hc, h.one.gone h.good Frame.refl (fun r j hj => ⟨hj, by simp [root]⟩)⟩
  | val s imm lv =>
    obtain ⟨m', A', h1, h2, _⟩ := condOf_total h.good h.ops.1.1
    exact ⟨2, 1, m', A', h1, rfl, h.one.gone h2.good h2.frame h2.occ⟩

theorem cast_safe {m A o os es k s t lv} (h : Safe m A (o :: os) (.val s false lv :: es)) (hk : CastOK s t k) :
    ∃ o' m' A', castOpnd m k o = some (o', m') ∧ Safe m' A' (o' :: os) (.val t false false :: es) := by
  obtain ⟨hu, hs, hn, _⟩ := h.ops.1
  cases k with
  | none => exact hk.elim
  | truncate n =>
    obtain ⟨rfl, h2, h3⟩ := hk
    obtain ⟨o', m', A', e1, e2, e3⟩ := truncate_total h.good hu (hn rfl) h2 (by rw [hs]; exact h3)
    exact ⟨o', m', A', e1, h.one.out e3 e2⟩
  | signExtend a b =>
    obtain ⟨rfl, rfl, h3⟩ := hk
    obtain ⟨id, m', A', _, _, e1, _, e3⟩ := integerCast_total true h.good hu (hn rfl) hs h3
    exact ⟨_, m', A', e1, h.one.out e3 trivial⟩
  | zeroExtend a b =>
    obtain ⟨rfl, rfl, h3⟩ := hk
    obtain ⟨id, m', A', _, _, e1, _, e3⟩ := integerCast_total false h.good hu (hn rfl) hs h3
    exact ⟨_, m', A', e1, h.one.out e3 trivial⟩
  | toBool =>
    cases hk
    obtain ⟨id, m', A', e1, e3⟩ := toBool_total h.good hu
    exact ⟨_, m', A', e1, h.one.out e3 trivial⟩

/-- The unsigned type of a size. -/
theorem size_type {n} (h : okSize n = true) : ∃ t : Ty, isInteger t ∧ n = t.bits / 8 ∧ ∀ x, x < 256 ^ n → Props.Cast.Holds t x (x : Nat) := by
  have key : ∀ t : Ty, isInteger t → maxVal t = 2 ^ t.bits - 1 → minVal t = 0 → ∀ x, x < 2 ^ t.bits → Props.Cast.Holds t x (x : Nat) := by
    intro t ht h1 h2 x hx
    refine ⟨ht, ⟨by rw [h2]; omega, ?_⟩, by simp⟩
    rw [h1]
    have : (x : Int) < ((2 ^ t.bits : Nat) : Int) := by exact_mod_cast hx
    rw [Int.natCast_pow] at this
    have e : ((2 : Nat) : Int) = 2 := rfl
    rw [e] at this
    omega
  rcases ok_cases h with rfl | rfl | rfl | rfl
  · exact ⟨.u8, trivial, rfl, fun x hx => key .u8 trivial rfl rfl x hx⟩
  · exact ⟨.u16, trivial, rfl, fun x hx => key .u16 trivial rfl rfl x hx⟩
  · exact ⟨.u32, trivial, rfl, fun x hx => key .u32 trivial rfl rfl x hx⟩
  · exact ⟨.u64, trivial, rfl, fun x hx => key .u64 trivial rfl rfl x hx⟩

theorem store_safe {m A r l s i i' lv} (h : Safe m A [r, l] [.val s i lv, .val s i' true]) :
    ∃ o m' A', storeOp m l r = some (o, m') ∧ Safe m' A' [o] [.any] := by
  obtain ⟨hr, hsr, _⟩ := h.ops.1
  obtain ⟨hl, hsl, _, hd⟩ := h.ops.2.1
  obtain ⟨t, ht, hst, hval⟩ := size_type (hsr ▸ hr.wf.ok)
  have hv : Val m A r t (valA A m.bytes r : Nat) := ⟨hr, hsr.trans hst, hval _ (hsr ▸ valA_lt hr.wf)⟩
  have ha : ∃ a, Addr m A l t a := by
    rcases hd rfl with ⟨a, rfl⟩ | ⟨b, rfl⟩
    · exact ⟨a, .inl (by rw [hst])⟩
    · have hb : Usable [] m A b := ⟨hl.wf.2.1, hl.live, by simp⟩
      refine ⟨_, .inr ⟨b, ((valA A m.bytes b : Nat) : Int), by rw [hst], ⟨hb, hl.wf.2.2, ?_⟩, rfl⟩⟩
      obtain ⟨_, _, e, hh⟩ := size_type (n := 8) rfl
      have hlt := valA_lt (bytes := m.bytes) hb.wf
      rw [show sizeA A b = 8 from hl.wf.2.2] at hlt
      refine ⟨trivial, ⟨by simp [minVal], ?_⟩, by simp⟩
      simp only [maxVal]
      omega
  obtain ⟨a, ha⟩ := ha
  obtain ⟨o, m', A', e1, e2, _, e4, e5⟩ := store_total h.good ha hv h.disjoint (fun i j hj => by
    obtain ⟨o, ho, hj'⟩ := h.occ i j hj
    simp only [List.mem_cons, List.not_mem_nil, or_false] at ho
    rcases ho with rfl | rfl
    · exact .inr hj'
    · exact .inl hj')
  exact ⟨o, m', A', e1, e2, ⟨e4, trivial⟩, ⟨by simp, trivial⟩, fun r j hj => ⟨o, by simp, e5 r j hj⟩⟩

theorem Ops.cons {m A} : ∀ {os e es}, Ops m A os (e :: es) → ∃ o os', os = o :: os'
  | [], _, _, h => h.elim
  | o :: os, _, _, _ => ⟨o, os, rfl⟩

theorem Ops.nil {m A} : ∀ {os}, Ops m A os [] → os = []
  | [], _ => rfl
  | _ :: _, h => h.elim

/-- Pushing an operand that needs no register. -/
theorem push_safe {m A os es o e taken} (h : Safe m A os es) (hl : es.length < 256) (ho : OpOK m A o e) (hr : root o = none) :
    push ⟨m, os, taken⟩ o = some ⟨m, o :: os, taken⟩ ∧ Safe m A (o :: os) (e :: es) := by
  refine ⟨?_, h.zero.push h.good Frame.refl ho (fun id hid => by rw [hr] at hid; cases hid) (fun r j hj => .inr ⟨hj, fun h => h⟩)⟩
  unfold push
  dsimp only
  rw [if_pos (by rw [h.ops.len]; exact hl)]

/-- A node can be emitted. -/
theorem takes_total {inst : MulKind → Bool → Nat → Nat → Nat → Nat → Option (Nat × Nat)} (hinst : ∀ k sgn n a b c, ∃ p, inst k sgn n a b c = some p)
    {next ir es es' m A os} (taken : Option Bool) (ht : Takes next ir es es') (h : Safe m A os es) :
    ∃ st' A', emitWith inst next ir ⟨m, os, taken⟩ = some st' ∧ Safe st'.m A' st'.stack es' := by
  cases ht with
  | @literal l _ hl hi =>
    obtain ⟨h1, h2⟩ := push_safe (taken := taken) (o := .imm (litBytes l) (l.ty.bits / 8)) (e := .val (l.ty.bits / 8) true false) h hl
      ⟨⟨size_ok hi, by simp [root], by simp⟩, rfl, (fun h => by cases h), (fun h => by cases h)⟩ rfl
    exact ⟨_, A, h1, h2⟩
  | @identifier a size _ hl hs =>
    obtain ⟨h1, h2⟩ := push_safe (taken := taken) (o := .mem a size) (e := .val size false true) h hl
      ⟨⟨hs, by simp [root], by simp⟩, rfl, fun _ => trivial, fun _ => .inl ⟨a, rfl⟩⟩ rfl
    exact ⟨_, A, h1, h2⟩
  | @pointer p size _ hl hs =>
    obtain ⟨h1, h2⟩ := push_safe (taken := taken) (o := .deref (.imm p 8) size) (e := .val size false true) h hl
      ⟨⟨⟨hs, (rfl : okSize 8 = true), rfl⟩, by simp [root], by simp⟩, rfl, fun _ => trivial, fun _ => .inr ⟨_, rfl⟩⟩ rfl
    exact ⟨_, A, h1, h2⟩
  | @deref size imm lv es hs =>
    obtain ⟨o, os, rfl⟩ := h.ops.cons
    obtain ⟨hu, hsz, _⟩ := h.ops.1
    exact ⟨_, A, rfl, h.good, ⟨⟨⟨⟨hs, hu.wf, hsz⟩, hu.live, by simp⟩, rfl, fun _ => trivial, fun _ => .inr ⟨_, rfl⟩⟩, h.ops.2⟩, ⟨h.apart.1, h.apart.2⟩, fun r j hj => by
      obtain ⟨o', ho, hr⟩ := h.occ r j hj
      rcases List.mem_cons.1 ho with rfl | ho
      · exact ⟨.deref _ size, List.mem_cons_self, hr⟩
      · exact ⟨o', by simp [ho], hr⟩⟩
  | @cast k s t lv es hk =>
    obtain ⟨o, os, rfl⟩ := h.ops.cons
    obtain ⟨o', m', A', h1, h2⟩ := cast_safe h hk
    refine ⟨⟨m', o' :: os, taken⟩, A', ?_, h2⟩
    show (castOpnd m k o).map _ = _
    rw [h1]; rfl
  | @castLhs k s t lv e es hk =>
    obtain ⟨o, os, rfl⟩ := h.ops.cons
    obtain ⟨l, os, rfl⟩ := h.ops.2.cons
    obtain ⟨l', m', A', h1, h2⟩ := cast_safe h.swap hk
    refine ⟨⟨m', o :: l' :: os, taken⟩, A', ?_, h2.swap⟩
    show (castOpnd m k l).map _ = _
    rw [h1]; rfl
  | bitwiseNot hs =>
    obtain ⟨o, os, rfl⟩ := h.ops.cons
    obtain ⟨hu, rfl, _⟩ := h.ops.1
    obtain ⟨id, m', A', x, h1, _, h2⟩ := unaryOp_total Spec.ExprCode.not h.good hu hs
    refine ⟨⟨m', .loc id :: os, taken⟩, A', ?_, h.one.out h2 trivial⟩
    show (unaryOp m _ o).map _ = _
    rw [h1]; rfl
  | negate hs =>
    obtain ⟨o, os, rfl⟩ := h.ops.cons
    obtain ⟨hu, rfl, _⟩ := h.ops.1
    obtain ⟨id, m', A', x, h1, _, h2⟩ := unaryOp_total neg h.good hu hs
    refine ⟨⟨m', .loc id :: os, taken⟩, A', ?_, h.one.out h2 trivial⟩
    show (unaryOp m _ o).map _ = _
    rw [h1]; rfl
  | logicalNot he =>
    obtain ⟨o, os, rfl⟩ := h.ops.cons
    obtain ⟨c, c', m1, A1, h1, h2, h3⟩ := cond_safe h he
    obtain ⟨c'', hc''⟩ := negate_negatable h2
    obtain ⟨o', m', A', h4, h5⟩ := settle_safe next h3 hc''
    refine ⟨⟨m', o' :: os, taken⟩, A', ?_, h5⟩
    show (condOf m o).bind _ = _
    rw [h1, Option.bind_some]
    dsimp only
    rw [h2, Option.bind_some, h4]; rfl
  | @compare op t s i i' lv lv' es hs =>
    obtain ⟨r, os, rfl⟩ := h.ops.cons
    obtain ⟨l, os, rfl⟩ := h.ops.2.cons
    obtain ⟨hr, rfl, _⟩ := h.ops.1
    obtain ⟨hl, hsl, _⟩ := h.ops.2.1
    obtain ⟨m1, A1, h1, h2, _⟩ := compare_total h.good hl hr h.disjoint hsl hs
    have hd : ∃ t' cc, Cond.decodeIr (Cond.select op t) = some (t', cc) := by cases op <;> cases t <;> exact ⟨_, _, rfl⟩
    obtain ⟨t', cc, hd⟩ := hd
    obtain ⟨cc', hn⟩ := select_negatable hd
    obtain ⟨o', m', A', h4, h5⟩ := settle_safe next (h.two.gone h2.good h2.frame h2.occ) hn
    refine ⟨⟨m', o' :: os, taken⟩, A', ?_, h5⟩
    show (Cond.decodeIr _).bind _ = _
    rw [hd, Option.bind_some]
    dsimp only
    have e : ∀ (f : Machine → Option St), (binaryOp m none l r).bind (fun (n, m) => (freeLoc m n).bind f) =
        ((binaryOp m none l r).bind (fun (n, m) => freeLoc m n)).bind f := by
      intro f; cases binaryOp m none l r <;> rfl
    rw [e, h1, Option.bind_some, h4]
    rfl
  | @mulDiv k sgn s i i' lv lv' es hs =>
    obtain ⟨r, os, rfl⟩ := h.ops.cons
    obtain ⟨l, os, rfl⟩ := h.ops.2.cons
    obtain ⟨hr, rfl, _⟩ := h.ops.1
    obtain ⟨hl, hsl, _⟩ := h.ops.2.1
    obtain ⟨id, m', A', _, _, _, _, _, h1, _, _, _, _, _, h2⟩ := mulDiv_total (inst k sgn) k sgn h.good hl hr h.disjoint hsl hs
      (fun _ _ _ _ _ _ _ _ => hinst ..)
    refine ⟨⟨m', .loc id :: os, taken⟩, A', ?_, h.two.out h2 trivial⟩
    show (mulDivWith (inst k sgn) m k sgn l r).map _ = _
    rw [h1]; rfl
  | @binary op s i i' lv lv' es hs hop =>
    obtain ⟨r, os, rfl⟩ := h.ops.cons
    obtain ⟨l, os, rfl⟩ := h.ops.2.cons
    obtain ⟨hr, rfl, _⟩ := h.ops.1
    obtain ⟨hl, hsl, _⟩ := h.ops.2.1
    obtain ⟨id, m', A', _, _, _, h1, _, _, _, h2⟩ := binaryOp_total op h.good hl hr h.disjoint hsl hs hop
    refine ⟨⟨m', .loc id :: os, taken⟩, A', ?_, h.two.out h2 trivial⟩
    show (binaryOp m (some op) l r).map _ = _
    rw [h1]; rfl
  | @shift left sgn s i i' lv lv' es hs =>
    obtain ⟨r, os, rfl⟩ := h.ops.cons
    obtain ⟨l, os, rfl⟩ := h.ops.2.cons
    obtain ⟨hr, h1', _⟩ := h.ops.1
    obtain ⟨hl, rfl, _⟩ := h.ops.2.1
    obtain ⟨id, m', A', _, _, h1, _, _, h2⟩ := shiftOp_total left sgn h.good hl hr h.disjoint hs h1'
    refine ⟨⟨m', .loc id :: os, taken⟩, A', ?_, h.two.out h2 trivial⟩
    show (shiftOp m left sgn l r).map _ = _
    rw [h1]; rfl
  | store =>
    obtain ⟨r, os, rfl⟩ := h.ops.cons
    obtain ⟨l, os, rfl⟩ := h.ops.2.cons
    cases h.ops.2.2.nil
    obtain ⟨o, m', A', h1, h2⟩ := store_safe h
    refine ⟨⟨m', [o], taken⟩, A', ?_, h2⟩
    show (storeOp m l r).map _ = _
    rw [h1]; rfl
  | pop =>
    obtain ⟨o, os, rfl⟩ := h.ops.cons
    obtain ⟨m', h1, h2, h3, h4, _⟩ := release_total o h.good h.ops.1.live
    refine ⟨⟨m', os, taken⟩, A, ?_, h.one.gone h2 h3 h4⟩
    show (release m o).map _ = _
    rw [h1]; rfl
  | @jumpIf b lab e he =>
    obtain ⟨o, os, rfl⟩ := h.ops.cons
    cases h.ops.2.nil
    obtain ⟨c, c', m1, A1, h1, h2, h3⟩ := cond_safe h he
    obtain ⟨_, ho⟩ := codes h2
    obtain ⟨op, ho⟩ := ho b
    refine ⟨⟨m1, [], some (Spec.Flags.holds m1.flags (op % 16))⟩, A1, ?_, h3⟩
    · show (condOf m o).bind _ = _
      rw [h1, Option.bind_some]
      dsimp only
      rw [show spillAll m1.s = some m1.s from idle_spill _ h3.idle, Option.bind_some, ho]
      rfl
  | ret =>
    obtain ⟨o, os, rfl⟩ := h.ops.cons
    cases h.ops.2.nil
    obtain ⟨hu, _⟩ := h.ops.1
    obtain ⟨id, m2, A2, h3, h4⟩ := emitLoad_total o (some rax) h.good hu (by simp) (by intro r h; cases h; rfl)
    obtain ⟨r, h5, h6, h7⟩ := h4.reg
    obtain ⟨m3, k1, k2, k3, k4, _⟩ := release_total (.loc id) h4.good (by
      intro j hj
      cases hj
      exact ⟨_, h5, by simp, by (intro r h; cases h; exact h6), rfl, rfl⟩)
    refine ⟨⟨m3, [], taken⟩, A2, ?_, k2, trivial, trivial, fun i j hj => ?_⟩
    · show (emitLoad o (some rax) m).bind _ = _
      rw [h3, Option.bind_some]
      show (freeLoc m2 id).map _ = _
      rw [show freeLoc m2 id = some m3 from k1]
      rfl
    · exfalso
      obtain ⟨q1, q2⟩ := k4 i j hj
      rcases h4.occ i j q1 with e | ⟨e1, e2⟩
      · subst e; exact absurd rfl q2
      · obtain ⟨o', ho', hr'⟩ := h.occ i j e1
        simp only [List.mem_cons, List.not_mem_nil, or_false] at ho'
        subst ho'
        exact e2 hr'
  | retVoid => exact ⟨_, A, by unfold emitWith; rfl, h⟩
  | jump => exact ⟨_, A, by unfold emitWith; rfl, h⟩
  | label => exact ⟨_, A, by unfold emitWith; rfl, h⟩

end Verif.Lemmas.ExprSafe
