import Verif.Lemmas.ExprSafe
import Verif.Spec.FuncCode

/-!
# Lemmas: the code of expressions and statements is well-typed

The nodes that are pushed for an expression find the operands that they expect.
-/
namespace Verif.Lemmas.ExprType
open Verif.IntType Verif.Fold Verif.ExprCode Verif.Spec.ExprCode Verif.Spec.IntType Verif.Spec.FuncCode
open Verif.Lemmas.ExprCode Verif.Lemmas.ExprSem Verif.Lemmas.ExprRun Verif.Lemmas.ExprSafe

/-- All nodes can be emitted. -/
inductive Checks : List Ir → List Ent → List Ent → Prop
  | nil {es} : Checks [] es es
  | cons {ir rest es es1 es2} (h : Takes rest.head? ir es es1) (hr : Checks rest es1 es2) : Checks (ir :: rest) es es2

/-- The operand of size `size` is pushed, or a condition if the next node uses the flags. -/
def CodeT (size : Nat) (c : List Ir) (n : Nat) (lv : Bool) : Prop :=
  Plain c ∧ ∀ rest es es', es.length + n ≤ 256 → (∀ e, e = .val size false lv ∨ (¬ Plain rest ∧ e = .cond) → Checks rest (e :: es) es') →
    Checks (c ++ rest) es es'

def LowT (low : Low) (n : Nat) : Prop :=
  match low with
  | .lit l => isInteger l.ty
  | .code t c => isInteger t ∧ ∃ lv, CodeT (t.bits / 8) c n lv

/-- The operand is pushed before a node that does not use the flags. -/
def PushT (size : Nat) (c : List Ir) (n : Nat) (imm lv : Bool) : Prop :=
  Plain c ∧ ∀ rest es es', es.length + n ≤ 256 → Plain rest → Checks rest (.val size imm lv :: es) es' → Checks (c ++ rest) es es'

theorem CodeT.push {size c n lv} (h : CodeT size c n lv) : PushT size c n false lv := by
  refine ⟨h.1, fun rest es es' hs hp hc => h.2 rest es es' hs fun e he => ?_⟩
  rcases he with rfl | ⟨h1, _⟩
  · exact hc
  · exact absurd hp h1

theorem LowT.int {low n} (h : LowT low n) : isInteger low.ty := by
  cases low with
  | lit => exact h
  | code => exact h.1

theorem kind_none {s t} (hs : isInteger s) (ht : isInteger t) (h : Cast.kind s t = .none) : s.bits = t.bits := by
  cases s <;> cases t <;> first | rfl | exact absurd hs id | exact absurd ht id | (revert h; decide)

theorem castOK {s t} (hs : isInteger s) (ht : isInteger t) (h : Cast.kind s t ≠ .none) : CastOK (s.bits / 8) (t.bits / 8) (Cast.kind s t) := by
  cases s <;> cases t <;> first
    | exact absurd hs id
    | exact absurd ht id
    | exact absurd rfl h
    | exact ⟨rfl, rfl, rfl⟩
    | exact ⟨rfl, rfl, by decide⟩
    | exact rfl

theorem lit_push {l n} (h : isInteger l.ty) (hn : 1 ≤ n) : PushT (l.ty.bits / 8) [.literal l] n true false :=
  ⟨plain_cons rfl, fun _ _ _ hs _ hc => .cons (.literal (by omega) h) hc⟩

theorem castLit_ty (t : Ty) (l : Lit) : (castLit t l).ty = t := by
  unfold castLit
  split
  · rename_i h; exact h.symm
  · split <;> rfl

/-- A cast at the end. -/
theorem cast_codeT {s t c n lv} (hs : isInteger s) (ht : isInteger t) (h : CodeT (s.bits / 8) c n lv) :
    ∃ lv, CodeT (t.bits / 8) (c ++ castIr false s t) n lv := by
  unfold castIr
  by_cases hk : Cast.kind s t = .none
  · rw [if_pos hk, List.append_nil]
    rw [kind_none hs ht hk] at h
    exact ⟨lv, h⟩
  · rw [if_neg hk]
    refine ⟨false, h.1.append, fun rest es es' hl hc => ?_⟩
    rw [List.append_assoc]
    exact h.push.2 _ es es' hl (plain_cons rfl) (.cons (.cast (castOK hs ht hk)) (hc _ (.inl rfl)))

theorem castLow_T {low n t} (h : LowT low n) (ht : isInteger t) : LowT (castLow t low) n := by
  cases low with
  | lit l => show isInteger (castLit t l).ty; rw [castLit_ty]; exact ht
  | code s c =>
    obtain ⟨h1, lv, h2⟩ := h
    exact ⟨ht, cast_codeT h1 ht h2⟩

/-- The parts of a converted operand. -/
theorem convert_T {low n} (lhs : Bool) {c} (h : LowT low n) (hn : 1 ≤ n) (hc : isInteger c) :
    ∃ size imm lv, PushT size (convert lhs c low).1 n imm lv ∧
      (((convert lhs c low).2 = [] ∧ size = c.bits / 8) ∨ ∃ k, (convert lhs c low).2 = [.cast lhs k] ∧ imm = false ∧ CastOK size (c.bits / 8) k) ∧
      ∀ t irs, low = .code t irs → imm = false := by
  cases low with
  | lit l =>
    refine ⟨c.bits / 8, true, false, ?_, .inl ⟨rfl, rfl⟩, fun _ _ h => by cases h⟩
    have := lit_push (l := castLit c l) (n := n) (by rw [castLit_ty]; exact hc) hn
    rw [castLit_ty] at this
    exact this
  | code s irs =>
    obtain ⟨h1, lv, h2⟩ := h
    refine ⟨s.bits / 8, false, lv, h2.push, ?_, fun _ _ _ => rfl⟩
    show (castIr lhs s c = [] ∧ _) ∨ ∃ k, castIr lhs s c = _ ∧ _
    unfold castIr
    by_cases hk : Cast.kind s c = .none
    · rw [if_pos hk]
      exact .inl ⟨rfl, by rw [kind_none h1 hc hk]⟩
    · rw [if_neg hk]
      exact .inr ⟨_, rfl, rfl, castOK h1 hc hk⟩

theorem tail_plain {size imm c k lhs} {low : Low} {rest : List Ir} (h : ((convert lhs c low).2 = [] ∧ size = k) ∨ ∃ k', (convert lhs c low).2 = [.cast lhs k'] ∧ imm = false ∧ CastOK size k k')
    (hp : Plain rest) : Plain ((convert lhs c low).2 ++ rest) := by
  rcases h with ⟨h, _⟩ | ⟨k', h, _⟩
  · rw [h]; exact hp
  · rw [h]; exact plain_cons rfl

/-- Both operands of a binary operator, converted to `c` and `d`. -/
theorem two_T {l r n k c d} (hl : LowT l n) (hr : LowT r k) (hn : 1 ≤ n) (hk : 1 ≤ k) (hc : isInteger c) (hd : isInteger d) {rest : List Ir} {es es'}
    (hs : es.length + max n (k + 1) ≤ 256) (hp : Plain rest)
    (hrest : ∀ i i' lv lv', (∀ t irs, r = .code t irs → i = false) → Checks rest (.val (d.bits / 8) i lv :: .val (c.bits / 8) i' lv' :: es) es') :
    Checks ((convert true c l).1 ++ (convert false d r).1 ++ (convert true c l).2 ++ (convert false d r).2 ++ rest) es es' := by
  obtain ⟨s1, i1, v1, p1, q1, w1⟩ := convert_T true hl hn hc
  obtain ⟨s2, i2, v2, p2, q2, w2⟩ := convert_T false hr hk hd
  simp only [List.append_assoc]
  have b2 := tail_plain q2 hp
  have b1 := tail_plain q1 b2
  refine p1.2 _ es es' (by omega) p2.1.append (p2.2 _ _ es' (by simp; omega) b1 ?_)
  rcases q1 with ⟨q1, rfl⟩ | ⟨k1, q1, rfl, q1'⟩ <;> rcases q2 with ⟨q2, rfl⟩ | ⟨k2, q2, rfl, q2'⟩ <;> rw [q1, q2]
  · exact hrest _ _ _ _ w2
  · exact .cons (.cast q2') (hrest _ _ _ _ fun _ _ _ => rfl)
  · exact .cons (.castLhs q1') (hrest _ _ _ _ w2)
  · exact .cons (.castLhs q1') (.cons (.cast q2') (hrest _ _ _ _ fun _ _ _ => rfl))

theorem convert_plain {l n c} (lhs : Bool) (hl : LowT l n) (hn : 1 ≤ n) (hc : isInteger c) : Plain (convert lhs c l).1 := by
  obtain ⟨s1, i1, v1, p1, q1, w1⟩ := convert_T lhs hl hn hc
  exact p1.1

theorem not_plain_head {rest : List Ir} (h : rest.head? = none ∨ fuses rest.head? = true) : ¬ Plain rest := by
  rintro ⟨h1, h2⟩
  cases rest with
  | nil => exact h1 rfl
  | cons a b =>
    rcases h with h | h
    · cases h
    · rw [h] at h2; cases h2

theorem settled_ent (rest : List Ir) : settled rest.head? = .val 4 false false ∨ (¬ Plain rest ∧ settled rest.head? = .cond) := by
  unfold settled
  split
  · rename_i h; exact .inr ⟨not_plain_head h, rfl⟩
  · exact .inl rfl

theorem binary_T {l r n k c ir res low} (hl : LowT l n) (hr : LowT r k) (hn : 1 ≤ n) (hk : 1 ≤ k) (hres : isInteger (res.getD c))
    (hu : usualConversions l.ty r.ty = some c) (hp : ∀ c, fuses (some (ir c)) = false)
    (hir : ∀ (rest : List Ir) es es' i i' lv lv', Big c →
      (∀ e, e = .val ((res.getD c).bits / 8) false false ∨ (¬ Plain rest ∧ e = .cond) → Checks rest (e :: es) es') →
      Checks (ir c :: rest) (.val (c.bits / 8) i lv :: .val (c.bits / 8) i' lv' :: es) es')
    (h : lowerBinary ir res l r = some low) : LowT low (max n (k + 1)) := by
  have hb : Big c := (Fold.common_big hl.int hr.int hu).1
  unfold lowerBinary at h
  rw [hu] at h
  cases Option.some.inj h
  refine ⟨hres, false, ((((convert_plain true hl hn hb.int).append).append).append).append, fun rest es es' hs hc => ?_⟩
  rw [List.append_assoc]
  exact two_T hl hr hn hk hb.int hb.int hs (plain_cons (hp c)) fun i i' lv lv' _ => hir rest es es' i i' lv lv' hb hc

theorem arith_takes {op c next es i i' lv lv'} (hb : Big c) (hop : op ≠ .shl ∧ op ≠ .shr) :
    Takes next (arithIr op c) (.val (c.bits / 8) i lv :: .val (c.bits / 8) i' lv' :: es) (.val (c.bits / 8) false false :: es) := by
  cases op <;> first
    | exact absurd rfl hop.1
    | exact absurd rfl hop.2
    | exact .mulDiv hb.wide
    | exact .binary hb.wide (by simp)

theorem promote_int {t} (h : isInteger t) : Big (promote t) := by
  cases t <;> first | exact absurd h id | simp [promote, Big]

theorem u8_cast {p} (hp : Big p) : castIr false p .u8 = [.cast false (.truncate 8)] ∧ CastOK (p.bits / 8) 1 (.truncate 8) := by
  rcases hp with rfl | rfl | rfl | rfl <;> exact ⟨rfl, rfl, rfl, by decide⟩

theorem shift_T {l r n k op low} (hl : LowT l n) (hr : LowT r k) (hn : 1 ≤ n) (hk : 1 ≤ k) (hop : op = .shl ∨ op = .shr)
    (h : lowerShift op l r = some low) : LowT low (max n (k + 1)) := by
  have ht := promote_int hl.int
  have hu := promote_int hr.int
  have hsh : ∀ next es i i' lv lv', Takes next (arithIr op (promote l.ty)) (.val 1 i lv :: .val ((promote l.ty).bits / 8) i' lv' :: es)
      (.val ((promote l.ty).bits / 8) false false :: es) := by
    intro next es i i' lv lv'
    rcases hop with rfl | rfl <;> exact .shift ht.wide
  have hpl : fuses (some (arithIr op (promote l.ty))) = false := by rcases hop with rfl | rfl <;> rfl
  unfold lowerShift at h
  cases r with
  | lit r =>
    dsimp only [castLow] at h
    split at h
    · cases h
    · split at h
      · cases h
      · cases Option.some.inj h
        refine ⟨ht.int, false, (((convert_plain true hl hn ht.int).append).append).append, fun rest es es' hs hc => ?_⟩
        obtain ⟨s1, i1, v1, p1, q1, w1⟩ := convert_T true hl hn ht.int
        simp only [List.append_assoc]
        have b : Plain ([arithIr op (promote l.ty)] ++ rest) := plain_cons hpl
        refine p1.2 _ es es' (by omega) (plain_cons rfl) ?_
        refine .cons (.literal (by simp; omega) (by rw [castLit_ty]; trivial)) ?_
        rw [castLit_ty]
        rcases q1 with ⟨q1, rfl⟩ | ⟨k1, q1, rfl, q1'⟩ <;> rw [q1]
        · exact .cons (hsh ..) (hc _ (.inl rfl))
        · exact .cons (.castLhs q1') (.cons (hsh ..) (hc _ (.inl rfl)))
  | code s c =>
    dsimp only [castLow] at h
    cases Option.some.inj h
    refine ⟨ht.int, false, (((((convert_plain true hl hn ht.int).append).append).append).append).append, fun rest es es' hs hc => ?_⟩
    obtain ⟨e1, e2⟩ := u8_cast hu
    change castIr false (promote s) .u8 = _ at e1
    change CastOK ((promote s).bits / 8) _ _ at e2
    change Checks (_ ++ castIr false (promote s) .u8 ++ _ ++ rest) es es'
    rw [e1, List.append_assoc, List.append_assoc]
    refine two_T hl hr hn hk ht.int hu.int hs (plain_cons rfl) fun i i' lv lv' hi => ?_
    cases hi s c rfl
    exact .cons (.cast e2) (.cons (hsh ..) (hc _ (.inl rfl)))

/-! ## Folded literals -/

theorem promoteLit_int {l} (h : isInteger l.ty) : isInteger (promoteLit l).ty := by
  unfold promoteLit
  split
  · exact h
  · trivial

theorem fold_int {op l r k} (hl : isInteger l.ty) (hr : isInteger r.ty) (h : fold op l r = .ok k) : isInteger k.ty := by
  unfold fold at h
  split at h
  · cases h
  · rename_i t ht
    split at h
    · split at h
      · cases h
      · cases h
      · cases h
        dsimp only
        split
        · trivial
        · exact Big.int (Fold.common_big hl hr ht).1
    · cases h

theorem foldBitwise_int {op l r k} (hl : isInteger l.ty) (hr : isInteger r.ty) (h : foldBitwise op l r = .ok k) : isInteger k.ty := by
  unfold foldBitwise at h
  split at h
  · cases h
  · rename_i t ht
    cases h
    exact Big.int (Fold.common_big hl hr ht).1

theorem foldShift_int {op l r k} (hl : isInteger l.ty) (h : foldShift op l r = .ok k) : isInteger k.ty := by
  have ht : isInteger (castLit (promote l.ty) l).ty := by rw [castLit_ty]; exact (promote_int hl).int
  unfold foldShift at h
  dsimp only at h
  split at h
  · cases h
  · split at h
    · cases h
    · split at h
      · cases h
      · split at h
        · split at h
          · cases h
          · split at h
            · cases h
            · cases h; exact ht
        · cases h; exact ht

theorem foldArith_int {op l r k} (hl : isInteger l.ty) (hr : isInteger r.ty) (h : foldArith op l r = .ok k) : isInteger k.ty := by
  unfold foldArith at h
  split at h
  · exact foldShift_int hl h
  · exact foldShift_int hl h
  · split at h
    · exact fold_int hl hr h
    · exact foldBitwise_int hl hr h
    · cases h

theorem ofOut_T {o low n} (h : ofOut o = some low) (ho : ∀ l, o = .ok l → isInteger l.ty) : LowT low n := by
  unfold ofOut at h
  split at h
  · cases h; exact ho _ rfl
  · cases h

/-! ## Expressions -/

theorem arithT {op l r n k low} (hl : LowT l n) (hr : LowT r k) (hn : 1 ≤ n) (hk : 1 ≤ k) (h : lowerArith op l r = some low) : LowT low (max n (k + 1)) := by
  have main : ∀ l r, LowT l n → LowT r k → (if op = .shl ∨ op = .shr then lowerShift op l r else lowerBinary (arithIr op) none l r) = some low →
      LowT low (max n (k + 1)) := by
    intro l r hl hr h
    split at h
    · rename_i hop; exact shift_T hl hr hn hk hop h
    · rename_i hop
      have hu : ∃ c, usualConversions l.ty r.ty = some c := by
        cases e : usualConversions l.ty r.ty with
        | some c => exact ⟨c, rfl⟩
        | none => unfold lowerBinary at h; rw [e] at h; cases h
      obtain ⟨c, hu⟩ := hu
      have hb : Big c := (Fold.common_big hl.int hr.int hu).1
      refine binary_T hl hr hn hk (res := none) hb.int hu (fun c => by cases op <;> rfl) (fun rest es es' i i' lv lv' hb hc => ?_) h
      exact .cons (arith_takes hb ⟨fun h => hop (.inl h), fun h => hop (.inr h)⟩) (hc _ (.inl rfl))
  unfold lowerArith at h
  split at h
  · exact ofOut_T h fun _ e => foldArith_int hl hr e
  · exact main _ _ hl hr h

theorem compareT {op l r n k low} (hl : LowT l n) (hr : LowT r k) (hn : 1 ≤ n) (hk : 1 ≤ k) (h : lowerCompare op l r = some low) : LowT low (max n (k + 1)) := by
  unfold lowerCompare at h
  split at h
  · exact ofOut_T h fun _ e => fold_int hl hr e
  · have hu : ∃ c, usualConversions l.ty r.ty = some c := by
      cases e : usualConversions l.ty r.ty with
      | some c => exact ⟨c, rfl⟩
      | none => unfold lowerBinary at h; rw [e] at h; cases h
    obtain ⟨c, hu⟩ := hu
    refine binary_T hl hr hn hk (res := some .s32) trivial hu (fun c => rfl) (fun rest es es' i i' lv lv' hb hc => ?_) h
    have e4 : ((some Ty.s32).getD c).bits / 8 = 4 := by simp [Ty.bits]
    rw [e4] at hc
    exact .cons (.compare hb.wide) (hc _ (settled_ent rest))

theorem unaryT {op l n low} (hl : LowT l n) (h : lowerUnary op l = some low) : LowT low n := by
  cases l with
  | lit l =>
    cases op
    · exact ofOut_T (o := foldPlus l) h fun _ e => by cases e; exact promoteLit_int hl
    · refine ofOut_T (o := foldNegate l) h fun _ e => ?_
      unfold foldNegate at e
      dsimp only at e
      split at e
      · cases e; exact promoteLit_int hl
      · cases e
    · exact ofOut_T (o := foldNot l) h fun _ e => by cases e; exact promoteLit_int hl
    · exact ofOut_T (o := foldLogicalNot l) h fun _ e => by cases e; trivial
  | code s c =>
    obtain ⟨h1, lv, h2⟩ := hl
    have hb := promote_int h1
    obtain ⟨lv', h3⟩ := cast_codeT h1 hb.int h2
    cases op
    · cases Option.some.inj h
      exact ⟨hb.int, lv', h3⟩
    · cases Option.some.inj h
      refine ⟨hb.int, false, h3.1.append, fun rest es es' hs hc => ?_⟩
      rw [List.append_assoc]
      exact h3.push.2 _ es es' hs (plain_cons rfl) (.cons (.negate hb.wide) (hc _ (.inl rfl)))
    · cases Option.some.inj h
      refine ⟨hb.int, false, h3.1.append, fun rest es es' hs hc => ?_⟩
      rw [List.append_assoc]
      exact h3.push.2 _ es es' hs (plain_cons rfl) (.cons (.bitwiseNot hb.wide) (hc _ (.inl rfl)))
    · cases Option.some.inj h
      refine ⟨trivial, false, h3.1.append, fun rest es es' hs hc => ?_⟩
      rw [List.append_assoc]
      refine h3.2 _ es es' hs fun e he => .cons (.logicalNot ?_) (hc _ (settled_ent rest))
      rcases he with rfl | ⟨_, rfl⟩ <;> exact fun h => by cases h

theorem u64_bits : Ty.bits .u64 / 8 = 8 := rfl

/-- A dereferenced operand can be assigned to. -/
theorem derefT {t l n} (ht : isInteger t) (hl : LowT l n) (hn : 1 ≤ n) : ∃ c, lowerDeref t l = .code t c ∧ CodeT (t.bits / 8) c n true := by
  cases l with
  | lit l => exact ⟨_, rfl, plain_cons rfl, fun rest es es' hs hc => .cons (.pointer (by omega) (size_ok ht)) (hc _ (.inl rfl))⟩
  | code s c =>
    obtain ⟨h1, lv, h2⟩ := hl
    obtain ⟨lv', h3⟩ := cast_codeT (t := .u64) h1 trivial h2
    refine ⟨_, rfl, h3.1.append, fun rest es es' hs hc => ?_⟩
    rw [List.append_assoc]
    exact h3.push.2 _ es es' hs (plain_cons rfl) (.cons (.deref (size_ok ht)) (hc _ (.inl rfl)))

theorem lower_T : ∀ (e : Expr) {low}, Typed e → lower e = some low → LowT low (need e)
  | .lit t v, low, ht, h => by cases Option.some.inj h; exact ht
  | .var t a, low, ht, h => by
    cases Option.some.inj h
    exact ⟨ht, true, plain_cons rfl, fun rest es es' hs hc => .cons (.identifier (by have : need (.var t a) = 1 := rfl; omega) (size_ok ht)) (hc _ (.inl rfl))⟩
  | .deref t e, low, ht, h => by
    obtain ⟨l, h1, rfl⟩ := Option.map_eq_some_iff.1 h
    obtain ⟨c, h2, h3⟩ := derefT ht.1 (lower_T e ht.2 h1) (need_pos e)
    rw [h2]
    exact ⟨ht.1, true, h3⟩
  | .cast t e, low, ht, h => by
    obtain ⟨l, h1, rfl⟩ := Option.map_eq_some_iff.1 h
    exact castLow_T (lower_T e ht.2 h1) ht.1
  | .un op e, low, ht, h => by
    obtain ⟨l, h1, h2⟩ := Option.bind_eq_some_iff.1 h
    exact unaryT (lower_T e ht h1) h2
  | .bin (.arith op) l r, low, ht, h => by
    obtain ⟨a, h1, h2⟩ := Option.bind_eq_some_iff.1 h
    obtain ⟨b, h3, h4⟩ := Option.bind_eq_some_iff.1 h2
    exact arithT (lower_T l ht.1 h1) (lower_T r ht.2 h3) (need_pos l) (need_pos r) h4
  | .bin (.compare op) l r, low, ht, h => by
    obtain ⟨a, h1, h2⟩ := Option.bind_eq_some_iff.1 h
    obtain ⟨b, h3, h4⟩ := Option.bind_eq_some_iff.1 h2
    exact compareT (lower_T l ht.1 h1) (lower_T r ht.2 h3) (need_pos l) (need_pos r) h4

/-! ## Statements -/

/-- Code that starts and ends with an empty stack. -/
def StmtT (c : List Ir) : Prop := ∀ rest es', Checks rest [] es' → Checks (c ++ rest) [] es'

theorem LowT.irs {low n} (h : LowT low n) (hn : 1 ≤ n) : ∃ imm lv, PushT (low.ty.bits / 8) low.irs n imm lv := by
  cases low with
  | lit l => exact ⟨true, false, lit_push h hn⟩
  | code t c => obtain ⟨_, lv, h⟩ := h; exact ⟨false, lv, h.push⟩

theorem castLow_ty (t : Ty) (l : Low) : (castLow t l).ty = t := by
  cases l with
  | lit l => exact castLit_ty t l
  | code => rfl

theorem lvalueT {lv t c} (ht : TypedLValue lv) (h : lowerLValue lv = some (t, c)) : isInteger t ∧ CodeT (t.bits / 8) c (needLValue lv) true := by
  cases lv with
  | var t a =>
    cases Option.some.inj h
    exact ⟨ht, plain_cons rfl, fun rest es es' hs hc => .cons (.identifier (by have : needLValue (.var t a) = 1 := rfl; omega) (size_ok ht)) (hc _ (.inl rfl))⟩
  | deref t e =>
    obtain ⟨l, h1, h2⟩ := Option.map_eq_some_iff.1 h
    obtain ⟨c', h3, h4⟩ := derefT ht.1 (lower_T e ht.2 h1) (need_pos e)
    cases h2
    rw [h3]
    exact ⟨ht.1, h4⟩

theorem assignT {s c} (hl : TypedLValue s.lv) (he : Typed s.e) (hn : needStmt s ≤ 256) (h : lowerStmt s = some c) : StmtT c := by
  obtain ⟨⟨t, cl⟩, h1, h2⟩ := Option.bind_eq_some_iff.1 h
  obtain ⟨low, h3, h4⟩ := Option.map_eq_some_iff.1 h2
  subst h4
  obtain ⟨ht, k⟩ := lvalueT hl h1
  obtain ⟨imm, lv, p⟩ := (castLow_T (lower_T s.e he h3) ht).irs (need_pos s.e)
  rw [castLow_ty] at p
  have hn' : max (needLValue s.lv) (need s.e + 1) ≤ 256 := hn
  intro rest es' hr
  rw [List.append_assoc, List.append_assoc]
  refine k.push.2 _ _ _ (by simp; omega) p.1.append (p.2 _ _ _ (by simp; omega) (plain_cons rfl) ?_)
  exact .cons .store (.cons .pop hr)

theorem exprT {e low} (he : Typed e) (hn : need e ≤ 256) (h : lower e = some low) : StmtT (low.irs ++ [.pop]) := by
  obtain ⟨imm, lv, p⟩ := (lower_T e he h).irs (need_pos e)
  intro rest es' hr
  rw [List.append_assoc]
  exact p.2 _ _ _ (by simpa using hn) (plain_cons rfl) (.cons .pop hr)

theorem jumpT {e low onTrue l} (he : Typed e) (hn : need e ≤ 256) (h : lower e = some low) : StmtT (low.irs ++ [.jumpIf onTrue l]) := by
  have := lower_T e he h
  intro rest es' hr
  rw [List.append_assoc]
  cases low with
  | lit k => exact .cons (.literal (by simp) this) (.cons (.jumpIf (fun h => by cases h)) hr)
  | code t c =>
    obtain ⟨_, lv, p⟩ := this
    refine p.2 _ _ _ (by simpa using hn) fun e he => .cons (.jumpIf ?_) hr
    rcases he with rfl | ⟨_, rfl⟩ <;> exact fun h => by cases h

theorem returnT {t e c} (ht : isInteger t) (he : Typed e) (hn : need e ≤ 256) (h : lowerReturn t e = some c) : StmtT c := by
  obtain ⟨low, h1, rfl⟩ := Option.map_eq_some_iff.1 h
  obtain ⟨imm, lv, p⟩ := (castLow_T (lower_T e he h1) ht).irs (need_pos e)
  intro rest es' hr
  rw [List.append_assoc]
  exact p.2 _ _ _ (by simpa using hn) (plain_cons rfl) (.cons .ret hr)

end Verif.Lemmas.ExprType
