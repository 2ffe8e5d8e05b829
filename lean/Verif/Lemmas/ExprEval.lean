import Verif.Lemmas.ExprRun

/-!
# The code of every expression computes its value
-/
namespace Verif.Lemmas.ExprRun
open Verif.IntType Verif.Fold Verif.RegAlloc Verif.ExprCode Verif.Props.RegAlloc Verif.Spec.X64 Verif.Spec.ExprCode Verif.Spec.IntType
open Verif.Lemmas.ExprCode Verif.Lemmas.ExprSem
open Verif.Props.Cast (Holds)
open Verif.Props.Cond (Implements)
open Verif.Spec.RegAlloc (Values create)
open Verif.Lemmas.Call (Moved lt_count Nothing create_same)
open Verif.Props.Compound (common_facts converts_of_dvd)
open Verif.Spec.Compound (Value)

theorem converts_self {t v} (ht : isInteger t) (hv : InRange t v) : Converts t v v := by
  by_cases hb : t = .bool
  · subst hb
    show v = if v = 0 then 0 else 1
    simp only [InRange, minVal, maxVal] at hv
    split <;> omega
  · exact converts_of_dvd ht hb hv (by simp)

theorem converts_in {t v w} (h : Converts t v w) : InRange t w := by
  unfold Converts at h
  split at h
  · rename_i hb
    subst hb
    subst h
    show _ ∧ _
    split <;> decide
  · exact h.1

theorem var_code {bytes t a v n} (ho : Object bytes t a v) (hn : 1 ≤ n) : CodeOK bytes [.identifier a (t.bits / 8)] t v n := by
  refine ⟨plain_cons rfl, fun rest m A stack taken hg hb hs => ?_⟩
  refine ⟨.mem a (t.bits / 8), m, A, ?_, .inl ⟨top_refl hg ⟨⟨size_ok ho.1, by simp [root], by simp⟩, rfl, ?_⟩ rfl, trivial⟩⟩
  · show (push _ _).bind _ = _
    unfold push
    dsimp only
    rw [if_pos (by omega)]
    rfl
  · show Holds t (readBytes m.bytes a (t.bits / 8)) v
    rw [hb]
    exact ho

/-- An address in an operand. -/
theorem deref_val {m A o a t v} (hv : Val m A o .u64 a) (ho : Object m.bytes t a.toNat v) : Val m A (.deref o (t.bits / 8)) t v := by
  have hsz : sizeA A o = 8 := hv.size
  refine ⟨⟨⟨size_ok ho.1, hv.usable.wf, hsz⟩, hv.usable.live, by simp⟩, rfl, ?_⟩
  show Holds t (readBytes m.bytes (valA A m.bytes o) (t.bits / 8)) v
  have hlt := hv.lt
  have : valA A m.bytes o = a.toNat := by
    obtain ⟨_, h1, h2⟩ := hv.holds
    simp only [Ty.bits, InRange, minVal, maxVal, Nat.reducePow, Int.reducePow] at *
    omega
  rw [this]
  exact ho

theorem cast_code {bytes c s t v w n} (h : CodeOK bytes c s v n) (ht : isInteger t) (hw : Converts t v w) :
    CodeOK bytes (c ++ castIr false s t) t w n := by
  refine ⟨h.1.append, fun rest m A stack taken hg hb hs => ?_⟩
  rw [List.append_assoc]
  obtain ⟨o, m1, A1, h1, h2⟩ := h.2 (castIr false s t ++ rest) m A stack taken hg hb hs
  rcases h2 with ⟨h2, h3⟩ | ⟨h2, h3⟩
  · obtain ⟨o', m', A', e1, e2, e3⟩ := castIr_top (rest := rest) (stack := stack) (taken := taken) hg.inv h2 h3 ht hw
    exact ⟨o', m', A', by rw [h1, e1], .inl ⟨e2, e3⟩⟩
  · have hk : Cast.kind s t = .none := by
      by_cases hk : Cast.kind s t = .none
      · exact hk
      · refine absurd ?_ h2
        unfold castIr
        rw [if_neg hk]
        exact plain_cons rfl
    have hc : castIr false s t = [] := by unfold castIr; rw [if_pos hk]
    have hbits : s.bits = t.bits := by
      rcases kind_cases s t h3.int ht with ⟨_, h⟩ | ⟨h, _⟩ | h | h | ⟨h, _⟩ <;> first | exact h | (rw [hk] at h; cases h)
    rw [hc, List.nil_append] at h1 h2
    refine ⟨o, m1, A1, by rw [hc, List.nil_append]; exact h1, .inr ⟨h2, ht, by rw [← hbits, h3.bits], h3.gone, ?_⟩⟩
    obtain ⟨cc, cc', b, e1, e2, e3, e4⟩ := h3.cond
    refine ⟨cc, cc', b, e1, e2, e3, ?_⟩
    have h32 : t.bits = 32 := by rw [← hbits, h3.bits]
    rw [← e4]
    have hv : v = 0 ∨ v = 1 := by rw [e4]; cases b <;> simp
    clear h e4 h1 h2 h3 hs hc hk hbits e3 e2 e1 hg hb
    cases t <;> first | exact absurd ht id | (exact absurd h32 (by decide)) | skip
    all_goals
      simp only [Converts, InRange, minVal, maxVal] at hw
      simp at hw
      omega

theorem deref_code {bytes c s p a t v n} (h : CodeOK bytes c s p n) (ha : Converts .u64 p a) (ho : Object bytes t a.toNat v) :
    CodeOK bytes (c ++ castIr false s .u64 ++ [.deref (t.bits / 8)]) t v n := by
  have hp := (cast_code h (t := .u64) trivial ha).pushes
  refine ⟨hp.1.append, fun rest m A stack taken hg hb hs => ?_⟩
  rw [List.append_assoc]
  obtain ⟨o, m', A', h1, h2, h3⟩ := hp.2 (.deref (t.bits / 8) :: rest) m A stack taken hg hb hs (plain_cons rfl)
  refine ⟨.deref o (t.bits / 8), m', A', by rw [List.singleton_append, h1]; rfl, .inl ⟨⟨h2.good, h2.frame, ?_, h2.fresh, h2.occ⟩, trivial⟩⟩
  exact deref_val h2.val (by rw [h2.frame.bytes, hb]; exact ho)

theorem literal_pointer {l s p a} (h : IsLit l s p) (ha : Converts .u64 p a) : (hostConv 64 true l.get % 2 ^ 64).toNat = a.toNat := by
  rw [Lemmas.Fold.get_eq h.rep]
  simp only [Converts, InRange, minVal, maxVal, reduceCtorEq, if_false] at ha
  simp [hostConv, rd]
  omega

/-- A dereferenced literal. -/
theorem literal_code {bytes l s p a t v n} (h : IsLit l s p) (ha : Converts .u64 p a) (ho : Object bytes t a.toNat v) (hn : 1 ≤ n) :
    CodeOK bytes [.pointerLiteralDeref (hostConv 64 true l.get % 2 ^ 64).toNat (t.bits / 8)] t v n := by
  have he := literal_pointer h ha
  refine ⟨plain_cons rfl, fun rest m A stack taken hg hb hs => ?_⟩
  have hr := converts_in ha
  refine ⟨.deref (.imm a.toNat 8) (t.bits / 8), m, A, ?_, .inl ⟨top_refl hg (deref_val (a := a) ⟨⟨(rfl : okSize 8 = true), by simp [root], by simp⟩, rfl, trivial, hr, ?_⟩
    (by rw [hb]; exact ho)) rfl, trivial⟩⟩
  · show (push _ _).bind _ = _
    unfold push
    dsimp only
    rw [if_pos (by omega), he]
    rfl
  · simp only [Ty.bits, InRange, minVal, maxVal, valA, Nat.reducePow, Int.reducePow] at *
    omega

theorem unary_code {bytes c s v n} {f : Nat → Nat → Nat} {ir : Ir} {z : Int} (h : CodeOK bytes c s v n) (hb : Big s)
    (hir : ∀ next m o stack taken, emit next ir ⟨m, o :: stack, taken⟩ = (unaryOp m f o).map (fun (n, m) => ⟨m, .loc n :: stack, taken⟩))
    (hf : fuses (some ir) = false) (hz : ∀ x, Holds s x v → Holds s (f s.bits x) z) : CodeOK bytes (c ++ [ir]) s z n := by
  have hp := h.pushes
  refine ⟨hp.1.append, fun rest m A stack taken hg hby hs => ?_⟩
  rw [List.append_assoc]
  obtain ⟨o, m1, A1, h1, h2, h3⟩ := hp.2 (ir :: rest) m A stack taken hg hby hs (plain_cons hf)
  have hsz := h2.val.size
  obtain ⟨id, m', A', x, e1, e2, e3⟩ := unaryOp_total f h2.good h2.val.usable (by rw [hsz]; exact hb.wide)
  rw [hsz, size_pow hb.int] at e2 e3
  rw [bits_size hb.int] at e3
  refine ⟨.loc id, m', A', ?_, .inl ⟨rebase hg.inv h2.frame e3 (holds_mod (hz x (holds_congr h2.val.holds ?_))) (fun j hj hr => ?_) h2.occ, trivial⟩⟩
  · rw [List.singleton_append, h1]
    show (emit _ _ _).bind _ = _
    rw [hir, e1]; rfl
  · rw [e2, Nat.mod_eq_of_lt h2.val.lt]
  · have := h2.fresh j hr; omega

theorem not_code {bytes c s v n} (h : CodeOK bytes c s v n) : CodeOK bytes (c ++ [.logicalNot]) .s32 (if v = 0 then 1 else 0) n := by
  refine ⟨h.1.append, fun rest m A stack taken hg hby hs => ?_⟩
  rw [List.append_assoc]
  obtain ⟨o, m1, A1, h1, h2⟩ := h.2 (.logicalNot :: rest) m A stack taken hg hby hs
  have key : ∃ cc cc' m2 A2 b, condOf m1 o = some (cc, m2) ∧ Cond.negate cc = some cc' ∧ Gone [] Nothing m A m2 A2 ∧ Implements cc m2.flags b ∧
      (v = 0 ↔ b = false) := by
    rcases h2 with ⟨h2, h3⟩ | ⟨_, h2⟩
    · obtain ⟨m2, A2, e1, e2, e3⟩ := condOf_total h2.good h2.val.usable
      rw [h2.val.size, bits_size h2.val.int] at e3
      refine ⟨2, _, m2, A2, decide (valA A1 m1.bytes o ≠ 0), e1, rfl, ⟨e2.good, ?_, ?_⟩, by rw [e3]; exact sem_test h2.val.lt, ?_⟩
      · exact h2.frame.trans hg.inv e2.frame (fun _ _ h => h) (fun j hj hr => by have := h2.fresh j hr; omega)
      · intro r j hj
        obtain ⟨e4, e5⟩ := e2.occ r j hj
        rcases h2.occ r j e4 with e | e
        · exact absurd e e5
        · exact ⟨e, id⟩
      · rw [← zero_iff h2.val.lt h2.val.holds]; simp
    · obtain ⟨cc, cc', b, e1, e2, e3, e4⟩ := h2.cond
      subst e1
      exact ⟨cc, cc', m1, A1, b, rfl, e2, h2.gone, e3, by rw [e4]; cases b <;> simp⟩
  obtain ⟨cc, cc', m2, A2, b, e1, e2, e3, e4, e5⟩ := key
  obtain ⟨cc'', e6⟩ := negate_negatable e2
  obtain ⟨o', m', A', e7, e8⟩ := settle_total (rest := rest) hg.inv e3 e6 (Props.Cond.C36_negate cc cc' e2 _ b e4)
  refine ⟨o', m', A', ?_, ?_⟩
  · rw [List.singleton_append, h1]
    show ((condOf m1 o).bind _).bind _ = _
    rw [e1, Option.bind_some]
    dsimp only
    rw [e2, Option.bind_some, e7]
    rfl
  · have : (if v = 0 then (1 : Int) else 0) = if (!b) = true then 1 else 0 := by
      cases b <;> simp_all
    rw [this]
    exact e8

theorem low_ty {bytes low t v n} (h : LowOK bytes low t v n) : low.ty = t := by
  cases low with
  | lit l => exact h.ty
  | code s c => exact h.1

theorem lowerBinary_ok {bytes l r s u v w n k c x y z ir res low} (hl : LowOK bytes l s v n) (hr : LowOK bytes r u w k) (hn : 1 ≤ n) (hk : 1 ≤ k)
    (hu : usualConversions s u = some c) (hc : isInteger c) (hx : Converts c v x) (hy : Converts c w y) (hf : fuses (some (ir c)) = false)
    (hlow : lowerBinary ir res l r = some low)
    (step : ∀ m A a b m1 A1 rest, Inv m.s A → Two m A a b m1 A1 c c x y →
      ∃ o m' A', (∀ stack taken, run (ir c :: rest) ⟨m1, b :: a :: stack, taken⟩ = run rest ⟨m', o :: stack, taken⟩) ∧
        ((Top m A o m' A' (res.getD c) z ∧ notImm o) ∨ (¬ Plain rest ∧ Cnd m A o m' A' (res.getD c) z))) :
    LowOK bytes low (res.getD c) z (max n (k + 1)) := by
  unfold lowerBinary at hlow
  rw [low_ty hl, low_ty hr, hu] at hlow
  cases hlow
  refine ⟨rfl, ?_, fun rest m A stack taken hg hb hs => ?_⟩
  · rw [List.append_assoc, List.append_assoc, List.append_assoc]
    exact plain_convert true hl hn hc hx
  · obtain ⟨a, b, m1, A1, h1, h2⟩ := two_converted (taken := taken) hl hr hn hk hc hx hy hg hb hs (rest := ir c :: rest) (plain_cons hf)
    obtain ⟨o, m', A', h3, h4⟩ := step m A a b m1 A1 rest hg.inv h2
    refine ⟨o, m', A', ?_, h4⟩
    rw [List.append_assoc _ [ir c], List.singleton_append, h1, h3]

theorem arith_ok {bytes l r s u v w n k c z op low} (hl : LowOK bytes l s v n) (hr : LowOK bytes r u w k) (hn : 1 ≤ n) (hk : 1 ≤ k)
    (hs : isInteger s) (hu : isInteger u) (hop : op ≠ .shl ∧ op ≠ .shr) (hz : Value op s u v w c z)
    (hlow : lowerBinary (arithIr op) none l r = some low) : LowOK bytes low c z (max n (k + 1)) := by
  obtain ⟨h1, h2⟩ := Props.Compound.run_value hs hu hop hz
  have hb : Big c := by
    have := (Lemmas.Fold.common_big hs hu h1).1
    exact this
  have hconv : ∀ v, Converts c v (Compound.conv c v) := fun v => by
    unfold Compound.conv
    rw [if_neg hb.ne]
    exact Lemmas.Fold.hostConv_converts hb.int hb.ne v
  refine lowerBinary_ok (res := none) hl hr hn hk h1 hb.int (hconv v) (hconv w) ?_ hlow ?_
  · cases op <;> rfl
  · intro m A a b m1 A1 rest hi ht
    have fin : (∃ o m' A', (∀ rest stack taken, run (arithIr op c :: rest) ⟨m1, b :: a :: stack, taken⟩ = run rest ⟨m', o :: stack, taken⟩) ∧
        Top m A o m' A' c z ∧ notImm o) → ∃ o m' A', (∀ stack taken, run (arithIr op c :: rest) ⟨m1, b :: a :: stack, taken⟩ = run rest ⟨m', o :: stack, taken⟩) ∧
        ((Top m A o m' A' c z ∧ notImm o) ∨ (¬ Plain rest ∧ Cnd m A o m' A' c z)) := by
      rintro ⟨o, m', A', e1, e2, e3⟩
      exact ⟨o, m', A', fun stack taken => e1 rest stack taken, .inl ⟨e2, e3⟩⟩
    refine fin ?_
    cases op
    case shl => exact absurd rfl hop.1
    case shr => exact absurd rfl hop.2
    case mul => exact step_mul hi hb (.inl ⟨rfl, rfl⟩) ht h2
    case div => exact step_mul hi hb (.inr (.inl ⟨rfl, rfl⟩)) ht h2
    case mod => exact step_mul hi hb (.inr (.inr ⟨rfl, rfl⟩)) ht h2
    all_goals exact step_binary hi hb (by simp) ht h2

theorem compare_ok {bytes l r s u v w n k c x y op low} (hl : LowOK bytes l s v n) (hr : LowOK bytes r u w k) (hn : 1 ≤ n) (hk : 1 ≤ k)
    (hs : isInteger s) (hu : isInteger u) (hc : Common s u c) (hx : Converts c v x) (hy : Converts c w y)
    (hlow : lowerBinary (fun c => .compare (Cond.select op (irType c))) (some .s32) l r = some low) :
    LowOK bytes low .s32 (if Related op x y then 1 else 0) (max n (k + 1)) := by
  have h1 := (Props.IntType.C15_common_type _ _ _).2 hc
  have hb : Big c := (Lemmas.Fold.common_big hs hu h1).1
  exact lowerBinary_ok (res := some .s32) hl hr hn hk h1 hb.int hx hy rfl hlow (fun m A a b m1 A1 rest hi ht => step_compare hi hb ht)

theorem shift_sem {op s u v w c z} (hs : isInteger s) (hop : op = .shl ∨ op = .shr) (hz : Value op s u v w c z) :
    c = promoted s ∧ 0 ≤ w ∧ w < (promoted s).bits ∧ ∃ left, arithIr op c = .shift left c.isSigned ∧
      ∀ a b, Holds c a v → (b % 256 : Nat) = w → Holds c (shiftInst left c.isSigned c.bits a b) z := by
  have hb := promoted_big hs
  cases hz with
  | arith ho => rcases hop with rfl | rfl <;> simp at ho
  | bitwise ho => rcases hop with rfl | rfl <;> simp at ho
  | shl h0 h1 _ hz => exact ⟨rfl, h0, h1, true, rfl, fun a b ha hw => sem_shl hb ha hw h1 hz⟩
  | shr h0 h1 => exact ⟨rfl, h0, h1, false, rfl, fun a b ha hw => sem_shr hb ha hw h1⟩

theorem shift_ok {bytes l r s u v w n k c z op low} (hl : LowOK bytes l s v n) (hr : LowOK bytes r u w k) (hn : 1 ≤ n) (hk : 1 ≤ k)
    (hs : isInteger s) (hu : isInteger u) (hv : InRange s v) (hwr : InRange u w) (hop : op = .shl ∨ op = .shr) (hz : Value op s u v w c z)
    (hlow : lowerShift op l r = some low) : LowOK bytes low c z (max n (k + 1)) := by
  obtain ⟨rfl, h0, h1, left, h2, h3⟩ := shift_sem hs hop hz
  have hb := promoted_big hs
  have hpu := promoted_big hu
  have hbits : (promoted s).bits ≤ 64 := bits_le _
  have h8 : Converts .u8 w w := converts_self (t := .u8) trivial (by simp only [InRange, minVal, maxVal]; omega)
  obtain ⟨s', v', il, e1, e2, e3, e4⟩ := convert_ok true hl hn hb.int (Props.Fold.promoted_converts hs hv)
  have hpl : promote l.ty = promoted s := by rw [low_ty hl, Props.IntType.C15_promotion s hs]
  have hpr : promote r.ty = promoted u := by rw [low_ty hr, Props.IntType.C15_promotion u hu]
  have last : ∀ {m A a b m1 A1 rest stack taken}, Inv m.s A → Two m A a b m1 A1 (promoted s) .u8 v w →
      ∃ o m' A', run (.shift left (promoted s).isSigned :: rest) ⟨m1, b :: a :: stack, taken⟩ = run rest ⟨m', o :: stack, taken⟩ ∧
        Top m A o m' A' (promoted s) z ∧ notImm o := by
    intro m A a b m1 A1 rest stack taken hi ht
    obtain ⟨o, m', A', f1, f2, f3⟩ := step_shift hi hb ht h3
    exact ⟨o, m', A', f1 rest stack taken, f2, f3⟩
  cases r with
  | lit count =>
    have hcount : IsLit (castLit .u8 (castLit (promoted u) count)) .u8 w :=
      cast_lit trivial (cast_lit hpu.int hr (Props.Fold.promoted_converts hu hwr)) h8
    unfold lowerShift at hlow
    rw [hpl, hpr] at hlow
    dsimp only [castLow] at hlow
    split at hlow
    · cases hlow
    split at hlow
    · cases hlow
    cases hlow
    rw [h2, e2]
    refine ⟨rfl, ?_, fun rest m A stack taken hg hby hst => ?_⟩
    · rw [List.append_assoc, List.append_assoc]; exact e1.1.append
    · have hp := lit_pushes (bytes := bytes) hcount hk
      obtain ⟨a, b, m1, A1, f1, f2, f3, f4⟩ := push_two e1 hp (taken := taken) (rest := castIr true s' (promoted s) ++ .shift left (promoted s).isSigned :: rest)
        hg hby hst (castIr_plain (plain_cons rfl))
      obtain ⟨a', m2, A2, f5, f6, f7⟩ := castIr_left (rest := .shift left (promoted s).isSigned :: rest) (stack := stack) (taken := taken) hg.inv f2
        (fun hk => f3 (e4 hk)) hb.int e3
      obtain ⟨o, m', A', f8, f9, f10⟩ := last (rest := rest) (stack := stack) (taken := taken) hg.inv f6
      refine ⟨o, m', A', ?_, .inl ⟨f9, f10⟩⟩
      rw [← f8, ← f5, ← f1]
      simp only [List.append_assoc, List.singleton_append, List.cons_append, List.nil_append]
  | code u' c' =>
    obtain ⟨rfl, hc⟩ := hr
    unfold lowerShift at hlow
    rw [hpl, hpr] at hlow
    cases hlow
    rw [h2, e2]
    refine ⟨rfl, ?_, fun rest m A stack taken hg hby hst => ?_⟩
    · simp only [List.append_assoc]; exact e1.1.append
    · obtain ⟨a, b, m1, A1, f1, f2, f3, f4⟩ := push_two e1 hc.pushes (taken := taken)
        (rest := castIr true s' (promoted s) ++ (castIr false u' (promoted u') ++ (castIr false (promoted u') .u8 ++ .shift left (promoted s).isSigned :: rest)))
        hg hby hst (castIr_plain (castIr_plain (castIr_plain (plain_cons rfl))))
      obtain ⟨a', m2, A2, f5, f6, f7⟩ := castIr_left
        (rest := castIr false u' (promoted u') ++ (castIr false (promoted u') .u8 ++ .shift left (promoted s).isSigned :: rest)) (stack := stack) (taken := taken) hg.inv f2
        (fun hk => f3 (e4 hk)) hb.int e3
      obtain ⟨b', m3, A3, g1, g2, g3⟩ := castIr_right (rest := castIr false (promoted u') .u8 ++ .shift left (promoted s).isSigned :: rest) (stack := stack) (taken := taken)
        hg.inv f6 (fun _ => f4 rfl) hpu.int (Props.Fold.promoted_converts hu hwr)
      obtain ⟨b'', m4, A4, g4, g5, g6⟩ := castIr_right (d := .u8) (rest := .shift left (promoted s).isSigned :: rest) (stack := stack) (taken := taken)
        hg.inv g2 (fun _ => g3 (f4 rfl)) trivial h8
      obtain ⟨o, m', A', f8, f9, f10⟩ := last (rest := rest) (stack := stack) (taken := taken) hg.inv g5
      refine ⟨o, m', A', ?_, .inl ⟨f9, f10⟩⟩
      rw [← f8, ← g4, ← g1, ← f5, ← f1]
      simp only [List.append_assoc, List.singleton_append, List.cons_append, List.nil_append, convert]

theorem div_between (v b : Int) (hb : 0 < b) : (0 ≤ v → 0 ≤ v / b ∧ v / b ≤ v) ∧ (v < 0 → v ≤ v / b ∧ v / b < 0) := by
  refine ⟨fun h => ⟨Int.ediv_nonneg h (by omega), Int.ediv_le_self b h⟩, fun h => ⟨?_, Int.ediv_neg_of_neg_of_pos h hb⟩⟩
  refine Int.le_ediv_of_mul_le hb ?_
  have := Int.mul_nonneg (a := -v) (b := b - 1) (by omega) (by omega)
  rw [Int.mul_sub, Int.neg_mul] at this
  omega

theorem div_range {c : Ty} {v : Int} {k : Nat} (hb : Big c) (h : InRange c v) : InRange c (v / 2 ^ k) := by
  have hd := div_between v (2 ^ k) (Int.pow_pos (by decide))
  have hm : minVal c ≤ 0 ∧ -1 ≤ maxVal c := by rcases hb with rfl | rfl | rfl | rfl <;> decide
  obtain ⟨h1, h2⟩ := h
  rcases Int.lt_or_le v 0 with h | h
  · have := hd.2 h; exact ⟨by omega, by omega⟩
  · have := hd.1 h; exact ⟨by omega, by omega⟩

theorem eval_facts {bytes e t v} (h : Eval bytes e t v) : isInteger t ∧ InRange t v := by
  have up : ∀ {s v}, isInteger s → InRange s v → InRange (promoted s) v := fun hs hv => converts_in (Props.Fold.promoted_converts hs hv)
  induction h with
  | lit ht hv => exact ⟨ht, hv⟩
  | var ho => exact ⟨ho.1, ho.2.1⟩
  | deref _ _ ho => exact ⟨ho.1, ho.2.1⟩
  | cast _ ht hw => exact ⟨ht, converts_in hw⟩
  | plus _ ih => exact ⟨(promoted_big ih.1).int, up ih.1 ih.2⟩
  | minus _ _ hw ih => exact ⟨(promoted_big ih.1).int, converts_in hw⟩
  | compl _ hr _ ih => exact ⟨(promoted_big ih.1).int, hr⟩
  | not _ _ => exact ⟨trivial, by split <;> decide⟩
  | compare => exact ⟨trivial, by split <;> decide⟩
  | arith hl hr hz ihl ihr =>
    cases hz with
    | arith _ hc _ _ _ _ _ hz => exact ⟨(common_facts ihl.1 ihr.1 hc).2.1, converts_in hz⟩
    | bitwise _ hc _ _ hr => exact ⟨(common_facts ihl.1 ihr.1 hc).2.1, hr⟩
    | shl _ _ _ hz => exact ⟨(promoted_big ihl.1).int, converts_in hz⟩
    | shr h0 h1 => exact ⟨(promoted_big ihl.1).int, div_range (promoted_big ihl.1) (up ihl.1 ihl.2)⟩

theorem need_pos (e : Expr) : 1 ≤ need e := by
  induction e <;> simp only [need] <;> omega

theorem lit_ok {bytes low t v n} (h : ∃ l, low = .lit l ∧ IsLit l t v) : LowOK bytes low t v n := by
  obtain ⟨l, rfl, h⟩ := h
  exact h

theorem lower_ok {bytes e t v} (h : Eval bytes e t v) : ∀ {low}, lower e = some low → LowOK bytes low t v (need e) := by
  have up : ∀ {e s v}, Eval bytes e s v → Converts (promoted s) v v := fun he => Props.Fold.promoted_converts (eval_facts he).1 (eval_facts he).2
  induction h with
  | lit ht hv =>
    rename_i t v
    intro low hlow
    cases hlow
    refine ⟨rfl, ⟨ht, hv, ?_⟩, ?_⟩
    · refine Int.dvd_trans (b := (2 ^ 64 : Int)) ?_ (pattern_dvd 64 v)
      show (2 ^ t.bits : Int) ∣ 2 ^ 64
      cases t <;> decide
    · show pattern 64 v < 2 ^ 64
      simp only [pattern]
      omega
  | var ho =>
    intro low hlow
    cases hlow
    exact ⟨rfl, var_code ho (Nat.le_refl 1)⟩
  | deref he ha ho ih =>
    rename_i e _ _ _ _
    intro low hlow
    obtain ⟨low1, h1, h2⟩ := Option.map_eq_some_iff.1 hlow
    subst h2
    have := ih h1
    cases low1 with
    | lit l => exact ⟨rfl, literal_code this ha ho (need_pos e)⟩
    | code s c =>
      obtain ⟨rfl, h⟩ := this
      exact ⟨rfl, deref_code h ha ho⟩
  | cast he ht hw ih =>
    intro low hlow
    obtain ⟨low1, h1, h2⟩ := Option.map_eq_some_iff.1 hlow
    subst h2
    have := ih h1
    cases low1 with
    | lit l => exact cast_lit ht this hw
    | code s c =>
      obtain ⟨rfl, h⟩ := this
      exact ⟨rfl, cast_code h ht hw⟩
  | plus he ih =>
    intro low hlow
    obtain ⟨low1, h1, h2⟩ := Option.bind_eq_some_iff.1 hlow
    have := ih h1
    cases low1 with
    | lit l => exact lit_ok (lit_plus this h2)
    | code s c =>
      obtain ⟨rfl, h⟩ := this
      have hi := (eval_facts he).1
      cases h2
      rw [Props.IntType.C15_promotion s hi]
      exact ⟨rfl, cast_code h (promoted_big hi).int (up he)⟩
  | minus he hs hw ih =>
    intro low hlow
    obtain ⟨low1, h1, h2⟩ := Option.bind_eq_some_iff.1 hlow
    have := ih h1
    cases low1 with
    | lit l => exact lit_ok (lit_minus this h2 hs hw)
    | code s c =>
      obtain ⟨rfl, h⟩ := this
      have hi := (eval_facts he).1
      have hb := promoted_big hi
      cases h2
      rw [Props.IntType.C15_promotion s hi]
      refine ⟨rfl, unary_code (f := neg) (cast_code h hb.int (up he)) hb (fun _ _ _ _ _ => rfl) rfl (fun x hx => ?_)⟩
      rw [(Lemmas.Fold.converts_iff hb.int hb.ne).1 hw]
      exact sem_neg hb hx
  | compl he hr hbit ih =>
    intro low hlow
    obtain ⟨low1, h1, h2⟩ := Option.bind_eq_some_iff.1 hlow
    have := ih h1
    cases low1 with
    | lit l => exact lit_ok (lit_compl this h2 hr hbit)
    | code s c =>
      obtain ⟨rfl, h⟩ := this
      have hi := (eval_facts he).1
      have hb := promoted_big hi
      cases h2
      rw [Props.IntType.C15_promotion s hi]
      refine ⟨rfl, unary_code (f := Spec.ExprCode.not) (cast_code h hb.int (up he)) hb (fun _ _ _ _ _ => rfl) rfl (fun x hx => ?_)⟩
      rw [(Lemmas.Fold.converts_iff hb.int hb.ne).1 (compl_value hb hr hbit)]
      exact sem_not hb hx
  | not he ih =>
    intro low hlow
    obtain ⟨low1, h1, h2⟩ := Option.bind_eq_some_iff.1 hlow
    have := ih h1
    cases low1 with
    | lit l => exact lit_ok (lit_not this h2)
    | code s c =>
      obtain ⟨rfl, h⟩ := this
      have hi := (eval_facts he).1
      have hb := promoted_big hi
      cases h2
      rw [Props.IntType.C15_promotion s hi]
      exact ⟨rfl, not_code (cast_code h hb.int (up he))⟩
  | arith hl hr hz ihl ihr =>
    rename_i op l r _ _ _ _ c z
    intro low hlow
    obtain ⟨a, h1, h2⟩ := Option.bind_eq_some_iff.1 hlow
    obtain ⟨b, h3, h4⟩ := Option.bind_eq_some_iff.1 h2
    have ha := ihl h1
    have hb := ihr h3
    have main : (if op = .shl ∨ op = .shr then lowerShift op a b else lowerBinary (arithIr op) none a b) = some low →
        LowOK bytes low c z (max (need l) (need r + 1)) := by
      intro h
      split at h
      · rename_i hop
        exact shift_ok ha hb (need_pos l) (need_pos r) (eval_facts hl).1 (eval_facts hr).1 (eval_facts hl).2 (eval_facts hr).2 hop hz h
      · rename_i hop
        exact arith_ok ha hb (need_pos l) (need_pos r) (eval_facts hl).1 (eval_facts hr).1 ⟨fun h => hop (.inl h), fun h => hop (.inr h)⟩ hz h
    cases a with
    | lit x =>
      cases b with
      | lit y => exact lit_ok (lit_arith op ha hb hz h4)
      | code u d => exact main h4
    | code s c => exact main h4
  | compare hl hr hc hx hy ihl ihr =>
    rename_i op l r _ _ _ _ _ _ _
    intro low hlow
    obtain ⟨a, h1, h2⟩ := Option.bind_eq_some_iff.1 hlow
    obtain ⟨b, h3, h4⟩ := Option.bind_eq_some_iff.1 h2
    have ha := ihl h1
    have hb := ihr h3
    cases a with
    | lit x =>
      cases b with
      | lit y => exact lit_ok (lit_compare op ha hb hc hx hy h4)
      | code u d => exact compare_ok ha hb (need_pos l) (need_pos r) (eval_facts hl).1 (eval_facts hr).1 hc hx hy h4
    | code s c => exact compare_ok ha hb (need_pos l) (need_pos r) (eval_facts hl).1 (eval_facts hr).1 hc hx hy h4

/-! ## Lowering succeeds -/

theorem lit_constant : ∀ (e : Expr) {l}, lower e = some (.lit l) → Constant e
  | .lit .., _, _ => trivial
  | .var .., _, h => by cases h
  | .deref t e, _, h => by
    obtain ⟨low, _, h2⟩ := Option.map_eq_some_iff.1 h
    cases low <;> cases h2
  | .cast t e, _, h => by
    obtain ⟨low, h1, h2⟩ := Option.map_eq_some_iff.1 h
    cases low with
    | lit l => exact lit_constant e h1
    | code => cases h2
  | .un op e, _, h => by
    obtain ⟨low, h1, h2⟩ := Option.bind_eq_some_iff.1 h
    cases low with
    | lit l => exact lit_constant e h1
    | code => cases op <;> cases h2
  | .bin (.arith op) l r, _, h => by
    obtain ⟨a, h1, h2⟩ := Option.bind_eq_some_iff.1 h
    obtain ⟨b, h3, h4⟩ := Option.bind_eq_some_iff.1 h2
    have no : ∀ {x}, (if op = .shl ∨ op = .shr then lowerShift op a b else lowerBinary (arithIr op) none a b) ≠ some (.lit x) := by
      intro x hx
      split at hx
      · unfold lowerShift at hx
        dsimp only at hx
        split at hx
        · split at hx
          · cases hx
          · split at hx <;> cases hx
        · cases hx
      · obtain ⟨_, _, h⟩ := Option.map_eq_some_iff.1 hx
        cases h
    cases a with
    | lit x =>
      cases b with
      | lit y => exact ⟨lit_constant l h1, lit_constant r h3⟩
      | code => exact absurd h4 no
    | code => exact absurd h4 no
  | .bin (.compare op) l r, _, h => by
    obtain ⟨a, h1, h2⟩ := Option.bind_eq_some_iff.1 h
    obtain ⟨b, h3, h4⟩ := Option.bind_eq_some_iff.1 h2
    have no : ∀ {x} {f : Ty → Ir}, lowerBinary f (some .s32) a b ≠ some (.lit x) := by
      intro x f hx
      obtain ⟨_, _, h⟩ := Option.map_eq_some_iff.1 hx
      cases h
    cases a with
    | lit x =>
      cases b with
      | lit y => exact ⟨lit_constant l h1, lit_constant r h3⟩
      | code => exact absurd h4 no
    | code => exact absurd h4 no

theorem shift_some {bytes l r s u v w n k c z op} (hl : LowOK bytes l s v n) (hr : LowOK bytes r u w k) (hs : isInteger s) (hu : isInteger u)
    (hwr : InRange u w) (hop : op = .shl ∨ op = .shr) (hz : Value op s u v w c z) : ∃ low, lowerShift op l r = some low := by
  obtain ⟨rfl, h0, h1, _⟩ := shift_sem hs hop hz
  have hpl : promote l.ty = promoted s := by rw [low_ty hl, Props.IntType.C15_promotion s hs]
  have hpr : promote r.ty = promoted u := by rw [low_ty hr, Props.IntType.C15_promotion u hu]
  have hpu := promoted_big hu
  unfold lowerShift
  rw [hpl, hpr]
  cases r with
  | code u' c' => exact ⟨_, rfl⟩
  | lit count =>
    have hc := cast_lit hpu.int hr (Props.Fold.promoted_converts hu hwr)
    have hget : (castLit (promoted u) count).get = w := Lemmas.Fold.get_eq hc.rep
    have hb : (promoted s).bits ≤ 64 := bits_le _
    have h64 : hostConv 64 false w = w := by
      rw [show (64 : Nat) = Ty.u64.bits from rfl, show false = Ty.u64.isSigned from rfl]
      exact Props.Compound.hostConv_id (t := .u64) trivial (by decide) (by simp only [InRange, minVal, maxVal]; omega)
    dsimp only [castLow]
    rw [hget, h64, if_neg (by omega), if_neg (by omega)]
    exact ⟨_, rfl⟩

theorem lower_some {bytes e t v} (h : Eval bytes e t v) : HalfFree bytes e → ∃ low, lower e = some low := by
  induction h with
  | lit ht hv => exact fun _ => ⟨_, rfl⟩
  | var ho => exact fun _ => ⟨_, rfl⟩
  | deref he ha ho ih =>
    intro hf
    obtain ⟨low, h⟩ := ih hf
    exact ⟨_, by rw [lower, h]; rfl⟩
  | cast he ht hw ih =>
    intro hf
    obtain ⟨low, h⟩ := ih hf
    exact ⟨_, by rw [lower, h]; rfl⟩
  | plus he ih =>
    intro hf
    obtain ⟨low, h⟩ := ih hf.1
    rw [lower, h, Option.bind_some]
    cases low <;> exact ⟨_, rfl⟩
  | minus he hs hw ih =>
    rename_i e s v w
    intro hf
    obtain ⟨low, h⟩ := ih hf.1
    have hok := lower_ok he h
    rw [lower, h, Option.bind_some]
    cases low with
    | lit l => exact minus_some hok hw hs (hf.2 rfl (lit_constant e h) _ _ he)
    | code => exact ⟨_, rfl⟩
  | compl he hr hbit ih =>
    intro hf
    obtain ⟨low, h⟩ := ih hf.1
    rw [lower, h, Option.bind_some]
    cases low <;> exact ⟨_, rfl⟩
  | not he ih =>
    intro hf
    obtain ⟨low, h⟩ := ih hf.1
    rw [lower, h, Option.bind_some]
    cases low <;> exact ⟨_, rfl⟩
  | arith hl hr hz ihl ihr =>
    rename_i op l r s u v w c z
    intro hf
    obtain ⟨a, h1⟩ := ihl hf.1
    obtain ⟨b, h2⟩ := ihr hf.2
    have ha := lower_ok hl h1
    have hb := lower_ok hr h2
    have main : ∃ low, (if op = .shl ∨ op = .shr then lowerShift op a b else lowerBinary (arithIr op) none a b) = some low := by
      split
      · rename_i hop
        exact shift_some ha hb (eval_facts hl).1 (eval_facts hr).1 (eval_facts hr).2 hop hz
      · rename_i hop
        have hc : Common s u c := by
          cases hz with
          | arith _ hc => exact hc
          | bitwise _ hc => exact hc
          | shl => exact absurd (.inl rfl) hop
          | shr => exact absurd (.inr rfl) hop
        unfold lowerBinary
        rw [low_ty ha, low_ty hb, (Props.IntType.C15_common_type _ _ _).2 hc]
        exact ⟨_, rfl⟩
    rw [lower, h1, Option.bind_some, h2, Option.bind_some]
    cases a with
    | lit x =>
      cases b with
      | lit y => exact yields_some (arith_yields op ha hb hz).1
      | code => exact main
    | code => exact main
  | compare hl hr hc hx hy ihl ihr =>
    rename_i op l r s u v w c x y
    intro hf
    obtain ⟨a, h1⟩ := ihl hf.1
    obtain ⟨b, h2⟩ := ihr hf.2
    have ha := lower_ok hl h1
    have hb := lower_ok hr h2
    have main : ∃ low, lowerBinary (fun c => .compare (Cond.select op (irType c))) (some .s32) a b = some low := by
      unfold lowerBinary
      rw [low_ty ha, low_ty hb, (Props.IntType.C15_common_type _ _ _).2 hc]
      exact ⟨_, rfl⟩
    rw [lower, h1, Option.bind_some, h2, Option.bind_some]
    cases a with
    | lit x =>
      cases b with
      | lit y => exact compare_some op ha hb hc hx hy
      | code => exact main
    | code => exact main

end Verif.Lemmas.ExprRun
