import Verif.Lemmas.ExprMul
import Verif.Lemmas.ExprSem

/-!
# The code of an expression leaves the value of the expression on the stack of locations
-/
namespace Verif.Lemmas.ExprRun
open Verif.IntType Verif.Fold Verif.RegAlloc Verif.ExprCode Verif.Props.RegAlloc Verif.Spec.X64 Verif.Spec.ExprCode Verif.Spec.IntType
open Verif.Lemmas.ExprCode Verif.Lemmas.ExprSem
open Verif.Props.Cast (Holds)
open Verif.Props.Cond (Implements)
open Verif.Spec.RegAlloc (Values create)
open Verif.Lemmas.Call (Moved lt_count Nothing create_same)

/-- The operand has the type and the value. -/
structure Val (m : Machine) (A : Values) (o : Opnd) (t : Ty) (v : Int) : Prop where
  usable : Usable [] m A o
  size : sizeA A o = t.bits / 8
  holds : Holds t (valA A m.bytes o) v

theorem Val.int {m A o t v} (h : Val m A o t v) : isInteger t := h.holds.1

theorem Val.lt {m A o t v} (h : Val m A o t v) : valA A m.bytes o < 2 ^ t.bits := by
  have := valA_lt (bytes := m.bytes) h.usable.wf
  rwa [h.size, size_pow h.int] at this

theorem Frame.value {F m A m' A' o t v} (h : Frame F m A m' A') (hv : Val m A o t v) (hF : ∀ id, root o = some id → ¬ F id) : Val m' A' o t v := by
  obtain ⟨h1, h2, h3⟩ := h.usable (L' := []) hv.usable hF (by simp)
  exact ⟨h1, h2.trans hv.size, by rw [h3, h.bytes]; exact hv.holds⟩

/-- From `m` to `m'` the operand `o` was computed; everything else is as before. -/
structure Top (m : Machine) (A : Values) (o : Opnd) (m' : Machine) (A' : Values) (t : Ty) (v : Int) : Prop where
  good : Good [] m' A'
  frame : Frame Nothing m A m' A'
  val : Val m' A' o t v
  fresh : ∀ id, root o = some id → A.count ≤ id
  occ : ∀ r j, m'.s.map r = some j → root o = some j ∨ m.s.map r = some j

/-- The same for a condition in the flags. -/
structure Cnd (m : Machine) (A : Values) (o : Opnd) (m' : Machine) (A' : Values) (t : Ty) (v : Int) : Prop where
  int : isInteger t
  bits : t.bits = 32
  gone : Gone [] Nothing m A m' A'
  cond : ∃ c c' b, o = .cond c 4 ∧ Cond.negate c = some c' ∧ Implements c m'.flags b ∧ v = if b then 1 else 0

/-- The next node does not use the flags. -/
def Plain (irs : List Ir) : Prop := irs ≠ [] ∧ fuses irs.head? = false

theorem plain_cons {ir irs} (h : fuses (some ir) = false) : Plain (ir :: irs) := ⟨by simp, h⟩
theorem Plain.append {irs rest} (h : Plain irs) : Plain (irs ++ rest) := by
  cases irs with
  | nil => exact absurd rfl h.1
  | cons ir irs => exact ⟨by simp, h.2⟩

def CodeOK (bytes : Nat → Nat) (c : List Ir) (t : Ty) (v : Int) (n : Nat) : Prop :=
  Plain c ∧ ∀ rest m A stack taken, Good [] m A → m.bytes = bytes → stack.length + n ≤ 256 →
    ∃ o m' A', run (c ++ rest) ⟨m, stack, taken⟩ = run rest ⟨m', o :: stack, taken⟩ ∧
      ((Top m A o m' A' t v ∧ notImm o) ∨ (¬ Plain rest ∧ Cnd m A o m' A' t v))

def LowOK (bytes : Nat → Nat) (low : Low) (t : Ty) (v : Int) (n : Nat) : Prop :=
  match low with
  | .lit l => IsLit l t v
  | .code s c => s = t ∧ CodeOK bytes c t v n

/-- What pushes an operand before a node that does not use the flags. -/
def Pushes (bytes : Nat → Nat) (c : List Ir) (t : Ty) (v : Int) (n : Nat) (imm : Bool) : Prop :=
  Plain c ∧ ∀ rest m A stack taken, Good [] m A → m.bytes = bytes → stack.length + n ≤ 256 → Plain rest →
    ∃ o m' A', run (c ++ rest) ⟨m, stack, taken⟩ = run rest ⟨m', o :: stack, taken⟩ ∧ Top m A o m' A' t v ∧ (imm = false → notImm o)

theorem CodeOK.pushes {bytes c t v n} (h : CodeOK bytes c t v n) : Pushes bytes c t v n false := by
  refine ⟨h.1, fun rest m A stack taken hg hb hs hp => ?_⟩
  obtain ⟨o, m', A', h1, h2⟩ := h.2 rest m A stack taken hg hb hs
  rcases h2 with ⟨h2, h3⟩ | ⟨h2, _⟩
  · exact ⟨o, m', A', h1, h2, fun _ => h3⟩
  · exact absurd hp h2

theorem top_refl {m A o t v} (hg : Good [] m A) (hv : Val m A o t v) (hr : root o = none) : Top m A o m A t v :=
  ⟨hg, Frame.refl, hv, fun id h => by (rw [hr] at h; cases h), fun _ _ h => .inr h⟩

theorem lit_pushes {bytes l t v n} (h : IsLit l t v) (hn : 1 ≤ n) : Pushes bytes [.literal l] t v n true := by
  refine ⟨plain_cons rfl, fun rest m A stack taken hg _ hs _ => ?_⟩
  refine ⟨.imm (litBytes l) (t.bits / 8), m, A, ?_, top_refl hg ⟨⟨size_ok h.int, by simp [root], by simp⟩, rfl, ?_⟩ rfl, fun h => by cases h⟩
  · show (emit _ _ _).bind _ = _
    show (push _ _).bind _ = _
    unfold push
    rw [h.ty]
    dsimp only
    rw [if_pos (by omega)]
    rfl
  · show Holds t (litBytes l % 256 ^ (t.bits / 8)) v
    rw [size_pow h.int]
    exact lit_holds h

/-! ## Casts -/

theorem cast_total {m A o s t v w} (hg : Good [] m A) (hv : Val m A o s v) (hn : notImm o) (ht : isInteger t) (hk : Cast.kind s t ≠ .none)
    (hw : Converts t v w) :
    ∃ o' m' A' x, castOpnd m (Cast.kind s t) o = some (o', m') ∧ notImm o' ∧
      Out [] (fun j => root o = some j) m A o' m' A' (t.bits / 8) x ∧ Holds t x w := by
  have hs := hv.int
  have ext : ∀ sgn, Cast.kind s t = (if sgn then .signExtend s.bits t.bits else .zeroExtend s.bits t.bits) →
      ∃ o' m' A' x, integerCast m sgn s.bits t.bits o = some (o', m') ∧ notImm o' ∧
        Out [] (fun j => root o = some j) m A o' m' A' (t.bits / 8) x ∧ Holds t x w := by
    intro sgn hk
    obtain ⟨id, m', A', old, x, h1, h2, h3⟩ := integerCast_total sgn hg hv.usable hn hv.size (size_ok ht)
    refine ⟨_, m', A', _, h1, trivial, h3, ?_⟩
    have hx : Holds s x v := holds_congr hv.holds (by
      rw [size_pow hs] at h2
      rw [h2, Nat.mod_eq_of_lt hv.lt])
    rw [size_pow ht]
    exact holds_mod (sem_extend hs ht hk hx hw)
  rcases kind_cases s t hs ht with ⟨h, _⟩ | ⟨h, rfl⟩ | h | h | ⟨h, hle⟩
  · exact absurd h hk
  · obtain ⟨id, m', A', h1, h2⟩ := toBool_total hg hv.usable
    refine ⟨.loc id, m', A', _, by rw [h]; exact h1, trivial, h2, sem_bool (zero_iff hv.lt hv.holds) hw⟩
  · rw [h]; exact ext true h
  · rw [h]; exact ext false h
  · have hsz : t.bits / 8 ≤ sizeA A o := by rw [hv.size]; exact Nat.div_le_div_right hle
    obtain ⟨o', m', A', h1, h2, h3⟩ := truncate_total hg hv.usable hn (size_ok ht) hsz
    refine ⟨o', m', A', _, by rw [h]; exact h1, h2, h3, ?_⟩
    rw [size_pow ht]
    exact holds_mod (sem_truncate ht h hv.holds hw)

theorem Out.val {L R m A o m' A' t x w} (ho : Out L R m A o m' A' (t.bits / 8) x) (hx : Holds t x w) : Val m' A' o t w :=
  ⟨⟨ho.usable.wf, ho.usable.live, by simp⟩, ho.size, by rw [ho.value]; exact hx⟩

/-- An operation on operands that were computed since `m`. -/
theorem rebase {R m A m1 A1 o m' A' t x w} (hi : Inv m.s A) (hf : Frame Nothing m A m1 A1) (ho : Out [] R m1 A1 o m' A' (t.bits / 8) x)
    (hx : Holds t x w) (hR : ∀ j, j < A.count → ¬ R j) (hocc : ∀ r j, m1.s.map r = some j → R j ∨ m.s.map r = some j) : Top m A o m' A' t w := by
  refine ⟨ho.good, hf.trans hi ho.frame (fun _ _ h => h) (fun j hj h => (hR j hj h).elim), Out.val ho hx, ?_, ?_⟩
  · intro id hid
    rcases ho.fresh id hid with h | h
    · exact Nat.le_of_not_lt fun hlt => hR id hlt h
    · exact Nat.le_trans hf.count h
  · intro r j hj
    rcases ho.occ r j hj with h | ⟨h, h'⟩
    · exact .inl h
    · rcases hocc r j h with h | h
      · exact absurd h h'
      · exact .inr h

/-- The nodes of a cast of the top operand. -/
theorem castIr_top {m A o m1 A1 s t v w rest stack taken} (hi : Inv m.s A) (h : Top m A o m1 A1 s v) (hn : notImm o) (ht : isInteger t)
    (hw : Converts t v w) :
    ∃ o' m' A', run (castIr false s t ++ rest) ⟨m1, o :: stack, taken⟩ = run rest ⟨m', o' :: stack, taken⟩ ∧ Top m A o' m' A' t w ∧ notImm o' := by
  by_cases hk : Cast.kind s t = .none
  · have hb : s.bits = t.bits := by
      rcases kind_cases s t h.val.int ht with ⟨_, h⟩ | ⟨h, _⟩ | h | h | ⟨h, _⟩ <;> first | exact h | (rw [hk] at h; cases h)
    refine ⟨o, m1, A1, ?_, ⟨h.good, h.frame, ⟨h.val.usable, by rw [h.val.size, hb], sem_same h.val.int ht hk h.val.holds hw⟩, h.fresh, h.occ⟩, hn⟩
    unfold castIr; rw [if_pos hk]; rfl
  · obtain ⟨o', m', A', x, h1, h2, h3, h4⟩ := cast_total h.good h.val hn ht hk hw
    refine ⟨o', m', A', ?_, rebase hi h.frame h3 h4 (fun j hj hr => ?_) h.occ, h2⟩
    · unfold castIr; rw [if_neg hk]
      show (emit _ _ _).bind _ = _
      show ((castOpnd m1 (Cast.kind s t) o).map _).bind _ = _
      rw [h1]; rfl
    · have := h.fresh j hr; omega

theorem castIr_plain {lhs s t rest} (h : Plain rest) : Plain (castIr lhs s t ++ rest) := by
  unfold castIr
  split
  · exact h
  · exact plain_cons rfl

/-! ## Two operands -/

/-- The operands of a binary operator. -/
structure Two (m : Machine) (A : Values) (l r : Opnd) (m' : Machine) (A' : Values) (c d : Ty) (x y : Int) : Prop where
  good : Good [] m' A'
  frame : Frame Nothing m A m' A'
  left : Val m' A' l c x
  right : Val m' A' r d y
  apart : ∀ id, root l = some id → root r ≠ some id
  fresh : ∀ id, root l = some id ∨ root r = some id → A.count ≤ id
  occ : ∀ i j, m'.s.map i = some j → (root l = some j ∨ root r = some j) ∨ m.s.map i = some j

theorem Two.top {m A l r m1 A1 c d x y o m' A' t w v} (hi : Inv m.s A) (h : Two m A l r m1 A1 c d x y)
    (ho : Out [] (fun j => root l = some j ∨ root r = some j) m1 A1 o m' A' (t.bits / 8) w) (hw : Holds t w v) : Top m A o m' A' t v :=
  rebase hi h.frame ho hw (fun j hj hr => by have := h.fresh j hr; omega) h.occ

/-- A cast of the left operand. -/
theorem castIr_left {m A l r m1 A1 s c d v x y rest stack taken} (hi : Inv m.s A) (h : Two m A l r m1 A1 s d v y) (hn : Cast.kind s c ≠ .none → notImm l)
    (hc : isInteger c) (hx : Converts c v x) :
    ∃ l' m' A', run (castIr true s c ++ rest) ⟨m1, r :: l :: stack, taken⟩ = run rest ⟨m', r :: l' :: stack, taken⟩ ∧ Two m A l' r m' A' c d x y ∧
      (notImm l → notImm l') := by
  by_cases hk : Cast.kind s c = .none
  · have hb : s.bits = c.bits := by
      rcases kind_cases s c h.left.int hc with ⟨_, h⟩ | ⟨h, _⟩ | h | h | ⟨h, _⟩ <;> first | exact h | (rw [hk] at h; cases h)
    refine ⟨l, m1, A1, ?_, ⟨h.good, h.frame, ⟨h.left.usable, by rw [h.left.size, hb], sem_same h.left.int hc hk h.left.holds hx⟩, h.right, h.apart, h.fresh, h.occ⟩, id⟩
    unfold castIr; rw [if_pos hk]; rfl
  · obtain ⟨l', m', A', w, h1, h2, h3, h4⟩ := cast_total h.good h.left (hn hk) hc hk hx
    refine ⟨l', m', A', ?_, ⟨h3.good, ?_, Out.val h3 h4, ?_, ?_, ?_, ?_⟩, fun _ => h2⟩
    · unfold castIr; rw [if_neg hk]
      show (emit _ _ _).bind _ = _
      show ((castOpnd m1 (Cast.kind s c) l).map _).bind _ = _
      rw [h1]; rfl
    · exact h.frame.trans hi h3.frame (fun _ _ h => h) (fun j hj hr => by have := h.fresh j (.inl hr); omega)
    · exact Frame.value h3.frame h.right (fun id hr hl => h.apart id hl hr)
    · intro id hl hr
      rcases h3.fresh id hl with h' | h'
      · exact h.apart id h' hr
      · have := Live.lt h.good.inv (h.right.usable.live id hr); omega
    · intro id hid
      rcases hid with hid | hid
      · rcases h3.fresh id hid with h' | h'
        · exact h.fresh id (.inl h')
        · exact Nat.le_trans h.frame.count h'
      · exact h.fresh id (.inr hid)
    · intro i j hj
      rcases h3.occ i j hj with h' | ⟨h', h''⟩
      · exact .inl (.inl h')
      · rcases h.occ i j h' with (e | e) | e
        · exact absurd e h''
        · exact .inl (.inr e)
        · exact .inr e

/-- A cast of the right operand. -/
theorem castIr_right {m A l r m1 A1 c d u w x y rest stack taken} (hi : Inv m.s A) (h : Two m A l r m1 A1 c u x w) (hn : Cast.kind u d ≠ .none → notImm r)
    (hd : isInteger d) (hy : Converts d w y) :
    ∃ r' m' A', run (castIr false u d ++ rest) ⟨m1, r :: l :: stack, taken⟩ = run rest ⟨m', r' :: l :: stack, taken⟩ ∧ Two m A l r' m' A' c d x y ∧
      (notImm r → notImm r') := by
  by_cases hk : Cast.kind u d = .none
  · have hb : u.bits = d.bits := by
      rcases kind_cases u d h.right.int hd with ⟨_, h⟩ | ⟨h, _⟩ | h | h | ⟨h, _⟩ <;> first | exact h | (rw [hk] at h; cases h)
    refine ⟨r, m1, A1, ?_, ⟨h.good, h.frame, h.left, ⟨h.right.usable, by rw [h.right.size, hb], sem_same h.right.int hd hk h.right.holds hy⟩, h.apart, h.fresh, h.occ⟩, id⟩
    unfold castIr; rw [if_pos hk]; rfl
  · obtain ⟨r', m', A', w, h1, h2, h3, h4⟩ := cast_total h.good h.right (hn hk) hd hk hy
    refine ⟨r', m', A', ?_, ⟨h3.good, ?_, ?_, Out.val h3 h4, ?_, ?_, ?_⟩, fun _ => h2⟩
    · unfold castIr; rw [if_neg hk]
      show (emit _ _ _).bind _ = _
      show ((castOpnd m1 (Cast.kind u d) r).map _).bind _ = _
      rw [h1]; rfl
    · exact h.frame.trans hi h3.frame (fun _ _ h => h) (fun j hj hr => by have := h.fresh j (.inr hr); omega)
    · exact Frame.value h3.frame h.left (fun id hl hr => h.apart id hl hr)
    · intro id hl hr
      rcases h3.fresh id hr with h' | h'
      · exact h.apart id hl h'
      · have := Live.lt h.good.inv (h.left.usable.live id hl); omega
    · intro id hid
      rcases hid with hid | hid
      · exact h.fresh id (.inl hid)
      · rcases h3.fresh id hid with h' | h'
        · exact h.fresh id (.inr h')
        · exact Nat.le_trans h.frame.count h'
    · intro i j hj
      rcases h3.occ i j hj with h' | ⟨h', h''⟩
      · exact .inl (.inr h')
      · rcases h.occ i j h' with (e | e) | e
        · exact .inl (.inl e)
        · exact absurd e h''
        · exact .inr e

theorem push_two {bytes cl cr s u v w n k il ir} (hl : Pushes bytes cl s v n il) (hr : Pushes bytes cr u w k ir)
    {rest m A stack taken} (hg : Good [] m A) (hb : m.bytes = bytes) (hs : stack.length + max n (k + 1) ≤ 256) (hp : Plain rest) :
    ∃ l r m' A', run (cl ++ cr ++ rest) ⟨m, stack, taken⟩ = run rest ⟨m', r :: l :: stack, taken⟩ ∧ Two m A l r m' A' s u v w ∧
      (il = false → notImm l) ∧ (ir = false → notImm r) := by
  rw [List.append_assoc]
  obtain ⟨l, m1, A1, h1, h2, h3⟩ := hl.2 (cr ++ rest) m A stack taken hg hb (by omega) hr.1.append
  obtain ⟨r, m2, A2, h4, h5, h6⟩ := hr.2 rest m1 A1 (l :: stack) taken h2.good (by rw [h2.frame.bytes, hb]) (by simp only [List.length_cons]; omega) hp
  refine ⟨l, r, m2, A2, by rw [h1, h4], ⟨h5.good, h2.frame.trans hg.inv h5.frame (fun _ _ h => h) (fun _ _ h => h),
    Frame.value h5.frame h2.val (fun _ _ h => h), h5.val, ?_, ?_, ?_⟩, h3, h6⟩
  · intro id hl hr
    have e1 := h5.fresh id hr
    have e2 := Live.lt h2.good.inv (h2.val.usable.live id hl)
    omega
  · rintro id (h | h)
    · exact h2.fresh id h
    · exact Nat.le_trans h2.frame.count (h5.fresh id h)
  · intro i j hj
    rcases h5.occ i j hj with h | h
    · exact .inl (.inr h)
    · rcases h2.occ i j h with h | h
      · exact .inl (.inl h)
      · exact .inr h

/-- A converted operand. -/
theorem convert_ok {bytes low s v n} (lhs : Bool) {c x} (h : LowOK bytes low s v n) (hn : 1 ≤ n) (hc : isInteger c) (hx : Converts c v x) :
    ∃ s' v' imm, Pushes bytes (convert lhs c low).1 s' v' n imm ∧ (convert lhs c low).2 = castIr lhs s' c ∧ Converts c v' x ∧
      (Cast.kind s' c ≠ .none → imm = false) := by
  cases low with
  | lit l =>
    have h' := cast_lit hc h hx
    refine ⟨c, x, true, lit_pushes h' hn, ?_, ?_, fun hk => absurd (by simp [Cast.kind]) hk⟩
    · show [] = _
      unfold castIr Cast.kind
      rw [if_pos (rfl : c = c), if_pos rfl]
    · have hr := h'.range
      by_cases hb : c = .bool
      · subst hb
        show x = if x = 0 then 0 else 1
        simp only [InRange, minVal, maxVal] at hr
        split <;> omega
      · exact Props.Compound.converts_of_dvd hc hb hr (by simp)
  | code t c' =>
    obtain ⟨rfl, h⟩ := h
    exact ⟨t, v, false, h.pushes, rfl, hx, fun _ => rfl⟩

theorem two_converted {bytes l r s u v w n k c x y} (hl : LowOK bytes l s v n) (hr : LowOK bytes r u w k) (hn : 1 ≤ n) (hk : 1 ≤ k)
    (hc : isInteger c) (hx : Converts c v x) (hy : Converts c w y)
    {rest m A stack taken} (hg : Good [] m A) (hb : m.bytes = bytes) (hs : stack.length + max n (k + 1) ≤ 256) (hp : Plain rest) :
    ∃ ol or m' A', run ((convert true c l).1 ++ (convert false c r).1 ++ (convert true c l).2 ++ (convert false c r).2 ++ rest) ⟨m, stack, taken⟩ =
      run rest ⟨m', or :: ol :: stack, taken⟩ ∧ Two m A ol or m' A' c c x y := by
  obtain ⟨s', v', il, h1, h2, h3, h4⟩ := convert_ok true hl hn hc hx
  obtain ⟨u', w', ir, h5, h6, h7, h8⟩ := convert_ok false hr hk hc hy
  rw [h2, h6, List.append_assoc, List.append_assoc]
  obtain ⟨ol, or, m1, A1, e1, e2, e3, e4⟩ := push_two h1 h5 (taken := taken) hg hb hs (castIr_plain (castIr_plain hp))
  obtain ⟨ol', m2, A2, e5, e6, e7⟩ := castIr_left (rest := castIr false u' c ++ rest) (stack := stack) (taken := taken) hg.inv e2 (fun hk => e3 (h4 hk)) hc h3
  obtain ⟨or', m3, A3, e8, e9, e10⟩ := castIr_right (rest := rest) (stack := stack) (taken := taken) hg.inv e6 (fun hk => e4 (h8 hk)) hc h7
  exact ⟨ol', or', m3, A3, by rw [e1, e5, e8], e9⟩

theorem plain_convert {bytes low s v n} (lhs : Bool) {c x rest} (h : LowOK bytes low s v n) (hn : 1 ≤ n) (hc : isInteger c) (hx : Converts c v x) :
    Plain ((convert lhs c low).1 ++ rest) := by
  obtain ⟨_, _, _, h1, _⟩ := convert_ok lhs h hn hc hx
  exact h1.1.append

/-! ## Operators -/

theorem step_binary {op c m A l r m1 A1 x y z} (hi : Inv m.s A) (hb : Big c) (hop : op = .add ∨ op = .sub ∨ op = .and ∨ op = .or ∨ op = .xor)
    (h : Two m A l r m1 A1 c c x y) (hz : Compound.runOp c op x y = some z) :
    ∃ o m' A', (∀ rest stack taken, run (.binary op :: rest) ⟨m1, r :: l :: stack, taken⟩ = run rest ⟨m', o :: stack, taken⟩) ∧
      Top m A o m' A' c z ∧ notImm o := by
  have hsl := h.left.size
  have hsr := h.right.size
  obtain ⟨id, m', A', a, b, w, h1, h2, h3, h4, h5⟩ := binaryOp_total op h.good h.left.usable h.right.usable h.apart (by rw [hsl, hsr])
    (by rw [hsr]; exact hb.wide) hop
  rw [hsr, size_pow hb.int] at h2 h3 h5
  rw [hsr, bits_size hb.int] at h4
  refine ⟨.loc id, m', A', ?_, h.top hi h5 ?_, trivial⟩
  · intro rest stack taken
    show ((binaryOp m1 (some op) l r).map _).bind _ = _
    rw [h1]; rfl
  · refine holds_mod (sem_binary hb (holds_congr h.left.holds ?_) (holds_congr h.right.holds ?_) h4 hz)
    · rw [h2, Nat.mod_eq_of_lt h.left.lt]
    · rw [h3, Nat.mod_eq_of_lt h.right.lt]

theorem step_mul {k op c m A l r m1 A1 x y z} (hi : Inv m.s A) (hb : Big c)
    (hk : (k = .mul ∧ op = .mul) ∨ (k = .div ∧ op = .div) ∨ (k = .mod ∧ op = .mod))
    (h : Two m A l r m1 A1 c c x y) (hz : Compound.runOp c op x y = some z) :
    ∃ o m' A', (∀ rest stack taken, run (.mulDiv k c.isSigned :: rest) ⟨m1, r :: l :: stack, taken⟩ = run rest ⟨m', o :: stack, taken⟩) ∧
      Top m A o m' A' c z ∧ notImm o := by
  have hsl := h.left.size
  have hsr := h.right.size
  have key : ∀ a hi' lo b, a % 2 ^ c.bits = valA A1 m1.bytes l → hi' % 2 ^ c.bits = (if c.isSigned then signOf c.bits a else 0) % 2 ^ c.bits →
      lo % 2 ^ c.bits = valA A1 m1.bytes l → b % 2 ^ c.bits = valA A1 m1.bytes r →
      ∃ p, mulInst k c.isSigned c.bits hi' lo b = some p ∧ Holds c (if k = .mod then p.1 else p.2) z := by
    intro a hi' lo b e1 e2 e3 e4
    have ha : Holds c a x := holds_congr h.left.holds (by rw [e1, Nat.mod_eq_of_lt h.left.lt])
    have hlo : Holds c lo x := holds_congr h.left.holds (by rw [e3, Nat.mod_eq_of_lt h.left.lt])
    have hbb : Holds c b y := holds_congr h.right.holds (by rw [e4, Nat.mod_eq_of_lt h.right.lt])
    rcases hk with ⟨rfl, rfl⟩ | hk
    · have : ∃ p, mulInst .mul c.isSigned c.bits hi' lo b = some p := by
        cases c.isSigned <;> exact ⟨_, rfl⟩
      obtain ⟨p, hp⟩ := this
      exact ⟨p, hp, sem_mul hb hlo hbb hp hz⟩
    · exact sem_div hb hk ha hlo hbb e2 hz
  obtain ⟨id, m', A', a, hi', lo, b, p, h1, h2, h3, h4, h5, h6, h7⟩ := mulDiv_total (mulInst k c.isSigned) k c.isSigned h.good h.left.usable h.right.usable h.apart (by rw [hsl, hsr])
    (by rw [hsr]; exact hb.wide) (fun a hi' lo b e1 e2 e3 e4 => by
      rw [hsr, size_pow hb.int] at e1 e2 e3 e4
      rw [hsr, bits_size hb.int]
      rw [bits_size hb.int] at e2
      obtain ⟨p, hp, _⟩ := key a hi' lo b e1 e2 e3 e4
      exact ⟨p, hp⟩)
  rw [hsr, size_pow hb.int] at h2 h3 h4 h5 h7
  rw [bits_size hb.int] at h3
  rw [hsr, bits_size hb.int] at h6
  refine ⟨.loc id, m', A', ?_, h.top hi h7 ?_, trivial⟩
  · intro rest stack taken
    show ((mulDivWith (mulInst k c.isSigned) m1 k c.isSigned l r).map _).bind _ = _
    rw [h1]; rfl
  · obtain ⟨p', hp', hh⟩ := key a hi' lo b h2 h3 h4 h5
    rw [h6] at hp'
    cases hp'
    exact holds_mod hh

theorem step_shift {left c m A l r m1 A1 x y z} (hi : Inv m.s A) (hb : Big c) (h : Two m A l r m1 A1 c .u8 x y)
    (hz : ∀ a b, Holds c a x → (b % 256 : Nat) = y → Holds c (shiftInst left c.isSigned c.bits a b) z) :
    ∃ o m' A', (∀ rest stack taken, run (.shift left c.isSigned :: rest) ⟨m1, r :: l :: stack, taken⟩ = run rest ⟨m', o :: stack, taken⟩) ∧
      Top m A o m' A' c z ∧ notImm o := by
  have hsl := h.left.size
  have hsr := h.right.size
  obtain ⟨id, m', A', a, b, h1, h2, h3, h4⟩ := shiftOp_total left c.isSigned h.good h.left.usable h.right.usable h.apart
    (by rw [hsl]; exact hb.wide) hsr
  rw [hsl, size_pow hb.int] at h2 h4
  rw [bits_size hb.int] at h4
  refine ⟨.loc id, m', A', ?_, h.top hi h4 ?_, trivial⟩
  · intro rest stack taken
    show ((shiftOp m1 left c.isSigned l r).map _).bind _ = _
    rw [h1]; rfl
  · refine holds_mod (hz a b (holds_congr h.left.holds (by rw [h2, Nat.mod_eq_of_lt h.left.lt])) ?_)
    rw [h3]
    have hlt := h.right.lt
    obtain ⟨_, e1, e2⟩ := h.right.holds
    simp only [Ty.bits, InRange, minVal, maxVal, Nat.reducePow, Int.reducePow] at *
    omega

theorem not_plain {rest} (h : ¬ Plain rest) : rest.head? = none ∨ fuses rest.head? = true := by
  cases rest with
  | nil => exact .inl rfl
  | cons ir irs =>
    refine .inr ?_
    cases hf : fuses (ir :: irs).head? with
    | true => rfl
    | false => exact absurd ⟨by simp, hf⟩ h

/-- A condition is loaded, or left for the next node. -/
theorem settle_total {m A m1 A1 cc cc' b} {rest : List Ir} (hi : Inv m.s A) (h : Gone [] Nothing m A m1 A1) (hn : Cond.negate cc = some cc')
    (hc : Implements cc m1.flags b) :
    ∃ o m' A', settle m1 rest.head? cc = some (o, m') ∧ ((Top m A o m' A' .s32 (if b then 1 else 0) ∧ notImm o) ∨
      (¬ Plain rest ∧ Cnd m A o m' A' .s32 (if b then 1 else 0))) := by
  unfold settle
  by_cases hp : Plain rest
  · have h1 : ¬ (rest.head? = none ∨ fuses rest.head? = true) := by
      rintro (e | e)
      · exact hp.1 (List.head?_eq_none_iff.1 e)
      · rw [hp.2] at e; cases e
    rw [if_neg h1]
    have hh : condHolds m1 cc = some b := by
      obtain ⟨⟨o, e1, _, e2⟩, _⟩ := hc
      unfold condHolds
      rw [e1, Option.map_some, e2]
    obtain ⟨id, m', A', e1, e2⟩ := condLoad_total (size := 4) h.good (.inl rfl) hh
    rw [e1]
    have ho := e2.out rfl (by split <;> decide)
    refine ⟨.loc id, m', A', rfl, .inl ⟨rebase (t := .s32) hi h.frame ho ?_ (fun _ _ h => h) (fun r j hj => .inr (h.occ r j hj).1), trivial⟩⟩
    cases b <;> decide
  · rw [if_pos (not_plain hp)]
    exact ⟨_, m1, A1, rfl, .inr ⟨hp, trivial, rfl, h, cc, cc', b, rfl, hn, hc, rfl⟩⟩

theorem select_negatable {op t t' cc} (h : Cond.decodeIr (Cond.select op t) = some (t', cc)) : ∃ cc', Cond.negate cc = some cc' := by
  cases op <;> cases t <;> cases h <;> exact ⟨_, rfl⟩

theorem negate_negatable {c c'} (h : Cond.negate c = some c') : ∃ c'', Cond.negate c' = some c'' := by
  unfold Cond.negate at h
  split at h <;> first | (cases h; exact ⟨_, rfl⟩) | cases h

theorem step_compare {op c m A l r m1 A1 x y} {rest : List Ir} (hi : Inv m.s A) (hb : Big c) (h : Two m A l r m1 A1 c c x y) :
    ∃ o m' A', (∀ stack taken, run (.compare (Cond.select op (irType c)) :: rest) ⟨m1, r :: l :: stack, taken⟩ = run rest ⟨m', o :: stack, taken⟩) ∧
      ((Top m A o m' A' .s32 (if Related op x y then 1 else 0) ∧ notImm o) ∨
        (¬ Plain rest ∧ Cnd m A o m' A' .s32 (if Related op x y then 1 else 0))) := by
  have hsl := h.left.size
  have hsr := h.right.size
  obtain ⟨m2, A2, h1, h2, h3⟩ := compare_total h.good h.left.usable h.right.usable h.apart (by rw [hsl, hsr]) (by rw [hsr]; exact hb.wide)
  rw [hsr, bits_size hb.int] at h3
  obtain ⟨t', cc, h4, h5⟩ := sem_compare op hb h.left.lt h.right.lt h.left.holds h.right.holds
  rw [← h3] at h5
  obtain ⟨cc', h6⟩ := select_negatable h4
  have hgone : Gone [] Nothing m A m2 A2 := by
    refine ⟨h2.good, h.frame.trans hi h2.frame (fun _ _ h => h) (fun j hj hr => by have := h.fresh j hr; omega), fun r j hj => ?_⟩
    obtain ⟨e1, e2⟩ := h2.occ r j hj
    rcases h.occ r j e1 with e | e
    · exact absurd e e2
    · exact ⟨e, id⟩
  obtain ⟨o, m', A', h7, h8⟩ := settle_total (rest := rest) hi hgone h6 h5
  refine ⟨o, m', A', ?_, ?_⟩
  · intro stack taken
    show (emit _ _ _).bind _ = _
    have : emit rest.head? (.compare (Cond.select op (irType c))) ⟨m1, r :: l :: stack, taken⟩ = some ⟨m', o :: stack, taken⟩ := by
      show (Cond.decodeIr _).bind _ = _
      rw [h4, Option.bind_some]
      dsimp only
      have e : ∀ (f : Machine → Option St), (binaryOp m1 none l r).bind (fun (n, m) => (freeLoc m n).bind f) =
          ((binaryOp m1 none l r).bind (fun (n, m) => freeLoc m n)).bind f := by
        intro f; cases binaryOp m1 none l r <;> rfl
      rw [e, h1, Option.bind_some, h7]
      rfl
    rw [this]; rfl
  · simpa using h8

end Verif.Lemmas.ExprRun
