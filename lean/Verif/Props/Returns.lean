import Verif.Model.Returns
import Verif.Spec.Stmt

/-!
# C60: without the warning, no execution reaches the closing brace
-/
namespace Verif.Returns
open Verif.ShortCircuit Verif.Stmt Verif.Spec.ShortCircuit Verif.Spec.Stmt

/-! ## The three results of the analysis -/

variable (known : E → Option Nat)

/-- There is a `default` of the enclosing switch. -/
def hasDflt : S → Bool
  | .seq a b => hasDflt a || hasDflt b
  | .ifThen _ a => hasDflt a
  | .ifElse _ a b => hasDflt a || hasDflt b
  | .whileS _ b => hasDflt b
  | .doS b _ => hasDflt b
  | .forS _ _ _ b => hasDflt b
  | .caseS _ s => hasDflt s
  | .dfltS _ => true
  | .label _ s => hasDflt s
  | _ => false

/-- There is a label of `goto`. -/
def hasLabel : S → Bool
  | .seq a b => hasLabel a || hasLabel b
  | .ifThen _ a => hasLabel a
  | .ifElse _ a b => hasLabel a || hasLabel b
  | .whileS _ b => hasLabel b
  | .doS b _ => hasLabel b
  | .forS _ _ _ b => hasLabel b
  | .switchS _ b => hasLabel b
  | .caseS _ s => hasLabel s
  | .dfltS s => hasLabel s
  | .label _ _ => true
  | _ => false

/-- There is a `case` or `default` of the enclosing switch. -/
def hasCase : S → Bool
  | .seq a b => hasCase a || hasCase b
  | .ifThen _ a => hasCase a
  | .ifElse _ a b => hasCase a || hasCase b
  | .whileS _ b => hasCase b
  | .doS b _ => hasCase b
  | .forS _ _ _ b => hasCase b
  | .caseS _ _ => true
  | .dfltS _ => true
  | .label _ s => hasCase s
  | _ => false

/-- There is a `continue` of the enclosing loop. -/
def hasCont : S → Bool
  | .seq a b => hasCont a || hasCont b
  | .ifThen _ a => hasCont a
  | .ifElse _ a b => hasCont a || hasCont b
  | .switchS _ b => hasCont b
  | .caseS _ s => hasCont s
  | .dfltS s => hasCont s
  | .label _ s => hasCont s
  | .cont => true
  | _ => false

/-- The flag after the statement, and whether a `break` that leaves it is considered alive. -/
def sum : S → Bool → Bool × Bool
  | .seq a b, f => ((sum b (sum a f).1).1, (sum a f).2 || (sum b (sum a f).1).2)
  | .ifThen _ a, f => (f, (sum a f).2)
  | .ifElse _ a b, f => (f || ((sum b f).1 && (sum a f).1), (sum a f).2 || (sum b f).2)
  | .whileS c b, f => (f || (!(sum b f).2 && isTrue known c), false)
  | .doS b c, f => ((sum b f).1 || (!(sum b f).2 && isTrue known c), false)
  | .forS _ c _ b, f => (f || (!(sum b f).2 && isTrueOpt known c), false)
  | .brk, f => (f, !f)
  | .switchS _ b, f => (f || ((sum b f).1 && hasDflt b && !(sum b f).2), false)
  | .caseS _ s, _ => sum s false
  | .dfltS s, _ => sum s false
  | .label _ s, _ => sum s false
  | .cont, _ => (true, false)
  | .goto _, _ => (true, false)
  | .ret _, _ => (true, false)
  | .skip, f => (f, false)
  | .expr _, f => (f, false)

def post (s : S) (f : Bool) : Bool := (sum known s f).1
def alive (s : S) (f : Bool) : Bool := (sum known s f).2

theorem walk_eq (s : S) : ∀ f a d, walk known s ⟨f, a, d⟩ = ⟨(sum known s f).1, a || (sum known s f).2, d || hasDflt s⟩ := by
  induction s with
  | seq x y ihx ihy => intro f a d; simp only [walk, sum, hasDflt, ihx, ihy, Bool.or_assoc]
  | ifElse c x y ihx ihy => intro f a d; simp only [walk, sum, hasDflt, ihx, ihy, Bool.or_assoc]
  | ifThen c x ih => intro f a d; simp only [walk, sum, hasDflt, ih]
  | whileS c x ih => intro f a d; simp only [walk, sum, hasDflt, ih, Bool.false_or, Bool.or_false]
  | doS x c ih => intro f a d; simp only [walk, sum, hasDflt, ih, Bool.false_or, Bool.or_false]
  | forS i c n x ih => intro f a d; simp only [walk, sum, hasDflt, ih, Bool.false_or, Bool.or_false]
  | switchS e x ih => intro f a d; simp only [walk, sum, hasDflt, ih, Bool.false_or, Bool.or_false]
  | caseS v x ih => intro f a d; simp only [walk, sum, hasDflt, ih]
  | dfltS x ih => intro f a d; simp only [walk, sum, hasDflt, ih, Bool.true_or, Bool.or_true]
  | label n x ih => intro f a d; simp only [walk, sum, hasDflt, ih]
  | _ => intro f a d; simp only [walk, sum, hasDflt, Bool.or_false]

@[simp] theorem post_skip (f : Bool) : post known .skip f = f := rfl
@[simp] theorem post_seq (x y : S) (f : Bool) : post known (.seq x y) f = post known y (post known x f) := rfl
@[simp] theorem alive_seq (x y : S) (f : Bool) : alive known (.seq x y) f = (alive known x f || alive known y (post known x f)) := rfl
@[simp] theorem post_ifThen (c : E) (x : S) (f : Bool) : post known (.ifThen c x) f = f := rfl
@[simp] theorem alive_ifThen (c : E) (x : S) (f : Bool) : alive known (.ifThen c x) f = alive known x f := rfl
@[simp] theorem post_ifElse (c : E) (x y : S) (f : Bool) : post known (.ifElse c x y) f = (f || (post known y f && post known x f)) := rfl
@[simp] theorem alive_ifElse (c : E) (x y : S) (f : Bool) : alive known (.ifElse c x y) f = (alive known x f || alive known y f) := rfl
@[simp] theorem post_while (c : E) (b : S) (f : Bool) : post known (.whileS c b) f = (f || (!alive known b f && isTrue known c)) := rfl
@[simp] theorem alive_while (c : E) (b : S) (f : Bool) : alive known (.whileS c b) f = false := rfl
@[simp] theorem post_do (c : E) (b : S) (f : Bool) : post known (.doS b c) f = (post known b f || (!alive known b f && isTrue known c)) := rfl
@[simp] theorem alive_do (c : E) (b : S) (f : Bool) : alive known (.doS b c) f = false := rfl
@[simp] theorem post_for (i c n : Option E) (b : S) (f : Bool) : post known (.forS i c n b) f = (f || (!alive known b f && isTrueOpt known c)) := rfl
@[simp] theorem alive_for (i c n : Option E) (b : S) (f : Bool) : alive known (.forS i c n b) f = false := rfl
@[simp] theorem post_switch (e : E) (b : S) (f : Bool) : post known (.switchS e b) f = (f || (post known b f && hasDflt b && !alive known b f)) := rfl
@[simp] theorem alive_switch (e : E) (b : S) (f : Bool) : alive known (.switchS e b) f = false := rfl
@[simp] theorem post_case (v : Nat) (s : S) (f : Bool) : post known (.caseS v s) f = post known s false := rfl
@[simp] theorem alive_case (v : Nat) (s : S) (f : Bool) : alive known (.caseS v s) f = alive known s false := rfl
@[simp] theorem post_dflt (s : S) (f : Bool) : post known (.dfltS s) f = post known s false := rfl
@[simp] theorem alive_dflt (s : S) (f : Bool) : alive known (.dfltS s) f = alive known s false := rfl
@[simp] theorem post_label (n : Nat) (s : S) (f : Bool) : post known (.label n s) f = post known s false := rfl
@[simp] theorem alive_label (n : Nat) (s : S) (f : Bool) : alive known (.label n s) f = alive known s false := rfl

/-! ## The condition -/

/-- No `if`, loop or `switch` that can be jumped into (there is a label, or a `case` of an enclosing switch, inside)
comes where the analysis considers the code dead, `f` being the flag before the statement; and if there is a live
`break` in the body of `do` then the analysis considers the end of the body reachable, and if there is a
`continue` then that or the condition is constant and true. -/
def clean : S → Bool → Bool
  | .seq a b, f => clean a f && clean b (post known a f)
  | .ifThen _ a, f => (!f || !(hasLabel a || hasCase a)) && clean a f
  | .ifElse _ a b, f => (!f || !(hasLabel a || hasCase a || hasLabel b || hasCase b)) && clean a f && clean b f
  | .whileS _ b, f => (!f || !(hasLabel b || hasCase b)) && clean b f
  | .forS _ _ _ b, f => (!f || !(hasLabel b || hasCase b)) && clean b f
  | .doS b c, f => (!f || !(hasLabel b || hasCase b)) && clean b f && (!hasCont b || !post known b f || isTrue known c) && (!alive known b f || !post known b f)
  | .switchS _ b, f => (!f || !hasLabel b) && clean b f
  | .caseS _ s, _ => clean s false
  | .dfltS s, _ => clean s false
  | .label _ s, _ => clean s false
  | _, _ => true

/-! ## The invariant

`n`, `b` and `c` say whether completing, `break` and `continue` may happen in front of the continuation. -/

structure Fits (s : S) (f n b c : Bool) : Prop where
  done : post known s f = false → n = true
  brk : alive known s f = true → b = true
  cont : hasCont s = true → c = true
  clean : clean known s f = true

inductive KOk : K → Bool → Bool → Bool → Prop
  | stop (b c : Bool) : KOk .stop false b c
  | seq {s : S} {k : K} {n b c : Bool} (m : Bool) : KOk k m b c → (n = true → Fits known s false m b c) → KOk (.seq s k) n b c
  | whileK {e : E} {s : S} {k : K} {n b c : Bool} (m b' c' : Bool) : KOk k m b' c' → Fits known (.whileS e s) false m b' c' → (b = true → m = true) →
      KOk (.whileK e s k) n b c
  | forK {e i : Option E} {s : S} {k : K} {n b c : Bool} (m b' c' : Bool) : KOk k m b' c' → Fits known (.forS none e i s) false m b' c' → (b = true → m = true) →
      KOk (.forK e i s k) n b c
  | doK {e : E} {s : S} {k : K} {n b c : Bool} (m b' c' : Bool) : KOk k m b' c' → Fits known (.doS s e) false m b' c' → (b = true → m = true) →
      (n = true ∨ c = true → m = true ∨ isTrue known e = true) → KOk (.doK s e k) n b c
  | switchK {k : K} {n b c : Bool} (m b' : Bool) : KOk k m b' c → (n = true ∨ b = true → m = true) → KOk (.switchK k) n b c

def Good (s : S) (k : K) : Prop := (∃ n b c, KOk known k n b c ∧ Fits known s false n b c) ∨ (s = .brk ∧ ∃ n c, KOk known k n true c) ∨ (s = .cont ∧ ∃ n b, KOk known k n b true)

variable {known}

theorem KOk.dead {k : K} {n b c : Bool} (h : KOk known k n b c) : KOk known k false b c := by
  cases h with
  | stop => exact .stop b c
  | seq m h1 h2 => exact .seq m h1 (by simp)
  | whileK m b' c' h1 h2 h3 => exact .whileK m b' c' h1 h2 h3
  | forK m b' c' h1 h2 h3 => exact .forK m b' c' h1 h2 h3
  | doK m b' c' h1 h2 h3 h4 => exact .doK m b' c' h1 h2 h3 (by intro h; exact h4 (.inr (by simpa using h)))
  | switchK m b' h1 h2 => exact .switchK m b' h1 (by intro h; exact h2 (.inr (by simpa using h)))

theorem locate_none_label (n : Nat) (s : S) : hasLabel s = false → ∀ k, locate (.labelT n) s k = none := by
  induction s <;> simp_all [hasLabel, locate]

theorem locate_none_case (t : Target) (ht : ∀ n, t ≠ .labelT n) (s : S) : hasCase s = false → ∀ k, locate t s k = none := by
  induction s <;> cases t <;> simp_all [hasCase, locate]

theorem locate_none (t : Target) (s : S) (h1 : hasLabel s = false) (h2 : hasCase s = false) (k : K) : locate t s k = none := by
  cases t with
  | labelT n => exact locate_none_label n s h1 k
  | _ => exact locate_none_case _ (by simp) s h2 k

theorem locate_dflt (s : S) : hasDflt s = true → ∀ k, locate .dfltT s k ≠ none := by
  induction s with
  | seq a b iha ihb =>
    intro h k e
    simp only [locate, Option.or_eq_none_iff] at e
    simp only [hasDflt, Bool.or_eq_true] at h
    rcases h with h | h
    · exact iha h _ e.1
    · exact ihb h _ e.2
  | ifElse c a b iha ihb =>
    intro h k e
    simp only [locate, Option.or_eq_none_iff] at e
    simp only [hasDflt, Bool.or_eq_true] at h
    rcases h with h | h
    · exact iha h _ e.1
    · exact ihb h _ e.2
  | _ => simp_all [hasDflt, locate]

/-- Jumping to a label arrives at live code. -/
theorem good_locate (t : Target) (s : S) : ∀ (f n b c : Bool) (k : K) (s' : S) (k' : K), KOk known k n b c → Fits known s f n b c →
    locate t s k = some (s', k') → Good known s' k' := by
  induction s with
  | seq x y ihx ihy =>
    intro f n b c k s' k' hk hf hl
    obtain ⟨h1, h2, h3, h4⟩ := hf
    simp only [post_seq, alive_seq, hasCont, clean, Bool.or_eq_true, Bool.and_eq_true] at h1 h2 h3 h4
    simp only [locate, Option.or_eq_some_iff] at hl
    rcases hl with hl | ⟨_, hl⟩
    · refine ihx f (!post known x f) b c _ s' k' (.seq n hk ?_) ⟨by simp, fun h => h2 (.inl h), fun h => h3 (.inl h), h4.1⟩ hl
      intro h
      simp only [Bool.not_eq_true'] at h
      rw [h] at h1 h2 h4
      exact ⟨h1, fun h => h2 (.inr h), fun h => h3 (.inr h), h4.2⟩
    · exact ihy _ n b c k s' k' hk ⟨h1, fun h => h2 (.inr h), fun h => h3 (.inr h), h4.2⟩ hl
  | ifThen e x ih =>
    intro f n b c k s' k' hk hf hl
    obtain ⟨h1, h2, h3, h4⟩ := hf
    simp only [post_ifThen, alive_ifThen, hasCont, clean, Bool.or_eq_true, Bool.and_eq_true, Bool.not_eq_true', Bool.or_eq_false_iff] at h1 h2 h3 h4
    rcases h4.1 with hd | hd
    · exact ih f n b c k s' k' hk ⟨fun _ => h1 hd, h2, h3, h4.2⟩ hl
    · rw [locate, locate_none t x hd.1 hd.2] at hl
      cases hl
  | ifElse e x y ihx ihy =>
    intro f n b c k s' k' hk hf hl
    obtain ⟨h1, h2, h3, h4⟩ := hf
    simp only [post_ifElse, alive_ifElse, hasCont, clean, Bool.or_eq_true, Bool.and_eq_true, Bool.not_eq_true', Bool.or_eq_false_iff, Bool.and_eq_false_iff] at h1 h2 h3 h4
    rcases h4.1.1 with hd | hd
    · simp only [locate, Option.or_eq_some_iff] at hl
      rcases hl with hl | ⟨_, hl⟩
      · exact ihx f n b c k s' k' hk ⟨fun h => h1 ⟨hd, .inr h⟩, fun h => h2 (.inl h), fun h => h3 (.inl h), h4.1.2⟩ hl
      · exact ihy f n b c k s' k' hk ⟨fun h => h1 ⟨hd, .inl h⟩, fun h => h2 (.inr h), fun h => h3 (.inr h), h4.2⟩ hl
    · rw [locate, locate_none t x hd.1.1.1 hd.1.1.2, locate_none t y hd.1.2 hd.2] at hl
      cases hl
  | whileS e x ih =>
    intro f n b c k s' k' hk hf hl
    have h4 := hf.clean
    simp only [clean, Bool.or_eq_true, Bool.and_eq_true, Bool.not_eq_true', Bool.or_eq_false_iff] at h4
    rcases h4.1 with hd | hd
    · subst hd
      refine ih false true (alive known x false) true _ s' k' (.whileK n b c hk hf ?_) ⟨by simp, id, by simp, h4.2⟩ hl
      intro h
      exact hf.done (by simp [h])
    · rw [locate, locate_none t x hd.1 hd.2] at hl
      cases hl
  | forS i e j x ih =>
    intro f n b c k s' k' hk hf hl
    have h4 := hf.clean
    simp only [clean, Bool.or_eq_true, Bool.and_eq_true, Bool.not_eq_true', Bool.or_eq_false_iff] at h4
    rcases h4.1 with hd | hd
    · subst hd
      refine ih false true (alive known x false) true _ s' k' (.forK n b c hk ⟨hf.done, hf.brk, hf.cont, hf.clean⟩ ?_) ⟨by simp, id, by simp, h4.2⟩ hl
      intro h
      exact hf.done (by simp [h])
    · rw [locate, locate_none t x hd.1 hd.2] at hl
      cases hl
  | doS x e ih =>
    intro f n b c k s' k' hk hf hl
    have h4 := hf.clean
    simp only [clean, Bool.or_eq_true, Bool.and_eq_true, Bool.not_eq_true', Bool.or_eq_false_iff] at h4
    obtain ⟨⟨⟨h5, h6⟩, h7⟩, h8⟩ := h4
    rcases h5 with hd | hd
    · subst hd
      have hm : post known x false = false → n = true ∨ isTrue known e = true := by
        intro h
        by_cases ht : isTrue known e = true
        · exact .inr ht
        · exact .inl (hf.done (by simp [h, ht]))
      refine ih false (!post known x false) (alive known x false) (hasCont x) _ s' k' (.doK n b c hk hf ?_ ?_) ⟨by simp, id, id, h6⟩ hl
      · intro h
        rcases h8 with h8 | h8
        · rw [h8] at h; cases h
        · exact hf.done (by simp [h, h8])
      · rintro (h | h)
        · exact hm (by simpa using h)
        · rcases h7 with (h7 | h7) | h7
          · rw [h7] at h; cases h
          · exact hm h7
          · exact .inr h7
    · rw [locate, locate_none t x hd.1 hd.2] at hl
      cases hl
  | switchS e x ih =>
    intro f n b c k s' k' hk hf hl
    obtain ⟨h1, h2, h3, h4⟩ := hf
    simp only [post_switch, alive_switch, hasCont, clean, Bool.or_eq_true, Bool.and_eq_true, Bool.not_eq_true', Bool.or_eq_false_iff, Bool.and_eq_false_iff] at h1 h2 h3 h4
    cases t with
    | labelT m =>
      rcases h4.1 with hd | hd
      · refine ih f (!post known x f) (alive known x f) c _ s' k' (.switchK n b hk ?_) ⟨by simp, id, h3, h4.2⟩ hl
        rintro (h | h)
        · exact h1 ⟨hd, .inl (.inl (by simpa using h))⟩
        · exact h1 ⟨hd, .inr (by simp [h])⟩
      · rw [locate, locate_none_label m x hd] at hl
        cases hl
    | caseT v => cases hl
    | dfltT => cases hl
  | caseS v x ih =>
    intro f n b c k s' k' hk hf hl
    have hf' : Fits known x false n b c := ⟨hf.done, hf.brk, hf.cont, hf.clean⟩
    simp only [locate] at hl
    split at hl
    · cases hl
      exact .inl ⟨n, b, c, hk, hf'⟩
    · exact ih false n b c k s' k' hk hf' hl
  | dfltS x ih =>
    intro f n b c k s' k' hk hf hl
    have hf' : Fits known x false n b c := ⟨hf.done, hf.brk, hf.cont, hf.clean⟩
    simp only [locate] at hl
    split at hl
    · cases hl
      exact .inl ⟨n, b, c, hk, hf'⟩
    · exact ih false n b c k s' k' hk hf' hl
  | label m x ih =>
    intro f n b c k s' k' hk hf hl
    have hf' : Fits known x false n b c := ⟨hf.done, hf.brk, hf.cont, hf.clean⟩
    simp only [locate] at hl
    split at hl
    · cases hl
      exact .inl ⟨n, b, c, hk, hf'⟩
    · exact ih false n b c k s' k' hk hf' hl
  | _ =>
    intro f n b c k s' k' hk hf hl
    cases hl

/-! ## Steps -/

/-- The folded conditions have the values they have been folded to. -/
def Sound {σ : Type} (known : E → Option Nat) (act : Nat → σ → Nat × σ) : Prop :=
  ∀ c v st, known c = some v → (eval act c st).1 = v

variable {σ : Type} {act : Nat → σ → Nat × σ}

theorem isTrue_eval (hs : Sound known act) {c : E} (h : isTrue known c = true) (st : σ) : (eval act c st).1 ≠ 0 := by
  unfold isTrue at h
  split at h
  · rename_i v hv
    rw [hs c v st hv]
    simpa using h
  · cases h

theorem isTrueOpt_eval (hs : Sound known act) {c : Option E} (h : isTrueOpt known c = true) (st : σ) : (evalOpt act c st).1 ≠ 0 := by
  cases c with
  | none => simp [evalOpt]
  | some c => exact isTrue_eval hs h st

theorem Fits.skip {n b c : Bool} (h : n = true) : Fits known .skip false n b c := ⟨fun _ => h, by simp [alive, sum], by simp [hasCont], rfl⟩
/-- The same for `break`. -/
theorem good_brk {body : S} {k : K} {n c : Bool} {st : σ} (hk : KOk known k n true c) :
    (∀ s' k' st', Spec.Stmt.step act body .brk k st = .next s' k' st' → Good known s' k') ∧ ∀ st', Spec.Stmt.step act body .brk k st ≠ .done .fellOff st' := by
  cases hk with
  | stop => exact ⟨fun s' k' st' e => by (cases e), fun st' e => by cases e⟩
  | seq m h1 h2 =>
    refine ⟨fun s' k' st' e => ?_, fun st' e => by cases e⟩
    cases e
    exact .inr (.inl ⟨rfl, m, c, h1⟩)
  | whileK m b' c' h1 h2 h3 =>
    refine ⟨fun s' k' st' e => ?_, fun st' e => by cases e⟩
    cases e
    exact .inl ⟨m, b', c', h1, .skip (h3 rfl)⟩
  | forK m b' c' h1 h2 h3 =>
    refine ⟨fun s' k' st' e => ?_, fun st' e => by cases e⟩
    cases e
    exact .inl ⟨m, b', c', h1, .skip (h3 rfl)⟩
  | doK m b' c' h1 h2 h3 h4 =>
    refine ⟨fun s' k' st' e => ?_, fun st' e => by cases e⟩
    cases e
    exact .inl ⟨m, b', c', h1, .skip (h3 rfl)⟩
  | switchK m b' h1 h2 =>
    refine ⟨fun s' k' st' e => ?_, fun st' e => by cases e⟩
    cases e
    exact .inl ⟨m, b', c, h1, .skip (h2 (.inr rfl))⟩

/-- The same for `continue`. -/
theorem good_cont {body : S} {k : K} {n b : Bool} {st : σ} (hk : KOk known k n b true) :
    (∀ s' k' st', Spec.Stmt.step act body .cont k st = .next s' k' st' → Good known s' k') ∧ ∀ st', Spec.Stmt.step act body .cont k st ≠ .done .fellOff st' := by
  cases hk with
  | stop => exact ⟨fun s' k' st' e => by (cases e), fun st' e => by cases e⟩
  | seq m h1 h2 =>
    refine ⟨fun s' k' st' e => ?_, fun st' e => by cases e⟩
    cases e
    exact .inr (.inr ⟨rfl, m, b, h1⟩)
  | whileK m b' c' h1 h2 h3 =>
    refine ⟨fun s' k' st' e => ?_, fun st' e => by cases e⟩
    cases e
    exact .inl ⟨m, b', c', h1, h2⟩
  | forK m b' c' h1 h2 h3 =>
    refine ⟨fun s' k' st' e => ?_, fun st' e => by cases e⟩
    cases e
    exact .inl ⟨true, b, true, .forK m b' c' h1 h2 h3, .skip rfl⟩
  | doK m b' c' h1 h2 h3 h4 =>
    refine ⟨fun s' k' st' e => ?_, fun st' e => by cases e⟩
    cases e
    exact .inl ⟨true, b, true, .doK m b' c' h1 h2 h3 (fun _ => h4 (.inr rfl)), .skip rfl⟩
  | switchK m b' h1 h2 =>
    refine ⟨fun s' k' st' e => ?_, fun st' e => by cases e⟩
    cases e
    exact .inr (.inr ⟨rfl, m, b', h1⟩)

/-- A step goes from a good state to a good state, and the end of the body is not reached. -/
theorem good_step (hs : Sound known act) {body : S} (hb : Fits known body false false true true) {s : S} {k : K} {st : σ} (hg : Good known s k) :
    (∀ s' k' st', Spec.Stmt.step act body s k st = .next s' k' st' → Good known s' k') ∧ ∀ st', Spec.Stmt.step act body s k st ≠ .done .fellOff st' := by
  rcases hg with ⟨n, b, c, hk, hf⟩ | ⟨rfl, n, c, hk⟩ | ⟨rfl, n, b, hk⟩
  rotate_left
  · exact good_brk hk
  · exact good_cont hk
  cases s with
  | skip =>
    have hn := hf.done rfl
    subst hn
    cases hk with
    | seq m h1 h2 =>
      refine ⟨fun s' k' st' e => ?_, fun st' e => by cases e⟩
      cases e
      exact .inl ⟨m, b, c, h1, h2 rfl⟩
    | whileK m b' c' h1 h2 h3 =>
      refine ⟨fun s' k' st' e => ?_, fun st' e => by cases e⟩
      cases e
      exact .inl ⟨m, b', c', h1, h2⟩
    | forK m b' c' h1 h2 h3 =>
      refine ⟨fun s' k' st' e => ?_, fun st' e => by cases e⟩
      cases e
      exact .inl ⟨m, b', c', h1, h2⟩
    | @doK e x k _ _ _ m b' c' h1 h2 h3 h4 =>
      simp only [Spec.Stmt.step]
      by_cases hz : (eval act e st).1 = 0
      · rw [if_pos hz]
        refine ⟨fun s' k' st' e => ?_, fun st' e => by cases e⟩
        cases e
        rcases h4 (.inl rfl) with h | h
        · exact .inl ⟨m, b', c', h1, .skip h⟩
        · exact absurd hz (isTrue_eval hs h st)
      · rw [if_neg hz]
        refine ⟨fun s' k' st' e => ?_, fun st' e => by cases e⟩
        cases e
        exact .inl ⟨m, b', c', h1, h2⟩
    | switchK m b' h1 h2 =>
      refine ⟨fun s' k' st' e => ?_, fun st' e => by cases e⟩
      cases e
      exact .inl ⟨m, b', c, h1, .skip (h2 (.inl rfl))⟩
  | expr e =>
    refine ⟨fun s' k' st' e => ?_, fun st' e => by cases e⟩
    cases e
    exact .inl ⟨n, b, c, hk, .skip (hf.done rfl)⟩
  | seq x y =>
    refine ⟨fun s' k' st' e => ?_, fun st' e => by cases e⟩
    cases e
    obtain ⟨h1, h2, h3, h4⟩ := hf
    simp only [post_seq, alive_seq, hasCont, clean, Bool.or_eq_true, Bool.and_eq_true] at h1 h2 h3 h4
    refine .inl ⟨!post known x false, b, c, .seq n hk ?_, ⟨by simp, fun h => h2 (.inl h), fun h => h3 (.inl h), h4.1⟩⟩
    intro h
    simp only [Bool.not_eq_true'] at h
    rw [h] at h1 h2 h4
    exact ⟨h1, fun h => h2 (.inr h), fun h => h3 (.inr h), h4.2⟩
  | ifThen e x =>
    obtain ⟨h1, h2, h3, h4⟩ := hf
    simp only [post_ifThen, alive_ifThen, hasCont, clean, Bool.and_eq_true] at h1 h2 h3 h4
    simp only [Spec.Stmt.step]
    by_cases hz : (eval act e st).1 = 0
    · rw [if_pos hz]
      refine ⟨fun s' k' st' e => ?_, fun st' e => by cases e⟩
      cases e
      exact .inl ⟨n, b, c, hk, .skip (h1 trivial)⟩
    · rw [if_neg hz]
      refine ⟨fun s' k' st' e => ?_, fun st' e => by cases e⟩
      cases e
      exact .inl ⟨n, b, c, hk, ⟨fun _ => h1 trivial, h2, h3, h4.2⟩⟩
  | ifElse e x y =>
    obtain ⟨h1, h2, h3, h4⟩ := hf
    simp only [post_ifElse, alive_ifElse, hasCont, clean, Bool.or_eq_true, Bool.and_eq_true, Bool.false_or, Bool.and_eq_false_iff] at h1 h2 h3 h4
    simp only [Spec.Stmt.step]
    by_cases hz : (eval act e st).1 = 0
    · rw [if_pos hz]
      refine ⟨fun s' k' st' e => ?_, fun st' e => by cases e⟩
      cases e
      exact .inl ⟨n, b, c, hk, ⟨fun h => h1 (.inl h), fun h => h2 (.inr h), fun h => h3 (.inr h), h4.2⟩⟩
    · rw [if_neg hz]
      refine ⟨fun s' k' st' e => ?_, fun st' e => by cases e⟩
      cases e
      exact .inl ⟨n, b, c, hk, ⟨fun h => h1 (.inr h), fun h => h2 (.inl h), fun h => h3 (.inl h), h4.1.2⟩⟩
  | whileS e x =>
    have h4 := hf.clean
    simp only [clean, Bool.and_eq_true] at h4
    simp only [Spec.Stmt.step]
    by_cases hz : (eval act e st).1 = 0
    · rw [if_pos hz]
      refine ⟨fun s' k' st' e => ?_, fun st' e => by cases e⟩
      cases e
      have : isTrue known e = false := by
        cases h : isTrue known e with
        | false => rfl
        | true => exact absurd hz (isTrue_eval hs h st)
      exact .inl ⟨n, b, c, hk, .skip (hf.done (by simp [this]))⟩
    · rw [if_neg hz]
      refine ⟨fun s' k' st' e => ?_, fun st' e => by cases e⟩
      cases e
      exact .inl ⟨true, alive known x false, true, .whileK n b c hk hf (fun h => hf.done (by simp [h])), ⟨by simp, id, by simp, h4.2⟩⟩
  | forS i e j x =>
    have hf' : Fits known (.forS none e j x) false n b c := ⟨hf.done, hf.brk, hf.cont, hf.clean⟩
    have h4 := hf.clean
    simp only [clean, Bool.and_eq_true] at h4
    cases i with
    | some i =>
      refine ⟨fun s' k' st' e => ?_, fun st' e => by cases e⟩
      cases e
      exact .inl ⟨n, b, c, hk, hf'⟩
    | none =>
      simp only [Spec.Stmt.step]
      by_cases hz : (evalOpt act e st).1 = 0
      · rw [if_pos hz]
        refine ⟨fun s' k' st' e => ?_, fun st' e => by cases e⟩
        cases e
        have : isTrueOpt known e = false := by
          cases h : isTrueOpt known e with
          | false => rfl
          | true => exact absurd hz (isTrueOpt_eval hs h st)
        exact .inl ⟨n, b, c, hk, .skip (hf.done (by simp [this]))⟩
      · rw [if_neg hz]
        refine ⟨fun s' k' st' e => ?_, fun st' e => by cases e⟩
        cases e
        exact .inl ⟨true, alive known x false, true, .forK n b c hk hf (fun h => hf.done (by simp [h])), ⟨by simp, id, by simp, h4.2⟩⟩
  | doS x e =>
    refine ⟨fun s' k' st' e => ?_, fun st' e => by cases e⟩
    cases e
    have h4 := hf.clean
    simp only [clean, Bool.or_eq_true, Bool.and_eq_true, Bool.not_eq_true', Bool.or_eq_false_iff] at h4
    obtain ⟨⟨⟨h5, h6⟩, h7⟩, h8⟩ := h4
    have hm : post known x false = false → n = true ∨ isTrue known e = true := by
      intro h
      by_cases ht : isTrue known e = true
      · exact .inr ht
      · exact .inl (hf.done (by simp [h, ht]))
    refine .inl ⟨!post known x false, alive known x false, hasCont x, .doK n b c hk hf ?_ ?_, ⟨by simp, id, id, h6⟩⟩
    · intro h
      rcases h8 with h8 | h8
      · rw [h8] at h; cases h
      · exact hf.done (by simp [h, h8])
    · rintro (h | h)
      · exact hm (by simpa using h)
      · rcases h7 with (h7 | h7) | h7
        · rw [h7] at h; cases h
        · exact hm h7
        · exact .inr h7
  | brk =>
    have hb := hf.brk rfl
    subst hb
    exact good_brk hk
  | cont =>
    have hb := hf.cont rfl
    subst hb
    exact good_cont hk
  | switchS e x =>
    obtain ⟨h1, h2, h3, h4⟩ := hf
    simp only [post_switch, alive_switch, hasCont, clean, Bool.or_eq_true, Bool.and_eq_true, Bool.not_eq_true', Bool.or_eq_false_iff, Bool.and_eq_false_iff] at h1 h2 h3 h4
    have hk' : KOk known (.switchK k) (!post known x false) (alive known x false) c := by
      refine .switchK n b hk ?_
      rintro (h | h)
      · exact h1 ⟨trivial, .inl (.inl (by simpa using h))⟩
      · exact h1 ⟨trivial, .inr (by simp [h])⟩
    have hf' : Fits known x false (!post known x false) (alive known x false) c := ⟨by simp, id, h3, h4.2⟩
    simp only [Spec.Stmt.step]
    split
    · rename_i s1 k1 hl
      refine ⟨fun s' k' st' e => ?_, fun st' e => by cases e⟩
      cases e
      simp only [Option.or_eq_some_iff] at hl
      rcases hl with hl | ⟨_, hl⟩
      · exact good_locate _ x _ _ _ _ _ _ _ hk' hf' hl
      · exact good_locate _ x _ _ _ _ _ _ _ hk' hf' hl
    · rename_i hl
      refine ⟨fun s' k' st' e => ?_, fun st' e => by cases e⟩
      cases e
      simp only [Option.or_eq_none_iff] at hl
      have : hasDflt x = false := by
        cases h : hasDflt x with
        | false => rfl
        | true => exact absurd hl.2 (locate_dflt x h _)
      exact .inl ⟨n, b, c, hk, .skip (h1 ⟨trivial, .inl (.inr this)⟩)⟩
  | caseS v x =>
    refine ⟨fun s' k' st' e => ?_, fun st' e => by cases e⟩
    cases e
    exact .inl ⟨n, b, c, hk, ⟨hf.done, hf.brk, hf.cont, hf.clean⟩⟩
  | dfltS x =>
    refine ⟨fun s' k' st' e => ?_, fun st' e => by cases e⟩
    cases e
    exact .inl ⟨n, b, c, hk, ⟨hf.done, hf.brk, hf.cont, hf.clean⟩⟩
  | label m x =>
    refine ⟨fun s' k' st' e => ?_, fun st' e => by cases e⟩
    cases e
    exact .inl ⟨n, b, c, hk, ⟨hf.done, hf.brk, hf.cont, hf.clean⟩⟩
  | goto m =>
    simp only [Spec.Stmt.step]
    split
    · rename_i s1 k1 hl
      refine ⟨fun s' k' st' e => ?_, fun st' e => by cases e⟩
      cases e
      exact good_locate _ body _ _ _ _ _ _ _ (.stop true true) hb hl
    · exact ⟨fun s' k' st' e => by (cases e), fun st' e => by cases e⟩
  | ret e =>
    cases e with
    | none => exact ⟨fun s' k' st' e => by (cases e), fun st' e => by cases e⟩
    | some e => exact ⟨fun s' k' st' e => by (cases e), fun st' e => by cases e⟩

theorem good_runs (hs : Sound known act) {body : S} (hb : Fits known body false false true true) {s : S} {k : K} {st st' : σ} {o : Outcome}
    (h : Runs act body s k st o st') : Good known s k → o ≠ .fellOff := by
  induction h with
  | done s k st o st' h =>
    rintro hg rfl
    exact (good_step hs hb hg).2 _ h
  | next s k st s' k' st' o st'' h _ ih => exact fun hg => ih ((good_step hs hb hg).1 _ _ _ h)

/-- **C60** (partial): if there is no warning then no execution of the function reaches the closing brace,
provided no `if`, loop or `switch` with a label inside comes at a place that the analysis considers dead, and
`do` loops are left by `break` and `continue` only as `clean` says. -/
theorem C60_no_fall_off_partial (known : E → Option Nat) (act : Nat → σ → Nat × σ) (hs : Sound known act) (body : S) (isMain : Bool)
    (hw : warns known body isMain = false) (hc : clean known body false = true) (st st' : σ) : ¬ Calls act body isMain st .fellOff st' := by
  rintro ⟨o, hr, ho⟩
  cases isMain with
  | true =>
    by_cases h : o = .fellOff
    · simp [h] at ho
    · simp [h] at ho; exact h ho.symm
  | false =>
    simp at ho
    subst ho
    have hp : post known body false = true := by
      simpa [warns, walk_eq known body, post] using hw
    have hb : Fits known body false false true true := ⟨fun h => by (rw [hp] at h; cases h), by simp, by simp, hc⟩
    exact good_runs hs hb hr (.inl ⟨false, true, true, .stop true true, hb⟩) rfl

/-! ## Structured bodies -/

/-- There is a `break` of the enclosing loop or switch. -/
def hasBrk : S → Bool
  | .seq a b => hasBrk a || hasBrk b
  | .ifThen _ a => hasBrk a
  | .ifElse _ a b => hasBrk a || hasBrk b
  | .caseS _ s => hasBrk s
  | .dfltS s => hasBrk s
  | .label _ s => hasBrk s
  | .brk => true
  | _ => false

/-- There are no labels inside of `if`, loops and `switch`, a `case` is not inside an `if` or a loop in its switch,
and `break` and `continue` do not belong to `do` loops. -/
def structured : S → Bool
  | .seq a b => structured a && structured b
  | .ifThen _ a => !hasLabel a && !hasCase a && structured a
  | .ifElse _ a b => !hasLabel a && !hasCase a && !hasLabel b && !hasCase b && structured a && structured b
  | .whileS _ b => !hasLabel b && !hasCase b && structured b
  | .forS _ _ _ b => !hasLabel b && !hasCase b && structured b
  | .doS b _ => !hasLabel b && !hasCase b && !hasBrk b && !hasCont b && structured b
  | .switchS _ b => !hasLabel b && structured b
  | .caseS _ s => structured s
  | .dfltS s => structured s
  | .label _ s => structured s
  | _ => true

theorem alive_brk (s : S) : hasBrk s = false → ∀ f, alive known s f = false := by
  induction s with
  | seq x y ihx ihy =>
    intro h f
    simp only [hasBrk, Bool.or_eq_false_iff] at h
    rw [alive_seq, ihx h.1, ihy h.2]
    rfl
  | ifElse c x y ihx ihy =>
    intro h f
    simp only [hasBrk, Bool.or_eq_false_iff] at h
    rw [alive_ifElse, ihx h.1, ihy h.2]
    rfl
  | ifThen c x ih => exact fun h f => ih h f
  | caseS v x ih => exact fun h f => ih h false
  | dfltS x ih => exact fun h f => ih h false
  | label n x ih => exact fun h f => ih h false
  | brk => intro h; cases h
  | _ => exact fun _ _ => rfl

theorem structured_clean (s : S) : structured s = true → ∀ f, clean known s f = true := by
  induction s with
  | seq x y ihx ihy =>
    intro h f
    simp only [structured, Bool.and_eq_true] at h
    simp [clean, ihx h.1, ihy h.2]
  | ifThen c x ih =>
    intro h f
    simp only [structured, Bool.and_eq_true, Bool.not_eq_true'] at h
    simp [clean, ih h.2, h.1.1, h.1.2]
  | ifElse c x y ihx ihy =>
    intro h f
    simp only [structured, Bool.and_eq_true, Bool.not_eq_true'] at h
    obtain ⟨⟨⟨⟨⟨h1, h2⟩, h3⟩, h4⟩, h5⟩, h6⟩ := h
    simp [clean, ihx h5, ihy h6, h1, h2, h3, h4]
  | whileS c x ih =>
    intro h f
    simp only [structured, Bool.and_eq_true, Bool.not_eq_true'] at h
    simp [clean, ih h.2, h.1.1, h.1.2]
  | forS i c n x ih =>
    intro h f
    simp only [structured, Bool.and_eq_true, Bool.not_eq_true'] at h
    simp [clean, ih h.2, h.1.1, h.1.2]
  | doS x c ih =>
    intro h f
    simp only [structured, Bool.and_eq_true, Bool.not_eq_true'] at h
    obtain ⟨⟨⟨⟨h1, h2⟩, h3⟩, h4⟩, h5⟩ := h
    simp [clean, ih h5, h1, h2, h4, alive_brk x h3]
  | switchS e x ih =>
    intro h f
    simp only [structured, Bool.and_eq_true, Bool.not_eq_true'] at h
    simp [clean, ih h.2, h.1]
  | caseS v x ih => exact fun h f => ih h false
  | dfltS x ih => exact fun h f => ih h false
  | label n x ih => exact fun h f => ih h false
  | _ => exact fun _ _ => rfl

/-- **C60** (partial): the same for bodies with labels and cases only at the outer level of the function and of
the switch. -/
theorem C60_structured_partial (known : E → Option Nat) (act : Nat → σ → Nat × σ) (hs : Sound known act) (body : S) (isMain : Bool)
    (hw : warns known body isMain = false) (hc : structured body = true) (st st' : σ) : ¬ Calls act body isMain st .fellOff st' :=
  C60_no_fall_off_partial known act hs body isMain hw (structured_clean body hc false) st st'

/-- **C60**: no warning is given for a function that ends in a loop without a condition that no `break` leaves. -/
theorem C60_infinite_loop (known : E → Option Nat) (a b : S) (i n : Option E) (hb : hasBrk b = false) (isMain : Bool) :
    warns known (.seq a (.forS i none n b)) isMain = false := by
  simp only [warns, walk, walk_eq known a, walk_eq known b, show (sum known b (sum known a false).1).2 = false from alive_brk b hb _]
  simp [isTrueOpt]

example : warns (fun _ => none) (.seq .skip (.forS none none none (.expr (.leaf 0)))) false = false := C60_infinite_loop _ _ _ _ _ rfl _

/-! ## Examples and deviations -/

/-- Literals only. -/
def literals : E → Option Nat
  | .lit v => some v
  | _ => none

theorem literals_sound (act : Nat → σ → Nat × σ) : Sound literals act := by
  intro c v st h
  cases c <;> cases h
  rfl

/-- `for(;;){ if(a) return 1; if(b) goto out; }  out: switch(c){ case 1: return 2; default: return 3; }` -/
def sample : S :=
  .seq (.forS none none none (.seq (.ifThen (.leaf 0) (.ret (some (.lit 1)))) (.ifThen (.leaf 1) (.goto 7))))
    (.label 7 (.switchS (.leaf 2) (.seq (.caseS 1 (.ret (some (.lit 2)))) (.dfltS (.ret (some (.lit 3)))))))

example : warns literals sample false = false ∧ structured sample = true := by decide
example (act : Nat → σ → Nat × σ) (st st' : σ) : ¬ Calls act sample false st .fellOff st' :=
  C60_structured_partial literals act (literals_sound act) sample false (by decide) (by decide) st st'

theorem Runs.go {act : Nat → σ → Nat × σ} {body s s' : S} {k k' : K} {st st' st'' : σ} {o : Outcome} (h : Spec.Stmt.step act body s k st = .next s' k' st')
    (g : Runs act body s' k' st' o st'') : Runs act body s k st o st'' := .next s k st s' k' st' o st'' h g

theorem Runs.fin {act : Nat → σ → Nat × σ} {body s : S} {k : K} {st st' : σ} {o : Outcome} (h : Spec.Stmt.step act body s k st = .done o st') :
    Runs act body s k st o st' := .done s k st o st' h

/-- **C60 is violated** by `do { if(a) break; return 1; } while(0);`: no warning, but it falls off the end if `a`. -/
theorem C60_do_break_wrong : let body := S.doS (.seq (.ifThen (.leaf 0) .brk) (.ret (some (.lit 1)))) (.lit 0)
    warns literals body false = false ∧ Calls (fun _ (st : Unit) => (1, st)) body false () .fellOff () := by
  refine ⟨by decide, .fellOff, ?_, rfl⟩
  exact Runs.go rfl (Runs.go rfl (Runs.go rfl (Runs.go rfl (Runs.go rfl (Runs.fin rfl)))))

/-- **C60 is violated** by `do { continue; } while(0);`. -/
theorem C60_do_continue_wrong : let body := S.doS .cont (.lit 0)
    warns literals body false = false ∧ Calls (fun _ (st : Unit) => (1, st)) body false () .fellOff () := by
  refine ⟨by decide, .fellOff, ?_, rfl⟩
  exact Runs.go rfl (Runs.go rfl (Runs.go rfl (Runs.fin rfl)))

/-- **C60 is violated** by `goto l; if(a) { l: ; }`. -/
theorem C60_label_wrong : let body := S.seq (.goto 7) (.ifThen (.leaf 0) (.label 7 .skip))
    WellFormed body ∧ warns literals body false = false ∧ Calls (fun _ (st : Unit) => (1, st)) body false () .fellOff () := by
  refine ⟨⟨by simp [Placed], by simp [labelsOf], by simp [gotosOf, labelsOf]⟩, by decide, .fellOff, ?_, rfl⟩
  exact Runs.go rfl (Runs.go rfl (Runs.fin rfl))

/-- **C60 is violated** by `switch(a) { default: return 1; if(b) { case 1: ; } }`. -/
theorem C60_case_wrong : let body := S.switchS (.leaf 0) (.seq (.dfltS (.ret (some (.lit 1)))) (.ifThen (.leaf 0) (.caseS 1 .skip)))
    WellFormed body ∧ warns literals body false = false ∧ Calls (fun _ (st : Unit) => (1, st)) body false () .fellOff () := by
  refine ⟨⟨by simp [Placed, casesOf, dfltsOf], by simp [labelsOf], by simp [gotosOf]⟩, by decide, .fellOff, ?_, rfl⟩
  exact Runs.go rfl (Runs.go rfl (Runs.fin rfl))

end Verif.Returns
