import Verif.Lemmas.FuncRun
import Verif.Props.ExprCode

/-!
# C73: compiled functions do what C prescribes
-/
namespace Verif.Props.FuncCode
open Verif.IntType Verif.RegAlloc Verif.ExprCode Verif.Spec.ExprCode Verif.Spec.IntType Verif.Spec.FuncCode
open Verif.Lemmas.ExprRun Verif.Lemmas.ExprCode Verif.Lemmas.FuncCode Verif.Lemmas.ExprType Verif.Lemmas.ExprSafe
open Verif.Props.ExprCode (boot_good boot_idle)

/-- The state of the emitter at the start of a function. The contents do not matter. -/
def start (base : Nat) : St := ⟨boot base (fun _ => 0) (fun _ => 0) (fun _ => 0) ⟨false, false, false, false, false⟩, [], none⟩

theorem start_safe (base) : Safe (start base).m {} [] [] :=
  ⟨boot_good _ _ _ _ _, trivial, trivial, fun r j h => by rw [show (start base).m.s.map r = none from boot_idle _ _ _ _ _ r] at h; cases h⟩

/-- `return 0;` at the end of `main` is what a `return` statement would be. -/
theorem function_seq {t isMain s code n} (h : lowerFunction t isMain s = some (code, n)) :
    lowerS t (if isMain = true ∧ t = some .s32 then .seq s (.ret (some (.lit .s32 0))) else s) none none 0 = some (code, n) := by
  obtain ⟨⟨c, n1⟩, h1, h2⟩ := Option.map_eq_some_iff.1 h
  dsimp only at h2
  cases h2
  split
  · rename_i hm
    rw [lowerS, h1]
    obtain ⟨_, rfl⟩ := hm
    rfl
  · rw [List.append_nil]
    exact h1

theorem function_emits (base : Nat) {t isMain s code n} (ht : ∀ u, t = some u → isInteger u) (hs : TypedS s) (hf : Fits s)
    (hc : lowerFunction t isMain s = some (code, n)) : ∃ sts, layout code (start base) = some sts ∧ Emits code sts ∧ Bound sts 0 ∧
      ∀ (p l : Nat), code[p]? = some (.label l) → Bound sts p := by
  have hT : StmtT code := by
    refine lowerS_T ht _ ?_ ?_ (function_seq hc)
    · split
      · exact ⟨hs, (show isInteger Ty.s32 by decide)⟩
      · exact hs
    · split
      · exact ⟨hf, (show need (.lit .s32 0) ≤ 256 by decide)⟩
      · exact hf
  have hT' := hT [] [] .nil
  rw [List.append_nil] at hT'
  obtain ⟨sts, h1, h2⟩ := layout_total (st := start base) hT' (start_safe base)
  obtain ⟨h3, h4, _⟩ := layout_emits h1
  exact ⟨sts, h1, h3, ⟨_, _, h4, rfl, boot_good _ _ _ _ _, boot_idle _ _ _ _ _⟩, h2⟩

/-- C73: code is emitted for every function whose types are integers and whose expressions are not too deep. -/
theorem C73_emits (base : Nat) (t : Option Ty) (isMain : Bool) (s : S) (code : List Ir) (n : Nat) (ht : ∀ u, t = some u → isInteger u) (hs : TypedS s) (hf : Fits s)
    (hc : lowerFunction t isMain s = some (code, n)) : ∃ sts, layout code (start base) = some sts := by
  obtain ⟨sts, h, _⟩ := function_emits base ht hs hf hc
  exact ⟨sts, h⟩

theorem exec_more {code sts c'} : ∀ {fuel pc c}, exec code sts fuel pc c = some c' → ∀ k, exec code sts (fuel + k) pc c = some c'
  | 0, pc, c, h, k => by
    rw [exec] at h
    split at h
    · rename_i hp
      cases k with
      | zero => rw [exec, if_pos hp, h]
      | succ k => rw [Nat.zero_add, exec, if_pos hp, h]
    · cases h
  | fuel + 1, pc, c, h, k => by
    rw [exec] at h
    have e : fuel + 1 + k = fuel + k + 1 := by omega
    rw [e, exec]
    split
    · rename_i hp
      rw [if_pos hp] at h
      exact h
    · rename_i hp
      rw [if_neg hp] at h
      obtain ⟨x, h1, h2⟩ := Option.bind_eq_some_iff.1 h
      rw [h1]
      exact exec_more h2 k

/-- What `rax` has to hold when the function ends in this way. -/
def Returned (t : Option Ty) (isMain : Bool) (r : Res) (rax : Nat) : Prop :=
  match r with
  | .ret (some w) => ∀ u, t = some u → (2 ^ u.bits : Int) ∣ (rax : Int) - w
  | .normal => isMain = true → t = some .s32 → (2 ^ 32 : Int) ∣ (rax : Int) -- C11 5.1.2.2.3
  | _ => True

/-- C73: if a function that was compiled runs in C to its end, then its code, started with any contents of the registers, also ends, with the same
memory and with the value returned in `rax`. -/
theorem C73_function (base : Nat) (t : Option Ty) (isMain : Bool) (s : S) (code : List Ir) (n : Nat) (sts : List St) (bytes bytes' : Nat → Nat) (r : Res) (c : Contents)
    (ht : ∀ u, t = some u → isInteger u) (hs : TypedS s) (hf : Fits s) (hc : lowerFunction t isMain s = some (code, n)) (hl : layout code (start base) = some sts)
    (hr : Runs t bytes s bytes' r) (hb : c.bytes = bytes) :
    ∃ fuel c', (∀ k, exec code sts (fuel + k) 0 c = some c') ∧ c'.bytes = bytes' ∧ Returned t isMain r (c'.regs rax) := by
  obtain ⟨sts', h1, hem, h0, hlab⟩ := function_emits base ht hs hf hc
  rw [hl] at h1
  cases h1
  have hS := function_seq hc
  have hfind : ∀ (p l : Nat), code[p]? = some (.label l) → find l code = some p := fun p l h => find_eq (lowerS_own _ hS).nodup h
  have hat : At code 0 code := ⟨[], [], by simp, rfl⟩
  by_cases hm : isMain = true ∧ t = some .s32
  · rw [if_pos hm] at hS
    obtain ⟨hm, rfl⟩ := hm
    have hf' : Fits (.seq s (.ret (some (.lit .s32 0)))) := ⟨hf, (show need (.lit .s32 0) ≤ 256 by decide)⟩
    have h0' : Runs (some .s32) bytes' (.ret (some (.lit .s32 0))) bytes' (.ret (some 0)) := .ret rfl (by decide) (.lit (v := 0) (t := .s32) (by decide) (by decide)) (by decide)
    cases r with
    | normal =>
      obtain ⟨c', k1, k2, k3⟩ := runs_ok hem hfind hlab (.seq hr h0') hS hat hf' h0 hb
      obtain ⟨fuel, k4⟩ := k2.exec rfl
      refine ⟨fuel, c', exec_more k4, k1, fun _ _ => ?_⟩
      have := k3 _ _ rfl rfl
      rw [Int.sub_zero] at this
      exact this
    | brk =>
      obtain ⟨c', k1, l, hl, _⟩ := runs_ok hem hfind hlab (.seqStop hr (by simp)) hS hat hf' h0 hb
      cases hl
    | cont =>
      obtain ⟨c', k1, l, hl, _⟩ := runs_ok hem hfind hlab (.seqStop hr (by simp)) hS hat hf' h0 hb
      cases hl
    | ret v =>
      obtain ⟨c', k1, k2, k3⟩ := runs_ok hem hfind hlab (.seqStop hr (by simp)) hS hat hf' h0 hb
      obtain ⟨fuel, k4⟩ := k2.exec rfl
      refine ⟨fuel, c', exec_more k4, k1, ?_⟩
      cases v with
      | none => trivial
      | some w => exact fun u hu => k3 u w hu rfl
  · rw [if_neg hm] at hS
    obtain ⟨c', k1, k2⟩ := runs_ok hem hfind hlab hr hS hat hf h0 hb
    cases r with
    | normal =>
      obtain ⟨fuel, k4⟩ := k2.2.exec (Nat.zero_add _)
      exact ⟨fuel, c', exec_more k4, k1, fun h1 h2 => absurd ⟨h1, h2⟩ hm⟩
    | brk => obtain ⟨l, hl, _⟩ := k2; cases hl
    | cont => obtain ⟨l, hl, _⟩ := k2; cases hl
    | ret v =>
      obtain ⟨fuel, k4⟩ := k2.1.exec rfl
      refine ⟨fuel, c', exec_more k4, k1, ?_⟩
      cases v with
      | none => trivial
      | some w => exact fun u hu => k2.2 u w hu rfl

/-- C73: if the function is still running in C after `k` iterations of loops, then its code is still running after `k` steps. So it runs forever if the
function does. -/
theorem C73_runs_on (base : Nat) (t : Option Ty) (isMain : Bool) (s : S) (code : List Ir) (n : Nat) (sts : List St) (k : Nat) (c : Contents)
    (ht : ∀ u, t = some u → isInteger u) (hs : TypedS s) (hf : Fits s) (hc : lowerFunction t isMain s = some (code, n)) (hl : layout code (start base) = some sts)
    (hr : Going t k c.bytes s) : (∃ pc c', after code sts k 0 c = some (pc, c')) ∧ ∀ fuel < k, exec code sts fuel 0 c = none := by
  obtain ⟨sts', h1, hem, h0, hlab⟩ := function_emits base ht hs hf hc
  rw [hl] at h1
  cases h1
  have hS := function_seq hc
  have hfind : ∀ (p l : Nat), code[p]? = some (.label l) → find l code = some p := fun p l h => find_eq (lowerS_own _ hS).nodup h
  have hat : At code 0 code := ⟨[], [], by simp, rfl⟩
  have key : Long code sts k 0 c := by
    split at hS
    · exact going_ok hem hfind hlab (.seqFirst hr) hS hat ⟨hf, (show need (.lit .s32 0) ≤ 256 by decide)⟩ h0 rfl
    · exact going_ok hem hfind hlab hr hS hat hf h0 rfl
  refine ⟨key.get (Nat.le_refl _), fun fuel hk => ?_⟩
  obtain ⟨j, rfl⟩ := Nat.exists_eq_add_of_lt hk
  have : ∀ {pc c}, Long code sts (fuel + j + 1) pc c → exec code sts fuel pc c = none := by
    clear key hk hr
    induction fuel with
    | zero =>
      intro pc c h
      cases h with
      | step h _ =>
        rw [exec, if_neg]
        rintro rfl
        unfold stepAt at h
        rw [List.getElem?_eq_none (Nat.le_refl _)] at h
        cases h
    | succ fuel ih =>
      intro pc c h
      rw [show fuel + 1 + j + 1 = (fuel + j + 1) + 1 by omega] at h
      cases h with
      | step h hl =>
        rw [exec, if_neg]
        · rw [h]
          exact ih hl
        · rintro rfl
          unfold stepAt at h
          rw [List.getElem?_eq_none (Nat.le_refl _)] at h
          cases h
  exact this key

/-- C73: every label is below the number of labels of the function, no label occurs twice, and every jump has its label. -/
theorem C73_labels (t : Option Ty) (isMain : Bool) (s : S) (code : List Ir) (n : Nat) (hc : lowerFunction t isMain s = some (code, n)) :
    (∀ (p l : Nat), code[p]? = some (.label l) → l < n ∧ ∀ (q : Nat), code[q]? = some (.label l) → q = p) ∧
    (∀ (p l : Nat), (code[p]? = some (.jump l) ∨ ∃ b, code[p]? = some (.jumpIf b l)) → l < n ∧ ∃ q : Nat, code[q]? = some (.label l)) := by
  have hS := function_seq hc
  have own := lowerS_own _ hS
  refine ⟨fun p l h => ⟨(own.range l (labels_mem h)).2, fun q hq => ?_⟩, fun p l h => ?_⟩
  · have h1 := find_eq own.nodup h
    have h2 := find_eq own.nodup hq
    rw [h1] at h2
    exact (Option.some.inj h2).symm
  · have hj : l ∈ jumps code := by
      rcases h with h | ⟨b, h⟩
      · exact List.mem_filterMap.2 ⟨_, List.mem_of_getElem? h, rfl⟩
      · exact List.mem_filterMap.2 ⟨_, List.mem_of_getElem? h, rfl⟩
    rcases lowerS_jumps _ hS l hj with h1 | h1 | h1
    · refine ⟨(own.range l h1).2, ?_⟩
      obtain ⟨ir, h2, h3⟩ := List.mem_filterMap.1 h1
      obtain ⟨q, h4⟩ := List.mem_iff_getElem?.1 h2
      refine ⟨q, ?_⟩
      rw [h4]
      cases ir <;> first | (cases h3; done) | (cases Option.some.inj h3; rfl)
    · cases h1
    · cases h1

/-! ## Non-vacuity -/

namespace Sample

def i : Expr := .var .s32 0
def n : Expr := .var .s32 8

/-- `for (i = 0;; i = i + 1) { if (!i) continue; n = n - i; break; }  return n;` -/
def loop : S := .forS (some (.assign ⟨.var .s32 0, .lit .s32 0⟩)) none (some (.assign ⟨.var .s32 0, .bin (.arith .add) i (.lit .s32 1)⟩))
  (.seq (.ifThen (.un .not i) .cont) (.seq (.act (.assign ⟨.var .s32 8, .bin (.arith .sub) n i⟩)) .brk))
def body : S := .seq loop (.ret (some n))

def bytes : Nat → Nat := fun a => if a < 4 then 0xff else if a = 8 then 5 else 0

theorem runs : ∃ bytes', Runs (some .s16) bytes body bytes' (.ret (some 4)) ∧ readBytes bytes' 8 4 = 4 := by
  refine ⟨_, .seq (.forInit (m1 := writeBytes bytes 0 4 0) ⟨.s32, 0, .s32, 0, 0, .var trivial, .lit trivial (by decide), by decide, rfl⟩
      (.forNext (r := .cont) trivial (.seqStop (.ifThen ⟨.s32, 1, .not (v := 0) (.var ⟨trivial, by decide, by decide⟩), by decide⟩ .cont) (by decide)) (.inr rfl)
        (m2 := writeBytes (writeBytes bytes 0 4 0) 0 4 1)
        ⟨.s32, 0, .s32, 1, 1, .var trivial, .arith (v := 0) (w := 1) (.var ⟨trivial, by decide, by decide⟩) (.lit trivial (by decide))
          (.arith (op' := .add) (c := .s32) (x := 0) (y := 1) (e := 1) (by decide) (by decide) (by decide) (by decide) (by decide) (by decide) (by decide) (by decide)),
          by decide, rfl⟩
        (.forBreak trivial (.seq (.ifThenNot ⟨.s32, .not (v := 1) (.var ⟨trivial, by decide, by decide⟩)⟩) (.seq (.act
          (m' := writeBytes (writeBytes (writeBytes bytes 0 4 0) 0 4 1) 8 4 4) ⟨.s32, 8, .s32, 4, 4, .var trivial,
            .arith (v := 5) (w := 1) (.var ⟨trivial, by decide, by decide⟩) (.var ⟨trivial, by decide, by decide⟩)
            (.arith (op' := .sub) (c := .s32) (x := 5) (y := 1) (e := 4) (by decide) (by decide) (by decide) (by decide) (by decide) (by decide) (by decide) (by decide)),
            by decide, rfl⟩) .brk)))))
    (.ret (r := .s16) (v := 4) rfl trivial (.var ⟨trivial, by decide, by decide⟩) (by decide)), by decide⟩

/-- The hypotheses of the theorems hold for `short f() { ... }` with this body. -/
example : ∃ code n sts, lowerFunction (some .s16) false body = some (code, n) ∧ layout code (start 64) = some sts ∧
    ∀ c : Contents, c.bytes = bytes → ∃ fuel c', (∀ k, exec code sts (fuel + k) 0 c = some c') ∧ readBytes c'.bytes 8 4 = 4 ∧
      (2 ^ 16 : Int) ∣ (c'.regs rax : Int) - 4 := by
  have hs : (lowerFunction (some .s16) false body).isSome = true := by decide
  obtain ⟨⟨code, n⟩, hc⟩ := Option.isSome_iff_exists.1 hs
  have ht : ∀ u, some Ty.s16 = some u → isInteger u := fun u h => by cases h; trivial
  have hty : TypedS body := by simp [body, loop, TypedS, Opt, TypedAct, TypedLValue, Typed, isInteger, i, Sample.n]
  have hf : Fits body := by
    refine ⟨⟨?_, trivial, ?_, ⟨?_, trivial⟩, ?_, trivial⟩, ?_⟩
    all_goals exact Nat.le_of_ble_eq_true (by decide)
  obtain ⟨sts, hl⟩ := C73_emits 64 _ _ _ _ _ ht hty hf hc
  obtain ⟨bytes', h1, h2⟩ := runs
  refine ⟨code, n, sts, hc, hl, fun c hb => ?_⟩
  obtain ⟨fuel, c', k1, k2, k3⟩ := C73_function 64 _ _ _ _ _ _ _ _ _ c ht hty hf hc hl h1 hb
  exact ⟨fuel, c', k1, by rw [k2, h2], k3 _ rfl⟩

/-- `for (;;) ;` runs forever. -/
theorem forever (bytes : Nat → Nat) : ∀ k, Going none k bytes (.forS none none none .skip)
  | 0 => .start
  | k + 1 => .forNext trivial .skip (.inl rfl) rfl (forever bytes k)
example : ∃ code n sts, lowerFunction none false (.forS none none none .skip) = some (code, n) ∧ layout code (start 64) = some sts ∧
    ∀ (c : Contents) (fuel : Nat), exec code sts fuel 0 c = none ∧ ∃ pc c', after code sts fuel 0 c = some (pc, c') := by
  obtain ⟨sts, hl⟩ := C73_emits 64 none false (.forS none none none .skip) _ _ (fun u h => by cases h) ⟨trivial, trivial, trivial, trivial⟩
    ⟨trivial, trivial, trivial, trivial⟩ rfl
  refine ⟨_, _, sts, rfl, hl, fun c fuel => ?_⟩
  have h := fun k => C73_runs_on 64 none false (.forS none none none .skip) _ _ sts k c (fun u h => by cases h) ⟨trivial, trivial, trivial, trivial⟩ ⟨trivial, trivial, trivial, trivial⟩ rfl hl
    (forever c.bytes k)
  exact ⟨(h (fuel + 1)).2 fuel (Nat.lt_succ_self _), (h fuel).1⟩

/-- The nodes of `while (i) { i = 0; }` in `main`. -/
example : lowerFunction (some .s32) true (.whileS i (.act (.assign ⟨.var .s32 0, .lit .s32 0⟩))) =
    some ([.label 0, .identifier 0 4, .jumpIf false 1, .identifier 0 4, .literal ⟨.s32, 0⟩, .store, .pop, .jump 0, .label 1, .literal ⟨.s32, 0⟩, .ret], 2) := by decide

end Sample

end Verif.Props.FuncCode
