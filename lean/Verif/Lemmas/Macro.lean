import Verif.Model.Macro

/-!
# Lemmas about macro expansion

`Eats` describes what happens to the tokens of one node of the stack, without looking at the nodes below.
-/
namespace Verif.Macro
open Verif.Spec.Macro

/-- What the scan makes of the tokens of one node. The last list is empty or the name of a function-like
macro at the end, for which the node below is looked at. -/
inductive Eats (defs : Nat → Option Macro) : Bool → Disabled → List Token → List Token → List Token → Prop
  | nil {arg : Bool} {dis : Disabled} : Eats defs arg dis [] [] []
  | token {arg : Bool} {dis : Disabled} {t : Token} {ts out last : List Token} : t.macro defs = false → Eats defs arg dis ts out last → Eats defs arg dis (t :: ts) (t :: out) last
  | hiddenMain {dis : Disabled} {m : Nat} {d : Macro} {ts out last : List Token} : defs m = some d → dis m = true → Eats defs false dis ts out last → Eats defs false dis (.ident m :: ts) (.ident m :: out) last
  | hiddenObject {dis : Disabled} {m : Nat} {d : Macro} {ts out last : List Token} : defs m = some d → dis m = true → d.function = false → Eats defs true dis ts out last →
      Eats defs true dis (.ident m :: ts) (.fixed m :: out) last
  | hiddenCall {dis : Disabled} {m : Nat} {d : Macro} {ts out last : List Token} : defs m = some d → dis m = true → d.function = true → starts ts = true → Eats defs true dis ts out last →
      Eats defs true dis (.ident m :: ts) (.fixed m :: out) last
  | noCall {arg : Bool} {dis : Disabled} {m : Nat} {d : Macro} {ts out last : List Token} : defs m = some d → (arg = true ∨ dis m = false) → d.function = true → ts ≠ [] → starts ts = false → Eats defs arg dis ts out last →
      Eats defs arg dis (.ident m :: ts) (.ident m :: out) last
  | last {arg : Bool} {dis : Disabled} {m : Nat} {d : Macro} : defs m = some d → (arg = true ∨ dis m = false) → d.function = true → Eats defs arg dis [.ident m] [] [.ident m]
  | object {arg : Bool} {dis : Disabled} {m : Nat} {d : Macro} {ts out last out' last' : List Token} : defs m = some d → dis m = false → d.function = false →
      Eats defs arg (disable dis m) d.tokens out last → Eats defs arg dis (last ++ ts) out' last' → Eats defs arg dis (.ident m :: ts) (out ++ out') last'
  | call {arg : Bool} {dis : Disabled} {m : Nat} {d : Macro} {ts rest out last out' last' : List Token} {args : List (List Token)} {outs lasts : Nat → List Token} : defs m = some d → dis m = false → d.function = true →
      gather d ⟨1, [], []⟩ ts = .fin args rest →
      (∀ i, Item.param i ∈ d.body → Eats defs true dis (args.getD i []) (outs i) (lasts i)) →
      Eats defs arg (disable dis m) (subst d.body fun i => outs i ++ lasts i) out last →
      Eats defs arg dis (last ++ rest) out' last' →
      Eats defs arg dis (.ident m :: .lparen :: ts) (out ++ out') last'

theorem enable_disable {dis : Disabled} {m : Nat} (h : dis m = false) : enable (disable dis m) (some m) = dis := by
  funext x
  simp only [enable, disable]
  split
  · rename_i hx; rw [hx, h]
  · rfl

/-! ## More fuel -/

theorem expandArgs_mono {f f' : List Token → Disabled → Option Result} (hf : ∀ a dis r, f a dis = some r → f' a dis = some r) {d : Macro} {args : List (List Token)} {i : Nat} {dis : Disabled} {r : Option (List (List Token) × Disabled)}
    (h : expandArgs f d i args dis = some r) : expandArgs f' d i args dis = some r := by
  induction args generalizing i dis r with
  | nil => exact h
  | cons a as ih =>
    simp only [expandArgs] at h ⊢
    split at h
    · rename_i hp
      rw [if_pos hp]
      split at h
      · cases h
      · rename_i ha; rw [hf _ _ _ ha]; exact h
      · rename_i out dis' ha
        rw [hf _ _ _ ha]
        dsimp only
        split at h
        · cases h
        · rename_i hr; rw [ih hr]; exact h
        · rename_i hr; rw [ih hr]; exact h
    · rename_i hp
      rw [if_neg hp]
      split at h
      · cases h
      · rename_i hr; rw [ih hr]; exact h
      · rename_i hr; rw [ih hr]; exact h

theorem expand_mono {f f' : List Token → Disabled → Option Result} (hf : ∀ a dis r, f a dis = some r → f' a dis = some r) {m : Nat} {d : Macro} {stack : Stack} {dis : Disabled} {r : Option (Stack × Disabled)}
    (h : expand f m d stack dis = some r) : expand f' m d stack dis = some r := by
  unfold expand at h ⊢
  split at h
  · rename_i hd
    rw [if_pos hd]
    split at h
    · split at h
      · exact h
      · split at h
        · cases h
        · rename_i hr; rw [expandArgs_mono hf hr]; exact h
        · rename_i hr; rw [expandArgs_mono hf hr]; exact h
    · exact h
  · rename_i hd; rw [if_neg hd]; exact h

theorem scan_succ {defs : Nat → Option Macro} {fuel : Nat} {arg : Bool} {stack : Stack} {dis : Disabled} {r : Result} (h : scan defs fuel arg stack dis = some r) : scan defs (fuel + 1) arg stack dis = some r := by
  induction fuel generalizing arg stack dis r with
  | zero => cases h
  | succ fuel ih =>
    rw [scan] at h ⊢
    split at h
    · split at h
      · cases hr : scan defs fuel arg _ _ with
        | none => rw [hr] at h; cases h
        | some r' => rw [ih hr]; rw [hr] at h; exact h
      · split at h
        · cases h
        · rename_i he; rw [expand_mono (fun a dis r hr => ih hr) he]; exact h
        · rename_i he; rw [expand_mono (fun a dis r hr => ih hr) he]; exact ih h
    · exact h

theorem scan_mono {defs : Nat → Option Macro} {fuel fuel' : Nat} {arg : Bool} {stack : Stack} {dis : Disabled} {r : Result} (h : scan defs fuel arg stack dis = some r) (hle : fuel ≤ fuel') : scan defs fuel' arg stack dis = some r := by
  induction hle with
  | refl => exact h
  | step _ ih => exact scan_succ ih

/-! ## The tokens of one node -/

/-- The scan ends with the result `r`. -/
def Runs (defs : Nat → Option Macro) (arg : Bool) (stack : Stack) (dis : Disabled) (r : Result) : Prop := ∃ fuel, scan defs fuel arg stack dis = some r

/-- Several tokens in front of a result. -/
def Result.prepend (o : List Token) (r : Result) : Result := o.foldr Result.cons r

theorem prepend_append (a b : List Token) (r : Result) : r.prepend (a ++ b) = (r.prepend b).prepend a := by
  unfold Result.prepend; rw [List.foldr_append]

theorem prepend_ok (a o : List Token) (dis : Disabled) : (Result.ok o dis).prepend a = .ok (a ++ o) dis := by
  induction a with
  | nil => rfl
  | cons t a ih => show Result.cons t ((Result.ok o dis).prepend a) = _; rw [ih]; rfl

/-- The stack with the last token of the node above. -/
def pushLast (last : List Token) (below : Stack) : Stack := if last = [] then below else ⟨last, none⟩ :: below

theorem runs_settle {defs : Nat → Option Macro} {arg : Bool} {stack stack' : Stack} {dis dis' : Disabled} {r : Result} (h : settle stack dis = settle stack' dis') (hr : Runs defs arg stack' dis' r) : Runs defs arg stack dis r := by
  obtain ⟨fuel, hr⟩ := hr
  refine ⟨fuel, ?_⟩
  cases fuel with
  | zero => cases hr
  | succ fuel => rw [scan] at hr ⊢; rw [h]; exact hr

theorem settle_idem (stack : Stack) (dis : Disabled) : settle (settle stack dis).1 (settle stack dis).2 = settle stack dis := by
  fun_induction settle stack dis with
  | case1 => rfl
  | case2 => assumption
  | case3 => rfl

theorem runs_emit {defs : Nat → Option Macro} {arg : Bool} {t t' : Token} {ts : List Token} {re : Option Nat} {below stack : Stack} {dis dis' : Disabled} {r : Result}
    (hd : decideToken defs arg t (⟨ts, re⟩ :: below) dis = .emit t' stack dis') (hr : Runs defs arg stack dis' r) : Runs defs arg (⟨t :: ts, re⟩ :: below) dis (Result.cons t' r) := by
  obtain ⟨fuel, hr⟩ := hr
  refine ⟨fuel + 1, ?_⟩
  rw [scan, settle]
  dsimp only
  rw [hd]
  dsimp only
  rw [hr]
  rfl

theorem runs_expand {defs : Nat → Option Macro} {arg : Bool} {t : Token} {ts : List Token} {re : Option Nat} {below stack stack' : Stack} {dis dis' dis'' : Disabled} {m : Nat} {d : Macro} {r : Result}
    (hd : decideToken defs arg t (⟨ts, re⟩ :: below) dis = .expand m d stack dis') (he : ∃ fuel, expand (fun a dis => scan defs fuel true [⟨a, none⟩] dis) m d stack dis' = some (some (stack', dis'')))
    (hr : Runs defs arg stack' dis'' r) : Runs defs arg (⟨t :: ts, re⟩ :: below) dis r := by
  obtain ⟨f1, he⟩ := he
  obtain ⟨f2, hr⟩ := hr
  refine ⟨max f1 f2 + 1, ?_⟩
  rw [scan, settle]
  dsimp only
  rw [hd]
  dsimp only
  rw [expand_mono (fun a dis r h => scan_mono h (Nat.le_max_left f1 f2)) he]
  exact scan_mono hr (Nat.le_max_right f1 f2)

theorem runs_fail {defs : Nat → Option Macro} {arg : Bool} {t : Token} {ts : List Token} {re : Option Nat} {below stack : Stack} {dis dis' : Disabled} {m : Nat} {d : Macro}
    (hd : decideToken defs arg t (⟨ts, re⟩ :: below) dis = .expand m d stack dis') (he : ∃ fuel, expand (fun a dis => scan defs fuel true [⟨a, none⟩] dis) m d stack dis' = some none) :
    Runs defs arg (⟨t :: ts, re⟩ :: below) dis .error := by
  obtain ⟨f1, he⟩ := he
  refine ⟨f1 + 1, ?_⟩
  rw [scan, settle]
  dsimp only
  rw [hd]
  dsimp only
  rw [he]

theorem pushLast_cons {defs : Nat → Option Macro} {arg : Bool} {last ts : List Token} {re : Option Nat} {below : Stack} {dis : Disabled} {r : Result}
    (hlast : last = [] ∨ ∃ m d, last = [.ident m] ∧ defs m = some d ∧ d.function = true) (hr : Runs defs arg (⟨last ++ ts, re⟩ :: below) dis r) : Runs defs arg (pushLast last (⟨ts, re⟩ :: below)) dis r := by
  rcases hlast with rfl | ⟨m, d, rfl, hm, hd⟩
  · exact hr
  · obtain ⟨fuel, hr⟩ := hr
    refine ⟨fuel, ?_⟩
    cases fuel with
    | zero => cases hr
    | succ fuel =>
      show scan defs (fuel + 1) arg (⟨[.ident m], none⟩ :: ⟨ts, re⟩ :: below) dis = some r
      simp only [List.cons_append, List.nil_append] at hr
      rw [scan, settle] at hr ⊢
      dsimp only at hr ⊢
      have key : decideToken defs arg (.ident m) (⟨[], none⟩ :: ⟨ts, re⟩ :: below) dis = decideToken defs arg (.ident m) (⟨ts, re⟩ :: below) dis ∨
          (arg = false ∧ dis m = true) := by
        by_cases h : arg = false ∧ dis m = true
        · exact .inr h
        · refine .inl ?_
          have hset : settle (⟨[], none⟩ :: ⟨ts, re⟩ :: below) dis = settle (⟨ts, re⟩ :: below) dis := rfl
          cases arg with
          | true => simp only [decideToken, hm, hd, hset, if_true]
          | false =>
            have : dis m = false := by cases h' : dis m with
              | false => rfl
              | true => exact absurd ⟨rfl, h'⟩ h
            simp only [decideToken, hm, hd, hset, if_true, this]
            rfl
      rcases key with key | ⟨ha, hdis⟩
      · rw [key]; exact hr
      · subst ha
        have h1 : ∀ s, decideToken defs false (.ident m) s dis = .emit (.ident m) s dis := fun s => by simp [decideToken, hm, hdis]
        rw [h1] at hr ⊢
        dsimp only at hr ⊢
        cases h2 : scan defs fuel false (⟨ts, re⟩ :: below) dis with
        | none => rw [h2] at hr; cases hr
        | some r' =>
          have h3 : scan defs fuel false (⟨[], none⟩ :: ⟨ts, re⟩ :: below) dis = some r' := by
            cases fuel with
            | zero => cases h2
            | succ fuel => rw [scan] at h2 ⊢; exact h2
          rw [h3]
          rw [h2] at hr
          exact hr

/-- What follows a node is at most the name of one function-like macro. -/
theorem eats_last {defs : Nat → Option Macro} {arg : Bool} {dis : Disabled} {ts out last : List Token} (h : Eats defs arg dis ts out last) : last = [] ∨ ∃ m d, last = [.ident m] ∧ defs m = some d ∧ d.function = true ∧ (arg = true ∨ dis m = false) := by
  induction h with
  | nil => exact .inl rfl
  | token _ _ ih => exact ih
  | hiddenMain _ _ _ ih => exact ih
  | hiddenObject _ _ _ _ ih => exact ih
  | hiddenCall _ _ _ _ _ ih => exact ih
  | noCall _ _ _ _ _ _ ih => exact ih
  | last h1 h2 h3 => exact .inr ⟨_, _, rfl, h1, h3, h2⟩
  | object _ _ _ _ _ _ ih => exact ih
  | call _ _ _ _ _ _ _ _ _ ih => exact ih

theorem last_of {defs : Nat → Option Macro} {arg : Bool} {dis : Disabled} {ts out last : List Token} (h : Eats defs arg dis ts out last) : last = [] ∨ ∃ m d, last = [.ident m] ∧ defs m = some d ∧ d.function = true := by
  rcases eats_last h with h | ⟨m, d, h1, h2, h3, _⟩
  · exact .inl h
  · exact .inr ⟨m, d, h1, h2, h3⟩

theorem collect_fin {d : Macro} {g : Gather} {ts rest : List Token} {args : List (List Token)} (h : gather d g ts = .fin args rest) (re : Option Nat) (below : Stack) (dis : Disabled) :
    collect d g (⟨ts, re⟩ :: below) dis = .fin args (⟨rest, re⟩ :: below) dis := by
  rw [collect, h]

/-- The arguments are expanded one after the other, and the flags stay as they are. -/
theorem expandArgs_ok {defs : Nat → Option Macro} {d : Macro} {dis : Disabled} {e : Nat → List Token} {args : List (List Token)} {k : Nat}
    (h : ∀ i, i < args.length → Item.param (k + i) ∈ d.body → Runs defs true [⟨args.getD i [], none⟩] dis (.ok (e (k + i)) dis)) :
    ∃ fuel outs, expandArgs (fun a dis => scan defs fuel true [⟨a, none⟩] dis) d k args dis = some (some (outs, dis)) ∧ outs.length = args.length ∧ ∀ i, i < args.length → Item.param (k + i) ∈ d.body → outs.getD i [] = e (k + i) := by
  induction args generalizing k with
  | nil => exact ⟨0, [], rfl, rfl, fun i hi => absurd hi (by simp)⟩
  | cons a as ih =>
    obtain ⟨f1, outs, h1, h2, h3⟩ := ih (k := k + 1) (fun i hi hp => by
      have := h (i + 1) (by simp; omega) (by rw [show k + (i + 1) = k + 1 + i by omega]; exact hp)
      rw [show k + (i + 1) = k + 1 + i by omega] at this
      exact this)
    by_cases hp : Item.param k ∈ d.body
    · obtain ⟨f2, h4⟩ := h 0 (by simp) hp
      refine ⟨max f1 f2, e k :: outs, ?_, by simp [h2], ?_⟩
      · rw [expandArgs, if_pos hp]
        have h5 : scan defs (max f1 f2) true [⟨a, none⟩] dis = some (.ok (e k) dis) := scan_mono h4 (Nat.le_max_right _ _)
        rw [h5]
        dsimp only
        rw [expandArgs_mono (fun a dis r h => scan_mono h (Nat.le_max_left f1 f2)) h1]
      · intro i hi hpi
        cases i with
        | zero => rfl
        | succ i =>
          rw [show k + (i + 1) = k + 1 + i by omega] at hpi ⊢
          exact h3 i (by simp at hi; omega) hpi
    · refine ⟨f1, [] :: outs, ?_, by simp [h2], ?_⟩
      · rw [expandArgs, if_neg hp, h1]
      · intro i hi hpi
        cases i with
        | zero => exact absurd hpi hp
        | succ i =>
          rw [show k + (i + 1) = k + 1 + i by omega] at hpi ⊢
          exact h3 i (by simp at hi; omega) hpi

theorem getD_of_le {l : List (List Token)} {i : Nat} (h : l.length ≤ i) : l.getD i [] = [] := by
  rw [List.getD_eq_getElem?_getD, List.getElem?_eq_none h]; rfl

theorem subst_congr {body : List Item} {e e' : Nat → List Token} (h : ∀ i, Item.param i ∈ body → e i = e' i) : subst body e = subst body e' := by
  unfold subst
  induction body with
  | nil => rfl
  | cons a l ih =>
    rw [List.flatMap_cons, List.flatMap_cons, ih (fun i hi => h i (List.mem_cons_of_mem _ hi))]
    cases a with
    | tok t => rfl
    | param i => simp only; rw [h i List.mem_cons_self]

theorem eats_empty {defs : Nat → Option Macro} {arg : Bool} {dis : Disabled} {out last : List Token} (h : Eats defs arg dis [] out last) : out = [] ∧ last = [] := by
  cases h; exact ⟨rfl, rfl⟩

/-- The scan of a node is followed by the scan of what it leaves and the nodes below. -/
theorem runs_of_eats {defs : Nat → Option Macro} {arg : Bool} {dis : Disabled} {ts out last : List Token} (h : Eats defs arg dis ts out last) (re : Option Nat) (below : Stack) (r : Result)
    (hr : Runs defs arg (pushLast last below) (enable dis re) r) : Runs defs arg (⟨ts, re⟩ :: below) dis (r.prepend out) := by
  induction h generalizing re below r with
  | nil => exact runs_settle (stack' := below) rfl hr
  | @token arg dis t ts out last ht _ ih =>
    refine runs_emit (t := t) (t' := t) ?_ (ih re below r hr)
    cases t with
    | ident m =>
      simp only [Token.macro] at ht
      cases hm : defs m with
      | none => simp only [decideToken, hm]
      | some d => rw [hm] at ht; cases ht
    | _ => rfl
  | hiddenMain hm hdis _ ih =>
    refine runs_emit ?_ (ih re below r hr)
    simp only [decideToken, hm, hdis, if_true]
    rfl
  | hiddenObject hm hdis hf _ ih =>
    refine runs_emit ?_ (ih re below r hr)
    simp only [decideToken, hm, hdis, hf, if_true]
    rfl
  | @hiddenCall dis m d ts out last hm hdis hf hst _ ih =>
    match ts, hst with
    | .lparen :: ts, hst =>
      refine runs_emit ?_ (ih re below r hr)
      simp only [decideToken, hm, hdis, hf, if_true, settle, peekParen, starts]
  | @noCall arg dis m d ts out last hm hor hf hne hst _ ih =>
    match ts, hne with
    | t :: ts, _ =>
      refine runs_emit ?_ (ih re below r hr)
      cases arg with
      | true => simp [decideToken, hm, hf, settle, peekParen, hst]
      | false =>
        have hdis : dis m = false := by rcases hor with h | h; cases h; exact h
        simp [decideToken, hm, hf, settle, peekParen, hst, hdis]
  | @last arg dis m d hm hor hf =>
    obtain ⟨fuel, hr⟩ := hr
    refine ⟨fuel, ?_⟩
    cases fuel with
    | zero => cases hr
    | succ fuel =>
      have h1 : pushLast [.ident m] below = ⟨[.ident m], none⟩ :: below := rfl
      rw [h1] at hr
      rw [scan, settle] at hr ⊢
      dsimp only at hr ⊢
      have key : decideToken defs arg (.ident m) (⟨[], re⟩ :: below) dis = decideToken defs arg (.ident m) (⟨[], none⟩ :: below) (enable dis re) := by
        have hset : settle (⟨[], re⟩ :: below) dis = settle (⟨[], none⟩ :: below) (enable dis re) := rfl
        cases arg with
        | true => simp only [decideToken, hm, hf, hset, if_true]
        | false =>
          have hdis : dis m = false := by rcases hor with h | h; cases h; exact h
          have hdis' : enable dis re m = false := by
            cases re with
            | none => exact hdis
            | some k => simp only [enable]; split; rfl; exact hdis
          simp only [decideToken, hm, hf, hset, if_true, hdis, hdis']
          rfl
      rw [key]
      exact hr
  | @object arg dis m d ts out last out' last' hm hdis hf h1 h2 ih1 ih2 =>
    rw [prepend_append]
    have hr2 := ih2 re below r hr
    have hr1 := pushLast_cons (last_of h1) hr2
    have hexp : decideToken defs arg (.ident m) (⟨ts, re⟩ :: below) dis = .expand m d (⟨ts, re⟩ :: below) dis := by
      cases arg <;> simp [decideToken, hm, hf, hdis]
    by_cases hb : d.body = []
    · have : d.tokens = [] := by unfold Macro.tokens; rw [hb]; rfl
      rw [this] at h1
      obtain ⟨rfl, rfl⟩ := eats_empty h1
      refine runs_expand hexp ⟨0, ?_⟩ hr2
      simp only [expand, hf, push, hb, if_true]
      rfl
    · refine runs_expand hexp ⟨0, ?_⟩ (ih1 (some m) (⟨ts, re⟩ :: below) _ (by rw [enable_disable hdis]; exact hr1))
      simp only [expand, hf, push, hb, if_false]
      rfl
  | @call arg dis m d ts rest out last out' last' args outs lasts hm hdis hf hg ha h1 h2 iha ih1 ih2 =>
    rw [prepend_append]
    have hr2 := ih2 re below r hr
    have hr1 := pushLast_cons (last_of h1) hr2
    have hexp : decideToken defs arg (.ident m) (⟨.lparen :: ts, re⟩ :: below) dis = .expand m d (⟨.lparen :: ts, re⟩ :: below) dis := by
      cases arg <;> simp [decideToken, hm, hf, hdis, settle, peekParen, starts]
    have hargs : ∀ i, i < args.length → Item.param (0 + i) ∈ d.body → Runs defs true [⟨args.getD i [], none⟩] dis (.ok ((fun i => outs i ++ lasts i) (0 + i)) dis) := by
      intro i _ hp
      rw [Nat.zero_add] at hp ⊢
      have h3 := iha i hp none [] (.ok (lasts i) dis) ?_
      · rw [prepend_ok] at h3; exact h3
      · rcases last_of (ha i hp) with h4 | ⟨k, d', h4, h5, h6⟩
        · rw [h4]; exact ⟨1, rfl⟩
        · rw [h4]
          show Runs defs true (⟨[.ident k], none⟩ :: []) dis _
          refine ⟨2, ?_⟩
          simp [scan, enable, settle, decideToken, h5, h6, peekParen, Result.cons]
    obtain ⟨fuel, os, h3, h4, h5⟩ := expandArgs_ok (k := 0) (e := fun i => outs i ++ lasts i) hargs
    have hsub : subst d.body (fun i => os.getD i []) = subst d.body fun i => outs i ++ lasts i := by
      refine subst_congr fun i hi => ?_
      by_cases hlt : i < args.length
      · have := h5 i hlt (by rw [Nat.zero_add]; exact hi)
        rw [Nat.zero_add] at this
        exact this
      · have h6 := ha i hi
        rw [getD_of_le (by omega)] at h6
        obtain ⟨h7, h8⟩ := eats_empty h6
        show os.getD i [] = outs i ++ lasts i
        rw [getD_of_le (by omega), h7, h8]
        rfl
    have hexpand : expand (fun a dis => scan defs fuel true [⟨a, none⟩] dis) m d (⟨.lparen :: ts, re⟩ :: below) dis = some (some (push m d os (⟨rest, re⟩ :: below) dis)) := by
      simp only [expand, hf, if_true, collect_fin hg, h3]
    by_cases hb : d.body = []
    · rw [hb] at h1
      obtain ⟨rfl, rfl⟩ := eats_empty h1
      refine runs_expand (stack' := ⟨rest, re⟩ :: below) (dis'' := dis) hexp ⟨fuel, ?_⟩ hr2
      rw [hexpand, push, if_pos hb]
    · refine runs_expand hexp ⟨fuel, ?_⟩ (ih1 (some m) (⟨rest, re⟩ :: below) _ (by rw [enable_disable hdis]; exact hr1))
      rw [hexpand, push, if_neg hb, hsub]

end Verif.Macro
