import Verif.Model.TypeEq

/-!
# C77: types match exactly if C says that they are compatible

The comparison of types decides whether redeclarations, assignments, calls and operands of pointer operators are accepted.
-/
namespace Verif.Props.TypeEq
open Verif.Spec.TypeEq Verif.Model.TypeEq

/-- What holds for the types of a program: there is one node for each basic type, an unresolved type is looked up to a structure or union with its tag and
kind, unresolved types with the same tag are the same, and known sizes are not zero. -/
structure Valid (h : Types) : Prop where
  base : ∀ a b k, h a = .base k → h b = .base k → a = b
  found : ∀ a u t c, h a = .unresolved u t (some c) → ∃ ms, h c = .compound u t ms
  same : ∀ a b u v t f g, h a = .unresolved u t f → h b = .unresolved v t g → u = v ∧ f = g
  size : ∀ a u n e, h a = .array u n e → (u = true ↔ n = 0)

theorem shape_resolve {h : Types} (hv : Valid h) {a b : Nat} (hr : resolve h a = some b) : shape h a = shape h b := by
  unfold resolve at hr
  split at hr
  · next u t f he =>
    subst hr
    obtain ⟨ms, hc⟩ := hv.found _ _ _ _ he
    simp [shape, he, hc]
  · cases hr; rfl

theorem resolve_not {h : Types} (hv : Valid h) {a b : Nat} (hr : resolve h a = some b) (u t f) : h b ≠ .unresolved u t f := by
  unfold resolve at hr
  split at hr
  · next he =>
    subst hr
    obtain ⟨ms, hc⟩ := hv.found _ _ _ _ he
    rw [hc]; intro h; cases h
  · next hn => cases hr; exact hn u t f

/-- Types that are the same or compare equal. -/
def Rel (h : Types) (x y : Nat) : Prop :=
  ∃ x' y', shape h x = shape h x' ∧ shape h y = shape h y' ∧ (x' = y' ∨ ∃ n g, equal h n g x' y' = some true)

theorem rel_refl (h : Types) (x y : Nat) (he : shape h x = shape h y) : Rel h x y := ⟨y, y, he, rfl, Or.inl rfl⟩

theorem pairwise_refl {α : Type} {R : α → α → Prop} (hr : ∀ x, R x x) (l : List α) : Pairwise R l l := by
  induction l with
  | nil => trivial
  | cons a l ih => exact ⟨hr a, ih⟩

theorem agree_refl {R : Nat → Nat → Prop} (hr : ∀ x, R x x) (s : Shape) : Agree R s s := by
  cases s with
  | base k => rfl
  | pointer t => exact hr t
  | function r ps v => exact ⟨hr r, pairwise_refl hr ps, rfl⟩
  | array n e => exact ⟨hr e, Or.inr (Or.inr rfl)⟩
  | tagged u t ms => exact ⟨rfl, rfl, pairwise_refl (fun m => ⟨rfl, rfl, hr _⟩) ms⟩
  | incomplete u t => exact ⟨rfl, rfl⟩
  | bits i w t => exact ⟨rfl, rfl, hr t⟩

theorem params_true {rec_ : Nat → Nat → Option Bool} {R : Nat → Nat → Prop} (hR : ∀ p q, rec_ p q = some true → R p q) :
    ∀ ps qs : List Nat, ps.length = qs.length → params rec_ ps qs = some true → Pairwise R ps qs := by
  intro ps
  induction ps with
  | nil => intro qs hl _; cases qs with
    | nil => trivial
    | cons q qs => cases hl
  | cons p ps ih => intro qs hl h; cases qs with
    | nil => cases hl
    | cons q qs =>
      rw [params] at h
      split at h
      · next hpq => exact ⟨hR p q hpq, ih qs (by simpa using hl) h⟩
      · next hne => exact absurd h hne

theorem members_true {rec_ : Nat → Nat → Option Bool} {R : Nat → Nat → Prop} (hR : ∀ p q, rec_ p q = some true → R p q) :
    ∀ ms ns : List (Nat × Nat × Nat), ms.length = ns.length → members rec_ ms ns = some true →
      Pairwise (fun m n => m.1 = n.1 ∧ m.2.1 = n.2.1 ∧ R m.2.2 n.2.2) ms ns := by
  intro ms
  induction ms with
  | nil => intro ns hl _; cases ns with
    | nil => trivial
    | cons q qs => cases hl
  | cons m ms ih => intro ns hl h; cases ns with
    | nil => cases hl
    | cons n ns =>
      rw [members] at h
      split at h
      · cases h
      · next h1 =>
        split at h
        · next hpq =>
          split at h
          · cases h
          · next h2 => exact ⟨⟨Decidable.of_not_not h1, Decidable.of_not_not h2, hR _ _ hpq⟩, ih ns (by simpa using hl) h⟩
        · next hne => exact absurd h hne

theorem rest_true {h : Types} (hv : Valid h) (hn : ∀ a r ps v, h a = .function r ps v → v = false) (n : Nat) (a b : Nat)
    (he : rest h (equal h n false) a b = some true) : Agree (Rel h) (shape h a) (shape h b) := by
  have hrec : ∀ p q, equal h n false p q = some true → Rel h p q := fun p q hpq => ⟨p, q, rfl, rfl, Or.inr ⟨n, false, hpq⟩⟩
  unfold rest at he
  split at he
  · next hab => rw [hab]; exact agree_refl (fun x => rel_refl h x x rfl) _
  · split at he
    · next ra pa va rb pb vb ha hb =>
      split at he
      · cases he
      · next hl =>
        split at he
        · next hrs =>
          simp only [shape, ha, hb, Option.getD_some]
          refine ⟨hrec _ _ hrs, ?_, by rw [hn _ _ _ _ ha, hn _ _ _ _ hb]⟩
          refine params_true ?_ pa pb (Decidable.of_not_not hl) he
          intro p q hpq
          unfold param at hpq
          have hs : ∀ p, shape h p = shape h ((resolve h p).getD p) := by
            intro p
            cases hp : resolve h p with
            | none => rfl
            | some c => exact shape_resolve hv hp
          exact ⟨_, _, hs p, hs q, Or.inr ⟨n, false, hpq⟩⟩
        · next hne => exact absurd he hne
    · next ua na ea ub nb eb ha hb =>
      split at he
      · cases he
      · next hl =>
        have hl := Decidable.of_not_not hl
        simp only [shape, ha, hb, Option.getD_some]
        refine ⟨hrec _ _ he, Or.inr (Or.inr ?_)⟩
        have h1 := hv.size _ _ _ _ ha
        have h2 := hv.size _ _ _ _ hb
        rw [hl] at h1
        have : ua = ub := by
          cases ua <;> cases ub <;> simp_all
        rw [this, hl]
    · next ua ta ma ub tb mb ha hb =>
      split at he
      · cases he
      · next h1 =>
        split at he
        · cases he
        · next h2 =>
          split at he
          · cases he
          · next h3 =>
            simp only [shape, ha, hb, Option.getD_some]
            exact ⟨Decidable.of_not_not h1, Decidable.of_not_not h2, members_true hrec ma mb (Decidable.of_not_not h3) he⟩
    · next ia wa ca ib wb cb ha hb =>
      split at he
      · cases he
      · next h1 =>
        split at he
        · cases he
        · next h2 =>
          simp only [shape, ha, hb, Option.getD_some]
          exact ⟨Decidable.of_not_not h1, Decidable.of_not_not h2, hrec _ _ he⟩
    · cases he

theorem unresolved_agree {h : Types} (hv : Valid h) {R : Nat → Nat → Prop} (hr : ∀ x, R x x) {a b u v t f s g} (ha : h a = .unresolved u t f)
    (hb : h b = .unresolved v s g) (he : some (t == s) = some true) : Agree R (shape h a) (shape h b) := by
  have hts : t = s := by simpa using he
  subst hts
  obtain ⟨rfl, rfl⟩ := hv.same _ _ _ _ _ _ _ ha hb
  have : shape h a = shape h b := by unfold shape; rw [ha, hb]
  rw [this]
  exact agree_refl hr _

theorem equal_true {h : Types} (hv : Valid h) (hn : ∀ a r ps v, h a = .function r ps v → v = false) (n : Nat) (g : Bool) (a b : Nat)
    (he : equal h n g a b = some true) : Agree (Rel h) (shape h a) (shape h b) := by
  have hrefl : ∀ x, Rel h x x := fun x => rel_refl h x x rfl
  cases n with
  | zero => rw [equal] at he; cases he
  | succ n =>
    cases g with
    | false =>
      rw [equal] at he
      split at he
      · next hab => rw [hab]; exact agree_refl hrefl _
      · split at he
        · next ha hb => exact unresolved_agree hv hrefl ha hb he
        · split at he
          · next a' b' ra rb =>
            rw [shape_resolve hv ra, shape_resolve hv rb]
            split at he
            · next hab => rw [hab]; exact agree_refl hrefl _
            · split at he
              · next p q hp hq =>
                simp only [shape, hp, hq, Option.getD_some]
                exact ⟨p, q, rfl, rfl, Or.inr ⟨n, true, he⟩⟩
              · exact rest_true hv hn n a' b' he
          · cases he
    | true =>
      rw [equal] at he
      split at he
      · next p q hp hq =>
        simp only [shape, hp, hq, Option.getD_some]
        exact ⟨p, q, rfl, rfl, Or.inr ⟨n, true, he⟩⟩
      · next ha hb => exact unresolved_agree hv hrefl ha hb he
      · split at he
        · next a' b' ra rb =>
          rw [shape_resolve hv ra, shape_resolve hv rb]
          exact rest_true hv hn n a' b' he
        · cases he

/-- Types that match are compatible, if there are no variadic functions. -/
theorem C77_accepts_partial (h : Types) (hv : Valid h) (hn : ∀ a r ps v, h a = .function r ps v → v = false) (n : Nat) (a b : Nat)
    (he : equal h n false a b = some true) : Compatible (shape h) a b := by
  refine ⟨Rel h, ⟨a, b, rfl, rfl, Or.inr ⟨n, false, he⟩⟩, ?_⟩
  rintro x y ⟨x', y', hx, hy, hxy⟩
  rw [hx, hy]
  rcases hxy with rfl | ⟨m, g, hm⟩
  · exact agree_refl (fun x => rel_refl h x x rfl) _
  · exact equal_true hv hn m g x' y' hm

theorem pairwise_length {α : Type} {R : α → α → Prop} : ∀ l m : List α, Pairwise R l m → l.length = m.length := by
  intro l
  induction l with
  | nil => intro m h; cases m with
    | nil => rfl
    | cons => cases h
  | cons a l ih => intro m h; cases m with
    | nil => cases h
    | cons b m => simp only [List.length_cons, ih m h.2]

theorem params_false {rec_ : Nat → Nat → Option Bool} {R : Nat → Nat → Prop} (hR : ∀ p q, rec_ p q = some false → ¬ R p q) :
    ∀ ps qs : List Nat, params rec_ ps qs = some false → ¬ Pairwise R ps qs := by
  intro ps
  induction ps with
  | nil => intro qs h; cases qs <;> cases h
  | cons p ps ih => intro qs h; cases qs with
    | nil => cases h
    | cons q qs =>
      rw [params] at h
      split at h
      · exact fun hp => ih qs h hp.2
      · exact fun hp => hR p q h hp.1

theorem members_false {rec_ : Nat → Nat → Option Bool} {R : Nat → Nat → Prop} (hR : ∀ p q, rec_ p q = some false → ¬ R p q) :
    ∀ ms ns : List (Nat × Nat × Nat), members rec_ ms ns = some false →
      ¬ Pairwise (fun m n => m.1 = n.1 ∧ m.2.1 = n.2.1 ∧ R m.2.2 n.2.2) ms ns := by
  intro ms
  induction ms with
  | nil => intro ns h; cases ns <;> cases h
  | cons m ms ih => intro ns h; cases ns with
    | nil => cases h
    | cons n ns =>
      rw [members] at h
      split at h
      · next h1 => exact fun hp => h1 hp.1.1
      · split at h
        · split at h
          · next h2 => exact fun hp => h2 hp.1.2.1
          · exact fun hp => ih ns h hp.2
        · exact fun hp => hR _ _ h hp.1.2.2

/-- A relation that also contains the pairs of the resolved types. -/
theorem agree_shape {h : Types} {R : Nat → Nat → Prop} (hR : ∀ x y, R x y → Agree R (shape h x) (shape h y)) :
    ∃ S : Nat → Nat → Prop, (∀ x y, R x y → S x y) ∧ (∀ x y x' y', shape h x = shape h x' → shape h y = shape h y' → S x y → S x' y') ∧
      ∀ x y, S x y → Agree S (shape h x) (shape h y) := by
  refine ⟨fun x y => ∃ x' y', shape h x = shape h x' ∧ shape h y = shape h y' ∧ R x' y', ?_, ?_, ?_⟩
  · exact fun x y hxy => ⟨x, y, rfl, rfl, hxy⟩
  · rintro x y x' y' hx hy ⟨u, v, hu, hw, huv⟩
    exact ⟨u, v, hx.symm.trans hu, hy.symm.trans hw, huv⟩
  · rintro x y ⟨x', y', hx, hy, hxy⟩
    rw [hx, hy]
    have hm : ∀ a b, R a b → ∃ x' y', shape h a = shape h x' ∧ shape h b = shape h y' ∧ R x' y' := fun a b hab => ⟨a, b, rfl, rfl, hab⟩
    have hpw : ∀ (α : Type) (P Q : α → α → Prop), (∀ a b, P a b → Q a b) → ∀ l m, Pairwise P l m → Pairwise Q l m := by
      intro α P Q hPQ l
      induction l with
      | nil => intro m h; cases m with
        | nil => trivial
        | cons => cases h
      | cons a l ih => intro m h; cases m with
        | nil => cases h
        | cons b m => exact ⟨hPQ _ _ h.1, ih m h.2⟩
    have := hR x' y' hxy
    revert this
    generalize shape h x' = s
    generalize shape h y' = t
    intro this
    cases s <;> cases t <;> first
      | exact this
      | exact hm _ _ this
      | exact ⟨hm _ _ this.1, hpw _ _ _ hm _ _ this.2.1, this.2.2⟩
      | exact ⟨hm _ _ this.1, this.2⟩
      | exact ⟨this.1, this.2.1, hpw _ _ _ (fun a b hab => ⟨hab.1, hab.2.1, hm _ _ hab.2.2⟩) _ _ this.2.2⟩
      | exact ⟨this.1, this.2.1, hm _ _ this.2.2⟩

section
variable {h : Types} (hv : Valid h) (hk : ∀ a u n e, h a = .array u n e → u = false) {S : Nat → Nat → Prop}
  (hc : ∀ x y x' y', shape h x = shape h x' → shape h y = shape h y' → S x y → S x' y')
  (hS : ∀ x y, S x y → Agree S (shape h x) (shape h y))
include hv hk hc hS

theorem rest_false (rec_ : Nat → Nat → Option Bool) (hrec : ∀ p q, rec_ p q = some false → ¬ S p q) (a b : Nat)
    (hp : ¬ ∃ p q, h a = .pointer p ∧ h b = .pointer q)
    (ha' : ∀ u t f, h a ≠ .unresolved u t f) (hb' : ∀ u t f, h b ≠ .unresolved u t f)
    (he : rest h rec_ a b = some false) : ¬ S a b := by
  intro hab
  have hag := hS a b hab
  unfold rest at he
  split at he
  · cases he
  · next hne =>
    split at he
    · next ra pa va rb pb vb ha hb =>
      simp only [shape, ha, hb, Option.getD_some] at hag
      obtain ⟨h1, h2, h3⟩ := hag
      split at he
      · next hl => exact hl (pairwise_length _ _ h2)
      · split at he
        · refine params_false ?_ pa pb he h2
          intro p q hpq hs
          unfold param at hpq
          have hsp : ∀ p, shape h p = shape h ((resolve h p).getD p) := by
            intro p
            cases hp : resolve h p with
            | none => rfl
            | some c => exact shape_resolve hv hp
          exact hrec _ _ hpq (hc _ _ _ _ (hsp p) (hsp q) hs)
        · exact hrec _ _ he h1
    · next ua na ea ub nb eb ha hb =>
      simp only [shape, ha, hb, Option.getD_some, hk _ _ _ _ ha, hk _ _ _ _ hb] at hag
      obtain ⟨h1, h2⟩ := hag
      split at he
      · next hl =>
        rcases h2 with h2 | h2 | h2
        · cases h2
        · cases h2
        · exact hl (by simpa using h2)
      · exact hrec _ _ he h1
    · next ua ta ma ub tb mb ha hb =>
      simp only [shape, ha, hb, Option.getD_some] at hag
      obtain ⟨h1, h2, h3⟩ := hag
      split at he
      · next h => exact h h1
      · split at he
        · next h => exact h h2
        · split at he
          · next h => exact h (pairwise_length _ _ h3)
          · exact members_false hrec ma mb he h3
    · next ia wa ca ib wb cb ha hb =>
      simp only [shape, ha, hb, Option.getD_some] at hag
      obtain ⟨h1, h2, h3⟩ := hag
      split at he
      · next h => exact h h1
      · split at he
        · next h => exact h h2
        · exact hrec _ _ he h3
    · next o1 o2 o3 o4 =>
      cases ha : h a with
      | base k => cases hb : h b with
        | base l =>
          simp only [shape, ha, hb, Option.getD_some] at hag
          have hkl : k = l := hag
          subst hkl
          exact hne (hv.base _ _ _ ha hb)
        | unresolved u t f => exact hb' _ _ _ hb
        | pointer => simp only [shape, ha, hb, Option.getD_some] at hag; exact hag
        | function => simp only [shape, ha, hb, Option.getD_some] at hag; exact hag
        | array => simp only [shape, ha, hb, Option.getD_some] at hag; exact hag
        | compound => simp only [shape, ha, hb, Option.getD_some] at hag; exact hag
        | bits => simp only [shape, ha, hb, Option.getD_some] at hag; exact hag
      | unresolved u t f => exact ha' _ _ _ ha
      | pointer p => cases hb : h b with
        | pointer q => exact hp ⟨p, q, ha, hb⟩
        | unresolved u t f => exact hb' _ _ _ hb
        | base => simp only [shape, ha, hb, Option.getD_some] at hag; exact hag
        | function => simp only [shape, ha, hb, Option.getD_some] at hag; exact hag
        | array => simp only [shape, ha, hb, Option.getD_some] at hag; exact hag
        | compound => simp only [shape, ha, hb, Option.getD_some] at hag; exact hag
        | bits => simp only [shape, ha, hb, Option.getD_some] at hag; exact hag
      | function r ps v => cases hb : h b with
        | function s qs w => exact o1 _ _ _ _ _ _ ha hb
        | unresolved u t f => exact hb' _ _ _ hb
        | base => simp only [shape, ha, hb, Option.getD_some] at hag; exact hag
        | pointer => simp only [shape, ha, hb, Option.getD_some] at hag; exact hag
        | array => simp only [shape, ha, hb, Option.getD_some] at hag; exact hag
        | compound => simp only [shape, ha, hb, Option.getD_some] at hag; exact hag
        | bits => simp only [shape, ha, hb, Option.getD_some] at hag; exact hag
      | array u n e => cases hb : h b with
        | array => exact o2 _ _ _ _ _ _ ha hb
        | unresolved u t f => exact hb' _ _ _ hb
        | base => simp only [shape, ha, hb, Option.getD_some] at hag; exact hag
        | pointer => simp only [shape, ha, hb, Option.getD_some] at hag; exact hag
        | function => simp only [shape, ha, hb, Option.getD_some] at hag; exact hag
        | compound => simp only [shape, ha, hb, Option.getD_some] at hag; exact hag
        | bits => simp only [shape, ha, hb, Option.getD_some] at hag; exact hag
      | compound u t ms => cases hb : h b with
        | compound => exact o3 _ _ _ _ _ _ ha hb
        | unresolved u t f => exact hb' _ _ _ hb
        | base => simp only [shape, ha, hb, Option.getD_some] at hag; exact hag
        | pointer => simp only [shape, ha, hb, Option.getD_some] at hag; exact hag
        | function => simp only [shape, ha, hb, Option.getD_some] at hag; exact hag
        | array => simp only [shape, ha, hb, Option.getD_some] at hag; exact hag
        | bits => simp only [shape, ha, hb, Option.getD_some] at hag; exact hag
      | bits i w c => cases hb : h b with
        | bits => exact o4 _ _ _ _ _ _ ha hb
        | unresolved u t f => exact hb' _ _ _ hb
        | base => simp only [shape, ha, hb, Option.getD_some] at hag; exact hag
        | pointer => simp only [shape, ha, hb, Option.getD_some] at hag; exact hag
        | function => simp only [shape, ha, hb, Option.getD_some] at hag; exact hag
        | array => simp only [shape, ha, hb, Option.getD_some] at hag; exact hag
        | compound => simp only [shape, ha, hb, Option.getD_some] at hag; exact hag

/-- The shape of an unresolved type has its tag. -/
theorem unresolved_false {a b u v t f s g} (ha : h a = .unresolved u t f) (hb : h b = .unresolved v s g) (he : some (t == s) = some false) :
    ¬ S a b := by
  have hts : t ≠ s := by simpa using he
  intro hab
  have hag := hS a b hab
  have hsh : ∀ {a u t f}, h a = .unresolved u t f → shape h a = .incomplete u t ∨ ∃ ms, shape h a = .tagged u t ms := by
    intro a u t f ha
    cases f with
    | none => left; simp [shape, ha]
    | some c =>
      obtain ⟨ms, hm⟩ := hv.found _ _ _ _ ha
      right; exact ⟨ms, by simp [shape, ha, hm]⟩
  rcases hsh ha with e1 | ⟨ms, e1⟩ <;> rcases hsh hb with e2 | ⟨ns, e2⟩ <;> rw [e1, e2] at hag
  · exact hts hag.2
  · exact hag
  · exact hag
  · exact hts hag.2.1

theorem equal_false (n : Nat) : ∀ (g : Bool) (a b : Nat), equal h n g a b = some false → ¬ S a b := by
  induction n with
  | zero => intro g a b he; rw [equal] at he; cases he
  | succ n ih =>
    intro g a b he
    have hnone : ∀ a b, (resolve h a = none ∨ resolve h b = none) → (¬ ∃ u t f v s g, h a = .unresolved u t f ∧ h b = .unresolved v s g) → ¬ S a b := by
      intro a b hn hb' hab
      have hag := hS a b hab
      have hi : ∀ a, resolve h a = none → ∃ u t, h a = .unresolved u t none := by
        intro a ha
        unfold resolve at ha
        split at ha
        · next he => subst ha; exact ⟨_, _, he⟩
        · cases ha
      rcases hn with hn | hn
      · obtain ⟨u, t, ha⟩ := hi a hn
        have : ∀ v s g, h b ≠ .unresolved v s g := fun v s g hb => hb' ⟨_, _, _, _, _, _, ha, hb⟩
        cases hb : h b with
        | unresolved => exact this _ _ _ hb
        | base => simp only [shape, ha, hb, Option.getD_some] at hag; exact hag
        | pointer => simp only [shape, ha, hb, Option.getD_some] at hag; exact hag
        | function => simp only [shape, ha, hb, Option.getD_some] at hag; exact hag
        | array => simp only [shape, ha, hb, Option.getD_some] at hag; exact hag
        | compound => simp only [shape, ha, hb, Option.getD_some] at hag; exact hag
        | bits => simp only [shape, ha, hb, Option.getD_some] at hag; exact hag
      · obtain ⟨u, t, hb⟩ := hi b hn
        have : ∀ v s g, h a ≠ .unresolved v s g := fun v s g ha => hb' ⟨_, _, _, _, _, _, ha, hb⟩
        cases ha : h a with
        | unresolved => exact this _ _ _ ha
        | base => simp only [shape, ha, hb, Option.getD_some] at hag; exact hag
        | pointer => simp only [shape, ha, hb, Option.getD_some] at hag; exact hag
        | function => simp only [shape, ha, hb, Option.getD_some] at hag; exact hag
        | array => simp only [shape, ha, hb, Option.getD_some] at hag; exact hag
        | compound => simp only [shape, ha, hb, Option.getD_some] at hag; exact hag
        | bits => simp only [shape, ha, hb, Option.getD_some] at hag; exact hag
    cases g with
    | false =>
      rw [equal] at he
      split at he
      · cases he
      · split at he
        · next ha hb => exact unresolved_false hv hk hc hS ha hb he
        · next hun =>
          split at he
          · next a' b' ra rb =>
            intro hab
            have hab' := hc _ _ _ _ (shape_resolve hv ra) (shape_resolve hv rb) hab
            split at he
            · cases he
            · split at he
              · next p q hp hq =>
                have hag := hS _ _ hab'
                simp only [shape, hp, hq, Option.getD_some] at hag
                exact ih _ _ _ he hag
              · next hpp =>
                exact rest_false hv hk hc hS _ (fun p q => ih false p q) a' b' (fun ⟨p, q, h1, h2⟩ => hpp p q h1 h2)
                  (resolve_not hv ra) (resolve_not hv rb) he hab'
          · next hno =>
            refine hnone a b ?_ (fun ⟨u, t, f, v, s, g, h1, h2⟩ => hun _ _ _ _ _ _ h1 h2)
            cases h1 : resolve h a with
            | none => exact Or.inl rfl
            | some a' => cases h2 : resolve h b with
              | none => exact Or.inr rfl
              | some b' => exact absurd h2 (hno a' b' h1)
    | true =>
      rw [equal] at he
      split at he
      · next p q hp hq =>
        intro hab
        have hag := hS _ _ hab
        simp only [shape, hp, hq, Option.getD_some] at hag
        exact ih _ _ _ he hag
      · next ha hb => exact unresolved_false hv hk hc hS ha hb he
      · next hpp hun =>
        split at he
        · next a' b' ra rb =>
          intro hab
          have hab' := hc _ _ _ _ (shape_resolve hv ra) (shape_resolve hv rb) hab
          refine rest_false hv hk hc hS _ (fun p q => ih false p q) a' b' ?_ (resolve_not hv ra) (resolve_not hv rb) he hab'
          rintro ⟨p, q, h1, h2⟩
          have hback : ∀ {x y p}, resolve h x = some y → h y = .pointer p → h x = .pointer p := by
            intro x y p hr hy
            unfold resolve at hr
            split at hr
            · next he =>
              subst hr
              obtain ⟨ms, hm⟩ := hv.found _ _ _ _ he
              rw [hm] at hy; cases hy
            · cases hr; exact hy
          exact hpp p q (hback ra h1) (hback rb h2)
        · next hno =>
          refine hnone a b ?_ (fun ⟨u, t, f, v, s, g, h1, h2⟩ => hun _ _ _ _ _ _ h1 h2)
          cases h1 : resolve h a with
          | none => exact Or.inl rfl
          | some a' => cases h2 : resolve h b with
            | none => exact Or.inr rfl
            | some b' => exact absurd h2 (hno a' b' h1)

end

/-- Types that do not match are not compatible, if there are no arrays of unknown size. -/
theorem C77_rejects_partial (h : Types) (hv : Valid h) (hk : ∀ a u n e, h a = .array u n e → u = false) (n : Nat) (a b : Nat)
    (he : equal h n false a b = some false) : ¬ Compatible (shape h) a b := by
  rintro ⟨R, hab, hR⟩
  obtain ⟨S, hRS, hc, hS⟩ := agree_shape hR
  exact equal_false hv hk hc hS n false a b he (hRS _ _ hab)

/-- The depth of types: without looking into structures, a type refers to types of smaller depth only. -/
structure Depth (h : Types) (d : Nat → Nat) : Prop where
  pointer : ∀ a t, h a = .pointer t → d t < d a
  ret : ∀ a r ps v, h a = .function r ps v → d r < d a
  params : ∀ a r ps v, h a = .function r ps v → ∀ p ∈ ps, d p < d a
  array : ∀ a u n e, h a = .array u n e → d e < d a
  bits : ∀ a i w t, h a = .bits i w t → d t < d a
  found : ∀ a u t c, h a = .unresolved u t (some c) → d c ≤ d a

theorem params_some {rec_ : Nat → Nat → Option Bool} : ∀ ps qs : List Nat, (∀ p ∈ ps, ∀ q, rec_ p q ≠ none) → params rec_ ps qs ≠ none := by
  intro ps
  induction ps with
  | nil => intro qs _ h; cases qs <;> cases h
  | cons p ps ih => intro qs hr h; cases qs with
    | nil => cases h
    | cons q qs =>
      rw [params] at h
      split at h
      · exact ih qs (fun p hp => hr p (List.mem_cons_of_mem _ hp)) h
      · exact hr p List.mem_cons_self q h

theorem rest_some {h : Types} {d : Nat → Nat} (hd : Depth h d) (hu : ∀ a b u v t ms ns, h a = .compound u t ms → h b = .compound v t ns → a = b)
    (rec_ : Nat → Nat → Option Bool) (a b : Nat) (hr : ∀ p q, d p < d a → rec_ p q ≠ none) : rest h rec_ a b ≠ none := by
  intro he
  unfold rest at he
  split at he
  · cases he
  · next hne =>
    split at he
    · next ha hb =>
      split at he
      · cases he
      · split at he
        · refine params_some _ _ ?_ he
          intro p hp q hpq
          unfold param at hpq
          have h1 := hd.params _ _ _ _ ha p hp
          refine hr _ _ (Nat.lt_of_le_of_lt ?_ h1) hpq
          unfold resolve
          split
          · next f hf => cases f with
            | none => exact Nat.le_refl _
            | some c => exact hd.found _ _ _ _ hf
          · exact Nat.le_refl _
        · exact hr _ _ (hd.ret _ _ _ _ ha) he
    · next ha hb =>
      split at he
      · cases he
      · exact hr _ _ (hd.array _ _ _ _ ha) he
    · next ha hb =>
      split at he
      · cases he
      · split at he
        · cases he
        · next ht => exact hne (hu _ _ _ _ _ _ _ ha ((Decidable.of_not_not ht) ▸ hb))
    · next ha hb =>
      split at he
      · cases he
      · split at he
        · cases he
        · exact hr _ _ (hd.bits _ _ _ _ ha) he
    · cases he

/-- The comparison ends, if a tag names one structure or union only: structures may refer to themselves, and to each other. -/
theorem C77_terminates (h : Types) (d : Nat → Nat) (hd : Depth h d)
    (hu : ∀ a b u v t ms ns, h a = .compound u t ms → h b = .compound v t ns → a = b) (n : Nat) :
    ∀ (g : Bool) (a b : Nat), d a < n → equal h n g a b ≠ none := by
  induction n with
  | zero => intro g a b hl; omega
  | succ n ih =>
    intro g a b hl he
    have hres : ∀ {a'}, resolve h a = some a' → d a' ≤ d a := by
      intro a' ha
      unfold resolve at ha
      split at ha
      · next hf => subst ha; exact hd.found _ _ _ _ hf
      · cases ha; exact Nat.le_refl _
    cases g with
    | false =>
      rw [equal] at he
      split at he
      · cases he
      · split at he
        · cases he
        · split at he
          · next a' b' ra rb =>
            have hle := hres ra
            split at he
            · cases he
            · split at he
              · next hp hq => exact ih _ _ _ (by have := hd.pointer _ _ hp; omega) he
              · exact rest_some hd hu _ _ _ (fun p q hp => ih _ _ _ (by omega)) he
          · cases he
    | true =>
      rw [equal] at he
      split at he
      · next hp hq => exact ih _ _ _ (by have := hd.pointer _ _ hp; omega) he
      · cases he
      · split at he
        · next a' b' ra rb =>
          have hle := hres ra
          exact rest_some hd hu _ _ _ (fun p q hp => ih _ _ _ (by omega)) he
        · cases he

/-- All together: without variadic functions and arrays of unknown size, types match exactly if they are compatible. -/
theorem C77_decides (h : Types) (hv : Valid h) (hn : ∀ a r ps v, h a = .function r ps v → v = false)
    (hk : ∀ a u n e, h a = .array u n e → u = false) (d : Nat → Nat) (hd : Depth h d)
    (hu : ∀ a b u v t ms ns, h a = .compound u t ms → h b = .compound v t ns → a = b) (a b : Nat) :
    equal h (d a + 1) false a b = some true ↔ Compatible (shape h) a b := by
  refine ⟨C77_accepts_partial h hv hn _ a b, fun hc => ?_⟩
  have hs := C77_terminates h d hd hu (d a + 1) false a b (Nat.lt_succ_self _)
  cases he : equal h (d a + 1) false a b with
  | none => exact absurd he hs
  | some r => cases r with
    | true => rfl
    | false => exact absurd hc (C77_rejects_partial h hv hk _ a b he)

/-- `int f(int)` and `int f(int, ...)` match, although they are not compatible. -/
theorem C77_variadic_wrong : ∃ (h : Types) (a b : Nat), Valid h ∧ equal h 2 false a b = some true ∧ ¬ Compatible (shape h) a b := by
  refine ⟨fun i => if i = 1 then .function 0 [0] false else if i = 2 then .function 0 [0] true else .base i, 1, 2, ?_, by decide, ?_⟩
  · constructor
    · intro a b k ha hb
      split at ha <;> try (cases ha; done)
      split at ha <;> try (cases ha; done)
      split at hb <;> try (cases hb; done)
      split at hb <;> try (cases hb; done)
      cases ha; cases hb; rfl
    · intro a u t c ha
      split at ha <;> try (cases ha; done)
      split at ha <;> cases ha
    · intro a b u v t f g ha
      split at ha <;> try (cases ha; done)
      split at ha <;> cases ha
    · intro a u n e ha
      split at ha <;> try (cases ha; done)
      split at ha <;> cases ha
  · rintro ⟨R, hab, hR⟩
    have := hR _ _ hab
    simp [shape, Agree] at this

/-- `int (*)[]` and `int (*)[3]` do not match, although they are compatible. -/
theorem C77_unknown_size_wrong : ∃ (h : Types) (a b : Nat), Valid h ∧ equal h 3 false a b = some false ∧ Compatible (shape h) a b := by
  refine ⟨fun i => if i = 1 then .array true 0 0 else if i = 2 then .array false 3 0 else if i = 3 then .pointer 1 else if i = 4 then .pointer 2 else .base i,
    3, 4, ?_, by decide, ?_⟩
  · constructor
    · intro a b k ha hb
      repeat' (split at ha <;> try (cases ha; done))
      repeat' (split at hb <;> try (cases hb; done))
      cases ha; cases hb; rfl
    · intro a u t c ha
      repeat' (split at ha <;> try (cases ha; done))
    · intro a b u v t f g ha
      repeat' (split at ha <;> try (cases ha; done))
    · intro a u n e ha
      repeat' (split at ha <;> try (cases ha; simp; done))
      all_goals cases ha
  · refine ⟨fun x y => (x = 3 ∧ y = 4) ∨ (x = 1 ∧ y = 2) ∨ (x = 0 ∧ y = 0), by simp, ?_⟩
    rintro x y (⟨rfl, rfl⟩ | ⟨rfl, rfl⟩ | ⟨rfl, rfl⟩) <;> simp [shape, Agree]

/-- `struct x *` and `union x *` match, if `x` is nowhere defined. -/
theorem C77_kind_wrong : ∃ (h : Types) (a b : Nat), equal h 2 false a b = some true ∧ ¬ Compatible (shape h) a b := by
  refine ⟨fun i => if i = 1 then .unresolved false 7 none else if i = 2 then .unresolved true 7 none else if i = 3 then .pointer 1
    else if i = 4 then .pointer 2 else .base i, 3, 4, by decide, ?_⟩
  rintro ⟨R, hab, hR⟩
  have h1 := hR _ _ hab
  simp [shape, Agree] at h1
  have h2 := hR _ _ h1
  simp [shape, Agree] at h2

namespace Sample

/-- `struct s { struct s *next; int data[4]; }` (number 1), used through its name in `struct s *f(struct s *, int)` (twice). -/
def types : Types := fun i =>
  if i = 1 then .compound false 7 [(1, 0, 2), (2, 8, 4)]
  else if i = 2 then .pointer 3
  else if i = 3 then .unresolved false 7 (some 1)
  else if i = 4 then .array false 4 0
  else if i = 5 then .function 2 [2, 0] false
  else if i = 6 then .pointer 1
  else if i = 7 then .function 6 [6, 0] false
  else if i = 8 then .function 6 [0, 6] false
  else .base i

def depth : Nat → Nat := fun i =>
  if i = 2 then 2 else if i = 3 then 1 else if i = 4 then 1 else if i = 5 then 3 else if i = 6 then 2 else if i = 7 then 3 else if i = 8 then 3
  else 0

theorem valid : Valid types := by
  constructor
  · intro a b k ha hb
    unfold types at ha hb
    repeat' (split at ha <;> try (cases ha; done))
    repeat' (split at hb <;> try (cases hb; done))
    cases ha; cases hb; rfl
  · intro a u t c ha
    unfold types at ha
    repeat' (split at ha <;> try (cases ha; done))
    all_goals cases ha
    exact ⟨_, rfl⟩
  · intro a b u v t f g ha hb
    unfold types at ha hb
    repeat' (split at ha <;> try (cases ha; done))
    all_goals cases ha
    repeat' (split at hb <;> try (cases hb; done))
    all_goals cases hb
    exact ⟨rfl, rfl⟩
  · intro a u n e ha
    unfold types at ha
    repeat' (split at ha <;> try (cases ha; done))
    all_goals cases ha
    simp

theorem depth_types : Depth types depth := by
  constructor
  all_goals
    intro a
    intros
    rename_i hh
    first
      | (unfold types at hh
         repeat' (split at hh <;> try (cases hh; done))
         all_goals (cases hh; subst_vars; decide))
      | (rename_i ha p
         unfold types at ha
         repeat' (split at ha <;> try (cases ha; done))
         all_goals (cases ha; subst_vars; revert p hh; decide))

theorem single (a b : Nat) (u v : Bool) (t : Nat) (ms ns : List (Nat × Nat × Nat)) (ha : types a = .compound u t ms) (hb : types b = .compound v t ns) :
    a = b := by
  unfold types at ha hb
  repeat' (split at ha <;> try (cases ha; done))
  all_goals try (cases ha; done)
  repeat' (split at hb <;> try (cases hb; done))
  all_goals try (cases hb; done)
  omega

example : Compatible (shape types) 5 7 ∧ ¬ Compatible (shape types) 5 8 := by
  have hn : ∀ a r ps v, types a = .function r ps v → v = false := by
    intro a r ps v ha
    unfold types at ha
    repeat' (split at ha <;> try (cases ha; done))
    all_goals (cases ha; try rfl)
  have hk : ∀ a u n e, types a = .array u n e → u = false := by
    intro a r ps v ha
    unfold types at ha
    repeat' (split at ha <;> try (cases ha; done))
    all_goals (cases ha; try rfl)
  exact ⟨(C77_decides types valid hn hk depth depth_types single 5 7).1 (by decide),
    fun hc => absurd ((C77_decides types valid hn hk depth depth_types single 5 8).2 hc) (by decide)⟩

end Sample

end Verif.Props.TypeEq
