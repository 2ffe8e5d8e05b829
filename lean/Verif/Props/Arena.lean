import Verif.Lemmas.Align
import Verif.Model.Arena

/-!
# C39: arena allocations
-/
namespace Verif.Props.Arena
open Verif.Arena Verif.Spec.Arena

/-- The alignments the allocator accepts (its assertions): powers of two up to a page. -/
def GoodAlignment (k : Nat) : Prop := ∃ n, n ≤ 12 ∧ k = 2 ^ n

/-- How the program may use the arenas: whole pages are reserved, an arena is created once, scopes are properly
nested, an arena is reset only outside of scopes. -/
def Allowed (s : State) : Op → Prop
  | .create i size => (s.arenas i).reserved = 0 ∧ 0 < size ∧ 0x1000 ∣ size
  | .push _ _ k _ => GoodAlignment k
  | .align _ k => GoodAlignment k
  | .begin _ => True
  | .close i => s.temps i ≠ []
  | .solidify i => s.temps i ≠ []
  | .reset i => s.temps i = []

/-- Every operation of a history is allowed. -/
def Valid (s : State) : List Op → Prop
  | [] => True
  | op :: ops => Allowed s op ∧ ∀ s' e, step s op = .ok (s', e) → Valid s' ops

/-! ## rounding -/

theorem roundUp_dvd (x : Nat) {to : Nat} : to ∣ roundUp x to := Nat.dvd_mul_left _ _

theorem le_roundUp (x : Nat) {to : Nat} (h : 0 < to) : x ≤ roundUp x to := by
  simp only [roundUp]
  have h1 := Nat.div_add_mod (x + (to - 1)) to
  have h2 := Nat.mod_lt (x + (to - 1)) h
  rw [Nat.mul_comm] at h1
  omega

theorem roundUp_le {x to m : Nat} (h : 0 < to) (hm : to ∣ m) (hx : x ≤ m) : roundUp x to ≤ m := by
  obtain ⟨c, rfl⟩ := hm
  simp only [roundUp]
  have : (x + (to - 1)) / to ≤ c := by
    apply Nat.le_of_lt_succ
    rw [Nat.div_lt_iff_lt_mul h, Nat.succ_mul, Nat.mul_comm c]
    omega
  rw [Nat.mul_comm to]
  exact Nat.mul_le_mul_right _ this

/-- The rounding of this model is the `align_up` of C46. -/
theorem roundUp_eq_alignUp (x k : Nat) : roundUp x (2 ^ k) = Verif.Align.alignUp x (2 ^ k) :=
  Nat.le_antisymm (roundUp_le (Nat.two_pow_pos k) (Verif.Align.dvd_alignUp x k) (Verif.Align.le_alignUp x k))
    (Verif.Align.alignUp_least x k _ (roundUp_dvd x) (le_roundUp x (Nat.two_pow_pos k)))

theorem GoodAlignment.pos {k : Nat} (h : GoodAlignment k) : 0 < k := by
  obtain ⟨n, _, rfl⟩ := h
  exact Nat.two_pow_pos n

theorem GoodAlignment.dvd {k : Nat} (h : GoodAlignment k) : k ∣ 0x1000 := by
  obtain ⟨n, hn, rfl⟩ := h
  exact Nat.pow_dvd_pow 2 (n := 12) hn

/-! ## the invariant -/

/-- The live allocations fit below `current`. -/
structure Fits (base current : Nat) (l : List Alloc) : Prop where
  le : base ≤ current
  inside : ∀ x ∈ l, x.size = 0 ∨ (base ≤ x.address ∧ x.address + x.size ≤ current)
  apart : l.Pairwise Apart
  aligned : ∀ x ∈ l, x.alignment ∣ x.address

def Nest (base : Nat) : Nat → List Alloc → List Nat → List (List Alloc) → Prop
  | cur, l, [], [] => Fits base cur l
  | cur, l, t :: ts, x :: xs => Fits base cur l ∧ t ≤ cur ∧ Nest base t x ts xs
  | _, _, _, _ => False

theorem Nest.fits {base cur l ts xs} (h : Nest base cur l ts xs) : Fits base cur l := by
  cases ts <;> cases xs <;> simp only [Nest] at h
  · exact h
  · exact h.1

/-- Replace the innermost part. -/
theorem Nest.change {base cur l ts xs cur' l'} (h : Nest base cur l ts xs) (hle : cur ≤ cur')
    (hf : Fits base cur' l') : Nest base cur' l' ts xs := by
  cases ts <;> cases xs <;> simp only [Nest] at h ⊢
  · exact hf
  · exact ⟨hf, by omega, h.2.2⟩

structure AInv (start top : Nat) (a : Arena) (temps : List Nat) (l : Live) : Prop where
  nest : Nest a.base a.current l.now temps l.atOpen
  le : a.current ≤ a.committed
  init : a.reserved ≠ 0 → 0x1000 ∣ a.base ∧ 0x1000 ∣ a.committed ∧ 0x1000 ∣ a.reserved ∧ a.committed ≤ a.base + a.reserved ∧
    start + 0x1000 ≤ a.base ∧ a.base + a.reserved ≤ start + top ∧ a.base + a.reserved ≤ start + totalSize
  zero : a.reserved = 0 → a = {} ∧ temps = []

structure Inv (s : State) (ls : Nat → Live) : Prop where
  start : 0x1000 ∣ s.start
  top : 0x1000 ∣ s.top ∧ 0x1000 ≤ s.top
  each : ∀ i, AInv s.start s.top (s.arenas i) (s.temps i) (ls i)
  apart : ∀ i j, i ≠ j → (s.arenas i).reserved ≠ 0 → (s.arenas j).reserved ≠ 0 →
    (s.arenas i).base + (s.arenas i).reserved ≤ (s.arenas j).base ∨
    (s.arenas j).base + (s.arenas j).reserved ≤ (s.arenas i).base

theorem AInv.mono {start top top' a ts l} (h : AInv start top a ts l) (hle : top ≤ top') : AInv start top' a ts l :=
  ⟨h.nest, h.le, fun hr => by
    obtain ⟨h1, h2, h3, h4, h5, h6, h7⟩ := h.init hr
    exact ⟨h1, h2, h3, h4, h5, by omega, h7⟩, h.zero⟩

/-- An arena with the same reservation, or one freshly taken from the top. -/
def Same (start top top' : Nat) (a a' : Arena) : Prop :=
  (a'.base = a.base ∧ a'.reserved = a.reserved ∧ top' = top) ∨
  (a.reserved = 0 ∧ a'.base = start + top ∧ top' = top + a'.reserved)

/-- Put the changed arena back. -/
theorem Inv.put {s : State} {ls : Nat → Live} (h : Inv s ls) (i : Nat) (a : Arena) (top : Nat) (ts : List Nat) (l : Live)
    (hs : Same s.start s.top top (s.arenas i) a) (ha : AInv s.start top a ts l) (ht : 0x1000 ∣ top) :
    Inv { s.put i a top with temps := update s.temps i ts } (update ls i l) := by
  have hle : s.top ≤ top := by rcases hs with ⟨_, _, h⟩ | ⟨_, _, h⟩ <;> omega
  refine ⟨h.start, ⟨ht, by have := h.top.2; simp only [State.put]; omega⟩, fun j => ?_, fun j k hjk => ?_⟩
  · by_cases e : j = i
    · subst e; simpa [State.put, update] using ha
    · simpa [State.put, update, e] using (h.each j).mono hle
  · have key : ∀ m, m ≠ i → a.reserved ≠ 0 → (s.arenas m).reserved ≠ 0 →
        a.base + a.reserved ≤ (s.arenas m).base ∨ (s.arenas m).base + (s.arenas m).reserved ≤ a.base := by
      intro m hm h1 h2
      rcases hs with ⟨e1, e2, _⟩ | ⟨e1, e2, e3⟩
      · have := h.apart i m (Ne.symm hm) (by omega) h2
        omega
      · have := (h.each m).init h2
        omega
    by_cases e1 : j = i
    · subst e1
      have hk : k ≠ j := Ne.symm hjk
      simp only [State.put, update, hk, if_true, if_false]
      exact key k hk
    · by_cases e2 : k = i
      · subst e2
        simp only [State.put, update, e1, if_true, if_false]
        intro h1 h2
        exact (key j e1 h2 h1).symm
      · simp only [State.put, update, e1, e2, if_false]
        exact h.apart j k hjk

theorem update_same {α : Type} (f : Nat → α) (i : Nat) : update f i (f i) = f := by
  funext j
  by_cases e : j = i
  · subst e; simp [update]
  · simp [update, e]

theorem ensure_ok {start top a temps l} (h : AInv start top a temps l) (hs : 0x1000 ∣ start)
    (ht : 0x1000 ∣ top ∧ 0x1000 ≤ top) :
    ensure start top a = .panic ∨ ∃ a' top', ensure start top a = .ok (a', top') ∧ Same start top top' a a' ∧
      AInv start top' a' temps l ∧ 0x1000 ∣ top' ∧ a'.reserved ≠ 0 ∧ (a' = a ∨ (a'.current = a'.base ∧ a = {})) := by
  by_cases hr : a.reserved = 0
  · obtain ⟨rfl, rfl⟩ := h.zero hr
    by_cases hp : top + defaultSize > totalSize
    · left
      simp only [ensure, if_pos trivial, create]
      exact if_pos hp
    · right
      refine ⟨_, _, by simp only [ensure, create, if_true]; exact if_neg hp, ?_, ?_, ?_, ?_, ?_⟩
      · exact Or.inr ⟨rfl, rfl, rfl⟩
      · have hd : 0x1000 ∣ defaultSize := by decide
        have hf := h.nest.fits
        have hn := h.nest
        refine ⟨?_, Nat.le_refl _, fun _ => ⟨?_, ?_, hd, ?_, ?_, ?_, ?_⟩, fun e => absurd e (show ¬ defaultSize = 0 by decide)⟩
        · have hf' : Fits (start + top) (start + top) l.now := by
            refine ⟨Nat.le_refl _, fun x hx => ?_, hf.apart, hf.aligned⟩
            have := hf.inside x hx
            simp only at this
            omega
          cases hx : l.atOpen with
          | nil => simpa [Nest] using hf'
          | cons y ys => rw [hx] at hn; simp [Nest] at hn
        all_goals (simp only; omega)
      · have hd : 0x1000 ∣ defaultSize := by decide
        omega
      · simp [defaultSize]
      · exact Or.inr ⟨rfl, rfl⟩
  · right
    exact ⟨a, top, by simp [ensure, hr], Or.inl ⟨rfl, rfl, rfl⟩, h, ht.1, hr, Or.inl rfl⟩

/-- What a push does to one arena. -/
theorem push_ok {start top a temps l} (h : AInv start top a temps l) (hs : 0x1000 ∣ start)
    (ht : 0x1000 ∣ top ∧ 0x1000 ≤ top) (size k growth : Nat) (hk : GoodAlignment k) :
    push start top a size k growth = .panic ∨ ∃ p a' top', push start top a size k growth = .ok (p, a', top') ∧
      Same start top top' a a' ∧ AInv start top' a' temps { l with now := ⟨p, size, k⟩ :: l.now } ∧ 0x1000 ∣ top' := by
  -- the aligned arena
  have hcommit : k ∣ a.committed := by
    by_cases hr : a.reserved = 0
    · rw [(h.zero hr).1]; exact Nat.dvd_zero k
    · exact Nat.dvd_trans hk.dvd (h.init hr).2.1
  have hcur : roundUp a.current k ≤ a.committed := roundUp_le hk.pos hcommit h.le
  have hge : a.current ≤ roundUp a.current k := le_roundUp _ hk.pos
  have ha : AInv start top { a with current := roundUp a.current k } temps l := by
    refine ⟨h.nest.change hge ⟨Nat.le_trans h.nest.fits.le hge, fun x hx => ?_, h.nest.fits.apart, h.nest.fits.aligned⟩, hcur,
      h.init, fun hr => ⟨?_, (h.zero hr).2⟩⟩
    · rcases h.nest.fits.inside x hx with h1 | h1
      · exact Or.inl h1
      · exact Or.inr ⟨h1.1, Nat.le_trans h1.2 hge⟩
    · have := (h.zero hr).1
      subst this
      have : (0 + (k - 1)) / k = 0 := Nat.div_eq_of_lt (by have := hk.pos; omega)
      simp only [roundUp, this, Nat.zero_mul]
  -- allocating at an aligned current
  have alloc : ∀ (b : Arena) (top' : Nat), AInv start top' b temps l → k ∣ b.current → b.current + size ≤ b.committed →
      AInv start top' { b with current := b.current + size } temps { l with now := ⟨b.current, size, k⟩ :: l.now } := by
    intro b top' hb hd hle
    have hf := hb.nest.fits
    refine ⟨hb.nest.change (by simp) ⟨by have := hf.le; simp only; omega, ?_, ?_, ?_⟩, hle, hb.init, fun hr => ⟨?_, (hb.zero hr).2⟩⟩
    · intro x hx
      rcases List.mem_cons.1 hx with rfl | hx
      · exact Or.inr ⟨hf.le, Nat.le_refl _⟩
      · rcases hf.inside x hx with h1 | h1
        · exact Or.inl h1
        · exact Or.inr ⟨h1.1, by simp only; omega⟩
    · refine List.pairwise_cons.2 ⟨fun y hy b' hb' => ?_, hf.apart⟩
      have := hf.inside y hy
      simp only [Alloc.Has] at hb'
      omega
    · intro x hx
      rcases List.mem_cons.1 hx with rfl | hx
      · exact hd
      · exact hf.aligned x hx
    · have := (hb.zero hr).1
      subst this
      simp only at hle ⊢
      have : size = 0 := by omega
      subst this
      rfl
  simp only [push]
  rw [if_pos hcur]
  by_cases hg : size > a.committed - roundUp a.current k
  · rw [if_pos hg]
    simp only [grow]
    rcases ensure_ok ha hs ht with e | ⟨a', top', e, e1, e2, e3, e4, e5⟩
    · rw [e]; exact Or.inl rfl
    · rw [e]
      simp only
      generalize hG : max (a'.committed - a'.base + roundUp size 0x1000) (min (roundUp growth 0x1000) a'.reserved) = G
      by_cases hp : G > a'.reserved
      · rw [if_pos hp]; exact Or.inl rfl
      · rw [if_neg hp]
        obtain ⟨i1, i2, i3, i4, i5, i6, i7⟩ := e2.init e4
        have hsz := le_roundUp size (to := 0x1000) (by omega)
        have hdv : 0x1000 ∣ roundUp size 0x1000 := roundUp_dvd _
        have hdv2 : 0x1000 ∣ roundUp growth 0x1000 := roundUp_dvd _
        have hb := e2.nest.fits.le
        have hc := e2.le
        have hb2 : AInv start top' { a' with committed := a'.base + G } temps l :=
          ⟨e2.nest, by simp only; omega, fun _ => ⟨i1, by simp only; omega, i3, by simp only; omega, i5, i6, i7⟩,
            fun hr => absurd hr e4⟩
        have hkd : k ∣ a'.current := by
          rcases e5 with e5 | e5
          · rw [e5]; exact roundUp_dvd _
          · rw [e5.1]; exact Nat.dvd_trans hk.dvd i1
        refine Or.inr ⟨_, _, _, rfl, ?_, alloc _ top' hb2 hkd (by simp only; omega), e3⟩
        rcases e1 with e1 | e1
        · exact Or.inl e1
        · exact Or.inr e1
  · rw [if_neg hg]
    exact Or.inr ⟨_, _, _, rfl, Or.inl ⟨rfl, rfl, rfl⟩, alloc _ top ha (roundUp_dvd _) (by simp only; omega), ht.1⟩

/-- Every allowed operation keeps the invariant or ends the process with a message. -/
theorem step_ok {s : State} {ls : Nat → Live} (h : Inv s ls) (op : Op) (ho : Allowed s op) :
    step s op = .panic ∨ ∃ s' e, step s op = .ok (s', e) ∧ s'.start = s.start ∧ Inv s' (fun i => (ls i).see i e) := by
  have others : ∀ (i : Nat) (e : Event) (l : Live), (∀ j, j ≠ i → (ls j).see j e = ls j) → (ls i).see i e = l →
      (fun j => (ls j).see j e) = update ls i l := by
    intro i e l h1 h2
    funext j
    by_cases hj : j = i
    · subst hj; simp [update, h2]
    · simp [update, hj, h1 j hj]
  have temps0 : ∀ (i : Nat) (a : Arena) (top : Nat),
      { s.put i a top with temps := update s.temps i (s.temps i) } = s.put i a top := by
    intro i a top
    rw [update_same]
    rfl
  cases op with
  | create i size =>
    obtain ⟨hr, hpos, hd⟩ := ho
    by_cases hp : s.top + size > totalSize
    · left
      simp only [step, create, if_pos hp]
    · right
      refine ⟨s.put i ⟨s.start + s.top, s.start + s.top, s.start + s.top, size⟩ (s.top + size), .nothing,
        by simp only [step, create]; rw [if_neg hp], rfl, ?_⟩
      have hz := (h.each i).zero hr
      have hn := (h.each i).nest
      have hf := hn.fits
      have ha : AInv s.start (s.top + size) ⟨s.start + s.top, s.start + s.top, s.start + s.top, size⟩ (s.temps i) (ls i) := by
        have := h.top; have := h.start
        refine ⟨?_, Nat.le_refl _, fun _ => ⟨?_, ?_, hd, ?_, ?_, ?_, ?_⟩, fun e => absurd e (by simp only; omega)⟩
        · have hf' : Fits (s.start + s.top) (s.start + s.top) (ls i).now := by
            refine ⟨Nat.le_refl _, fun x hx => ?_, hf.apart, hf.aligned⟩
            have := hf.inside x hx
            rw [hz.1] at this
            simp only at this
            omega
          rw [hz.2] at hn ⊢
          cases hx : (ls i).atOpen with
          | nil => simpa [Nest] using hf'
          | cons y ys => rw [hx] at hn; simp [Nest] at hn
        all_goals (simp only; omega)
      have := h.put i _ (s.top + size) (s.temps i) (ls i) (Or.inr ⟨hr, rfl, rfl⟩) ha (by have := h.top; omega)
      rw [temps0] at this
      rw [others i .nothing (ls i) (fun _ _ => rfl) rfl]
      exact this
  | push i size k growth =>
    rcases push_ok (h.each i) h.start h.top size k growth ho with e | ⟨p, a', top', e, e1, e2, e3⟩
    · left; simp only [step, e]
    · right
      refine ⟨s.put i a' top', .allocated i p size k, by simp only [step, e], rfl, ?_⟩
      have := h.put i a' top' (s.temps i) _ e1 e2 e3
      rw [temps0] at this
      rw [others i _ { ls i with now := ⟨p, size, k⟩ :: (ls i).now }
        (fun j hj => by simp only [Live.see]; exact if_neg (Ne.symm hj)) (by simp [Live.see])]
      exact this
  | align i k =>
    have hk : GoodAlignment k := ho
    rcases ensure_ok (h.each i) h.start h.top with e | ⟨a', top', e, e1, e2, e3, e4, e5⟩
    · left; simp only [step, e]
    · right
      refine ⟨s.put i { a' with current := roundUp a'.current k } top', .nothing, by simp only [step, e], rfl, ?_⟩
      have hge : a'.current ≤ roundUp a'.current k := le_roundUp _ hk.pos
      have hi := e2.init e4
      have hcur : roundUp a'.current k ≤ a'.committed := roundUp_le hk.pos (Nat.dvd_trans hk.dvd hi.2.1) e2.le
      have hf := e2.nest.fits
      have ha : AInv s.start top' { a' with current := roundUp a'.current k } (s.temps i) (ls i) := by
        refine ⟨e2.nest.change hge ⟨Nat.le_trans hf.le hge, fun x hx => ?_, hf.apart, hf.aligned⟩, hcur,
          e2.init, fun hr => absurd hr e4⟩
        rcases hf.inside x hx with h1 | h1
        · exact Or.inl h1
        · exact Or.inr ⟨h1.1, Nat.le_trans h1.2 hge⟩
      have := h.put i { a' with current := roundUp a'.current k } top' (s.temps i) (ls i) (by rcases e1 with e1 | e1; exact Or.inl e1; exact Or.inr e1) ha e3
      rw [temps0] at this
      rw [others i .nothing (ls i) (fun _ _ => rfl) rfl]
      exact this
  | begin i =>
    rcases ensure_ok (h.each i) h.start h.top with e | ⟨a', top', e, e1, e2, e3, e4, e5⟩
    · left; simp only [step, e]
    · right
      refine ⟨{ s.put i a' top' with temps := update s.temps i (a'.current :: s.temps i) }, .opened i,
        by simp only [step, e], rfl, ?_⟩
      have ha : AInv s.start top' a' (a'.current :: s.temps i) { ls i with atOpen := (ls i).now :: (ls i).atOpen } :=
        ⟨⟨e2.nest.fits, Nat.le_refl _, e2.nest⟩, e2.le, e2.init, fun hr => absurd hr e4⟩
      have := h.put i a' top' _ _ e1 ha e3
      rw [others i _ { ls i with atOpen := (ls i).now :: (ls i).atOpen }
        (fun j hj => by simp only [Live.see]; exact if_neg (Ne.symm hj)) (by simp [Live.see])]
      exact this
  | close i =>
    cases ht : s.temps i with
    | nil => exact absurd ht ho
    | cons t ts =>
      have hA := h.each i
      have hn := hA.nest
      rw [ht] at hn
      cases hx : (ls i).atOpen with
      | nil => rw [hx] at hn; simp [Nest] at hn
      | cons x xs =>
        rw [hx] at hn
        simp only [Nest] at hn
        have hr : (s.arenas i).reserved ≠ 0 := fun hr => by
          have := (hA.zero hr).2
          rw [ht] at this
          cases this
        have hi := hA.init hr
        have hb := hn.2.2.fits.le
        have ht0 : t ≠ 0 := by omega
        right
        refine ⟨{ s.put i { s.arenas i with current := t } s.top with temps := update s.temps i ts }, .closed i,
          by simp only [step, ht, if_pos hn.2.1, if_neg ht0], rfl, ?_⟩
        have ha : AInv s.start s.top { s.arenas i with current := t } ts ⟨x, xs⟩ :=
          ⟨hn.2.2, by have := hA.le; have := hn.2.1; simp only; omega, hA.init, fun e => absurd e hr⟩
        have := h.put i { s.arenas i with current := t } s.top ts ⟨x, xs⟩ (Or.inl ⟨rfl, rfl, rfl⟩) ha h.top.1
        rw [others i _ ⟨x, xs⟩ (fun j hj => by simp only [Live.see]; exact if_neg (Ne.symm hj)) (by simp [Live.see, hx])]
        exact this
  | solidify i =>
    cases ht : s.temps i with
    | nil => exact absurd ht ho
    | cons t ts =>
      have hA := h.each i
      have hn := hA.nest
      rw [ht] at hn
      cases hx : (ls i).atOpen with
      | nil => rw [hx] at hn; simp [Nest] at hn
      | cons x xs =>
        rw [hx] at hn
        simp only [Nest] at hn
        right
        refine ⟨{ s with temps := update s.temps i ts }, .kept i, by simp only [step, ht], rfl, ?_⟩
        have ha : AInv s.start s.top (s.arenas i) ts { ls i with atOpen := xs } :=
          ⟨hn.2.2.change hn.2.1 hn.1, hA.le, hA.init, fun hr => by
            have := (hA.zero hr).2
            rw [ht] at this
            cases this⟩
        have := h.put i (s.arenas i) s.top ts { ls i with atOpen := xs } (Or.inl ⟨rfl, rfl, rfl⟩) ha h.top.1
        rw [others i _ { ls i with atOpen := xs }
          (fun j hj => by simp only [Live.see]; exact if_neg (Ne.symm hj)) (by simp [Live.see, hx])]
        simpa [State.put, update_same] using this
  | reset i =>
    have hA := h.each i
    have ht : s.temps i = [] := ho
    right
    refine ⟨_, _, rfl, ?st, ?_⟩
    case st => rfl
    have hn := hA.nest
    rw [ht] at hn
    have hx : (ls i).atOpen = [] := by
      cases hx : (ls i).atOpen with
      | nil => rfl
      | cons x xs => rw [hx] at hn; simp [Nest] at hn
    have hf := hA.nest.fits
    have ha : AInv s.start s.top { s.arenas i with current := (s.arenas i).base } (s.temps i) { ls i with now := [] } := by
      refine ⟨?_, by have := hf.le; have := hA.le; simp only; omega, hA.init, fun hr => ⟨?_, ht⟩⟩
      · rw [ht]
        simp only [hx, Nest]
        exact ⟨Nat.le_refl _, by simp, by simp, by simp⟩
      · have := (hA.zero hr).1
        rw [this]
    have := h.put i { s.arenas i with current := (s.arenas i).base } s.top (s.temps i) { ls i with now := [] } (Or.inl ⟨rfl, rfl, rfl⟩) ha h.top.1
    rw [temps0] at this
    rw [others i _ { ls i with now := [] }
      (fun j hj => by simp only [Live.see]; exact if_neg (Ne.symm hj)) (by simp [Live.see])]
    exact this

theorem run_ok (ops : List Op) {s : State} {ls : Nat → Live} (h : Inv s ls) (hv : Valid s ops) :
    run s ops = .panic ∨ ∃ s' es, run s ops = .ok (s', es) ∧ s'.start = s.start ∧
      Inv s' (fun i => es.foldl (Live.see i) (ls i)) := by
  induction ops generalizing s ls with
  | nil => exact Or.inr ⟨s, [], rfl, rfl, h⟩
  | cons op ops ih =>
    rcases step_ok h op hv.1 with e | ⟨s', e, e1, e2, e3⟩
    · left; simp only [run, e]
    · rcases ih e3 (hv.2 s' e e1) with i1 | ⟨s'', es, i1, i2, i3⟩
      · left; simp only [run, e1, i1]
      · exact Or.inr ⟨s'', e :: es, by simp only [run, e1, i1], i2.trans e2, i3⟩

/-- The state when the process starts. -/
theorem initial (start : Nat) (h : 0x1000 ∣ start) : Inv { start := start } (fun _ => {}) := by
  refine ⟨h, ⟨⟨1, rfl⟩, Nat.le_refl _⟩, fun i => ⟨?_, Nat.le_refl _, fun e => absurd rfl e, fun _ => ⟨rfl, rfl⟩⟩,
    fun i j _ e => absurd rfl e⟩
  simp only [Nest]
  exact ⟨Nat.le_refl _, by simp, by simp, by simp⟩

/-- C39: after every allowed history of operations on any number of arenas, the process has ended with the out-of-memory
message, or: every live allocation is at a multiple of the alignment asked for; all its bytes are committed, inside the
reservation of its own arena and inside the one range reserved from the operating system; no byte belongs to two live
allocations of the same arena; and no byte belongs to live allocations of two different arenas. No assertion fails. -/
theorem C39_arena (start : Nat) (hstart : 0x1000 ∣ start) (ops : List Op) (hv : Valid { start := start } ops) :
    run { start := start } ops = .panic ∨ ∃ s es, run { start := start } ops = .ok (s, es) ∧
      (∀ i, ∀ x ∈ live i es, x.alignment ∣ x.address) ∧
      (∀ i, ∀ x ∈ live i es, ∀ b, x.Has b → (s.arenas i).base ≤ b ∧ b < (s.arenas i).committed ∧
        (s.arenas i).committed ≤ (s.arenas i).base + (s.arenas i).reserved ∧ start < b ∧ b < start + totalSize) ∧
      (∀ i, (live i es).Pairwise Apart) ∧
      (∀ i j, i ≠ j → ∀ x ∈ live i es, ∀ y ∈ live j es, Apart x y) := by
  rcases run_ok ops (initial start hstart) hv with e | ⟨s, es, e, e1, e2⟩
  · exact Or.inl e
  · refine Or.inr ⟨s, es, e, ?_⟩
    have e1 : s.start = start := e1
    have where_ : ∀ i, ∀ x ∈ live i es, ∀ b, x.Has b → (s.arenas i).reserved ≠ 0 ∧ (s.arenas i).base ≤ b ∧
        b < (s.arenas i).committed ∧
        (s.arenas i).committed ≤ (s.arenas i).base + (s.arenas i).reserved ∧ start < b ∧ b < start + totalSize := by
      intro i x hx b hb
      have hA := e2.each i
      have hf := hA.nest.fits
      have hin := hf.inside x hx
      have hle := hA.le
      simp only [Alloc.Has] at hb
      have hr : (s.arenas i).reserved ≠ 0 := fun hr => by
        have := (hA.zero hr).1
        rw [this] at hin
        simp only at hin
        omega
      have := hA.init hr
      rw [e1] at this
      refine ⟨hr, ?_⟩
      omega
    refine ⟨fun i x hx => (e2.each i).nest.fits.aligned x hx, fun i x hx b hb => (where_ i x hx b hb).2,
      fun i => (e2.each i).nest.fits.apart, fun i j hij x hx y hy b hb => ?_⟩
    have h1 := where_ i x hx b hb.1
    have h2 := where_ j y hy b hb.2
    have := e2.apart i j hij h1.1 h2.1
    omega

/-- A history with two arenas, a scope, a growth and a lazily created arena. -/
def exampleHistory : List Op :=
  [.create 0 0x4000, .push 0 100 8 0, .begin 0, .push 0 5000 16 0x3000, .close 0, .push 0 24 8 0, .push 1 3 1 0,
   .push 1 8 8 0]

example : (match run { start := 0x10000 } exampleHistory with
    | .ok (_, es) => live 0 es == [⟨0x11068, 24, 8⟩, ⟨0x11000, 100, 8⟩] && live 1 es == [⟨0x15008, 8, 8⟩, ⟨0x15000, 3, 1⟩]
    | _ => false) = true := by decide +kernel

/-- A check of `Valid` that can be evaluated. -/
def allowed (s : State) : Op → Bool
  | .create i size => (s.arenas i).reserved == 0 && decide (0 < size) && size % 0x1000 == 0
  | .push _ _ k _ => (List.range 13).any (fun n => k == 2 ^ n)
  | .align _ k => (List.range 13).any (fun n => k == 2 ^ n)
  | .begin _ => true
  | .close i => s.temps i != []
  | .solidify i => s.temps i != []
  | .reset i => s.temps i == []

def valid (s : State) : List Op → Bool
  | [] => true
  | op :: ops => allowed s op && (match step s op with | .ok (s', _) => valid s' ops | _ => true)

theorem Valid_of_valid (ops : List Op) (s : State) (h : valid s ops = true) : Valid s ops := by
  induction ops generalizing s with
  | nil => trivial
  | cons op ops ih =>
    simp only [valid, Bool.and_eq_true] at h
    have al : ∀ k, (List.range 13).any (fun n => k == 2 ^ n) = true → GoodAlignment k := by
      intro k hk
      simp only [List.any_eq_true, List.mem_range, beq_iff_eq] at hk
      obtain ⟨n, h1, h2⟩ := hk
      exact ⟨n, by omega, h2⟩
    refine ⟨?_, fun s' e hs => ?_⟩
    · cases op
      case create =>
        simp only [allowed, Bool.and_eq_true, beq_iff_eq, decide_eq_true_eq] at h
        exact ⟨h.1.1.1, h.1.1.2, Nat.dvd_of_mod_eq_zero h.1.2⟩
      case push => exact al _ h.1
      case align => exact al _ h.1
      case begin => trivial
      all_goals (simp only [allowed] at h; simpa [Allowed] using h.1)
    · have h2 := h.2
      rw [hs] at h2
      exact ih s' h2

example : Valid { start := 0x10000 } exampleHistory := Valid_of_valid _ _ (by decide +kernel)

/-- Exhaustion is a panic: a page-sized arena cannot give 5000 bytes. -/
example : (match run { start := 0x10000 } [.create 0 0x1000, .push 0 5000 8 0] with | .panic => true | _ => false) = true := by
  decide +kernel

end Verif.Props.Arena
