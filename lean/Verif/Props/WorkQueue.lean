import Verif.Model.WorkQueue

/-!
# C30: the work queue delivers each entry exactly once, in order
-/
namespace Verif.Props.WorkQueue
open Verif.WorkQueue

/-- All entries threads asked to append. -/
def requested (evs : List Event) : List Nat := evs.flatMap fun | .request _ xs => xs | _ => []

/-- All entries that became part of the queue, in queue order. -/
def published (evs : List Event) : List Nat := evs.flatMap fun | .publish _ xs => xs | _ => []

/-- All entries handed out, in order. -/
def delivered (evs : List Event) : List Nat := evs.flatMap fun | .got _ x => [x] | _ => []

/-- The list a thread is about to append. -/
def pending : PC → Option (List Nat)
  | .appLoad xs => some xs
  | .appEmpty xs => some xs
  | .appEnd xs _ => some xs
  | _ => none

/-- The invariant: `P` has been published, the first `d` entries of it have been delivered. -/
structure Inv (evs : List Event) (s : State) (P : List Nat) (d : Nat) : Prop where
  pub : published evs = P
  del : delivered evs = P.take d
  dle : d ≤ P.length
  first : s.first = P[d]?
  last : s.last = if d < P.length then P[P.length - 1]? else none
  nodup : P.Nodup
  sub : ∀ x ∈ P, x ∈ requested evs
  all : ∀ x ∈ requested evs, x ∈ P ∨ ∃ t xs, pending (s.pc t) = some xs ∧ x ∈ xs
  pend : ∀ t xs, pending (s.pc t) = some xs → xs ≠ [] ∧ xs.Nodup ∧ (∀ x ∈ xs, x ∈ requested evs ∧ x ∉ P) ∧ ∀ i x, xs[i]? = some x → s.next x = xs[i + 1]?
  disj : ∀ t u xs ys, t ≠ u → pending (s.pc t) = some xs → pending (s.pc u) = some ys → ∀ x ∈ xs, x ∉ ys
  nextOk : ∀ i x n, P[i]? = some x → s.next x = some n → P[i + 1]? = some n
  link : ∀ i x y, d ≤ i → P[i]? = some x → P[i + 1]? = some y → s.next x = some y ∨ ∃ t xs, s.pc t = .appLink xs x
  appLink : ∀ t xs e, s.pc t = .appLink xs e → s.next e = none ∧ ∃ i, d ≤ i ∧ P[i]? = some e ∧ P[i + 1]? = xs.head? ∧ xs ≠ []
  appUniq : ∀ t u xs ys e, s.pc t = .appLink xs e → s.pc u = .appLink ys e → t = u
  getNext : ∀ t b, s.pc t = .getNext b → b ∈ P
  getBegin : ∀ t b n, s.pc t = .getBegin b n → s.next b = some n ∧ ∃ i, P[i]? = some b ∧ P[i + 1]? = some n

theorem idx_inj {P : List Nat} (h : P.Nodup) {i j : Nat} {x : Nat} (hi : P[i]? = some x) (hj : P[j]? = some x) : i = j := by
  obtain ⟨hi', rfl⟩ := List.getElem?_eq_some_iff.mp hi
  obtain ⟨hj', e⟩ := List.getElem?_eq_some_iff.mp hj
  exact (List.getElem_inj h).mp e.symm

theorem linkAll_notMem (next : Nat → Option Nat) (xs : List Nat) {x : Nat} (h : x ∉ xs) : linkAll next xs x = next x := by
  induction xs with
  | nil => rfl
  | cons a xs ih =>
    simp only [List.mem_cons, not_or] at h
    simp only [linkAll, setNext]
    rw [if_neg h.1, ih h.2]

theorem linkAll_mem (next : Nat → Option Nat) (xs : List Nat) (h : xs.Nodup) : ∀ i x, xs[i]? = some x → linkAll next xs x = xs[i + 1]? := by
  induction xs with
  | nil => intro i x hx; simp at hx
  | cons a xs ih =>
    intro i x hx
    have hn := List.nodup_cons.mp h
    cases i with
    | zero =>
      simp only [List.getElem?_cons_zero, Option.some.injEq] at hx
      subst hx
      simp only [linkAll, setNext, if_true]
      rw [List.head?_eq_getElem?]
      simp
    | succ i =>
      simp only [List.getElem?_cons_succ] at hx ⊢
      have : x ≠ a := fun e => hn.1 (e ▸ List.mem_of_getElem? hx)
      simp only [linkAll, setNext]
      rw [if_neg this, ih hn.2 i x hx]

theorem goto_self (s : State) (t : Nat) (p : PC) : (s.goto t p).pc t = p := by simp [State.goto]
theorem goto_other (s : State) {t u : Nat} (p : PC) (h : u ≠ t) : (s.goto t p).pc u = s.pc u := by simp [State.goto, h]

/-- Steps that only move a thread between points that carry the same obligations. -/
theorem inv_goto {evs : List Event} {s : State} {P : List Nat} {d : Nat} (h : Inv evs s P d) (t : Nat) (p : PC) (e : Event)
    (hreq : requested [e] = []) (hpub : published [e] = []) (hdel : delivered [e] = [])
    (hp : pending p = pending (s.pc t)) (hl : ∀ xs x, s.pc t ≠ .appLink xs x) (hl' : ∀ xs x, p ≠ .appLink xs x)
    (hn : ∀ b, p = .getNext b → b ∈ P) (hb : ∀ b n, p = .getBegin b n → s.next b = some n ∧ ∃ i, P[i]? = some b ∧ P[i + 1]? = some n) :
    Inv (evs ++ [e]) (s.goto t p) P d := by
  have er : requested (evs ++ [e]) = requested evs := by rw [requested, List.flatMap_append]; rw [requested] at hreq; rw [hreq]; simp [requested]
  have ep : published (evs ++ [e]) = published evs := by rw [published, List.flatMap_append]; rw [published] at hpub; rw [hpub]; simp [published]
  have ed : delivered (evs ++ [e]) = delivered evs := by rw [delivered, List.flatMap_append]; rw [delivered] at hdel; rw [hdel]; simp [delivered]
  have hpend : ∀ u, pending ((s.goto t p).pc u) = pending (s.pc u) := fun u => by
    by_cases hu : u = t
    · subst hu; rw [goto_self, hp]
    · rw [goto_other _ _ hu]
  have hlink : ∀ u xs x, (s.goto t p).pc u = .appLink xs x ↔ s.pc u = .appLink xs x := fun u xs x => by
    by_cases hu : u = t
    · subst hu; rw [goto_self]; exact ⟨fun e => absurd e (hl' _ _), fun e => absurd e (hl _ _)⟩
    · rw [goto_other _ _ hu]
  refine ⟨by rw [ep]; exact h.pub, by rw [ed]; exact h.del, h.dle, h.first, h.last, h.nodup, by rw [er]; exact h.sub, ?_, ?_, ?_, h.nextOk, ?_, ?_, ?_, ?_, ?_⟩
  · rw [er]; intro x hx; rcases h.all x hx with h1 | ⟨u, xs, h1, h2⟩
    · exact Or.inl h1
    · exact Or.inr ⟨u, xs, by rw [hpend]; exact h1, h2⟩
  · rw [er]; intro u xs hx; rw [hpend] at hx; exact h.pend u xs hx
  · intro u v xs ys huv hx hy; rw [hpend] at hx hy; exact h.disj u v xs ys huv hx hy
  · intro i x y hi hx hy
    rcases h.link i x y hi hx hy with h1 | ⟨u, xs, h1⟩
    · exact Or.inl h1
    · exact Or.inr ⟨u, xs, (hlink u xs x).mpr h1⟩
  · intro u xs x hx; exact h.appLink u xs x ((hlink _ _ _).mp hx)
  · intro u v xs ys x hx hy; exact h.appUniq u v xs ys x ((hlink _ _ _).mp hx) ((hlink _ _ _).mp hy)
  · intro u b hb'
    by_cases hu : u = t
    · subst hu; rw [goto_self] at hb'; exact hn b hb'
    · rw [goto_other _ _ hu] at hb'; exact h.getNext u b hb'
  · intro u b n hb'
    by_cases hu : u = t
    · subst hu; rw [goto_self] at hb'; exact hb b n hb'
    · rw [goto_other _ _ hu] at hb'; exact h.getBegin u b n hb'

theorem inv_publish {evs : List Event} {s : State} {P : List Nat} {d : Nat} (h : Inv evs s P d) (t : Nat) (xs : List Nat) (p : PC) (s' : State)
    (hx : pending (s.pc t) = some xs) (hs : s' = { s.goto t p with first := s'.first, last := s'.last })
    (hfirst : s'.first = (P ++ xs)[d]?) (hlast : s'.last = xs.getLast?)
    (hp : (p = .idle ∧ d = P.length) ∨ ∃ e, p = .appLink xs e ∧ d < P.length ∧ P[P.length - 1]? = some e) :
    Inv (evs ++ [.publish t xs]) s' (P ++ xs) d := by
  obtain ⟨hne, hnd, hfr, hch⟩ := h.pend t xs hx
  have hpc : s'.pc = (s.goto t p).pc := by rw [hs]
  have hnext : s'.next = s.next := by rw [hs]; rfl
  have er : requested (evs ++ [.publish t xs]) = requested evs := by simp [requested]
  have ep : published (evs ++ [.publish t xs]) = P ++ xs := by
    have := h.pub; simp only [published] at this ⊢; simp [this]
  have ed : delivered (evs ++ [.publish t xs]) = delivered evs := by simp [delivered]
  have hpos : 0 < xs.length := by cases xs with
    | nil => exact absurd rfl hne
    | cons _ _ => simp
  have hdle := h.dle
  have hnl : ∀ ys e, s.pc t ≠ .appLink ys e := fun ys e he => by rw [he] at hx; cases hx
  have hpp : pending p = none := by rcases hp with ⟨rfl, _⟩ | ⟨e, rfl, _⟩ <;> rfl
  have hpend : ∀ u ys, pending (s'.pc u) = some ys → u ≠ t ∧ pending (s.pc u) = some ys := fun u ys hu => by
    rw [hpc] at hu
    by_cases e : u = t
    · subst e; rw [goto_self, hpp] at hu; cases hu
    · rw [goto_other _ _ e] at hu; exact ⟨e, hu⟩
  have hpend' : ∀ u ys, u ≠ t → pending (s.pc u) = some ys → pending (s'.pc u) = some ys := fun u ys e hu => by
    rw [hpc, goto_other _ _ e]; exact hu
  have hold : ∀ i x, P[i]? = some x → (P ++ xs)[i]? = some x := fun i x hi => by
    obtain ⟨hlt, _⟩ := List.getElem?_eq_some_iff.mp hi
    rw [List.getElem?_append_left hlt]; exact hi
  refine ⟨ep, ?_, ?_, hfirst, ?_, ?_, ?_, ?_, ?_, ?_, ?_, ?_, ?_, ?_, ?_, ?_⟩
  · rw [ed, h.del, List.take_append_of_le_length hdle]
  · rw [List.length_append]; omega
  · rw [hlast, if_pos (by rw [List.length_append]; omega), List.getLast?_eq_getElem?, List.length_append,
      List.getElem?_append_right (by omega), show P.length + xs.length - 1 - P.length = xs.length - 1 by omega]
  · rw [List.nodup_append]
    exact ⟨h.nodup, hnd, fun a ha b hb e => (hfr b hb).2 (e ▸ ha)⟩
  · rw [er]; intro x hx'
    rw [List.mem_append] at hx'
    rcases hx' with h' | h'
    · exact h.sub x h'
    · exact (hfr x h').1
  · rw [er]; intro x hx'
    rcases h.all x hx' with h1 | ⟨u, ys, h1, h2⟩
    · exact Or.inl (List.mem_append.mpr (Or.inl h1))
    · by_cases e : u = t
      · subst e; rw [hx] at h1; cases h1; exact Or.inl (List.mem_append.mpr (Or.inr h2))
      · exact Or.inr ⟨u, ys, hpend' u ys e h1, h2⟩
  · rw [er, hnext]; intro u ys hu
    obtain ⟨e, hu⟩ := hpend u ys hu
    obtain ⟨a, b, c, f⟩ := h.pend u ys hu
    refine ⟨a, b, fun x hx' => ⟨(c x hx').1, fun hm => ?_⟩, f⟩
    rw [List.mem_append] at hm
    rcases hm with hm | hm
    · exact (c x hx').2 hm
    · exact h.disj u t ys xs e hu hx x hx' hm
  · intro u v ys zs huv hy hz
    exact h.disj u v ys zs huv (hpend u ys hy).2 (hpend v zs hz).2
  · rw [hnext]; intro i x n hi hn
    by_cases hlt : i < P.length
    · rw [List.getElem?_append_left hlt] at hi
      exact hold _ _ (h.nextOk i x n hi hn)
    · rw [List.getElem?_append_right (by omega)] at hi
      rw [List.getElem?_append_right (by omega), show i + 1 - P.length = i - P.length + 1 by omega, ← hch _ _ hi, hn]
  · rw [hnext]; intro i x y hdi hi hi1
    by_cases hlt : i + 1 < P.length
    · rw [List.getElem?_append_left (by omega)] at hi hi1
      rcases h.link i x y hdi hi hi1 with h1 | ⟨u, ys, h1⟩
      · exact Or.inl h1
      · refine Or.inr ⟨u, ys, ?_⟩
        rw [hpc, goto_other _ _ (show u ≠ t from fun e => hnl ys x (e ▸ h1))]; exact h1
    · by_cases heq : i + 1 = P.length
      · rcases hp with ⟨_, hd⟩ | ⟨e, hp, _, hlast⟩
        · omega
        · rw [List.getElem?_append_left (by omega)] at hi
          rw [show P.length - 1 = i by omega, hi] at hlast
          cases hlast
          exact Or.inr ⟨t, xs, by rw [hpc, goto_self, hp]⟩
      · rw [List.getElem?_append_right (by omega)] at hi hi1
        rw [hch _ _ hi, ← hi1]
        exact Or.inl (by congr 1; omega)
  · rw [hnext]; intro u ys e hu
    rw [hpc] at hu
    by_cases eu : u = t
    · subst eu
      rw [goto_self] at hu
      rcases hp with ⟨hp, _⟩ | ⟨e', hp, hd, hl⟩
      · rw [hp] at hu; cases hu
      · rw [hp] at hu; cases hu
        refine ⟨?_, P.length - 1, by omega, hold _ _ hl, ?_, hne⟩
        · cases hn : s.next e with
          | none => rfl
          | some n =>
            have := h.nextOk _ _ _ hl hn
            rw [show P.length - 1 + 1 = P.length by omega] at this
            simp at this
        · rw [List.getElem?_append_right (by omega), show P.length - 1 + 1 - P.length = 0 by omega, List.head?_eq_getElem?]
    · rw [goto_other _ _ eu] at hu
      obtain ⟨h1, i, h2, h3, h4, h5⟩ := h.appLink u ys e hu
      refine ⟨h1, i, h2, hold _ _ h3, ?_, h5⟩
      cases ys with
      | nil => exact absurd rfl h5
      | cons y ys => rw [List.head?_cons] at h4 ⊢; exact hold _ _ h4
  · intro u v ys zs e hu hv
    rw [hpc] at hu hv
    have new : ∀ w ws, w ≠ t → s.pc w = .appLink ws e → p ≠ .appLink xs e := fun w ws _ hw hpe => by
      rcases hp with ⟨hp, _⟩ | ⟨e', hp, hd, hl⟩
      · rw [hp] at hpe; cases hpe
      · rw [hp] at hpe
        cases hpe
        obtain ⟨_, i, h2, h3, h4, h5⟩ := h.appLink w ws e hw
        have := idx_inj h.nodup h3 hl
        subst this
        rw [show P.length - 1 + 1 = P.length by omega] at h4
        cases ws with
        | nil => exact h5 rfl
        | cons y ys => simp at h4
    by_cases eu : u = t
    · by_cases ev : v = t
      · rw [eu, ev]
      · subst eu
        rw [goto_self] at hu
        rw [goto_other _ _ ev] at hv
        have : ys = xs := by
          rcases hp with ⟨hp, _⟩ | ⟨e', hp, _⟩ <;> rw [hp] at hu <;> cases hu
          rfl
        exact absurd (this ▸ hu) (new v zs ev hv)
    · rw [goto_other _ _ eu] at hu
      by_cases ev : v = t
      · subst ev
        rw [goto_self] at hv
        have : zs = xs := by
          rcases hp with ⟨hp, _⟩ | ⟨e', hp, _⟩ <;> rw [hp] at hv <;> cases hv
          rfl
        exact absurd (this ▸ hv) (new u ys eu hu)
      · rw [goto_other _ _ ev] at hv
        exact h.appUniq u v ys zs e hu hv
  · intro u b hu
    rw [hpc] at hu
    by_cases eu : u = t
    · subst eu; rw [goto_self] at hu; rw [hu] at hp
      rcases hp with ⟨hp, _⟩ | ⟨e', hp, _⟩ <;> cases hp
    · rw [goto_other _ _ eu] at hu; exact List.mem_append.mpr (Or.inl (h.getNext u b hu))
  · intro u b n hu
    rw [hpc] at hu
    by_cases eu : u = t
    · subst eu; rw [goto_self] at hu; rw [hu] at hp
      rcases hp with ⟨hp, _⟩ | ⟨e', hp, _⟩ <;> cases hp
    · rw [goto_other _ _ eu] at hu
      obtain ⟨h0, i, h1, h2⟩ := h.getBegin u b n hu
      exact ⟨by rw [hnext]; exact h0, i, hold _ _ h1, hold _ _ h2⟩

theorem inv_got {evs : List Event} {s : State} {P : List Nat} {d : Nat} (h : Inv evs s P d) (t x : Nat) (s' : State)
    (hd : P[d]? = some x) (hpt : pending (s.pc t) = none) (hnl : ∀ xs e, s.pc t ≠ .appLink xs e)
    (hs : s' = { s.goto t .idle with first := s'.first, last := s'.last })
    (hfirst : s'.first = P[d + 1]?) (hlast : s'.last = if d + 1 < P.length then P[P.length - 1]? else none)
    (hl : ∀ y, P[d + 1]? = some y → s.next x = some y) :
    Inv (evs ++ [.got t x]) s' P (d + 1) := by
  have hpc : s'.pc = (s.goto t .idle).pc := by rw [hs]
  have hnext : s'.next = s.next := by rw [hs]; rfl
  have er : requested (evs ++ [.got t x]) = requested evs := by simp [requested]
  have ep : published (evs ++ [.got t x]) = published evs := by simp [published]
  have ed : delivered (evs ++ [.got t x]) = delivered evs ++ [x] := by simp [delivered]
  obtain ⟨hlt, hget⟩ := List.getElem?_eq_some_iff.mp hd
  have hpend : ∀ u, pending (s'.pc u) = pending (s.pc u) := fun u => by
    rw [hpc]
    by_cases hu : u = t
    · subst hu; rw [goto_self, hpt]; rfl
    · rw [goto_other _ _ hu]
  have hlink : ∀ u xs e, s'.pc u = .appLink xs e ↔ s.pc u = .appLink xs e := fun u xs e => by
    rw [hpc]
    by_cases hu : u = t
    · subst hu; rw [goto_self]; exact ⟨fun e => (by cases e), fun e => absurd e (hnl _ _)⟩
    · rw [goto_other _ _ hu]
  refine ⟨by rw [ep]; exact h.pub, ?_, hlt, hfirst, hlast, h.nodup, by rw [er]; exact h.sub, ?_, ?_, ?_, by rw [hnext]; exact h.nextOk, ?_, ?_, ?_, ?_, ?_⟩
  · rw [ed, h.del, List.take_add_one, hd]; rfl
  · rw [er]; intro x hx; rcases h.all x hx with h1 | ⟨u, xs, h1, h2⟩
    · exact Or.inl h1
    · exact Or.inr ⟨u, xs, by rw [hpend]; exact h1, h2⟩
  · rw [er, hnext]; intro u xs hx; rw [hpend] at hx; exact h.pend u xs hx
  · intro u v xs ys huv hx hy; rw [hpend] at hx hy; exact h.disj u v xs ys huv hx hy
  · rw [hnext]; intro i y z hi hy hz
    rcases h.link i y z (by omega) hy hz with h1 | ⟨u, xs, h1⟩
    · exact Or.inl h1
    · exact Or.inr ⟨u, xs, (hlink u xs y).mpr h1⟩
  · rw [hnext]; intro u xs e hu
    have hu := (hlink _ _ _).mp hu
    obtain ⟨h1, i, h2, h3, h4, h5⟩ := h.appLink u xs e hu
    refine ⟨h1, i, ?_, h3, h4, h5⟩
    rcases Nat.lt_or_eq_of_le h2 with h6 | h6
    · exact h6
    · subst h6
      rw [hd] at h3
      cases h3
      cases xs with
      | nil => exact absurd rfl h5
      | cons y ys =>
        rw [List.head?_cons] at h4
        rw [hl y h4] at h1
        cases h1
  · intro u v xs ys e hu hv; exact h.appUniq u v xs ys e ((hlink _ _ _).mp hu) ((hlink _ _ _).mp hv)
  · intro u b hu
    rw [hpc] at hu
    by_cases eu : u = t
    · subst eu; rw [goto_self] at hu; cases hu
    · rw [goto_other _ _ eu] at hu; exact h.getNext u b hu
  · intro u b n hu
    rw [hpc] at hu
    rw [hnext]
    by_cases eu : u = t
    · subst eu; rw [goto_self] at hu; cases hu
    · rw [goto_other _ _ eu] at hu; exact h.getBegin u b n hu

theorem inv_step {evs : List Event} {s s' : State} {e : Event} {P : List Nat} {d : Nat} (h : Inv evs s P d) (hs : Step s e s') (hn : (requested (evs ++ [e])).Nodup) :
    ∃ P' d', Inv (evs ++ [e]) s' P' d' := by
  have hdle := h.dle
  cases hs with
  | request t xs ht hne =>
    have er : requested (evs ++ [.request t xs]) = requested evs ++ xs := by simp [requested]
    have ep : published (evs ++ [.request t xs]) = published evs := by simp [published]
    have ed : delivered (evs ++ [.request t xs]) = delivered evs := by simp [delivered]
    rw [er, List.nodup_append] at hn
    obtain ⟨_, hxn, hdis⟩ := hn
    have hfr : ∀ x ∈ requested evs, x ∉ xs := fun x hx hx' => hdis x hx x hx' rfl
    have hnx : ∀ x ∈ requested evs, linkAll s.next xs x = s.next x := fun x hx => linkAll_notMem _ _ (hfr x hx)
    have hmem : ∀ {i : Nat} {x : Nat}, P[i]? = some x → x ∈ requested evs := fun hi => h.sub _ (List.mem_of_getElem? hi)
    have hpend : ∀ u ys, u ≠ t → pending ((s.goto t (.appLoad xs)).pc u) = some ys → pending (s.pc u) = some ys := fun u ys e hu => by
      rwa [goto_other _ _ e] at hu
    refine ⟨P, d, by rw [ep]; exact h.pub, by rw [ed]; exact h.del, h.dle, h.first, h.last, h.nodup, ?_, ?_, ?_, ?_, ?_, ?_, ?_, ?_, ?_, ?_⟩
    · rw [er]; intro x hx; exact List.mem_append.mpr (Or.inl (h.sub x hx))
    · rw [er]; intro x hx
      rw [List.mem_append] at hx
      rcases hx with hx | hx
      · rcases h.all x hx with h1 | ⟨u, ys, h1, h2⟩
        · exact Or.inl h1
        · refine Or.inr ⟨u, ys, ?_, h2⟩
          show pending ((s.goto t (.appLoad xs)).pc u) = some ys
          rw [goto_other _ _ (fun e => by rw [e, ht] at h1; cases h1)]; exact h1
      · exact Or.inr ⟨t, xs, by show pending ((s.goto t (.appLoad xs)).pc t) = _; rw [goto_self]; rfl, hx⟩
    · intro u ys hu
      change pending ((s.goto t (.appLoad xs)).pc u) = some ys at hu
      rw [er]
      by_cases e : u = t
      · subst e
        rw [goto_self] at hu
        cases hu
        exact ⟨hne, hxn, fun x hx => ⟨List.mem_append.mpr (Or.inr hx), fun hP => hfr x (h.sub x hP) hx⟩, linkAll_mem _ _ hxn⟩
      · obtain ⟨a, b, c, f⟩ := h.pend u ys (hpend u ys e hu)
        refine ⟨a, b, fun x hx => ⟨List.mem_append.mpr (Or.inl (c x hx).1), (c x hx).2⟩, fun i x hx => ?_⟩
        show linkAll s.next xs x = _
        rw [hnx x (c x (List.mem_of_getElem? hx)).1]; exact f i x hx
    · intro u v ys zs huv hu hv x hx hx'
      change pending ((s.goto t (.appLoad xs)).pc u) = some ys at hu
      change pending ((s.goto t (.appLoad xs)).pc v) = some zs at hv
      by_cases eu : u = t
      · subst eu
        rw [goto_self] at hu; cases hu
        exact hfr x (((h.pend v zs (hpend v zs (Ne.symm huv) hv)).2.2.1 x hx').1) hx
      · by_cases ev : v = t
        · subst ev
          rw [goto_self] at hv; cases hv
          exact hfr x (((h.pend u ys (hpend u ys huv hu)).2.2.1 x hx).1) hx'
        · exact h.disj u v ys zs huv (hpend u ys eu hu) (hpend v zs ev hv) x hx hx'
    · intro i x n hi hx
      change linkAll s.next xs x = some n at hx
      rw [hnx x (hmem hi)] at hx
      exact h.nextOk i x n hi hx
    · intro i x y hdi hi hi1
      show linkAll s.next xs x = some y ∨ ∃ u ys, (s.goto t (.appLoad xs)).pc u = .appLink ys x
      rw [hnx x (hmem hi)]
      rcases h.link i x y hdi hi hi1 with h1 | ⟨u, ys, h1⟩
      · exact Or.inl h1
      · exact Or.inr ⟨u, ys, by rw [goto_other _ _ (fun e => by rw [e, ht] at h1; cases h1)]; exact h1⟩
    · intro u ys e hu
      change (s.goto t (.appLoad xs)).pc u = .appLink ys e at hu
      by_cases eu : u = t
      · subst eu; rw [goto_self] at hu; cases hu
      · rw [goto_other _ _ eu] at hu
        obtain ⟨h1, i, h2, h3, h4⟩ := h.appLink u ys e hu
        refine ⟨?_, i, h2, h3, h4⟩
        show linkAll s.next xs e = none
        rw [hnx e (hmem h3)]; exact h1
    · intro u v ys zs e hu hv
      change (s.goto t (.appLoad xs)).pc u = .appLink ys e at hu
      change (s.goto t (.appLoad xs)).pc v = .appLink zs e at hv
      by_cases eu : u = t
      · subst eu; rw [goto_self] at hu; cases hu
      · by_cases ev : v = t
        · subst ev; rw [goto_self] at hv; cases hv
        · rw [goto_other _ _ eu] at hu; rw [goto_other _ _ ev] at hv
          exact h.appUniq u v ys zs e hu hv
    · intro u b hu
      change (s.goto t (.appLoad xs)).pc u = _ at hu
      by_cases eu : u = t
      · subst eu; rw [goto_self] at hu; cases hu
      · rw [goto_other _ _ eu] at hu; exact h.getNext u b hu
    · intro u b n hu
      change (s.goto t (.appLoad xs)).pc u = _ at hu
      by_cases eu : u = t
      · subst eu; rw [goto_self] at hu; cases hu
      · rw [goto_other _ _ eu] at hu
        obtain ⟨h0, j, h1, h2⟩ := h.getBegin u b n hu
        refine ⟨?_, j, h1, h2⟩
        show linkAll s.next xs b = some n
        rw [hnx b (hmem h1)]; exact h0
  | loadNull t xs ht _ => exact ⟨P, d, inv_goto h t _ _ rfl rfl rfl (by rw [ht]; rfl) (by rw [ht]; simp) (by simp) (by simp) (by simp)⟩
  | loadEnd t xs e ht _ => exact ⟨P, d, inv_goto h t _ _ rfl rfl rfl (by rw [ht]; rfl) (by rw [ht]; simp) (by simp) (by simp) (by simp)⟩
  | emptyFail t xs ht _ => exact ⟨P, d, inv_goto h t _ _ rfl rfl rfl (by rw [ht]; rfl) (by rw [ht]; simp) (by simp) (by simp) (by simp)⟩
  | endFail t xs e ht _ => exact ⟨P, d, inv_goto h t _ _ rfl rfl rfl (by rw [ht]; rfl) (by rw [ht]; simp) (by simp) (by simp) (by simp)⟩
  | get t ht => exact ⟨P, d, inv_goto h t _ _ rfl rfl rfl (by rw [ht]; rfl) (by rw [ht]; simp) (by simp) (by simp) (by simp)⟩
  | readEmpty t ht _ _ => exact ⟨P, d, inv_goto h t _ _ rfl rfl rfl (by rw [ht]; rfl) (by rw [ht]; simp) (by simp) (by simp) (by simp)⟩
  | readSingle t b ht _ _ => exact ⟨P, d, inv_goto h t _ _ rfl rfl rfl (by rw [ht]; rfl) (by rw [ht]; simp) (by simp) (by simp) (by simp)⟩
  | singleFail t b ht _ => exact ⟨P, d, inv_goto h t _ _ rfl rfl rfl (by rw [ht]; rfl) (by rw [ht]; simp) (by simp) (by simp) (by simp)⟩
  | nextNull t b ht _ => exact ⟨P, d, inv_goto h t _ _ rfl rfl rfl (by rw [ht]; rfl) (by rw [ht]; simp) (by simp) (by simp) (by simp)⟩
  | beginFail t b n ht _ => exact ⟨P, d, inv_goto h t _ _ rfl rfl rfl (by rw [ht]; rfl) (by rw [ht]; simp) (by simp) (by simp) (by simp)⟩
  | readMore t b e ht hf _ _ =>
    exact ⟨P, d, inv_goto h t _ _ rfl rfl rfl (by rw [ht]; rfl) (by rw [ht]; simp) (by simp) (by
      intro b' hb'; cases hb'
      rw [h.first] at hf
      exact List.mem_of_getElem? hf) (by simp)⟩
  | nextSome t b n ht hx =>
    exact ⟨P, d, inv_goto h t _ _ rfl rfl rfl (by rw [ht]; rfl) (by rw [ht]; simp) (by simp) (by simp) (by
      intro b' n' hb'; cases hb'
      obtain ⟨i, hi⟩ := List.getElem?_of_mem (h.getNext t b ht)
      exact ⟨hx, i, hi, h.nextOk i b n hi hx⟩)⟩
  | emptyOk t xs ht hf hl =>
    rw [h.first, List.getElem?_eq_none_iff] at hf
    have hd : d = P.length := by omega
    exact ⟨P ++ xs, d, inv_publish h t xs .idle _ (by rw [ht]; rfl) rfl (by
      rw [hd, List.getElem?_append_right (Nat.le_refl _), Nat.sub_self]; exact List.head?_eq_getElem?) rfl (Or.inl ⟨rfl, hd⟩)⟩
  | endOk t xs e ht hl =>
    have hlt : d < P.length := by
      apply Classical.byContradiction
      intro hge
      rw [h.last, if_neg hge] at hl
      cases hl
    rw [h.last, if_pos hlt] at hl
    exact ⟨P ++ xs, d, inv_publish h t xs (.appLink xs e) _ (by rw [ht]; rfl) rfl (by
      show s.first = _; rw [List.getElem?_append_left hlt]; exact h.first) rfl (Or.inr ⟨e, rfl, hlt, hl⟩)⟩
  | link t xs e ht =>
    obtain ⟨hnone, i, hdi, hi, hi1, hne⟩ := h.appLink t xs e ht
    have er : requested (evs ++ [.internal t]) = requested evs := by simp [requested]
    have ep : published (evs ++ [.internal t]) = published evs := by simp [published]
    have ed : delivered (evs ++ [.internal t]) = delivered evs := by simp [delivered]
    have hpend : ∀ u, pending ((s.goto t .idle).pc u) = pending (s.pc u) := fun u => by
      by_cases hu : u = t
      · subst hu; rw [goto_self, ht]; rfl
      · rw [goto_other _ _ hu]
    refine ⟨P, d, by rw [ep]; exact h.pub, by rw [ed]; exact h.del, h.dle, h.first, h.last, h.nodup, by rw [er]; exact h.sub, ?_, ?_, ?_, ?_, ?_, ?_, ?_, ?_, ?_⟩
    · rw [er]; intro x hx; rcases h.all x hx with h1 | ⟨u, ys, h1, h2⟩
      · exact Or.inl h1
      · exact Or.inr ⟨u, ys, by show pending ((s.goto t .idle).pc u) = _; rw [hpend]; exact h1, h2⟩
    · rw [er]; intro u ys hu
      change pending ((s.goto t .idle).pc u) = _ at hu
      rw [hpend] at hu
      obtain ⟨a, b, c, f⟩ := h.pend u ys hu
      refine ⟨a, b, c, fun j x hx => ?_⟩
      show setNext s.next e xs.head? x = _
      rw [setNext, if_neg (show x ≠ e from fun ex => (c x (List.mem_of_getElem? hx)).2 (ex ▸ List.mem_of_getElem? hi))]
      exact f j x hx
    · intro u v ys zs huv hy hz
      change pending ((s.goto t .idle).pc u) = _ at hy
      change pending ((s.goto t .idle).pc v) = _ at hz
      rw [hpend] at hy hz
      exact h.disj u v ys zs huv hy hz
    · intro j x n hj hx
      change setNext s.next e xs.head? x = some n at hx
      simp only [setNext] at hx
      by_cases ex : x = e
      · rw [if_pos ex] at hx
        rw [ex] at hj
        have := idx_inj h.nodup hj hi
        rw [this, hi1, hx]
      · rw [if_neg ex] at hx
        exact h.nextOk j x n hj hx
    · intro j x y hdj hj hj1
      show setNext s.next e xs.head? x = some y ∨ ∃ u ys, (s.goto t .idle).pc u = .appLink ys x
      simp only [setNext]
      by_cases ex : x = e
      · rw [if_pos ex]
        rw [ex] at hj
        have := idx_inj h.nodup hj hi
        subst this
        rw [← hi1, hj1]; exact Or.inl rfl
      · rw [if_neg ex]
        rcases h.link j x y hdj hj hj1 with h1 | ⟨u, ys, h1⟩
        · exact Or.inl h1
        · refine Or.inr ⟨u, ys, ?_⟩
          rw [goto_other _ _ (fun eu => by rw [eu, ht] at h1; cases h1; exact ex rfl)]; exact h1
    · intro u ys e' hu
      change (s.goto t .idle).pc u = _ at hu
      by_cases eu : u = t
      · subst eu; rw [goto_self] at hu; cases hu
      · rw [goto_other _ _ eu] at hu
        obtain ⟨h1, h2⟩ := h.appLink u ys e' hu
        refine ⟨?_, h2⟩
        show setNext s.next e xs.head? e' = none
        rw [setNext, if_neg (show e' ≠ e from fun ex => eu (h.appUniq u t ys xs e (ex ▸ hu) ht))]; exact h1
    · intro u v ys zs e' hu hv
      change (s.goto t .idle).pc u = _ at hu
      change (s.goto t .idle).pc v = _ at hv
      by_cases eu : u = t
      · subst eu; rw [goto_self] at hu; cases hu
      · by_cases ev : v = t
        · subst ev; rw [goto_self] at hv; cases hv
        · rw [goto_other _ _ eu] at hu; rw [goto_other _ _ ev] at hv
          exact h.appUniq u v ys zs e' hu hv
    · intro u b hu
      change (s.goto t .idle).pc u = _ at hu
      by_cases eu : u = t
      · subst eu; rw [goto_self] at hu; cases hu
      · rw [goto_other _ _ eu] at hu; exact h.getNext u b hu
    · intro u b n hu
      change (s.goto t .idle).pc u = _ at hu
      by_cases eu : u = t
      · subst eu; rw [goto_self] at hu; cases hu
      · rw [goto_other _ _ eu] at hu
        obtain ⟨h0, j, h1, h2⟩ := h.getBegin u b n hu
        refine ⟨?_, j, h1, h2⟩
        show setNext s.next e xs.head? b = some n
        rw [setNext, if_neg (show b ≠ e from fun eb => by rw [eb, hnone] at h0; cases h0)]; exact h0
  | singleOk t b ht hf hl =>
    rw [h.first] at hf
    obtain ⟨hlt, _⟩ := List.getElem?_eq_some_iff.mp hf
    rw [h.last, if_pos hlt] at hl
    have := idx_inj h.nodup hf hl
    refine ⟨P, d + 1, inv_got h t b _ hf (by rw [ht]; rfl) (by rw [ht]; simp) rfl ?_ ?_ ?_⟩
    · exact (List.getElem?_eq_none_iff.mpr (by omega)).symm
    · exact (if_neg (by omega)).symm
    · intro y hy
      rw [List.getElem?_eq_none_iff.mpr (by omega)] at hy
      cases hy
  | beginOk t b n ht hf =>
    rw [h.first] at hf
    obtain ⟨hx, i, hi, hi1⟩ := h.getBegin t b n ht
    have := idx_inj h.nodup hi hf
    subst this
    obtain ⟨hlt, _⟩ := List.getElem?_eq_some_iff.mp hi1
    refine ⟨P, i + 1, inv_got h t b _ hf (by rw [ht]; rfl) (by rw [ht]; simp) rfl hi1.symm ?_ ?_⟩
    · show s.last = _
      rw [h.last, if_pos (by omega), if_pos hlt]
    · intro y hy
      rw [hi1] at hy
      cases hy
      exact hx

theorem exec_inv {evs : List Event} {s : State} (h : Exec evs s) : (requested evs).Nodup → ∃ P d, Inv evs s P d := by
  induction h with
  | nil =>
    intro _
    refine ⟨[], 0, rfl, rfl, by simp, rfl, rfl, by simp, by simp, ?_, ?_, ?_, by simp, by simp, ?_, ?_, ?_, ?_⟩
    all_goals simp [requested, pending]
  | snoc evs s e s' _ hs ih =>
    intro hn
    have : (requested evs).Nodup := by
      rw [requested, List.flatMap_append, List.nodup_append] at hn
      exact hn.1
    obtain ⟨P, d, h⟩ := ih this
    exact inv_step h hs hn

/-- C30: entries are handed out in the order in which they became part of the queue. Like all the
theorems below it is about executions in which no entry is appended twice; for entries that are
appended again after they were handed out see `C30_reused_entry_delivered_twice`. -/
theorem C30_fifo_partial {evs : List Event} {s : State} (h : Exec evs s) (hn : (requested evs).Nodup) : delivered evs <+: published evs := by
  obtain ⟨P, d, hi⟩ := exec_inv h hn
  rw [hi.del, hi.pub]
  exact List.take_prefix _ _

/-- C30: no entry is handed out twice, and only entries that were appended are handed out. -/
theorem C30_at_most_once_partial {evs : List Event} {s : State} (h : Exec evs s) (hn : (requested evs).Nodup) :
    (delivered evs).Nodup ∧ ∀ x ∈ delivered evs, x ∈ requested evs := by
  obtain ⟨P, d, hi⟩ := exec_inv h hn
  rw [hi.del]
  exact ⟨hi.nodup.sublist (List.take_sublist _ _), fun x hx => hi.sub x (List.mem_of_mem_take hx)⟩

/-- C30: no entry is lost: when no thread is inside an append and the queue is reported to be empty,
all entries ever appended have been handed out. -/
theorem C30_none_lost_partial {evs : List Event} {s s' : State} (h : Exec evs s) (hn : (requested evs).Nodup) {t : Nat} (he : Step s (.empty t) s') :
    delivered evs = published evs ∧ ((∀ u, pending (s.pc u) = none) → ∀ x ∈ requested evs, x ∈ delivered evs) := by
  obtain ⟨P, d, hi⟩ := exec_inv h hn
  have hdle := hi.dle
  have hfull : d = P.length := by
    cases he with
    | readEmpty t hg hf hl =>
      rw [hi.first, List.getElem?_eq_none_iff] at hf
      omega
  have e : delivered evs = P := by rw [hi.del, hfull, List.take_length]
  refine ⟨by rw [e, hi.pub], fun hp x hx => ?_⟩
  rw [e]
  rcases hi.all x hx with h1 | ⟨u, xs, h1, _⟩
  · exact h1
  · rw [hp u] at h1; cases h1

/-- Steps of one thread. -/
inductive Solo (t : Nat) : State → List Event → State → Prop
  | nil (s : State) : Solo t s [] s
  | internal (s s' s'' : State) (evs : List Event) : Step s (.internal t) s' → Solo t s' evs s'' → Solo t s (.internal t :: evs) s''
  | got (s s' : State) (x : Nat) : Step s (.got t x) s' → Solo t s [.got t x] s'

/-- C30: while undelivered entries are in the queue and no append is between its two writes, a
thread that asks for work and is not disturbed gets the oldest one. -/
theorem C30_progress_partial {evs : List Event} {s : State} (h : Exec evs s) (hn : (requested evs).Nodup)
    {x : Nat} {rest : List Nat} (hx : delivered evs ++ x :: rest = published evs)
    (hq : ∀ u xs e, s.pc u ≠ .appLink xs e) {t : Nat} (ht : s.pc t = .idle) :
    ∃ evs' s', Solo t s (evs' ++ [.got t x]) s' := by
  obtain ⟨P, d, hi⟩ := exec_inv h hn
  have hdle := hi.dle
  rw [hi.del, hi.pub] at hx
  have hd : P[d]? = some x := by
    rw [← hx, List.getElem?_append_right (by simp; omega)]
    simp [Nat.min_eq_left hdle]
  obtain ⟨hlt, _⟩ := List.getElem?_eq_some_iff.mp hd
  have hf : s.first = some x := by rw [hi.first, hd]
  have s1 : Step s (.internal t) (s.goto t .getRead) := .get s t ht
  obtain ⟨e, he⟩ : ∃ e, P[P.length - 1]? = some e := ⟨P[P.length - 1], List.getElem?_eq_getElem (by omega)⟩
  have hl : s.last = some e := by rw [hi.last, if_pos hlt, he]
  by_cases hxe : x = e
  · subst hxe
    refine ⟨[.internal t, .internal t], _, .internal _ _ _ _ s1 (.internal _ _ _ _ (.readSingle _ t x (goto_self _ _ _) hf hl)
      (.got _ _ x (.singleOk _ t x (goto_self _ _ _) hf hl)))⟩
  · have hd1 : d + 1 < P.length := by
      apply Classical.byContradiction
      intro hge
      have : P.length - 1 = d := by omega
      rw [this, hd] at he
      cases he
      exact hxe rfl
    have hnext : s.next x = some P[d + 1] := by
      rcases hi.link d x _ (Nat.le_refl _) hd (List.getElem?_eq_getElem hd1) with h1 | ⟨u, xs, h1⟩
      · exact h1
      · exact absurd h1 (hq _ _ _)
    exact ⟨[.internal t, .internal t, .internal t], _, .internal _ _ _ _ s1 (.internal _ _ _ _ (.readMore _ t x e (goto_self _ _ _) hf hl hxe)
      (.internal _ _ _ _ (.nextSome _ t x _ (goto_self _ _ _) hnext) (.got _ _ x (.beginOk _ t x _ (goto_self _ _ _) hf))))⟩

/-- The step thread `t` takes; an idle thread appends `xs`, or asks for work if `xs` is empty. -/
def next (s : State) (t : Nat) (xs : List Nat) : Event × State :=
  match s.pc t with
  | .idle => match xs with
    | [] => (.internal t, s.goto t .getRead)
    | x :: xs => (.request t (x :: xs), { s.goto t (.appLoad (x :: xs)) with next := linkAll s.next (x :: xs) })
  | .appLoad xs => match s.last with
    | none => (.internal t, s.goto t (.appEmpty xs))
    | some e => (.internal t, s.goto t (.appEnd xs e))
  | .appEmpty xs => if s.first = none ∧ s.last = none then (.publish t xs, { s.goto t .idle with first := xs.head?, last := xs.getLast? }) else (.internal t, s.goto t (.appLoad xs))
  | .appEnd xs e => if s.last = some e then (.publish t xs, { s.goto t (.appLink xs e) with last := xs.getLast? }) else (.internal t, s.goto t (.appLoad xs))
  | .appLink xs e => (.internal t, { s.goto t .idle with next := setNext s.next e xs.head? })
  | .getRead => match s.first, s.last with
    | some b, some e => if b = e then (.internal t, s.goto t (.getSingle b)) else (.internal t, s.goto t (.getNext b))
    | _, _ => (.empty t, s.goto t .idle)
  | .getSingle b => if s.first = some b ∧ s.last = some b then (.got t b, { s.goto t .idle with first := none, last := none }) else (.internal t, s.goto t .getRead)
  | .getNext b => match s.next b with
    | none => (.internal t, s.goto t .getRead)
    | some n => (.internal t, s.goto t (.getBegin b n))
  | .getBegin b n => if s.first = some b then (.got t b, { s.goto t .idle with first := some n }) else (.internal t, s.goto t .getRead)

/-- The first and last pointer are null together. -/
def Both (s : State) : Prop := s.first = none ↔ s.last = none

theorem next_step (s : State) (t : Nat) (xs : List Nat) (h : Both s) : Step s (next s t xs).1 (next s t xs).2 := by
  simp only [Both] at h
  unfold next
  cases hp : s.pc t with
  | idle =>
    cases xs with
    | nil => exact .get s t hp
    | cons x xs => exact .request s t _ hp (by simp)
  | appLoad ys =>
    simp only
    cases hl : s.last with
    | none => exact .loadNull s t ys hp hl
    | some e => exact .loadEnd s t ys e hp hl
  | appEmpty ys =>
    simp only
    split
    · rename_i hc; exact .emptyOk s t ys hp hc.1 hc.2
    · rename_i hc; exact .emptyFail s t ys hp hc
  | appEnd ys e =>
    simp only
    split
    · rename_i hc; exact .endOk s t ys e hp hc
    · rename_i hc; exact .endFail s t ys e hp hc
  | appLink ys e => exact .link s t ys e hp
  | getRead =>
    simp only
    cases hf : s.first with
    | none => exact .readEmpty s t hp hf (h.mp hf)
    | some b =>
      cases hl : s.last with
      | none => rw [h.mpr hl] at hf; cases hf
      | some e =>
        simp only
        split
        · rename_i hc; subst hc; exact .readSingle s t b hp hf hl
        · rename_i hc; exact .readMore s t b e hp hf hl hc
  | getSingle b =>
    simp only
    split
    · rename_i hc; exact .singleOk s t b hp hc.1 hc.2
    · rename_i hc; exact .singleFail s t b hp hc
  | getNext b =>
    simp only
    cases hn : s.next b with
    | none => exact .nextNull s t b hp hn
    | some n => exact .nextSome s t b n hp hn
  | getBegin b n =>
    simp only
    split
    · rename_i hc; exact .beginOk s t b n hp hc
    · rename_i hc; exact .beginFail s t b n hp hc

/-- Runs a schedule; stops if the queue pointers ever are null separately. -/
def play : List Event → State → List (Nat × List Nat) → List Event × State
  | evs, s, [] => (evs, s)
  | evs, s, (t, xs) :: rest => if (s.first = none) = (s.last = none) then play (evs ++ [(next s t xs).1]) (next s t xs).2 rest else (evs, s)

theorem play_exec (sched : List (Nat × List Nat)) : ∀ evs s, Exec evs s → Exec (play evs s sched).1 (play evs s sched).2 := by
  induction sched with
  | nil => intro evs s h; exact h
  | cons c sched ih =>
    intro evs s h
    obtain ⟨t, xs⟩ := c
    simp only [play]
    split
    · rename_i hb; exact ih _ _ (.snoc _ _ _ _ h (next_step s t xs (by rw [Both, hb])))
    · exact h

/-- Thread 1 is in `work_queue_get_work` and has read that entry 1 is followed by entry 2. Thread 2
gets the entries 1, 2 and 3, and appends entry 1 again (a declaration that went to sleep and was
woken up) and entry 4. Then thread 1 goes on. -/
def schedule : List (Nat × List Nat) :=
  [(2, [1, 2, 3]), (2, []), (2, []), (1, []), (1, []), (1, [])]
  ++ [(2, []), (2, []), (2, []), (2, [])] ++ [(2, []), (2, []), (2, []), (2, [])]
  ++ [(2, [1]), (2, []), (2, []), (2, [])] ++ [(2, []), (2, []), (2, []), (2, [])]
  ++ [(2, [4]), (2, []), (2, []), (2, [])] ++ [(1, []), (2, []), (2, []), (2, []), (2, [])]

/-- The state at the start. -/
def start : State := { first := none, last := none, next := fun _ => none, pc := fun _ => .idle }

/-- C30 is false when entries are appended again: there is an execution in which entry 1 is appended
again only after it was handed out, and entry 2, which was appended once, is handed out twice while
entry 4 is never reached. -/
theorem C30_reused_entry_delivered_twice : ∃ evs s, Exec evs s ∧ requested evs = [1, 2, 3, 1, 4] ∧ delivered evs = [1, 2, 3, 1, 2] :=
  ⟨_, _, play_exec schedule [] start .nil, by decide, by decide⟩

-- two threads append, a third takes everything out
example : ∃ evs s, Exec evs s ∧ (requested evs).Nodup ∧ requested evs = [7, 8, 9] ∧ delivered evs = [7, 8, 9] :=
  ⟨_, _, play_exec [(1, [7, 8]), (2, [9]), (1, []), (2, []), (1, []), (2, []), (2, []), (2, []), (3, []), (3, []), (3, []), (3, []), (2, []),
    (3, []), (3, []), (3, []), (3, []), (3, []), (3, []), (3, []), (3, [])] [] start .nil, by decide, by decide, by decide⟩

end Verif.Props.WorkQueue
