import Verif.Model.Initializer

/-!
# Lemmas on initializer lists
-/
namespace Verif.Initializer
open Verif.Spec.Initializer

theorem app_nil (p : Parts) : app p .nil = p := by
  induction p with
  | nil => rfl
  | cons o t p ih => rw [app, ih]
  | forever o t => rfl

theorem app_assoc (p q r : Parts) : app (app p q) r = app p (app q r) := by
  induction p with
  | nil => rfl
  | cons o t p ih => rw [app, app, app, ih]
  | forever o t => rfl

variable {same : Ty → Ty → Bool}

theorem fill_close {ps : Parts} {c : Bool} {ws : List Write} {r : Items} : Fill same ps (.close c) ws r ↔ ws = [] ∧ r = .close c := by
  constructor
  · intro h
    cases h
    · exact ⟨rfl, rfl⟩
    · exact ⟨rfl, rfl⟩
  · rintro ⟨rfl, rfl⟩; exact .noItems

theorem fill_desig {ps : Parts} {d : Desig} {ds : List Desig} {rest : Items} {ws : List Write} {r : Items} :
    Fill same ps (.desig d ds rest) ws r ↔ ws = [] ∧ r = .desig d ds rest := by
  constructor
  · intro h
    cases h
    · exact ⟨rfl, rfl⟩
    · exact ⟨rfl, rfl⟩
  · rintro ⟨rfl, rfl⟩; exact .designator

theorem fill_nil {is : Items} {ws : List Write} {r : Items} : Fill same .nil is ws r ↔ ws = [] ∧ r = is := by
  constructor
  · intro h
    cases h <;> exact ⟨rfl, rfl⟩
  · rintro ⟨rfl, rfl⟩; exact .noParts

theorem fill_cons {o : Nat} {t : Ty} {ps : Parts} {i : Item} {rest : Items} {ws : List Write} {r : Items} :
    Fill same (.cons o t ps) (.cons i rest) ws r ↔ ∃ ws1 ws2 r1, ws = ws1 ++ ws2 ∧ Takes same t o (.cons i rest) ws1 r1 ∧ Fill same ps r1 ws2 r := by
  constructor
  · intro h
    cases h with
    | part h1 h2 => exact ⟨_, _, _, rfl, h1, h2⟩
  · rintro ⟨ws1, ws2, r1, rfl, h1, h2⟩; exact .part h1 h2

theorem fill_forever {o : Nat} {t : Ty} {is : Items} {ws : List Write} {r : Items} :
    Fill same (.forever o t) is ws r ↔ Fill same (.cons o t (.forever (o + t.size) t)) is ws r := by
  cases is with
  | close c => rw [fill_close, fill_close]
  | desig d ds rest => rw [fill_desig, fill_desig]
  | cons i rest =>
    rw [fill_cons]
    constructor
    · intro h
      cases h with
      | element h1 h2 => exact ⟨_, _, _, rfl, h1, h2⟩
    · rintro ⟨ws1, ws2, r1, rfl, h1, h2⟩; exact .element h1 h2

/-- The list does not go on with an initializer without designators. -/
def Over : Items → Prop
  | .cons _ _ => False
  | _ => True

theorem fill_over {ps : Parts} {is : Items} {ws : List Write} {r : Items} (h : Over is) : Fill same ps is ws r ↔ ws = [] ∧ r = is := by
  cases is with
  | close c => exact fill_close
  | cons i rest => cases h
  | desig d ds rest => exact fill_desig

/-- An array of unknown size takes everything. -/
theorem fill_forever_end {ps : Parts} {is : Items} {ws : List Write} {r : Items} (h : Fill same ps is ws r) : (∃ o t, ps = .forever o t) → Over r := by
  refine Fill.rec (motive_1 := fun _ _ _ _ _ _ => True) (motive_2 := fun ps _ _ r _ => (∃ o t, ps = .forever o t) → Over r) (motive_3 := fun _ _ _ _ _ => True) (motive_4 := fun _ _ _ _ _ => True)
    ?_ ?_ ?_ ?_ ?_ ?_ ?_ ?_ ?_ ?_ ?_ ?_ ?_ ?_ ?_ ?_ h
  · intros; trivial
  · intros; trivial
  · intros; trivial
  · intros; trivial
  · intro _ c _; trivial
  · rintro _ ⟨_, _, h⟩; cases h
  · intros; trivial
  · rintro _ _ _ _ _ _ _ _ _ _ _ _ _ ⟨_, _, h⟩; cases h
  · intro off t _ _ _ _ _ _ _ _ _ ih _; exact ih ⟨_, _, rfl⟩
  · intros; trivial
  · intros; trivial
  · intros; trivial
  · intros; trivial
  · intros; trivial
  · intros; trivial
  · intros; trivial

theorem fill_app {p q : Parts} {is : Items} {ws : List Write} {r : Items} :
    Fill same (app p q) is ws r ↔ ∃ ws1 ws2 r1, ws = ws1 ++ ws2 ∧ Fill same p is ws1 r1 ∧ Fill same q r1 ws2 r := by
  induction p generalizing is ws with
  | nil =>
    rw [app]
    constructor
    · intro h; exact ⟨[], ws, is, rfl, .noParts, h⟩
    · rintro ⟨ws1, ws2, r1, rfl, h1, h2⟩
      rw [fill_nil] at h1
      obtain ⟨rfl, rfl⟩ := h1
      exact h2
  | cons o t p ih =>
    rw [app]
    cases is with
    | close c =>
      rw [fill_close]
      constructor
      · rintro ⟨rfl, rfl⟩; exact ⟨[], [], .close c, rfl, .noItems, .noItems⟩
      · rintro ⟨ws1, ws2, r1, rfl, h1, h2⟩
        rw [fill_close] at h1
        obtain ⟨rfl, rfl⟩ := h1
        rw [fill_close] at h2
        obtain ⟨rfl, rfl⟩ := h2
        exact ⟨rfl, rfl⟩
    | desig d ds rest =>
      rw [fill_desig]
      constructor
      · rintro ⟨rfl, rfl⟩; exact ⟨[], [], .desig d ds rest, rfl, .designator, .designator⟩
      · rintro ⟨ws1, ws2, r1, rfl, h1, h2⟩
        rw [fill_desig] at h1
        obtain ⟨rfl, rfl⟩ := h1
        rw [fill_desig] at h2
        obtain ⟨rfl, rfl⟩ := h2
        exact ⟨rfl, rfl⟩
    | cons i rest =>
      rw [fill_cons]
      constructor
      · rintro ⟨ws1, ws2, r1, rfl, h1, h2⟩
        obtain ⟨ws3, ws4, r2, rfl, h3, h4⟩ := ih.mp h2
        exact ⟨ws1 ++ ws3, ws4, r2, by rw [List.append_assoc], .part h1 h3, h4⟩
      · rintro ⟨ws1, ws2, r1, rfl, h1, h2⟩
        rw [fill_cons] at h1
        obtain ⟨ws3, ws4, r2, rfl, h3, h4⟩ := h1
        exact ⟨ws3, ws4 ++ ws2, r2, by rw [List.append_assoc], h3, ih.mpr ⟨ws4, ws2, r1, rfl, h4, h2⟩⟩
  | forever o t =>
    rw [app]
    constructor
    · intro h
      exact ⟨ws, [], r, by simp, h, (fill_over (fill_forever_end h ⟨o, t, rfl⟩)).mpr ⟨rfl, rfl⟩⟩
    · rintro ⟨ws1, ws2, r1, rfl, h1, h2⟩
      rw [fill_over (fill_forever_end h1 ⟨o, t, rfl⟩)] at h2
      obtain ⟨rfl, rfl⟩ := h2
      rw [List.append_nil]
      exact h1

/-! ## The list of members -/

theorem entries_cons (a : Option Nat) (o : Nat) (t : Ty) (r : Members) :
    ∃ n ex, entries (.cons a o t r) = ⟨a, o, t, n + 1⟩ :: (ex ++ entries r) ∧ ex.length = n := by
  cases a with
  | some m => exact ⟨0, [], rfl, rfl⟩
  | none => exact ⟨(nested t).length, _, rfl, by rw [copied, List.length_mapIdx]⟩

theorem entries_nil {ms : Members} : entries ms = [] ↔ ms = .nil := by
  cases ms with
  | nil => exact ⟨fun _ => rfl, fun _ => rfl⟩
  | cons a o t r =>
    obtain ⟨n, ex, h, _⟩ := entries_cons a o t r
    rw [h]
    exact ⟨fun h => (by cases h), fun h => (by cases h)⟩

/-- The members from index `at` on are `ms'`. -/
inductive Suffix (ms : Members) : Members → Nat → Prop
  | start : Suffix ms ms 0
  | next {a : Option Nat} {o : Nat} {t : Ty} {r : Members} {k n : Nat} {ex : List Entry} : Suffix ms (.cons a o t r) k →
      entries (.cons a o t r) = ⟨a, o, t, n + 1⟩ :: (ex ++ entries r) → ex.length = n → Suffix ms r (k + (n + 1))

theorem Suffix.drop {ms ms' : Members} {k : Nat} (h : Suffix ms ms' k) : (entries ms).drop k = entries ms' := by
  induction h with
  | start => rfl
  | next _ h1 h2 ih =>
    rename_i k n ex _
    rw [← List.drop_drop, ih, h1, List.drop_succ_cons, ← h2, List.drop_left]

theorem Suffix.get {ms : Members} {k : Nat} {a : Option Nat} {o : Nat} {t : Ty} {r : Members} (h : Suffix ms (.cons a o t r) k) :
    ∃ n ex, entries (.cons a o t r) = ⟨a, o, t, n + 1⟩ :: (ex ++ entries r) ∧ ex.length = n ∧ (entries ms)[k]? = some ⟨a, o, t, n + 1⟩ := by
  obtain ⟨n, ex, h1, h2⟩ := entries_cons a o t r
  refine ⟨n, ex, h1, h2, ?_⟩
  have := h.drop
  rw [h1] at this
  have h0 : ((entries ms).drop k)[0]? = some ⟨a, o, t, n + 1⟩ := by rw [this]; rfl
  rw [List.getElem?_drop, Nat.add_zero] at h0
  exact h0

theorem Suffix.get_nil {ms : Members} {k : Nat} (h : Suffix ms .nil k) : (entries ms)[k]? = none := by
  have h0 : ((entries ms).drop k)[0]? = none := by rw [h.drop]; rfl
  rw [List.getElem?_drop, Nat.add_zero] at h0
  exact h0

/-! ## Which types are allowed -/

/-- A type for initializer lists in which only `W` is used. -/
def Ok (W : Use → Prop) (t : Ty) : Prop := t.Good ∧ ∀ u, W u → t.Suits u

/-- The same for members. -/
def OkM (W : Use → Prop) : Members → Prop
  | .nil => True
  | .cons _ _ t r => Ok W t ∧ OkM W r

theorem okM {W : Use → Prop} {s : Nat} (ms : Members) (hg : ms.Good s) (ha : ∀ u, W u → ms.Suits u) : OkM W ms :=
  match ms with
  | .nil => trivial
  | .cons _ _ _ r => ⟨⟨hg.2.1, fun u hu => (ha u hu).2.1⟩, okM r hg.2.2 (fun u hu => (ha u hu).2.2)⟩

theorem Suffix.ok {W : Use → Prop} {ms ms' : Members} {k : Nat} (h : Suffix ms ms' k) (hm : OkM W ms) : OkM W ms' := by
  induction h with
  | start => exact hm
  | next _ _ _ ih => exact ih.2

/-! ## What a stack of nodes means -/

/-- The current object of a node has the type `t` and the parts `ps` come after it. -/
inductive NodeAt (W : Use → Prop) : Node → Ty → Parts → Prop
  | struct {id s base k : Nat} {ms : Members} {a : Option Nat} {o : Nat} {t : Ty} {r : Members} : OkM W ms → Suffix ms (.cons a o t r) k →
      NodeAt W ⟨.struct id s ms, base + o, k⟩ t (members base r)
  | inStruct {id s base k j : Nat} {ms : Members} {o id' s' : Nat} {ms' r : Members} {a' : Option Nat} {o' : Nat} {t : Ty} {r' : Members} : OkM W ms → OkM W ms' → ms'.Named →
      Suffix ms (.cons none o (.struct id' s' ms') r) k → Suffix ms' (.cons a' o' t r') j →
      NodeAt W ⟨.struct id s ms, base + (o + o'), k + 1 + j⟩ t (app (members (base + o) r') (members base r))
  | inUnion {id s base k j : Nat} {ms : Members} {o id' s' : Nat} {ms' r : Members} {e : Entry} : OkM W ms → Ok W e.type →
      Suffix ms (.cons none o (.union id' s' ms') r) k → (entries ms')[j]? = some e →
      NodeAt W ⟨.struct id s ms, base + (o + e.offset), k + 1 + j⟩ e.type (members base r)
  | union {id s off k : Nat} {ms : Members} {t : Ty} : Ok W t → (entries ms)[k]?.map (·.type) = some t → NodeAt W ⟨.union id s ms, off, k⟩ t .nil
  | array {n k off : Nat} {e : Ty} : Ok W e → k < n → NodeAt W ⟨.array n e, off, k⟩ e (elements (off + e.size) e (n - k - 1))
  | flex {k off : Nat} {e : Ty} : Ok W e → NodeAt W ⟨.flex e, off, k⟩ e (.forever (off + e.size) e)

theorem entries_first (a : Option Nat) (o : Nat) (t : Ty) (r : Members) : (entries (.cons a o t r))[0]?.map (·.type) = some t := by
  obtain ⟨n, ex, h, _⟩ := entries_cons a o t r
  rw [h]
  rfl

/-- A member of an unnamed member. -/
theorem Suffix.get_copied {ms : Members} {k : Nat} {o : Nat} {t : Ty} {r : Members} (h : Suffix ms (.cons none o t r) k) {j : Nat} {e : Entry}
    (he : (nested t)[j]? = some e) : (entries ms)[k + 1 + j]? = some ⟨e.name, o + e.offset, e.type, if isUnion t = true then (nested t).length - j else 1⟩ := by
  have h0 : ((entries ms).drop k)[1 + j]? = some ⟨e.name, o + e.offset, e.type, if isUnion t = true then (nested t).length - j else 1⟩ := by
    rw [h.drop, entries, Nat.add_comm 1 j, List.getElem?_cons_succ, List.getElem?_append_left, copied, List.getElem?_mapIdx, he]
    · rfl
    · rw [copied, List.length_mapIdx]
      exact (List.getElem?_eq_some_iff.mp he).1
  rw [List.getElem?_drop] at h0
  rw [Nat.add_assoc]
  exact h0

/-- The member after an unnamed one. -/
theorem Suffix.next_none {ms : Members} {k : Nat} {o : Nat} {t : Ty} {r : Members} (h : Suffix ms (.cons none o t r) k) : Suffix ms r (k + ((nested t).length + 1)) :=
  .next h rfl (by rw [copied, List.length_mapIdx])

theorem Suffix.named {ms ms' : Members} {k : Nat} (h : Suffix ms ms' k) (hn : ms.Named) : ms'.Named := by
  induction h with
  | start => exact hn
  | next _ _ _ ih => exact ih.2

/-- The member after a named one. -/
theorem Suffix.next_named {ms : Members} {k : Nat} {a : Option Nat} {o : Nat} {t : Ty} {r : Members} (h : Suffix ms (.cons a o t r) k) (hn : ms.Named) : Suffix ms r (k + 1) := by
  cases a with
  | none => exact absurd rfl (h.named hn).1
  | some m => exact .next (n := 0) (ex := []) h rfl rfl

theorem Suffix.length {ms : Members} {k : Nat} (h : Suffix ms .nil k) (hk : k ≤ (entries ms).length) : k = (entries ms).length := by
  have := h.drop
  rw [show entries .nil = [] from rfl, List.drop_eq_nil_iff] at this
  omega

theorem NodeAt.ok {W : Use → Prop} {n : Node} {t : Ty} {ps : Parts} (h : NodeAt W n t ps) : Ok W t := by
  cases h with
  | struct hm hs => exact (hs.ok hm).1
  | inStruct _ hm _ _ hs => exact (hs.ok hm).1
  | inUnion _ h _ _ => exact h
  | union h => exact h
  | array h _ => exact h
  | flex h => exact h

theorem NodeAt.current {W : Use → Prop} {n : Node} {t : Ty} {ps : Parts} (h : NodeAt W n t ps) : currentType n = some t := by
  cases h with
  | struct hm hs =>
    obtain ⟨m, ex, _, _, h⟩ := hs.get
    simp only [currentType, h, Option.map_some]
  | inStruct _ _ hn hs hs' =>
    obtain ⟨m, ex, _, _, h⟩ := hs'.get
    simp only [currentType, hs.get_copied h, Option.map_some]
  | inUnion _ _ hs he => simp only [currentType, hs.get_copied he, Option.map_some]
  | union _ h => exact h
  | array => rfl
  | flex => rfl

/-- The parts `ps` come after the current object of the top of the stack. -/
inductive After (W : Use → Prop) : List Node → Parts → Prop
  | nil : After W [] .nil
  | cons {n : Node} {st : List Node} {t : Ty} {p q : Parts} : NodeAt W n t p → After W st q → After W (n :: st) (app p q)

/-- The stack of nodes still has to fill the parts `ps`. -/
inductive Remaining (W : Use → Prop) : List Node → Parts → Prop
  | nil : Remaining W [] .nil
  | cons {n : Node} {st : List Node} {t : Ty} {p q : Parts} : NodeAt W n t p → After W st q → Remaining W (n :: st) (.cons n.offset t (app p q))

/-- The top of the stack is not an array at its first element. -/
def Started : List Node → Prop
  | [] => True
  | n :: _ => n.idx ≠ 0 ∨ (∀ i, stringMatches i n.type = false)

theorem advance_spec {W : Use → Prop} {st : List Node} {ps : Parts} (h : After W st ps) (tr : Nat) :
    ∃ ps', Remaining W (advance false st tr).1 ps' ∧ Started (advance false st tr).1 ∧ ∀ is ws r, Fill same ps is ws r ↔ Fill same ps' is ws r := by
  induction h generalizing tr with
  | nil => exact ⟨.nil, .nil, trivial, fun _ _ _ => Iff.rfl⟩
  | @cons n st t p q hn hst ih =>
    cases hn with
    | @struct id s base k ms a o t r hm hs =>
      obtain ⟨m, ex, h1, h2, h3⟩ := hs.get
      have hnext := Suffix.next hs h1 h2
      simp only [advance, h3]
      cases r with
      | nil =>
        rw [hnext.get_nil]
        simp only
        exact ih tr
      | cons a' o' t' r' =>
        obtain ⟨m', ex', _, _, h3'⟩ := hnext.get
        rw [h3']
        simp only
        rw [if_neg (by decide)]
        refine ⟨_, .cons (p := members base r') (by
          rw [show base + o + o' - o = base + o' by omega]
          exact .struct hm hnext) hst, .inl (by simp only; omega), fun is ws r => ?_⟩
        simp only [members, app]
        rw [show base + o + o' - o = base + o' by omega]
    | @inStruct id s base k j ms o id' s' ms' r a' o' t r' hm hm' hnm hs hs' =>
      obtain ⟨m, ex, _, _, h3⟩ := hs'.get
      have hc := hs.get_copied h3
      have hnext' := hs'.next_named hnm
      have hj : j < (entries ms').length := (List.getElem?_eq_some_iff.mp h3).1
      rw [show isUnion (.struct id' s' ms') = false from rfl, if_neg (by decide)] at hc
      simp only [advance, hc]
      cases r' with
      | cons a2 o2 t2 r2 =>
        obtain ⟨m', ex', _, _, h3'⟩ := hnext'.get
        have hc' := hs.get_copied h3'
        rw [show k + 1 + j + 1 = k + 1 + (j + 1) by omega, hc']
        simp only
        rw [if_neg (by decide)]
        refine ⟨_, .cons (p := app (members (base + o) r2) (members base r)) (by
          rw [show base + (o + o') + (o + o2) - (o + o') = base + (o + o2) by omega]
          exact .inStruct hm hm' hnm hs hnext') hst, .inl (by simp only; omega), fun is ws r => ?_⟩
        simp only [members, app]
        rw [show base + (o + o') + (o + o2) - (o + o') = base + (o + o2) by omega, Nat.add_assoc base o o2]
      | nil =>
        have hlen := hnext'.length (by omega)
        have hnext := hs.next_none
        rw [show (nested (.struct id' s' ms')).length = j + 1 from hlen.symm, show k + (j + 1 + 1) = k + 1 + j + 1 by omega] at hnext
        simp only [members, app]
        cases r with
        | nil =>
          rw [hnext.get_nil]
          simp only
          exact ih tr
        | cons a2 o2 t2 r2 =>
          obtain ⟨m', ex', _, _, h3'⟩ := hnext.get
          rw [h3']
          simp only
          rw [if_neg (by decide)]
          refine ⟨_, .cons (p := members base r2) (by
            rw [show base + (o + o') + o2 - (o + o') = base + o2 by omega]
            exact .struct hm hnext) hst, .inl (by simp only; omega), fun is ws r => ?_⟩
          simp only [members, app]
          rw [show base + (o + o') + o2 - (o + o') = base + o2 by omega]
    | @inUnion id s base k j ms o id' s' ms' r e hm hok hs he =>
      have hc := hs.get_copied he
      have hj : j < (entries ms').length := (List.getElem?_eq_some_iff.mp he).1
      rw [show isUnion (.union id' s' ms') = true from rfl, if_pos rfl] at hc
      have hnext := hs.next_none
      rw [show nested (.union id' s' ms') = entries ms' from rfl] at hc hnext
      rw [show k + ((entries ms').length + 1) = k + 1 + j + ((entries ms').length - j) by omega] at hnext
      simp only [advance, hc]
      cases r with
      | nil =>
        rw [hnext.get_nil]
        simp only
        exact ih tr
      | cons a2 o2 t2 r2 =>
        obtain ⟨m', ex', _, _, h3'⟩ := hnext.get
        rw [h3']
        simp only
        rw [if_neg (by decide)]
        refine ⟨_, .cons (p := members base r2) (by
          rw [show base + (o + e.offset) + o2 - (o + e.offset) = base + o2 by omega]
          exact .struct hm hnext) hst, .inl (by simp only; omega), fun is ws r => ?_⟩
        simp only [members, app]
        rw [show base + (o + e.offset) + o2 - (o + e.offset) = base + o2 by omega]
    | union hok =>
      simp only [advance]
      exact ih tr
    | @array c k off e hok hk =>
      simp only [advance]
      by_cases hc : k + 1 < c
      · rw [if_pos (by simp [hc])]
        refine ⟨_, .cons (.array hok hc) hst, .inl (by simp only; omega), fun is ws r => ?_⟩
        rw [show c - k - 1 = (c - (k + 1) - 1) + 1 by omega]
        rfl
      · rw [if_neg (by simp [hc])]
        obtain ⟨ps', h1, h2, h3⟩ := ih tr
        refine ⟨ps', h1, h2, fun is ws r => ?_⟩
        rw [show c - k - 1 = 0 by omega]
        exact h3 is ws r
    | @flex k off e hok =>
      simp only [advance]
      refine ⟨_, .cons (.flex hok) hst, .inl (by simp only; omega), fun is ws r => ?_⟩
      simp only [app]
      rw [fill_forever]

/-! ## Going into the first part -/

theorem whole_iff {W : Use → Prop} {i : Item} {t : Ty} (hi : i.Uses W) (ht : ∀ u, W u → t.Suits u) :
    Whole same i t ↔ stringMatches i t = true ∨ typeMatches same i t = true := by
  cases i with
  | expr v ty => simp [Whole, stringMatches, typeMatches]
  | braces is => cases t <;> simp [Whole, stringMatches, typeMatches]
  | str v n w =>
    have hw : W (.string w) := hi
    cases t with
    | scalar => simp [Whole, stringMatches, typeMatches]
    | struct => simp [Whole, stringMatches, typeMatches]
    | union => simp [Whole, stringMatches, typeMatches]
    | array m e =>
      have : e.size = w → e.isScalar = true := (ht (.string w) hw).1
      cases e with
      | scalar id s => simp [Whole, stringMatches, typeMatches, Ty.size]
      | array _ _ => simp [Ty.isScalar] at this; simp [Whole, stringMatches, typeMatches, this]
      | flex _ => simp [Ty.isScalar] at this; simp [Whole, stringMatches, typeMatches, this]
      | struct _ _ _ => simp [Ty.isScalar] at this; simp [Whole, stringMatches, typeMatches, this]
      | union _ _ _ => simp [Ty.isScalar] at this; simp [Whole, stringMatches, typeMatches, this]
    | flex e =>
      have : e.size = w → e.isScalar = true := (ht (.string w) hw).1
      cases e with
      | scalar id s => simp [Whole, stringMatches, typeMatches, Ty.size]
      | array _ _ => simp [Ty.isScalar] at this; simp [Whole, stringMatches, typeMatches, this]
      | flex _ => simp [Ty.isScalar] at this; simp [Whole, stringMatches, typeMatches, this]
      | struct _ _ _ => simp [Ty.isScalar] at this; simp [Whole, stringMatches, typeMatches, this]
      | union _ _ _ => simp [Ty.isScalar] at this; simp [Whole, stringMatches, typeMatches, this]

theorem room_iff (i : Item) (t : Ty) : Room i t ↔ stringFits i t = true := by
  cases i with
  | expr => simp [Room, stringFits]
  | braces => simp [Room, stringFits]
  | str v n w => cases t <;> simp [Room, stringFits, StringFits]

theorem takes_scalar {id s off : Nat} {i : Item} {rest : Items} {ws : List Write} {r : Items} (hi : i.isBraces = false) :
    Takes same (.scalar id s) off (.cons i rest) ws r ↔ ws = [⟨off, .scalar id s, i.value⟩] ∧ r = rest := by
  constructor
  · intro h
    cases h with
    | scalar => exact ⟨rfl, rfl⟩
    | whole => exact ⟨rfl, rfl⟩
    | braces => cases hi
    | elided _ h => cases h
  · rintro ⟨rfl, rfl⟩; exact .scalar hi

theorem takes_whole {t : Ty} {off : Nat} {i : Item} {rest : Items} {ws : List Write} {r : Items} (hi : i.isBraces = false) (hs : t.isScalar = false) (hw : Whole same i t) :
    Takes same t off (.cons i rest) ws r ↔ Room i t ∧ ws = [⟨off, t, i.value⟩] ∧ r = rest := by
  constructor
  · intro h
    cases h with
    | scalar => cases hs
    | whole _ h => exact ⟨h, rfl, rfl⟩
    | braces => cases hi
    | elided _ _ h => exact absurd hw h
  · rintro ⟨h, rfl, rfl⟩; exact .whole hw h

theorem takes_elided {t : Ty} {off : Nat} {i : Item} {rest : Items} {ws : List Write} {r : Items} (hi : i.isBraces = false) (hs : t.isScalar = false) (hw : ¬ Whole same i t) :
    Takes same t off (.cons i rest) ws r ↔ parts t off ≠ .nil ∧ Fill same (parts t off) (.cons i rest) ws r := by
  constructor
  · intro h
    cases h with
    | scalar => cases hs
    | whole h => exact absurd h hw
    | braces => cases hi
    | elided _ _ _ h1 h2 => exact ⟨h1, h2⟩
  · rintro ⟨h1, h2⟩; exact .elided hi hs hw h1 h2

/-- What `descend` does, said with `Fill`. -/
def DescendSpec (same : Ty → Ty → Bool) (W : Use → Prop) (i : Item) (off : Nat) (t : Ty) (ps : Parts) : Option (Write × List Node) → Prop
  | none => ∀ rest ws r, ¬ Fill same (.cons off t ps) (.cons i rest) ws r
  | some (w, st') => ∃ ps', After W st' ps' ∧ ∀ rest ws r, Fill same (.cons off t ps) (.cons i rest) ws r ↔ ∃ ws', ws = w :: ws' ∧ Fill same ps' rest ws' r

theorem descend_one {W : Use → Prop} {i : Item} {off : Nat} {t : Ty} {ps : Parts} {st : List Node} {w : Write} (ha : After W st ps)
    (h : ∀ rest ws r, Takes same t off (.cons i rest) ws r ↔ ws = [w] ∧ r = rest) : DescendSpec same W i off t ps (some (w, st)) := by
  refine ⟨ps, ha, fun rest ws r => ?_⟩
  rw [fill_cons]
  constructor
  · rintro ⟨ws1, ws2, r1, rfl, h1, h2⟩
    obtain ⟨rfl, rfl⟩ := (h _ _ _).mp h1
    exact ⟨ws2, rfl, h2⟩
  · rintro ⟨ws', rfl, h2⟩
    exact ⟨[w], ws', rest, rfl, (h _ _ _).mpr ⟨rfl, rfl⟩, h2⟩

theorem descend_into {W : Use → Prop} {i : Item} {off : Nat} {t t' : Ty} {p ps : Parts} {d : Option (Write × List Node)}
    (hi : i.isBraces = false) (hs : t.isScalar = false) (hw : ¬ Whole same i t) (hne : parts t off ≠ .nil)
    (hp : ∀ is ws r, Fill same (parts t off) is ws r ↔ Fill same (.cons off t' p) is ws r) (h : DescendSpec same W i off t' (app p ps) d) : DescendSpec same W i off t ps d := by
  have key : ∀ rest ws r, Fill same (.cons off t ps) (.cons i rest) ws r ↔ Fill same (.cons off t' (app p ps)) (.cons i rest) ws r := by
    intro rest ws r
    rw [show Parts.cons off t' (app p ps) = app (.cons off t' p) ps from rfl, fill_app, fill_cons]
    constructor
    · rintro ⟨ws1, ws2, r1, rfl, h1, h2⟩
      exact ⟨ws1, ws2, r1, rfl, (hp _ _ _).mp ((takes_elided hi hs hw).mp h1).2, h2⟩
    · rintro ⟨ws1, ws2, r1, rfl, h1, h2⟩
      exact ⟨ws1, ws2, r1, rfl, (takes_elided hi hs hw).mpr ⟨hne, (hp _ _ _).mpr h1⟩, h2⟩
  cases d with
  | none => intro rest ws r hf; exact h rest ws r ((key rest ws r).mp hf)
  | some x =>
    obtain ⟨w, st'⟩ := x
    obtain ⟨ps', h1, h2⟩ := h
    exact ⟨ps', h1, fun rest ws r => (key rest ws r).trans (h2 rest ws r)⟩

theorem descend_empty {W : Use → Prop} {i : Item} {off : Nat} {t : Ty} {ps : Parts} (hi : i.isBraces = false) (hs : t.isScalar = false)
    (hw : ¬ Whole same i t) (hne : parts t off = .nil) : DescendSpec same W i off t ps none := by
  intro rest ws r hf
  rw [fill_cons] at hf
  obtain ⟨ws1, ws2, r1, _, h1, _⟩ := hf
  exact ((takes_elided hi hs hw).mp h1).1 hne

theorem descend_spec {W : Use → Prop} {i : Item} (hi : i.isBraces = false) (hW : i.Uses W) (off : Nat) (t : Ty) (st : List Node) (ps : Parts) (hok : Ok W t) (ha : After W st ps) :
    DescendSpec same W i off t ps (descend same i off t st) := by
  match t, hok with
  | .scalar id s, _ =>
    rw [descend]
    exact descend_one ha fun rest ws r => takes_scalar hi
  | .array n e, hok =>
    have hwh := whole_iff (same := same) hW hok.2
    have hoke : Ok W e := ⟨hok.1.2, fun w hw => (hok.2 w hw).2⟩
    rw [descend]
    split
    · rename_i h
      have hw := hwh.mpr (.inl h)
      split
      · rename_i h2
        exact descend_one ha fun rest ws r => by rw [takes_whole hi rfl hw]; exact ⟨fun h => h.2, fun h => ⟨(room_iff _ _).mpr h2, h⟩⟩
      · rename_i h2
        intro rest ws r hf
        rw [fill_cons] at hf
        obtain ⟨ws1, ws2, r1, _, h1, _⟩ := hf
        exact h2 ((room_iff _ _).mp ((takes_whole hi rfl hw).mp h1).1)
    · rename_i h
      split
      · rename_i h2
        have hw := hwh.mpr (.inr h2)
        exact descend_one ha fun rest ws r => by
          rw [takes_whole hi rfl hw]
          refine ⟨fun h => h.2, fun h' => ⟨?_, h'⟩⟩
          cases i with
          | expr => trivial
          | str => cases h2
          | braces => cases h2
      · rename_i h2
        have hw : ¬ Whole same i (.array n e) := fun hw => (hwh.mp hw).elim h h2
        have hn : 0 < n := hok.1.1
        have hp : parts (.array n e) off = .cons off e (elements (off + e.size) e (n - 0 - 1)) := by
          rw [parts]
          conv => lhs; rw [show n = (n - 0 - 1) + 1 by omega]
          rfl
        refine descend_into hi rfl hw (by rw [hp]; exact fun h => by cases h) (fun _ _ _ => by rw [hp]) ?_
        exact descend_spec hi hW off e _ _ hoke (.cons (.array hoke hn) ha)
  | .flex e, hok =>
    have hwh := whole_iff (same := same) hW hok.2
    have hoke : Ok W e := ⟨hok.1, fun w hw => (hok.2 w hw).2⟩
    rw [descend]
    split
    · rename_i h
      have hw := hwh.mpr (.inl h)
      exact descend_one ha fun rest ws r => by
        rw [takes_whole hi rfl hw]
        refine ⟨fun h => h.2, fun h' => ⟨?_, h'⟩⟩
        cases i <;> trivial
    · rename_i h
      split
      · rename_i h2
        have hw := hwh.mpr (.inr h2)
        exact descend_one ha fun rest ws r => by
          rw [takes_whole hi rfl hw]
          refine ⟨fun h => h.2, fun h' => ⟨?_, h'⟩⟩
          cases i <;> trivial
      · rename_i h2
        have hw : ¬ Whole same i (.flex e) := fun hw => (hwh.mp hw).elim h h2
        refine descend_into hi rfl hw (by rw [parts]; exact fun h => by cases h) (fun _ _ _ => by rw [parts]; exact fill_forever) ?_
        exact descend_spec hi hW off e _ _ hoke (.cons (.flex hoke) ha)
  | .struct id s .nil, hok =>
    have hwh := whole_iff (same := same) hW hok.2
    rw [descend]
    split
    · rename_i h2
      have hw := hwh.mpr (.inr h2)
      exact descend_one ha fun rest ws r => by
        rw [takes_whole hi rfl hw]
        refine ⟨fun h => h.2, fun h' => ⟨?_, h'⟩⟩
        cases i <;> trivial
    · rename_i h2
      have hw : ¬ Whole same i (.struct id s .nil) := fun hw => (hwh.mp hw).elim (fun h => by cases i <;> cases h) h2
      exact descend_empty hi rfl hw rfl
  | .struct id s (.cons a o t r), hok =>
    have hwh := whole_iff (same := same) hW hok.2
    have hm : OkM W (.cons a o t r) := okM _ hok.1.1 hok.2
    rw [descend]
    split
    · rename_i h2
      have hw := hwh.mpr (.inr h2)
      exact descend_one ha fun rest ws r => by
        rw [takes_whole hi rfl hw]
        refine ⟨fun h => h.2, fun h' => ⟨?_, h'⟩⟩
        cases i <;> trivial
    · rename_i h2
      have hw : ¬ Whole same i (.struct id s (.cons a o t r)) := fun hw => (hwh.mp hw).elim (fun h => by cases i <;> cases h) h2
      have ho : o = 0 := hok.1.2
      subst ho
      refine descend_into hi rfl hw (by rw [parts, members]; exact fun h => by cases h) (fun _ _ _ => by rw [parts, members, Nat.add_zero]) ?_
      exact descend_spec hi hW off t _ _ hm.1 (.cons (.struct hm .start) ha)
  | .union id s .nil, hok =>
    have hwh := whole_iff (same := same) hW hok.2
    rw [descend]
    split
    · rename_i h2
      have hw := hwh.mpr (.inr h2)
      exact descend_one ha fun rest ws r => by
        rw [takes_whole hi rfl hw]
        refine ⟨fun h => h.2, fun h' => ⟨?_, h'⟩⟩
        cases i <;> trivial
    · rename_i h2
      have hw : ¬ Whole same i (.union id s .nil) := fun hw => (hwh.mp hw).elim (fun h => by cases i <;> cases h) h2
      exact descend_empty hi rfl hw rfl
  | .union id s (.cons a o t r), hok =>
    have hwh := whole_iff (same := same) hW hok.2
    have hm : OkM W (.cons a o t r) := okM _ hok.1.1 (fun u hu => (hok.2 u hu).2)
    rw [descend]
    split
    · rename_i h2
      have hw := hwh.mpr (.inr h2)
      exact descend_one ha fun rest ws r => by
        rw [takes_whole hi rfl hw]
        refine ⟨fun h => h.2, fun h' => ⟨?_, h'⟩⟩
        cases i <;> trivial
    · rename_i h2
      have hw : ¬ Whole same i (.union id s (.cons a o t r)) := fun hw => (hwh.mp hw).elim (fun h => by cases i <;> cases h) h2
      have ho : o = 0 := hok.1.2
      subst ho
      refine descend_into hi rfl hw (by rw [parts]; exact fun h => by cases h) (fun _ _ _ => by rw [parts, Nat.add_zero]) ?_
      exact descend_spec hi hW off t _ _ hm.1 (.cons (.union hm.1 (entries_first _ _ _ _)) ha)

/-! ## Designators -/

theorem find_append (name : Nat) (a b : List Entry) :
    find name (a ++ b) = match find name a with
      | some x => some x
      | none => (find name b).map fun x => (x.1 + a.length, x.2) := by
  induction a with
  | nil => simp [find]
  | cons e a ih =>
    rw [List.cons_append, find, find]
    split
    · rfl
    · rw [ih]
      cases find name a with
      | some x => rfl
      | none =>
        simp only [Option.map_none, Option.map_map]
        congr 1

theorem find_map {name : Nat} {f : Nat → Entry → Entry} (hf : ∀ i e, (f i e).name = e.name) (l : List Entry) :
    find name (l.mapIdx f) = (find name l).map fun x => (x.1, f x.1 x.2) := by
  induction l generalizing f with
  | nil => rfl
  | cons e l ih =>
    rw [List.mapIdx_cons, find, find, hf]
    split
    · rfl
    · rw [ih (f := fun i => f (i + 1)) (fun i e => hf (i + 1) e), Option.map_map, Option.map_map]
      rfl

theorem find_copied (name o : Nat) (u : Bool) (l : List Entry) :
    find name (copied o u l) = (find name l).map fun x => (x.1, ⟨x.2.name, o + x.2.offset, x.2.type, if u = true then l.length - x.1 else 1⟩) :=
  find_map (f := fun i e => ⟨e.name, o + e.offset, e.type, if u = true then l.length - i else 1⟩) (fun _ _ => rfl) l

theorem find_get {name : Nat} {l : List Entry} {k : Nat} {e : Entry} (h : find name l = some (k, e)) : l[k]? = some e := by
  induction l generalizing k with
  | nil => cases h
  | cons x l ih =>
    rw [find] at h
    split at h
    · cases h; rfl
    · cases hf : find name l with
      | none => rw [hf] at h; cases h
      | some y =>
        rw [hf] at h
        cases h
        rw [List.getElem?_cons_succ]
        exact ih hf

/-- The member found by the code is the one of C. -/
def Found (base : Nat) : Option (Nat × Entry) → Option (Nat × Ty × Parts) → Prop
  | none, none => True
  | some (_, e), some (o, t, _) => o = base + e.offset ∧ t = e.type
  | _, _ => False

mutual
theorem found_member (name base : Nat) (t : Ty) : Found base (find name (nested t)) (member name base t) := by
  match t with
  | .scalar _ _ => trivial
  | .array _ _ => trivial
  | .flex _ => trivial
  | .struct _ _ ms => exact found_struct name base ms
  | .union _ _ ms => exact found_union name base ms
theorem found_struct (name base : Nat) (ms : Members) : Found base (find name (entries ms)) (inStruct name base ms) := by
  match ms with
  | .nil => trivial
  | .cons (some m) o t rest =>
    rw [entries, inStruct, find]
    have ih := found_struct name base rest
    by_cases h : m = name
    · rw [if_pos (by simp [h]), if_pos h]
      exact ⟨rfl, rfl⟩
    · rw [if_neg (by simp [h]), if_neg h]
      cases hf : find name (entries rest) <;> cases hs : inStruct name base rest <;> rw [hf, hs] at ih <;> exact ih
  | .cons none o t rest =>
    rw [entries, inStruct, find, if_neg (fun h => by cases h), find_append, find_copied]
    have ih := found_struct name base rest
    have ihn := found_member name (base + o) t
    cases hf : find name (nested t) with
    | some x =>
      cases hs : member name (base + o) t with
      | none => rw [hf, hs] at ihn; cases ihn
      | some y =>
        rw [hf, hs] at ihn
        exact ⟨by rw [ihn.1]; simp only; omega, ihn.2⟩
    | none =>
      cases hs : member name (base + o) t with
      | some y => rw [hf, hs] at ihn; cases ihn
      | none =>
        simp only [Option.map_none]
        cases hf' : find name (entries rest) <;> cases hs' : inStruct name base rest <;> rw [hf', hs'] at ih <;> exact ih
theorem found_union (name base : Nat) (ms : Members) : Found base (find name (entries ms)) (inUnion name base ms) := by
  match ms with
  | .nil => trivial
  | .cons (some m) o t rest =>
    rw [entries, inUnion, find]
    have ih := found_union name base rest
    by_cases h : m = name
    · rw [if_pos (by simp [h]), if_pos h]
      exact ⟨rfl, rfl⟩
    · rw [if_neg (by simp [h]), if_neg h]
      cases hf : find name (entries rest) <;> cases hs : inUnion name base rest <;> rw [hf, hs] at ih <;> exact ih
  | .cons none o t rest =>
    rw [entries, inUnion, find, if_neg (fun h => by cases h), find_append, find_copied]
    have ih := found_union name base rest
    have ihn := found_member name (base + o) t
    cases hf : find name (nested t) with
    | some x =>
      cases hs : member name (base + o) t with
      | none => rw [hf, hs] at ihn; cases ihn
      | some y =>
        rw [hf, hs] at ihn
        exact ⟨by rw [ihn.1]; simp only; omega, ihn.2⟩
    | none =>
      cases hs : member name (base + o) t with
      | some y => rw [hf, hs] at ihn; cases ihn
      | none =>
        simp only [Option.map_none]
        cases hf' : find name (entries rest) <;> cases hs' : inUnion name base rest <;> rw [hf', hs'] at ih <;> exact ih
end

/-- Finding a member among named ones. -/
theorem find_named {name : Nat} {ms : Members} (ms' : Members) {k₀ : Nat} (hs : Suffix ms ms' k₀) (hn : ms'.Named) {k : Nat} {e : Entry} (h : find name (entries ms') = some (k, e)) :
    ∃ a o t r, Suffix ms (.cons a o t r) (k₀ + k) ∧ e.offset = o ∧ e.type = t ∧ (∀ base, inStruct name base ms' = some (base + o, t, members base r)) ∧
      ∀ base, inUnion name base ms' = some (base + o, t, .nil) := by
  match ms', hn with
  | .nil, _ => cases h
  | .cons none o t rest, hn => exact absurd rfl hn.1
  | .cons (some m) o t rest, hn =>
    rw [entries, find] at h
    by_cases hm : m = name
    · rw [if_pos (by simp [hm])] at h
      cases h
      exact ⟨_, o, t, rest, hs, rfl, rfl, fun base => by rw [inStruct, if_pos hm], fun base => by rw [inUnion, if_pos hm]⟩
    · rw [if_neg (by simp [hm])] at h
      cases hf : find name (entries rest) with
      | none => rw [hf] at h; cases h
      | some x =>
        rw [hf] at h
        cases h
        obtain ⟨a, o', t', r, h1, h2, h3, h4, h5⟩ := find_named rest (.next (n := 0) (ex := []) hs rfl rfl) hn.2 hf
        refine ⟨a, o', t', r, ?_, h2, h3, fun base => by rw [inStruct, if_neg hm, h4], fun base => by rw [inUnion, if_neg hm, h5]⟩
        rw [show k₀ + (x.1 + 1) = k₀ + (0 + 1) + x.1 by omega]
        exact h1

/-- The unnamed members have only named members. -/
def AnonOk (W : Use → Prop) : Members → Prop
  | .nil => True
  | .cons a _ t rest => (a = none → t.Named ∧ Ok W t) ∧ AnonOk W rest

theorem anonOk {W : Use → Prop} (hW : W .designator) {s : Nat} (ms : Members) (hg : ms.Good s) (ha : ∀ u, W u → ms.Suits u) : AnonOk W ms :=
  match ms with
  | .nil => trivial
  | .cons _ _ _ r => ⟨fun h => ⟨(ha _ hW).1 rfl h, hg.2.1, fun u hu => (ha u hu).2.1⟩, anonOk hW r hg.2.2 (fun u hu => (ha u hu).2.2)⟩

/-- The node for a member of a structure, also for one of an unnamed member. -/
theorem find_struct {W : Use → Prop} {name : Nat} {ms : Members} (hm : OkM W ms) (ms' : Members) {k₀ : Nat} (hs : Suffix ms ms' k₀) (hn : AnonOk W ms') {k : Nat} {e : Entry}
    (h : find name (entries ms') = some (k, e)) (id s base : Nat) :
    ∃ ps, inStruct name base ms' = some (base + e.offset, e.type, ps) ∧ NodeAt W ⟨.struct id s ms, base + e.offset, k₀ + k⟩ e.type ps := by
  match ms', hn with
  | .nil, _ => cases h
  | .cons (some m) o t rest, hn =>
    rw [entries, find] at h
    by_cases hmn : m = name
    · rw [if_pos (by simp [hmn])] at h
      cases h
      exact ⟨_, by rw [inStruct, if_pos hmn], .struct hm hs⟩
    · rw [if_neg (by simp [hmn])] at h
      cases hf : find name (entries rest) with
      | none => rw [hf] at h; cases h
      | some x =>
        rw [hf] at h
        cases h
        obtain ⟨ps, h1, h2⟩ := find_struct hm rest (.next (n := 0) (ex := []) hs rfl rfl) hn.2 hf id s base
        refine ⟨ps, by rw [inStruct, if_neg hmn, h1], ?_⟩
        rw [show k₀ + (x.1 + 1) = k₀ + (0 + 1) + x.1 by omega]
        exact h2
  | .cons none o t rest, hn =>
    rw [entries, find, if_neg (fun h => by cases h), find_append, find_copied] at h
    obtain ⟨hnm, hokt⟩ := hn.1 rfl
    have ihn := found_member name (base + o) t
    rw [inStruct]
    cases hf : find name (nested t) with
    | some x =>
      rw [hf] at h ihn
      obtain ⟨j, x⟩ := x
      cases h
      match t, hnm, hokt with
      | .scalar _ _, _, _ => cases hf
      | .array _ _, _, _ => cases hf
      | .flex _, _, _ => cases hf
      | .struct id' s' ms'', hnm, hokt =>
        obtain ⟨a, o', t', r, h1, h2, h3, h4, _⟩ := find_named ms'' .start hnm hf
        rw [Nat.zero_add] at h1
        subst h2 h3
        refine ⟨app (members (base + o) r) (members base rest), ?_, ?_⟩
        · rw [member, h4]
          simp only [Nat.add_assoc]
        · rw [show k₀ + (j + 1) = k₀ + 1 + j by omega]
          exact .inStruct hm (okM _ hokt.1.1 hokt.2) hnm hs h1
      | .union id' s' ms'', hnm, hokt =>
        obtain ⟨a, o', t', r, h1, h2, h3, _, h5⟩ := find_named ms'' .start hnm hf
        subst h2 h3
        refine ⟨members base rest, ?_, ?_⟩
        · rw [member, h5]
          simp only [Nat.add_assoc, app]
        · rw [show k₀ + (j + 1) = k₀ + 1 + j by omega]
          exact .inUnion hm (h1.ok (okM _ hokt.1.1 (fun u hu => (hokt.2 u hu).2))).1 hs (find_get hf)
    | none =>
      rw [hf] at h ihn
      cases hs' : member name (base + o) t with
      | some y => rw [hs'] at ihn; cases ihn
      | none =>
        simp only [Option.map_none] at h
        cases hf' : find name (entries rest) with
        | none => rw [hf'] at h; cases h
        | some x =>
          rw [hf'] at h
          cases h
          obtain ⟨ps, h1, h2⟩ := find_struct hm rest hs.next_none hn.2 hf' id s base
          refine ⟨ps, h1, ?_⟩
          rw [copied, List.length_mapIdx, show k₀ + (x.1 + (nested t).length + 1) = k₀ + ((nested t).length + 1) + x.1 by omega]
          exact h2

/-- One designator. -/
theorem pick_spec {W : Use → Prop} (hW : W .designator) (d : Desig) (t : Ty) (off : Nat) (hok : Ok W t) :
    (pick d t off = none ∧ selectOne d t off = none) ∨
      ∃ k o t' ps, pick d t off = some (k, o, t') ∧ selectOne d t off = some (o, t', ps) ∧ NodeAt W ⟨t, o, k⟩ t' ps ∧ ∀ i, stringMatches i t = true → d = .index k := by
  match d, t, hok with
  | .index i, .scalar _ _, _ => exact .inl ⟨rfl, rfl⟩
  | .index i, .struct _ _ _, _ => exact .inl ⟨rfl, rfl⟩
  | .index i, .union _ _ _, _ => exact .inl ⟨rfl, rfl⟩
  | .index i, .array n e, hok =>
    have hoke : Ok W e := ⟨hok.1.2, fun w hw => (hok.2 w hw).2⟩
    rw [pick, selectOne]
    by_cases h : i < n
    · rw [if_pos h, if_pos h]
      refine .inr ⟨_, _, _, _, rfl, rfl, ?_, fun _ _ => rfl⟩
      rw [Nat.add_mul, Nat.one_mul, ← Nat.add_assoc]
      exact .array hoke h
    · rw [if_neg h, if_neg h]
      exact .inl ⟨rfl, rfl⟩
  | .index i, .flex e, hok =>
    have hoke : Ok W e := ⟨hok.1, fun w hw => (hok.2 w hw).2⟩
    rw [pick, selectOne]
    refine .inr ⟨_, _, _, _, rfl, rfl, ?_, fun _ _ => rfl⟩
    rw [Nat.add_mul, Nat.one_mul, ← Nat.add_assoc]
    exact .flex hoke
  | .member name, .scalar _ _, _ => exact .inl ⟨rfl, rfl⟩
  | .member name, .array _ _, _ => exact .inl ⟨rfl, rfl⟩
  | .member name, .flex _, _ => exact .inl ⟨rfl, rfl⟩
  | .member name, .struct id s ms, hok =>
    rw [pick, selectOne, member]
    have hfound := found_struct name off ms
    cases hf : find name (entries ms) with
    | none =>
      rw [hf] at hfound
      cases hs : inStruct name off ms with
      | none => exact .inl ⟨rfl, rfl⟩
      | some y => rw [hs] at hfound; cases hfound
    | some x =>
      obtain ⟨ps, h1, h2⟩ := find_struct (okM _ hok.1.1 hok.2) ms .start (anonOk hW ms hok.1.1 hok.2) hf id s off
      rw [Nat.zero_add] at h2
      exact .inr ⟨_, _, _, _, rfl, h1, h2, fun i h => by cases i <;> cases h⟩
  | .member name, .union id s ms, hok =>
    rw [pick, selectOne, member]
    have hfound := found_union name off ms
    cases hf : find name (entries ms) with
    | none =>
      rw [hf] at hfound
      cases hs : inUnion name off ms with
      | none => exact .inl ⟨rfl, rfl⟩
      | some y => rw [hs] at hfound; cases hfound
    | some x =>
      obtain ⟨a, o', t', r, h1, h2, h3, _, h5⟩ := find_named ms .start ((hok.2 _ hW).1 rfl) hf
      subst h2 h3
      refine .inr ⟨_, _, _, _, rfl, h5 off, .union (h1.ok (okM _ hok.1.1 (fun u hu => (hok.2 u hu).2))).1 ?_, fun i h => by cases i <;> cases h⟩
      rw [find_get hf]
      rfl

/-- The designators of an initializer. The node on top of the new stack is for the selected object. -/
theorem designate_spec {W : Use → Prop} (hW : W .designator) (d : Desig) (ds : List Desig) (t : Ty) (off : Nat) (hok : Ok W t) {st : List Node} {q : Parts} (ha : After W st q) :
    (designate (d :: ds) t off st = none ∧ select (d :: ds) t off = none) ∨
      ∃ n st' t' p q' ps, designate (d :: ds) t off st = some (n :: st') ∧ select (d :: ds) t off = some (n.offset, t', ps) ∧ NodeAt W n t' p ∧ After W st' q' ∧ app p q' = app ps q ∧
        Ok W n.type ∧ ∀ i, stringMatches i n.type = true → (d :: ds).getLast? = some (.index n.idx) := by
  induction ds generalizing d t off st q with
  | nil =>
    rw [designate, select]
    rcases pick_spec hW d t off hok with ⟨h1, h2⟩ | ⟨k, o, t', ps, h1, h2, h3, h4⟩
    · rw [h1, h2]; exact .inl ⟨rfl, rfl⟩
    · rw [h1, h2]
      exact .inr ⟨_, _, t', ps, q, ps, rfl, rfl, h3, ha, rfl, hok, fun i hi => by rw [h4 i hi]; rfl⟩
  | cons d' ds ih =>
    rw [designate, select]
    rcases pick_spec hW d t off hok with ⟨h1, h2⟩ | ⟨k, o, t', ps, h1, h2, h3, h4⟩
    · rw [h1, h2]; exact .inl ⟨rfl, rfl⟩
    · rw [h1, h2]
      simp only
      rcases ih d' t' o h3.ok (.cons h3 ha) with ⟨h5, h6⟩ | ⟨n, st', t'', p, q', ps', h5, h6, h7, h8, h9, h10, h11⟩
      · rw [h5, h6]; exact .inl ⟨rfl, rfl⟩
      · rw [h5, h6]
        refine .inr ⟨n, st', t'', p, q', _, rfl, rfl, h7, h8, ?_, h10, fun i hi => ?_⟩
        · rw [h9, app_assoc]
        · rw [List.getLast?_cons_cons]
          exact h11 i hi

end Verif.Initializer
