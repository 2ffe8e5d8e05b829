import Verif.Lemmas.Initializer

/-!
# C24: initializer lists write the right places
-/
namespace Verif.Props.Initializer
open Verif.Initializer Verif.Spec.Initializer

variable {same : Ty → Ty → Bool}

/-- The parts `ps` are filled and what is left over has designators for the object of type `t` at `b`. -/
def Done (same : Ty → Ty → Bool) (t : Ty) (b : Nat) (ps : Parts) (is : Items) (ws : List Write) : Prop :=
  ∃ ws1 ws2 r, ws = ws1 ++ ws2 ∧ Fill same ps is ws1 r ∧ Designated same t b r ws2

theorem done_congr {t : Ty} {b : Nat} {ps ps' : Parts} {is : Items} (h : ∀ ws r, Fill same ps is ws r ↔ Fill same ps' is ws r) (ws : List Write) : Done same t b ps is ws ↔ Done same t b ps' is ws := by
  unfold Done
  simp only [h]

theorem done_over {t : Ty} {b : Nat} {ps : Parts} {is : Items} (h : Over is) (ws : List Write) : Done same t b ps is ws ↔ Designated same t b is ws := by
  unfold Done
  simp only [fill_over h]
  constructor
  · rintro ⟨ws1, ws2, r, rfl, ⟨rfl, rfl⟩, h'⟩; exact h'
  · intro h; exact ⟨[], ws, is, rfl, ⟨rfl, rfl⟩, h⟩

theorem done_nil {t : Ty} {b : Nat} {is : Items} (ws : List Write) : Done same t b .nil is ws ↔ Designated same t b is ws := by
  unfold Done
  simp only [fill_nil]
  constructor
  · rintro ⟨ws1, ws2, r, rfl, ⟨rfl, rfl⟩, h⟩; exact h
  · intro h; exact ⟨[], ws, is, rfl, ⟨rfl, rfl⟩, h⟩

theorem designated_close {t : Ty} {b : Nat} {c : Bool} {ws : List Write} : Designated same t b (.close c) ws ↔ ws = [] := by
  constructor
  · intro h; cases h; rfl
  · rintro rfl; exact .close

theorem designated_next {t : Ty} {b : Nat} {d : Desig} {ds : List Desig} {rest : Items} {ws : List Write} :
    Designated same t b (.desig d ds rest) ws ↔ ∃ i rest' o t' ps, rest = .cons i rest' ∧ select (d :: ds) t b = some (o, t', ps) ∧ Done same t b (.cons o t' ps) rest ws := by
  constructor
  · intro h
    cases h with
    | next h1 h2 h3 => exact ⟨_, _, _, _, _, rfl, h1, _, _, _, rfl, h2, h3⟩
  · rintro ⟨i, rest', o, t', ps, rfl, h1, ws1, ws2, r, rfl, h2, h3⟩
    exact .next h1 h2 h3

theorem braced_aggregate {t : Ty} {off : Nat} {is : Items} {ws : List Write} (hs : t.isScalar = false) (hstr : ∀ i rest, is = .cons i rest → ¬ StringFor same i t) :
    Braced same t off is ws ↔ Done same t off (parts t off) is ws := by
  constructor
  · intro h
    cases h with
    | aggregate _ _ h h' => exact ⟨_, _, _, rfl, h, h'⟩
    | string h => exact absurd h (hstr _ _ rfl)
    | scalar => cases hs
    | nested => cases hs
    | zero => cases hs
  · rintro ⟨ws1, ws2, r, rfl, h, h'⟩; exact .aggregate hs hstr h h'

theorem braced_string {t : Ty} {off : Nat} {i : Item} {rest : Items} {ws : List Write} (hs : t.isScalar = false) (hstr : StringFor same i t) :
    Braced same t off (.cons i rest) ws ↔ Room i t ∧ ∃ ws', Designated same t off rest ws' ∧ ws = ⟨off, t, i.value⟩ :: ws' := by
  constructor
  · intro h
    cases h with
    | aggregate _ h _ => exact absurd hstr (h _ _ rfl)
    | string _ h h' => exact ⟨h, _, h', rfl⟩
    | scalar => cases hs
    | nested => cases hs
  · rintro ⟨h, ws', h', rfl⟩; exact .string hstr h h'

theorem takes_braces {t : Ty} {off : Nat} {is rest : Items} {ws : List Write} {r : Items} :
    Takes same t off (.cons (.braces is) rest) ws r ↔ Braced same t off is ws ∧ r = rest := by
  constructor
  · intro h
    cases h with
    | scalar h => cases h
    | whole h => cases t <;> exact absurd h (fun h => by simp [Whole] at h)
    | braces h => exact ⟨h, rfl⟩
    | elided h => cases h
  · rintro ⟨h, rfl⟩; exact .braces h

theorem stringFor_iff {W : Use → Prop} {i : Item} {t : Ty} (hi : i.Uses W) (ht : ∀ u, W u → t.Suits u) : StringFor same i t ↔ stringMatches i t = true := by
  cases i with
  | expr => cases t <;> simp [StringFor, stringMatches]
  | braces => cases t <;> simp [StringFor, stringMatches]
  | str v n w =>
    have := whole_iff (same := same) hi ht
    rw [show typeMatches same (.str v n w) t = false from rfl] at this
    simp only [StringFor]
    rw [this]
    simp

theorem parse_close (t : Ty) (base tr : Nat) (st : List Node) (c : Bool) (ws : List Write) : (∃ tr', parse same (.aggregate t base st tr) (.close c) = some (ws, tr')) ↔ ws = [] := by
  rw [parse]
  constructor
  · rintro ⟨_, h⟩; cases h; rfl
  · rintro rfl; exact ⟨tr, rfl⟩

/-- What is to be shown of a list. -/
def Claim (same : Ty → Ty → Bool) (W : Use → Prop) (is : Items) : Prop :=
  is.Uses W →
  (∀ t off, Ok W t → ∀ ws, (∃ tr, parse same (start t off) is = some (ws, tr)) ↔ Braced same t off is ws) ∧
  (∀ t base st tr ps, Ok W t → Remaining W st ps → (∀ i rest n st', is = .cons i rest → st = n :: st' → special n i = false) →
    ∀ ws, (∃ tr', parse same (.aggregate t base st tr) is = some (ws, tr')) ↔ Done same t base ps is ws)

theorem map_some {x : Option (List Write × Nat)} {f : List Write → List Write} {ws : List Write} :
    (∃ tr, x.map (fun y => (f y.1, y.2)) = some (ws, tr)) ↔ ∃ ws', ws = f ws' ∧ ∃ tr, x = some (ws', tr) := by
  cases x with
  | none => exact ⟨fun ⟨_, h⟩ => (by cases h), fun ⟨_, _, _, h⟩ => (by cases h)⟩
  | some y =>
    obtain ⟨a, b⟩ := y
    constructor
    · rintro ⟨tr, h⟩; cases h; exact ⟨a, rfl, b, rfl⟩
    · rintro ⟨ws', rfl, tr, h⟩; cases h; exact ⟨b, rfl⟩

theorem special_false {n : Node} {st : List Node} (hs : Started (n :: st)) (i : Item) : special n i = false := by
  unfold special
  rcases hs with h | h
  · rw [show (n.idx == 0) = false from by simp [h]]; rfl
  · rw [h i, Bool.and_false]

/-- The rest of a list after an item was handled. -/
theorem rest_spec {W : Use → Prop} {rest : Items} (hW : rest.Uses W) (ih : Claim same W rest) {st : List Node} {ps : Parts} (ha : After W st ps) {t : Ty} (hok : Ok W t) (base tr : Nat) (ws : List Write) :
    (∃ tr', parse same (.aggregate t base (advance (atEnd rest) st tr).1 (advance (atEnd rest) st tr).2) rest = some (ws, tr')) ↔ Done same t base ps rest ws := by
  cases hend : atEnd rest with
  | true =>
    cases rest with
    | close c => rw [parse_close, done_over (is := .close c) trivial, designated_close]
    | cons => cases hend
    | desig => cases hend
  | false =>
    obtain ⟨ps', h1, h2, h3⟩ := advance_spec (same := same) ha tr
    rw [(ih hW).2 t base _ _ ps' hok h1 (fun i rest' n st' _ h => special_false (h ▸ h2) i) ws]
    exact (done_congr (h3 rest) ws).symm

theorem parse_item (t₀ : Ty) (base tr : Nat) (n : Node) (st : List Node) {i : Item} {rest : Items} (hb : i.isBraces = false) :
    parse same (.aggregate t₀ base (n :: st) tr) (.cons i rest) =
    match currentType n with
    | none => none
    | some t =>
      if special n i = true then
        if stringFits i n.type = true then
          (parse same (.aggregate t₀ base st (Nat.max tr (stringTrailing i n.type))) rest).map fun x => (⟨match st with
            | [] => base
            | m :: _ => m.offset, n.type, i.value⟩ :: x.1, x.2)
        else none
      else match descend same i n.offset t (n :: st) with
        | none => none
        | some (w, st') => (parse same (.aggregate t₀ base (advance (atEnd rest) st' (Nat.max tr (stringTrailing i w.type))).1
            (advance (atEnd rest) st' (Nat.max tr (stringTrailing i w.type))).2) rest).map fun x => (w :: x.1, x.2) := by
  cases i with
  | expr => rfl
  | str => rfl
  | braces => cases hb

/-- An item that is not the special case of a string in braces. -/
theorem item_spec {W : Use → Prop} {i : Item} {rest : Items} (hWi : i.Uses W) (hW : rest.Uses W) (ih : Claim same W rest)
    (ihb : ∀ is, i = .braces is → Claim same W is) {n : Node} {st : List Node} {t : Ty} {p q : Parts} (hn : NodeAt W n t p) (ha : After W st q) (hsp : special n i = false)
    {t₀ : Ty} (hok : Ok W t₀) (base tr : Nat) (ws : List Write) :
    (∃ tr', parse same (.aggregate t₀ base (n :: st) tr) (.cons i rest) = some (ws, tr')) ↔ Done same t₀ base (.cons n.offset t (app p q)) (.cons i rest) ws := by
  have hcur := hn.current
  have hafter : After W (n :: st) (app p q) := .cons hn ha
  cases hb : i.isBraces with
  | true =>
    cases i with
    | expr => cases hb
    | str => cases hb
    | braces is =>
      rw [parse, hcur]
      simp only
      have hinner := ((ihb is rfl) hWi).1 t n.offset hn.ok
      cases hp : parse same (start t n.offset) is with
      | none =>
        simp only
        constructor
        · rintro ⟨_, h⟩; cases h
        · rintro ⟨_, _, _, _, h, _⟩
          rw [fill_cons] at h
          obtain ⟨ws1, ws2, r1, _, h1, _⟩ := h
          obtain ⟨tr', h⟩ := (hinner ws1).mpr (takes_braces.mp h1).1
          rw [hp] at h
          cases h
      | some x =>
        obtain ⟨ws0, tr0⟩ := x
        simp only
        rw [map_some (f := fun l => ws0 ++ l)]
        constructor
        · rintro ⟨ws', rfl, h⟩
          obtain ⟨wa, wb, r, rfl, h, hd⟩ := (rest_spec hW ih hafter hok base _ ws').mp h
          exact ⟨ws0 ++ wa, wb, r, by rw [List.append_assoc], .part (.braces ((hinner ws0).mp ⟨tr0, hp⟩)) h, hd⟩
        · rintro ⟨wa, wb, r, rfl, h, hd⟩
          rw [fill_cons] at h
          obtain ⟨ws1, ws2, r1, rfl, h1, h2⟩ := h
          obtain ⟨hbr, rfl⟩ := takes_braces.mp h1
          obtain ⟨tr', h⟩ := (hinner ws1).mpr hbr
          rw [hp] at h
          cases h
          exact ⟨ws2 ++ wb, by rw [List.append_assoc], (rest_spec hW ih hafter hok base _ _).mpr ⟨ws2, wb, r, rfl, h2, hd⟩⟩
  | false =>
    have hd := descend_spec (same := same) hb hWi n.offset t (n :: st) _ hn.ok hafter
    have hparse : parse same (.aggregate t₀ base (n :: st) tr) (.cons i rest) =
        match descend same i n.offset t (n :: st) with
        | none => none
        | some (w, st') => (parse same (.aggregate t₀ base (advance (atEnd rest) st' (Nat.max tr (stringTrailing i w.type))).1
            (advance (atEnd rest) st' (Nat.max tr (stringTrailing i w.type))).2) rest).map fun x => (w :: x.1, x.2) := by
      cases i with
      | expr v ty => rw [parse_item _ _ _ _ _ rfl, hcur]; simp only [hsp]; rfl
      | str v m w => rw [parse_item _ _ _ _ _ rfl, hcur]; simp only [hsp]; rfl
      | braces => cases hb
    rw [hparse]
    cases hdd : descend same i n.offset t (n :: st) with
    | none =>
      rw [hdd] at hd
      simp only
      exact ⟨fun ⟨_, h⟩ => (by cases h), fun ⟨_, _, _, _, h, _⟩ => absurd h (hd rest _ _)⟩
    | some x =>
      obtain ⟨w, st'⟩ := x
      rw [hdd] at hd
      obtain ⟨ps', h1, h2⟩ := hd
      simp only
      rw [map_some (f := fun l => w :: l)]
      constructor
      · rintro ⟨ws', rfl, h⟩
        obtain ⟨wa, wb, r, rfl, h, hdes⟩ := (rest_spec hW ih h1 hok base _ ws').mp h
        exact ⟨w :: wa, wb, r, rfl, (h2 _ _ _).mpr ⟨wa, rfl, h⟩, hdes⟩
      · rintro ⟨wa, wb, r, rfl, h, hdes⟩
        obtain ⟨ws', rfl, hf⟩ := (h2 _ _ _).mp h
        exact ⟨ws' ++ wb, rfl, (rest_spec hW ih h1 hok base _ _).mpr ⟨ws', wb, r, rfl, hf, hdes⟩⟩

/-- Designators before an item. -/
theorem desig_spec {W : Use → Prop} {d : Desig} {ds : List Desig} {rest : Items} (hW : (Items.desig d ds rest).Uses W) (ih : Claim same W rest) {t : Ty} (hok : Ok W t)
    (base tr : Nat) (st : List Node) (ws : List Write) :
    (∃ tr', parse same (.aggregate t base st tr) (.desig d ds rest) = some (ws, tr')) ↔ Designated same t base (.desig d ds rest) ws := by
  rw [designated_next, parse]
  obtain ⟨hd, hz, hr⟩ := hW
  cases rest with
  | close c => exact ⟨fun ⟨_, h⟩ => (by cases h), fun ⟨_, _, _, _, _, h, _⟩ => (by cases h)⟩
  | desig => exact ⟨fun ⟨_, h⟩ => (by cases h), fun ⟨_, _, _, _, _, h, _⟩ => (by cases h)⟩
  | cons i rest' =>
    rw [if_pos (show initializerFollows (.cons i rest') = true from rfl)]
    rcases designate_spec hd d ds t base hok .nil with ⟨h1, h2⟩ | ⟨n, st', t', p, q', ps, h1, h2, h3, h4, h5, h6, h7⟩
    · rw [h1, h2]
      exact ⟨fun ⟨_, h⟩ => (by cases h), fun ⟨_, _, _, _, _, _, h, _⟩ => (by cases h)⟩
    · rw [h1, h2]
      simp only
      rw [app_nil] at h5
      have hsp : special n i = false := by
        unfold special
        cases hm : stringMatches i n.type with
        | false => rw [Bool.and_false]
        | true =>
          have hl := h7 i hm
          cases hidx : (n.idx == 0) with
          | false => rfl
          | true =>
            rw [beq_iff_eq] at hidx
            rw [hidx] at hl
            cases i with
            | expr => cases hty : n.type <;> rw [hty] at hm <;> cases hm
            | braces => cases hty : n.type <;> rw [hty] at hm <;> cases hm
            | str v m w =>
              have hu := h6.2 _ (hz w hl rfl)
              cases hty : n.type with
              | scalar => rw [hty] at hm; cases hm
              | struct => rw [hty] at hm; cases hm
              | union => rw [hty] at hm; cases hm
              | array c e =>
                rw [hty] at hm hu
                have h8 : e.size ≠ w := hu.1
                simp only [stringMatches, beq_iff_eq] at hm
                exact absurd hm h8
              | flex e =>
                rw [hty] at hm hu
                have h8 : e.size ≠ w := hu.1
                simp only [stringMatches, beq_iff_eq] at hm
                exact absurd hm h8
      rw [(ih hr).2 t base (n :: st') tr _ hok (.cons h3 h4) (fun i' _ n' _ he hst => by cases he; cases hst; exact hsp) ws, h5]
      constructor
      · intro h; exact ⟨_, _, _, _, _, rfl, rfl, h⟩
      · rintro ⟨_, _, _, _, _, _, he, h⟩
        cases he
        exact h

theorem parse_scalar {id s off : Nat} {is : Items} (hb : ∀ is' rest, is = .cons (.braces is') rest → ∀ ws, (∃ tr, parse same (.scalar (.scalar id s) off) is' = some (ws, tr)) ↔ Braced same (.scalar id s) off is' ws) (ws : List Write) :
    (∃ tr, parse same (.scalar (.scalar id s) off) is = some (ws, tr)) ↔ Braced same (.scalar id s) off is ws := by
  have noAgg : ∀ {is ws}, Braced same (.scalar id s) off is ws → (∃ c, is = .close c ∧ ws = [⟨off, .scalar id s, 0⟩]) ∨ (∃ i c, i.isBraces = false ∧ is = .cons i (.close c) ∧ ws = [⟨off, .scalar id s, i.value⟩]) ∨
      ∃ is', is = .cons (.braces is') (.close false) ∧ Braced same (.scalar id s) off is' ws := by
    intro is ws h
    cases h with
    | aggregate h => cases h
    | @string _ _ i _ _ h =>
      cases i with
      | expr => cases h
      | str => simp [StringFor, Whole] at h
      | braces => cases h
    | scalar h => exact .inr (.inl ⟨_, _, h, rfl, rfl⟩)
    | nested h => exact .inr (.inr ⟨_, rfl, h⟩)
    | zero => exact .inl ⟨_, rfl, rfl⟩
  cases is with
  | close c =>
    rw [parse]
    constructor
    · rintro ⟨_, h⟩; cases h; exact .zero
    · intro h
      rcases noAgg h with ⟨_, _, h⟩ | ⟨_, _, _, h, _⟩ | ⟨_, h, _⟩
      · exact ⟨0, by rw [h]⟩
      · cases h
      · cases h
  | desig d ds rest =>
    refine ⟨fun ⟨_, h⟩ => ?_, fun h => ?_⟩
    · rw [show parse same (.scalar (.scalar id s) off) (.desig d ds rest) = none from rfl] at h; cases h
    · rcases noAgg h with ⟨_, h, _⟩ | ⟨_, _, _, h, _⟩ | ⟨_, h, _⟩ <;> cases h
  | cons i rest =>
    cases i with
    | braces is' =>
      have hno : rest ≠ .close false → ((∃ tr, parse same (.scalar (.scalar id s) off) (.cons (.braces is') rest) = some (ws, tr)) ↔ Braced same (.scalar id s) off (.cons (.braces is') rest) ws) := by
        intro hr
        have : parse same (.scalar (.scalar id s) off) (.cons (.braces is') rest) = none := by
          cases rest with
          | close c => cases c with
            | false => exact absurd rfl hr
            | true => rfl
          | cons => rfl
          | desig => rfl
        rw [this]
        refine ⟨fun ⟨_, h⟩ => (by cases h), fun h => ?_⟩
        rcases noAgg h with ⟨_, h, _⟩ | ⟨_, _, hi, h, _⟩ | ⟨_, h, _⟩
        · cases h
        · cases h; cases hi
        · cases h; exact absurd rfl hr
      cases rest with
      | cons => exact hno (fun h => by cases h)
      | desig => exact hno (fun h => by cases h)
      | close c => cases c with
        | true => exact hno (fun h => by cases h)
        | false =>
          rw [parse, hb is' _ rfl ws]
          refine ⟨.nested, fun h => ?_⟩
          rcases noAgg h with ⟨_, h, _⟩ | ⟨_, _, hi, h, _⟩ | ⟨_, h, hx⟩
          · cases h
          · cases h; cases hi
          · cases h; exact hx
    | expr v ty =>
      cases rest with
      | cons i' rest' =>
        refine ⟨fun ⟨_, h⟩ => ?_, fun h => ?_⟩
        · rw [show parse same (.scalar (.scalar id s) off) (.cons (.expr v ty) (.cons i' rest')) = none from rfl] at h; cases h
        · rcases noAgg h with ⟨_, h, _⟩ | ⟨_, _, _, h, _⟩ | ⟨_, h, _⟩ <;> cases h
      | desig d ds rest' =>
        refine ⟨fun ⟨_, h⟩ => ?_, fun h => ?_⟩
        · rw [show parse same (.scalar (.scalar id s) off) (.cons (.expr v ty) (.desig d ds rest')) = none from rfl] at h; cases h
        · rcases noAgg h with ⟨_, h, _⟩ | ⟨_, _, _, h, _⟩ | ⟨_, h, _⟩ <;> cases h
      | close c =>
        rw [show parse same (.scalar (.scalar id s) off) (.cons (.expr v ty) (.close c)) = some ([⟨off, .scalar id s, v⟩], 0) from rfl]
        refine ⟨fun ⟨_, h⟩ => by cases h; exact .scalar (i := .expr v ty) rfl, fun h => ?_⟩
        rcases noAgg h with ⟨_, h, _⟩ | ⟨_, _, _, h, hw⟩ | ⟨_, h, _⟩
        · cases h
        · cases h; exact ⟨0, by rw [hw]; rfl⟩
        · cases h
    | str v n w =>
      cases rest with
      | cons i' rest' =>
        refine ⟨fun ⟨_, h⟩ => ?_, fun h => ?_⟩
        · rw [show parse same (.scalar (.scalar id s) off) (.cons (.str v n w) (.cons i' rest')) = none from rfl] at h; cases h
        · rcases noAgg h with ⟨_, h, _⟩ | ⟨_, _, _, h, _⟩ | ⟨_, h, _⟩ <;> cases h
      | desig d ds rest' =>
        refine ⟨fun ⟨_, h⟩ => ?_, fun h => ?_⟩
        · rw [show parse same (.scalar (.scalar id s) off) (.cons (.str v n w) (.desig d ds rest')) = none from rfl] at h; cases h
        · rcases noAgg h with ⟨_, h, _⟩ | ⟨_, _, _, h, _⟩ | ⟨_, h, _⟩ <;> cases h
      | close c =>
        rw [show parse same (.scalar (.scalar id s) off) (.cons (.str v n w) (.close c)) = some ([⟨off, .scalar id s, v⟩], 0) from rfl]
        refine ⟨fun ⟨_, h⟩ => by cases h; exact .scalar (i := .str v n w) rfl, fun h => ?_⟩
        rcases noAgg h with ⟨_, h, _⟩ | ⟨_, _, _, h, hw⟩ | ⟨_, h, _⟩
        · cases h
        · cases h; exact ⟨0, by rw [hw]; rfl⟩
        · cases h

/-- The parts of an aggregate, as the first node of the stack. -/
theorem first_node {W : Use → Prop} {t : Ty} (off : Nat) (hok : Ok W t) (hs : t.isScalar = false) :
    (parts t off = .nil ∧ currentType ⟨t, off, 0⟩ = none) ∨
      ∃ t' p, NodeAt W ⟨t, off, 0⟩ t' p ∧ ∀ is ws r, Fill same (parts t off) is ws r ↔ Fill same (.cons off t' (app p .nil)) is ws r := by
  match t, hok, hs with
  | .scalar _ _, _, hs => cases hs
  | .array n e, hok, _ =>
    have hoke : Ok W e := ⟨hok.1.2, fun w hw => (hok.2 w hw).2⟩
    have hn : 0 < n := hok.1.1
    refine .inr ⟨e, _, .array hoke hn, fun is ws r => ?_⟩
    rw [app_nil, parts]
    conv => lhs; rw [show n = (n - 0 - 1) + 1 by omega]
    rfl
  | .flex e, hok, _ =>
    have hoke : Ok W e := ⟨hok.1, fun w hw => (hok.2 w hw).2⟩
    refine .inr ⟨e, _, .flex hoke, fun is ws r => ?_⟩
    rw [app_nil, parts]
    exact fill_forever
  | .struct id s .nil, _, _ => exact .inl ⟨rfl, rfl⟩
  | .struct id s (.cons a o t r), hok, _ =>
    have hm : OkM W (.cons a o t r) := okM _ hok.1.1 hok.2
    have ho : o = 0 := hok.1.2
    subst ho
    refine .inr ⟨t, _, .struct hm .start, fun is ws r => ?_⟩
    rw [app_nil, parts, members]
    rfl
  | .union id s .nil, _, _ => exact .inl ⟨rfl, rfl⟩
  | .union id s (.cons a o t r), hok, _ =>
    have hm : OkM W (.cons a o t r) := okM _ hok.1.1 (fun u hu => (hok.2 u hu).2)
    have ho : o = 0 := hok.1.2
    subst ho
    refine .inr ⟨t, _, .union hm.1 (entries_first _ _ _ _), fun is ws r => ?_⟩
    rw [app_nil, parts]
    rfl

theorem claim_step {W : Use → Prop} {is : Items} (ihr : ∀ i rest, is = .cons i rest → Claim same W rest) (ihd : ∀ d ds rest, is = .desig d ds rest → Claim same W rest) (ihb : ∀ is' rest, is = .cons (.braces is') rest → Claim same W is') : Claim same W is := by
  intro hW
  constructor
  · intro t off hok ws
    cases hs : t.isScalar with
    | true =>
      cases t with
      | scalar id s =>
        rw [show start (.scalar id s) off = .scalar (.scalar id s) off from rfl]
        refine parse_scalar (fun is' rest he ws => ?_) ws
        subst he
        have := ((ihb is' rest rfl) hW.1).1 (.scalar id s) off hok ws
        exact this
      | array => cases hs
      | flex => cases hs
      | struct => cases hs
      | union => cases hs
    | false =>
      have hstart : start t off = .aggregate t off [⟨t, off, 0⟩] 0 := by unfold start; rw [hs]; rfl
      rw [hstart]
      cases is with
      | close c =>
        rw [parse_close, braced_aggregate hs (fun _ _ h => by cases h), done_over (is := .close c) trivial, designated_close]
      | desig d ds rest =>
        rw [desig_spec hW (ihd d ds rest rfl) hok, braced_aggregate hs (fun _ _ h => by cases h), done_over (is := .desig d ds rest) trivial]
      | cons i rest =>
        have hsf := stringFor_iff (same := same) hW.1 hok.2
        rcases first_node (same := same) off hok hs with ⟨hnil, hcur⟩ | ⟨t', p, hn, hp⟩
        · have hnone : parse same (.aggregate t off [⟨t, off, 0⟩] 0) (.cons i rest) = none := by
            cases hb : i.isBraces with
            | true => cases i with
              | braces => rw [parse, hcur]
              | expr => cases hb
              | str => cases hb
            | false => rw [parse_item _ _ _ _ _ hb, hcur]
          rw [hnone]
          refine ⟨fun ⟨_, h⟩ => (by cases h), fun h => ?_⟩
          have hns : ¬ StringFor same i t := by
            rw [hsf]
            intro h
            cases t with
            | scalar => cases hs
            | array => simp [currentType] at hcur
            | flex => simp [currentType] at hcur
            | struct => cases i <;> cases h
            | union => cases i <;> cases h
          rw [braced_aggregate hs (fun _ _ h => by cases h; exact hns), hnil] at h
          rw [done_nil] at h
          cases h
        · by_cases hsp : special ⟨t, off, 0⟩ i = true
          · have hm : stringMatches i t = true := by simpa [special] using hsp
            have hstr := hsf.mpr hm
            rw [braced_string hs hstr]
            have hparse : parse same (.aggregate t off [⟨t, off, 0⟩] 0) (.cons i rest) =
                if stringFits i t = true then (parse same (.aggregate t off [] (Nat.max 0 (stringTrailing i t))) rest).map fun x => (⟨off, t, i.value⟩ :: x.1, x.2) else none := by
              cases i with
              | expr => cases t <;> cases hm
              | braces => cases t <;> cases hm
              | str v n w => rw [parse_item _ _ _ _ _ rfl, hn.current]; simp only [hsp, if_true]
            rw [hparse]
            by_cases hf : stringFits i t = true
            · rw [if_pos hf, map_some (f := fun l => ⟨off, t, i.value⟩ :: l)]
              have hrest := ((ihr i rest rfl) hW.2).2 t off [] (Nat.max 0 (stringTrailing i t)) .nil hok .nil (fun _ _ _ _ _ h => by cases h)
              simp only [done_nil] at hrest
              constructor
              · rintro ⟨ws', rfl, h⟩
                exact ⟨(room_iff _ _).mpr hf, ws', (hrest ws').mp h, rfl⟩
              · rintro ⟨_, ws', h, rfl⟩
                exact ⟨ws', rfl, (hrest ws').mpr h⟩
            · rw [if_neg hf]
              exact ⟨fun ⟨_, h⟩ => (by cases h), fun ⟨h, _⟩ => absurd ((room_iff _ _).mp h) hf⟩
          · have hsp' : special ⟨t, off, 0⟩ i = false := by simpa using hsp
            have hns : ¬ StringFor same i t := by
              rw [hsf]
              intro h
              apply hsp
              simp [special, h]
            rw [item_spec hW.1 hW.2 (ihr i rest rfl) (fun is' h => ihb is' rest (by rw [h])) hn .nil hsp' hok, braced_aggregate hs (fun _ _ h => by cases h; exact hns)]
            exact (done_congr (hp _) ws).symm
  · intro t base st tr ps hok hrem hst ws
    cases is with
    | close c => rw [parse_close, done_over (is := .close c) trivial, designated_close]
    | desig d ds rest => rw [desig_spec hW (ihd d ds rest rfl) hok, done_over (is := .desig d ds rest) trivial]
    | cons i rest =>
      cases hrem with
      | nil =>
        rw [done_nil]
        refine ⟨fun ⟨_, h⟩ => ?_, fun h => by cases h⟩
        cases i <;> rw [parse] at h <;> cases h
      | cons hn ha =>
        exact item_spec hW.1 hW.2 (ihr i rest rfl) (fun is' h => ihb is' rest (by rw [h])) hn ha (hst _ _ _ _ rfl rfl) hok base tr ws

theorem claim (W : Use → Prop) : (is : Items) → Claim same W is
  | .close c => claim_step (fun _ _ h => by cases h) (fun _ _ _ h => by cases h) (fun _ _ h => by cases h)
  | .cons (.expr v ty) rest =>
    have ih := claim W rest
    claim_step (fun _ _ h => by cases h; exact ih) (fun _ _ _ h => by cases h) (fun _ _ h => by cases h)
  | .cons (.str v n w) rest =>
    have ih := claim W rest
    claim_step (fun _ _ h => by cases h; exact ih) (fun _ _ _ h => by cases h) (fun _ _ h => by cases h)
  | .cons (.braces is) rest =>
    have ih := claim W rest
    have ihb := claim W is
    claim_step (fun _ _ h => by cases h; exact ih) (fun _ _ _ h => by cases h) (fun _ _ h => by cases h; exact ihb)
  | .desig d ds rest =>
    have ih := claim W rest
    claim_step (fun _ _ h => by cases h) (fun _ _ _ h => by cases h; exact ih) (fun _ _ h => by cases h)

/-- **C24**: for all types, all nestings of braces and all numbers of initializers, the compiler writes
what C says and reports an error if C has no meaning for the list. The conditions: no array has
elements that are aggregates of the width of a string literal in the list; with designators, an unnamed member
is a member of a structure and has only named members; and after designators that end with `[0]` there is no
string of the width of an element. -/
theorem C24_list_partial (same : Ty → Ty → Bool) (t : Ty) (off : Nat) (is : Items) (ht : t.Good) (hw : is.Uses (t.Suits ·)) (ws : List Write) :
    (∃ tr, initList same t off is = some (ws, tr)) ↔ Braced same t off is ws :=
  ((claim (same := same) (t.Suits ·) is) hw).1 t off ⟨ht, fun _ h => h⟩ ws

/-! ## Lists without nested braces -/

theorem writes_append (a b : List (Nat × Ty)) (vs : List Nat) : writes (a ++ b) vs = writes a vs ++ writes b (vs.drop a.length) := by
  induction a generalizing vs with
  | nil => rfl
  | cons x a ih =>
    cases vs with
    | nil => simp [writes]
    | cons v vs =>
      have := ih vs
      simp only [writes, List.cons_append, List.zipWith_cons_cons, List.length_cons, List.drop_succ_cons] at this ⊢
      rw [this]

theorem flat_cons (sc : Ty) (v : Nat) (vs : List Nat) (c : Bool) : flat sc (v :: vs) c = .cons (.expr v sc) (flat sc vs c) := rfl

/-- Filling `ps` from a list without braces fills the scalars `os`. -/
def FillsFlat (same : Ty → Ty → Bool) (sc : Ty) (ps : Parts) (os : List (Nat × Ty)) : Prop :=
  ∀ vs c ws r, Fill same ps (flat sc vs c) ws r ↔ ws = writes os vs ∧ r = flat sc (vs.drop os.length) c

/-- Taking from a list without braces fills the scalars `os`. -/
def TakesFlat (same : Ty → Ty → Bool) (sc : Ty) (t : Ty) (off : Nat) (os : List (Nat × Ty)) : Prop :=
  ∀ v vs c ws r, Takes same t off (flat sc (v :: vs) c) ws r ↔ ws = writes os (v :: vs) ∧ r = flat sc ((v :: vs).drop os.length) c

theorem fillsFlat_nil (sc : Ty) : FillsFlat same sc .nil [] := by
  intro vs c ws r
  rw [fill_nil]
  rfl

theorem fillsFlat_cons {sc : Ty} {off : Nat} {t : Ty} {ps : Parts} {os os' : List (Nat × Ty)} (h1 : TakesFlat same sc t off os) (h2 : FillsFlat same sc ps os') :
    FillsFlat same sc (.cons off t ps) (os ++ os') := by
  intro vs c ws r
  cases vs with
  | nil =>
    rw [show flat sc [] c = .close c from rfl, fill_close]
    simp [writes, flat]
  | cons v vs =>
    rw [flat_cons, fill_cons]
    constructor
    · rintro ⟨ws1, ws2, r1, rfl, ht, hf⟩
      obtain ⟨rfl, rfl⟩ := (h1 v vs c _ _).mp ht
      obtain ⟨rfl, rfl⟩ := (h2 _ c _ _).mp hf
      exact ⟨(writes_append _ _ _).symm, by rw [List.length_append, List.drop_drop]⟩
    · rintro ⟨rfl, rfl⟩
      refine ⟨_, _, _, writes_append _ _ _, (h1 v vs c _ _).mpr ⟨rfl, rfl⟩, (h2 _ c _ _).mpr ⟨rfl, ?_⟩⟩
      rw [List.length_append, List.drop_drop]

theorem fillsFlat_elements {sc : Ty} {e : Ty} (he : ∀ off, TakesFlat same sc e off (leaves e off)) (n off : Nat) :
    FillsFlat same sc (elements off e n) ((List.range n).flatMap fun i => leaves e (off + i * e.size)) := by
  induction n generalizing off with
  | zero => exact fillsFlat_nil sc
  | succ n ih =>
    have := fillsFlat_cons (he off) (ih (off + e.size))
    rw [List.range_succ_eq_map, List.flatMap_cons, List.flatMap_map]
    simp only [Nat.zero_mul, Nat.add_zero]
    have hf : (fun i => leaves e (off + (i + 1) * e.size)) = fun i => leaves e (off + e.size + i * e.size) := by
      funext i
      rw [Nat.add_mul, Nat.one_mul, Nat.add_comm (i * e.size), Nat.add_assoc]
    simp only [Nat.succ_eq_add_one]
    rw [hf]
    exact this

theorem takesFlat_elided {sc : Ty} {t : Ty} {off : Nat} {os : List (Nat × Ty)} (hs : t.isScalar = false) (hsame : same sc t = false) (hne : parts t off ≠ .nil)
    (h : FillsFlat same sc (parts t off) os) : TakesFlat same sc t off os := by
  intro v vs c ws r
  rw [flat_cons, takes_elided rfl hs (by simp [Whole, hsame])]
  rw [← flat_cons, h]
  exact ⟨fun h => h.2, fun h => ⟨hne, h⟩⟩

mutual
theorem takesFlat {sc : Ty} (hsame : ∀ t, t.isScalar = false → same sc t = false) : (t : Ty) → t.Good → t.Fixed → t.Full → ∀ off, TakesFlat same sc t off (leaves t off)
  | .scalar id s, _, _, _, off => by
    intro v vs c ws r
    rw [flat_cons, takes_scalar rfl]
    rfl
  | .array n e, hg, hx, hf, off => by
    have ih := takesFlat hsame e hg.2 hx hf
    refine takesFlat_elided rfl (hsame _ rfl) ?_ (fillsFlat_elements ih n off)
    rw [parts]
    cases n with
    | zero => exact absurd hg.1 (Nat.lt_irrefl 0)
    | succ n => exact fun h => by cases h
  | .flex e, _, hx, _, _ => hx.elim
  | .struct id s ms, hg, hx, hf, off => by
    refine takesFlat_elided rfl (hsame _ rfl) ?_ (fillsFlat_members hsame ms s hg.1 hx hf.2 off)
    cases ms with
    | nil => exact absurd rfl hf.1
    | cons => exact fun h => by cases h
  | .union id s .nil, _, _, hf, _ => absurd rfl hf.1
  | .union id s (.cons a o t r), hg, hx, hf, off => by
    have ih := takesFlat hsame t hg.1.2.1 hx.1 hf.2.1 (off + o)
    refine takesFlat_elided rfl (hsame _ rfl) (fun h => by cases h) ?_
    rw [parts, leaves, ← List.append_nil (leaves t (off + o))]
    exact fillsFlat_cons ih (fillsFlat_nil sc)
theorem fillsFlat_members {sc : Ty} (hsame : ∀ t, t.isScalar = false → same sc t = false) : (ms : Members) → (s : Nat) → ms.Good s → ms.Fixed → ms.Full → ∀ off, FillsFlat same sc (members off ms) (leavesOf ms off)
  | .nil, _, _, _, _, _ => fillsFlat_nil sc
  | .cons _ o t r, s, hg, hx, hf, off => by
    rw [members, leavesOf]
    exact fillsFlat_cons (takesFlat hsame t hg.2.1 hx.1 hf.1 (off + o)) (fillsFlat_members hsame r s hg.2.2 hx.2 hf.2 off)
end

theorem flat_uses (sc : Ty) (p : Use → Prop) (vs : List Nat) (c : Bool) : (flat sc vs c).Uses p := by
  induction vs with
  | nil => trivial
  | cons v vs ih => exact ⟨trivial, ih⟩

/-- **C24**: in a list without nested braces the values initialize the scalars of the object one after
the other, in the order of their declarations; a list with more values than there are scalars is
rejected. -/
theorem C24_flat (same : Ty → Ty → Bool) (sc t : Ty) (off : Nat) (vs : List Nat) (comma : Bool) (hsame : ∀ t, t.isScalar = false → same sc t = false)
    (hs : t.isScalar = false) (hg : t.Good) (hx : t.Fixed) (hf : t.Full) :
    (initList same t off (flat sc vs comma)).map (·.1) = if vs.length ≤ (leaves t off).length then some (writes (leaves t off) vs) else none := by
  have hiff := C24_list_partial same t off (flat sc vs comma) hg (flat_uses _ _ _ _)
  have hfill : FillsFlat same sc (parts t off) (leaves t off) := by
    match t, hs, hg, hx, hf with
    | .scalar _ _, hs, _, _, _ => cases hs
    | .array n e, _, hg, hx, hf => exact fillsFlat_elements (takesFlat hsame e hg.2 hx hf) n off
    | .flex _, _, _, hx, _ => exact hx.elim
    | .struct _ _ ms, _, hg, hx, hf => exact fillsFlat_members hsame ms _ hg.1 hx hf.2 off
    | .union _ _ .nil, _, _, _, hf => exact absurd rfl hf.1
    | .union _ _ (.cons _ o t _), _, hg, hx, hf =>
      rw [parts, leaves, ← List.append_nil (leaves t (off + o))]
      exact fillsFlat_cons (takesFlat hsame t hg.1.2.1 hx.1 hf.2.1 (off + o)) (fillsFlat_nil sc)
  have hb : ∀ ws, Braced same t off (flat sc vs comma) ws ↔ vs.length ≤ (leaves t off).length ∧ ws = writes (leaves t off) vs := by
    intro ws
    rw [braced_aggregate hs (fun i rest he h => by
      cases vs with
      | nil => cases he
      | cons v vs => cases he; exact h)]
    constructor
    · rintro ⟨ws1, ws2, r, rfl, h, hdes⟩
      obtain ⟨rfl, rfl⟩ := (hfill _ _ _ _).mp h
      cases hd : vs.drop (leaves t off).length with
      | nil =>
        rw [hd] at hdes
        rw [designated_close.mp hdes, List.append_nil]
        exact ⟨List.drop_eq_nil_iff.mp hd, rfl⟩
      | cons v l => rw [hd] at hdes; cases hdes
    · rintro ⟨h, rfl⟩
      refine ⟨_, [], .close comma, by rw [List.append_nil], (hfill _ _ _ _).mpr ⟨rfl, ?_⟩, .close⟩
      rw [List.drop_eq_nil_iff.mpr h]
      rfl
  split
  · rename_i hle
    obtain ⟨tr, h⟩ := (hiff _).mpr ((hb _).mpr ⟨hle, rfl⟩)
    rw [h]; rfl
  · rename_i hgt
    cases hp : initList same t off (flat sc vs comma) with
    | none => rfl
    | some x =>
      obtain ⟨ws, tr⟩ := x
      exact absurd ((hb ws).mp ((hiff ws).mp ⟨tr, hp⟩)).1 hgt

/-! ## The writes are inside of the object -/

/-- Parts inside of `[lo, hi)`. -/
def PartsIn (lo hi : Nat) : Parts → Prop
  | .nil => True
  | .cons o t r => (lo ≤ o ∧ o + t.size ≤ hi ∧ t.Good ∧ t.Fixed) ∧ PartsIn lo hi r
  | .forever _ _ => False

theorem elements_in {lo hi : Nat} {e : Ty} (hg : e.Good) (hx : e.Fixed) (n off : Nat) (h1 : lo ≤ off) (h2 : off + n * e.size ≤ hi) : PartsIn lo hi (elements off e n) := by
  induction n generalizing off with
  | zero => trivial
  | succ n ih =>
    rw [Nat.add_mul, Nat.one_mul] at h2
    exact ⟨⟨h1, by omega, hg, hx⟩, ih (off + e.size) (by omega) (by omega)⟩

theorem members_in {lo hi off s : Nat} (h1 : lo ≤ off) (h2 : off + s ≤ hi) : (ms : Members) → ms.Good s → ms.Fixed → PartsIn lo hi (members off ms)
  | .nil, _, _ => trivial
  | .cons _ _ _ r, hg, hx => ⟨⟨by omega, by have := hg.1; omega, hg.2.1, hx.1⟩, members_in h1 h2 r hg.2.2 hx.2⟩

theorem parts_in {lo hi off : Nat} (t : Ty) (hg : t.Good) (hx : t.Fixed) (h1 : lo ≤ off) (h2 : off + t.size ≤ hi) : PartsIn lo hi (parts t off) := by
  match t, hg, hx, h2 with
  | .scalar _ _, _, _, _ => trivial
  | .array n e, hg, hx, h2 => exact elements_in hg.2 hx n off h1 h2
  | .flex _, _, hx, _ => exact hx.elim
  | .struct _ _ ms, hg, hx, h2 => exact members_in h1 h2 ms hg.1 hx
  | .union _ _ .nil, _, _, _ => trivial
  | .union _ s (.cons _ o t _), hg, hx, h2 =>
    have := hg.1.1
    simp only [Ty.size] at h2
    exact ⟨⟨by omega, by omega, hg.1.2.1, hx.1⟩, trivial⟩

/-- The writes are inside of `[lo, hi)`. -/
def WritesIn (lo hi : Nat) (ws : List Write) : Prop := ∀ w ∈ ws, lo ≤ w.offset ∧ w.offset + w.type.size ≤ hi

theorem writesIn_one {lo hi off v : Nat} {t : Ty} (h1 : lo ≤ off) (h2 : off + t.size ≤ hi) : WritesIn lo hi [⟨off, t, v⟩] := by
  intro w hw
  rw [List.mem_singleton] at hw
  subst hw
  exact ⟨h1, h2⟩

theorem writesIn_append {lo hi : Nat} {a b : List Write} (ha : WritesIn lo hi a) (hb : WritesIn lo hi b) : WritesIn lo hi (a ++ b) := by
  intro w hw
  rcases List.mem_append.mp hw with h | h
  · exact ha w h
  · exact hb w h

theorem WritesIn.mono {lo hi lo' hi' : Nat} {a : List Write} (h : WritesIn lo hi a) (h1 : lo' ≤ lo) (h2 : hi ≤ hi') : WritesIn lo' hi' a := by
  intro w hw
  have := h w hw
  omega

theorem app_in {lo hi : Nat} {p q : Parts} (hp : PartsIn lo hi p) (hq : PartsIn lo hi q) : PartsIn lo hi (app p q) := by
  induction p with
  | nil => exact hq
  | cons o t p ih => exact ⟨hp.1, ih hp.2⟩
  | forever => exact hp.elim

/-- A selected object and the parts after it are inside. -/
def SelectedIn (lo hi : Nat) (x : Nat × Ty × Parts) : Prop := lo ≤ x.1 ∧ x.1 + x.2.1.size ≤ hi ∧ x.2.1.Good ∧ x.2.1.Fixed ∧ PartsIn lo hi x.2.2

mutual
theorem member_in {name base lo hi : Nat} (t : Ty) (hg : t.Good) (hx : t.Fixed) (h1 : lo ≤ base) (h2 : base + t.size ≤ hi) {x : Nat × Ty × Parts} (h : member name base t = some x) : SelectedIn lo hi x := by
  match t, hg, hx, h2 with
  | .scalar _ _, _, _, _ => cases h
  | .array _ _, _, _, _ => cases h
  | .flex _, _, _, _ => cases h
  | .struct _ _ ms, hg, hx, h2 => exact inStruct_in ms hg.1 hx h1 h2 h
  | .union _ _ ms, hg, hx, h2 => exact inUnion_in ms hg.1 hx h1 h2 h
theorem inStruct_in {name base s lo hi : Nat} (ms : Members) (hg : ms.Good s) (hx : ms.Fixed) (h1 : lo ≤ base) (h2 : base + s ≤ hi) {x : Nat × Ty × Parts} (h : inStruct name base ms = some x) : SelectedIn lo hi x := by
  match ms, hg, hx with
  | .nil, _, _ => cases h
  | .cons (some m) o t rest, hg, hx =>
    rw [inStruct] at h
    have := hg.1
    split at h
    · cases h
      exact ⟨by simp only; omega, by simp only; omega, hg.2.1, hx.1, members_in h1 h2 rest hg.2.2 hx.2⟩
    · exact inStruct_in rest hg.2.2 hx.2 h1 h2 h
  | .cons none o t rest, hg, hx =>
    rw [inStruct] at h
    have := hg.1
    cases hm : member name (base + o) t with
    | none =>
      rw [hm] at h
      exact inStruct_in rest hg.2.2 hx.2 h1 h2 h
    | some y =>
      rw [hm] at h
      cases h
      have ih := member_in t hg.2.1 hx.1 (show lo ≤ base + o by omega) (show base + o + t.size ≤ hi by omega) hm
      exact ⟨ih.1, ih.2.1, ih.2.2.1, ih.2.2.2.1, app_in ih.2.2.2.2 (members_in h1 h2 rest hg.2.2 hx.2)⟩
theorem inUnion_in {name base s lo hi : Nat} (ms : Members) (hg : ms.Good s) (hx : ms.Fixed) (h1 : lo ≤ base) (h2 : base + s ≤ hi) {x : Nat × Ty × Parts} (h : inUnion name base ms = some x) : SelectedIn lo hi x := by
  match ms, hg, hx with
  | .nil, _, _ => cases h
  | .cons (some m) o t rest, hg, hx =>
    rw [inUnion] at h
    have := hg.1
    split at h
    · cases h
      exact ⟨by simp only; omega, by simp only; omega, hg.2.1, hx.1, trivial⟩
    · exact inUnion_in rest hg.2.2 hx.2 h1 h2 h
  | .cons none o t rest, hg, hx =>
    rw [inUnion] at h
    have := hg.1
    cases hm : member name (base + o) t with
    | none =>
      rw [hm] at h
      exact inUnion_in rest hg.2.2 hx.2 h1 h2 h
    | some y =>
      rw [hm] at h
      cases h
      exact member_in t hg.2.1 hx.1 (show lo ≤ base + o by omega) (show base + o + t.size ≤ hi by omega) hm
end

theorem selectOne_in {lo hi off : Nat} (d : Desig) (t : Ty) (hg : t.Good) (hx : t.Fixed) (h1 : lo ≤ off) (h2 : off + t.size ≤ hi) {x : Nat × Ty × Parts} (h : selectOne d t off = some x) : SelectedIn lo hi x := by
  match d, t, hg, hx, h2 with
  | .member name, t, hg, hx, h2 => exact member_in t hg hx h1 h2 h
  | .index i, .scalar _ _, _, _, _ => cases h
  | .index i, .struct _ _ _, _, _, _ => cases h
  | .index i, .union _ _ _, _, _, _ => cases h
  | .index i, .flex _, _, hx, _ => exact hx.elim
  | .index i, .array n e, hg, hx, h2 =>
    rw [selectOne] at h
    split at h
    · rename_i hi'
      cases h
      simp only [Ty.size] at h2
      have h3 : (i + 1) * e.size + (n - i - 1) * e.size = n * e.size := by rw [← Nat.add_mul]; congr 1; omega
      have h4 : (i + 1) * e.size = i * e.size + e.size := by rw [Nat.add_mul, Nat.one_mul]
      exact ⟨by simp only; omega, by simp only; omega, hg.2, hx, elements_in hg.2 hx (n - i - 1) _ (by omega) (by omega)⟩
    · cases h

theorem select_in {lo hi : Nat} (ds : List Desig) (t : Ty) (off : Nat) (hg : t.Good) (hx : t.Fixed) (h1 : lo ≤ off) (h2 : off + t.size ≤ hi) {x : Nat × Ty × Parts} (h : select ds t off = some x) : SelectedIn lo hi x := by
  induction ds generalizing t off x with
  | nil => cases h; exact ⟨h1, h2, hg, hx, trivial⟩
  | cons d ds ih =>
    rw [select] at h
    cases hs : selectOne d t off with
    | none => rw [hs] at h; cases h
    | some y =>
      have hy := selectOne_in d t hg hx h1 h2 hs
      rw [hs] at h
      simp only at h
      cases hs' : select ds y.2.1 y.1 with
      | none => rw [hs'] at h; cases h
      | some z =>
        rw [hs'] at h
        cases h
        have hz := ih y.2.1 y.1 hy.2.2.1 hy.2.2.2.1 hy.1 hy.2.1 hs'
        exact ⟨hz.1, hz.2.1, hz.2.2.1, hz.2.2.2.1, app_in hz.2.2.2.2 hy.2.2.2.2⟩

mutual
theorem takes_in {lo hi : Nat} {t : Ty} {off : Nat} {is : Items} {ws : List Write} {r : Items} (h : Takes same t off is ws r) (hg : t.Good) (hx : t.Fixed) (h1 : lo ≤ off) (h2 : off + t.size ≤ hi) : WritesIn lo hi ws :=
  match h with
  | .scalar _ => writesIn_one h1 h2
  | .whole _ _ => writesIn_one h1 h2
  | .braces h => braced_in h hg hx h1 h2
  | .elided _ _ _ _ h => fill_in h (parts_in t hg hx h1 h2)
theorem fill_in {lo hi : Nat} {ps : Parts} {is : Items} {ws : List Write} {r : Items} (h : Fill same ps is ws r) (hp : PartsIn lo hi ps) : WritesIn lo hi ws :=
  match h with
  | .noItems => fun _ h => absurd h List.not_mem_nil
  | .noParts => fun _ h => absurd h List.not_mem_nil
  | .designator => fun _ h => absurd h List.not_mem_nil
  | .part ht hf => writesIn_append (takes_in ht hp.1.2.2.1 hp.1.2.2.2 hp.1.1 hp.1.2.1) (fill_in hf hp.2)
  | .element _ _ => hp.elim
theorem braced_in {lo hi : Nat} {t : Ty} {off : Nat} {is : Items} {ws : List Write} (h : Braced same t off is ws) (hg : t.Good) (hx : t.Fixed) (h1 : lo ≤ off) (h2 : off + t.size ≤ hi) : WritesIn lo hi ws :=
  match h with
  | .aggregate _ _ h h' => writesIn_append (fill_in h (parts_in t hg hx h1 h2)) (designated_in h' hg hx h1 h2)
  | .string _ _ h => writesIn_append (a := [_]) (writesIn_one h1 h2) (designated_in h hg hx h1 h2)
  | .scalar _ => writesIn_one h1 h2
  | .nested h => braced_in h hg hx h1 h2
  | .zero => writesIn_one h1 h2
theorem designated_in {lo hi : Nat} {t : Ty} {off : Nat} {is : Items} {ws : List Write} (h : Designated same t off is ws) (hg : t.Good) (hx : t.Fixed) (h1 : lo ≤ off) (h2 : off + t.size ≤ hi) : WritesIn lo hi ws :=
  match h with
  | .close => fun _ h => absurd h List.not_mem_nil
  | .next hs h h' =>
    have hin := select_in _ t off hg hx h1 h2 hs
    writesIn_append (fill_in h ⟨⟨hin.1, hin.2.1, hin.2.2.1, hin.2.2.2.1⟩, hin.2.2.2.2⟩) (designated_in h' hg hx h1 h2)
end

/-- **C24**: all writes are inside of the object. -/
theorem C24_inside_partial (same : Ty → Ty → Bool) (t : Ty) (off : Nat) (is : Items) (hg : t.Good) (hx : t.Fixed) (hw : is.Uses (t.Suits ·)) (ws : List Write) (tr : Nat)
    (h : initList same t off is = some (ws, tr)) : ∀ w ∈ ws, off ≤ w.offset ∧ w.offset + w.type.size ≤ off + t.size :=
  braced_in ((C24_list_partial same t off is hg hw ws).mp ⟨tr, h⟩) hg hx (Nat.le_refl _) (Nat.le_refl _)

/-! ## Arrays of unknown size -/

/-- The nodes above an array of unknown size are inside of one of its elements. -/
inductive Inside (W : Use → Prop) (lo hi : Nat) : List Node → Prop
  | nil : Inside W lo hi []
  | cons {n : Node} {st : List Node} {t : Ty} {p : Parts} : NodeAt W n t p → t.Fixed → lo ≤ n.offset → n.offset + t.size ≤ hi → PartsIn lo hi p → Inside W lo hi st → Inside W lo hi (n :: st)

theorem descend_in {W : Use → Prop} {lo hi : Nat} {i : Item} {off : Nat} {tail : List Node} (h1 : lo ≤ off) (t : Ty) (st : List Node) (hok : Ok W t) (hx : t.Fixed) (h2 : off + t.size ≤ hi) (hin : Inside W lo hi st)
    {w : Write} {st' : List Node} (hd : descend same i off t (st ++ tail) = some (w, st')) :
    (∃ st1, st' = st1 ++ tail ∧ Inside W lo hi st1) ∧ lo ≤ w.offset ∧ w.offset + w.type.size ≤ hi ∧ stringTrailing i w.type = 0 := by
  have done : ∀ {x : Ty}, off + x.size ≤ hi → (∀ e, x ≠ .flex e) → some ((⟨off, x, i.value⟩ : Write), st ++ tail) = some (w, st') → (∃ st1, st' = st1 ++ tail ∧ Inside W lo hi st1) ∧ lo ≤ w.offset ∧ w.offset + w.type.size ≤ hi ∧ stringTrailing i w.type = 0 := by
    intro x hx hnf h
    cases h
    refine ⟨⟨st, rfl, hin⟩, h1, hx, ?_⟩
    cases i with
    | expr => rfl
    | braces => rfl
    | str => cases x with
      | flex e => exact absurd rfl (hnf e)
      | _ => rfl
  match t, hok, hx, h2 with
  | .scalar id s, _, _, h2 => rw [descend] at hd; exact done h2 (fun _ h => by cases h) hd
  | .flex e, _, hx, _ => exact hx.elim
  | .array n e, hok, hx, h2 =>
    have hoke : Ok W e := ⟨hok.1.2, fun w hw => (hok.2 w hw).2⟩
    have hn : 0 < n := hok.1.1
    have hsz : n * e.size = e.size + (n - 1) * e.size := by
      obtain ⟨m, rfl⟩ : ∃ m, n = m + 1 := ⟨n - 1, by omega⟩
      rw [Nat.add_sub_cancel, Nat.add_mul, Nat.one_mul, Nat.add_comm]
    simp only [Ty.size] at h2
    rw [descend] at hd
    split at hd
    · split at hd
      · exact done (by simp only [Ty.size]; exact h2) (fun _ h => by cases h) hd
      · cases hd
    · split at hd
      · exact done (by simp only [Ty.size]; exact h2) (fun _ h => by cases h) hd
      · refine descend_in h1 e (⟨.array n e, off, 0⟩ :: st) hoke hx (by omega) (.cons (.array hoke hn) hx h1 (by simp only; omega) ?_ hin) hd
        exact elements_in hoke.1 hx (n - 0 - 1) _ (by omega) (by rw [Nat.sub_zero]; omega)
  | .struct id s .nil, _, _, h2 =>
    rw [descend] at hd
    split at hd
    · exact done (by simp only [Ty.size]; exact h2) (fun _ h => by cases h) hd
    · cases hd
  | .struct id s (.cons a o t r), hok, hx, h2 =>
    have hm : OkM W (.cons a o t r) := okM _ hok.1.1 hok.2
    have ho : o = 0 := hok.1.2
    subst ho
    have hsz := hok.1.1.1
    simp only [Ty.size] at h2
    rw [descend] at hd
    split at hd
    · exact done (by simp only [Ty.size]; exact h2) (fun _ h => by cases h) hd
    · refine descend_in h1 t (⟨.struct id s (.cons a 0 t r), off, 0⟩ :: st) hm.1 hx.1 (by omega) (.cons (.struct (base := off) hm .start) hx.1 h1 (by simp only; omega) ?_ hin) hd
      exact members_in h1 h2 r hok.1.1.2.2 hx.2
  | .union id s .nil, _, _, h2 =>
    rw [descend] at hd
    split at hd
    · exact done (by simp only [Ty.size]; exact h2) (fun _ h => by cases h) hd
    · cases hd
  | .union id s (.cons a o t r), hok, hx, h2 =>
    have hm : OkM W (.cons a o t r) := okM _ hok.1.1 (fun u hu => (hok.2 u hu).2)
    have ho : o = 0 := hok.1.2
    subst ho
    have hsz := hok.1.1.1
    simp only [Ty.size] at h2
    rw [descend] at hd
    split at hd
    · exact done (by simp only [Ty.size]; exact h2) (fun _ h => by cases h) hd
    · exact descend_in h1 t (⟨.union id s (.cons a 0 t r), off, 0⟩ :: st) hm.1 hx.1 (by omega) (.cons (.union hm.1 (entries_first _ _ _ _)) hx.1 h1 (by simp only; omega) trivial hin) hd

/-- The node of an array of unknown size at its element `k`. -/
def flexNode (e : Ty) (off k : Nat) : Node := ⟨.flex e, off + k * e.size, k⟩

theorem advance_flex {e : Ty} {off k : Nat} (b : Bool) (tr : Nat) : advance b [flexNode e off k] tr = ([flexNode e off (k + 1)], Nat.max tr ((k + 1) * e.size)) := by
  simp only [advance, flexNode]
  rw [Nat.add_mul, Nat.one_mul, ← Nat.add_assoc]

/-- Going to the next object inside of the element `k`, or to the element `k + 1`. -/
theorem advance_in {W : Use → Prop} {lo hi : Nat} {e : Ty} {off k : Nat} {above : List Node} (hin : Inside W lo hi above) (tr : Nat) :
    (∃ above', advance false (above ++ [flexNode e off k]) tr = (above' ++ [flexNode e off k], tr) ∧ Inside W lo hi above') ∨
      advance false (above ++ [flexNode e off k]) tr = ([flexNode e off (k + 1)], Nat.max tr ((k + 1) * e.size)) := by
  induction hin with
  | nil => exact .inr (advance_flex false tr)
  | @cons n st t p hn hx h1 h2 hp hst ih =>
    cases hn with
    | @struct id s base k' ms a o t r hm hs =>
      obtain ⟨m, ex, h1', h2', h3⟩ := hs.get
      have hnext := Suffix.next hs h1' h2'
      simp only [List.cons_append, advance, h3]
      cases r with
      | nil =>
        rw [hnext.get_nil]
        exact ih
      | cons a' o' t' r' =>
        obtain ⟨m', ex', _, _, h3'⟩ := hnext.get
        rw [h3']
        simp only
        rw [if_neg (by decide)]
        refine .inl ⟨_ :: st, rfl, .cons (t := t') (p := members base r') (by
          rw [show base + o + o' - o = base + o' by omega]
          exact .struct hm hnext) hp.1.2.2.2 ?_ ?_ hp.2 hst⟩
        · have := hp.1.1
          simp only
          omega
        · have := hp.1.2.1
          simp only
          omega
    | @inStruct id s base k' j ms o id' s' ms' r a' o' t r' hm hm' hnm hs hs' =>
      obtain ⟨m, ex, _, _, h3⟩ := hs'.get
      have hc := hs.get_copied h3
      have hnext' := hs'.next_named hnm
      have hj : j < (entries ms').length := (List.getElem?_eq_some_iff.mp h3).1
      rw [show isUnion (.struct id' s' ms') = false from rfl, if_neg (by decide)] at hc
      simp only [List.cons_append, advance, hc]
      cases r' with
      | cons a2 o2 t2 r2 =>
        obtain ⟨m', ex', _, _, h3'⟩ := hnext'.get
        have hc' := hs.get_copied h3'
        rw [show k' + 1 + j + 1 = k' + 1 + (j + 1) by omega, hc']
        simp only
        rw [if_neg (by decide)]
        refine .inl ⟨_ :: st, rfl, .cons (t := t2) (p := app (members (base + o) r2) (members base r)) (by
          rw [show base + (o + o') + (o + o2) - (o + o') = base + (o + o2) by omega]
          exact .inStruct hm hm' hnm hs hnext') hp.1.2.2.2 ?_ ?_ hp.2 hst⟩
        · have := hp.1.1
          simp only
          omega
        · have := hp.1.2.1
          simp only
          omega
      | nil =>
        have hlen := hnext'.length (by omega)
        have hnext := hs.next_none
        rw [show (nested (.struct id' s' ms')).length = j + 1 from hlen.symm, show k' + (j + 1 + 1) = k' + 1 + j + 1 by omega] at hnext
        simp only [members, app] at hp
        cases r with
        | nil =>
          rw [hnext.get_nil]
          exact ih
        | cons a2 o2 t2 r2 =>
          obtain ⟨m', ex', _, _, h3'⟩ := hnext.get
          rw [h3']
          simp only
          rw [if_neg (by decide)]
          refine .inl ⟨_ :: st, rfl, .cons (t := t2) (p := members base r2) (by
            rw [show base + (o + o') + o2 - (o + o') = base + o2 by omega]
            exact .struct hm hnext) hp.1.2.2.2 ?_ ?_ hp.2 hst⟩
          · have := hp.1.1
            simp only
            omega
          · have := hp.1.2.1
            simp only
            omega
    | @inUnion id s base k' j ms o id' s' ms' r x hm hok hs he =>
      have hc := hs.get_copied he
      have hj : j < (entries ms').length := (List.getElem?_eq_some_iff.mp he).1
      rw [show isUnion (.union id' s' ms') = true from rfl, if_pos rfl] at hc
      have hnext := hs.next_none
      rw [show nested (.union id' s' ms') = entries ms' from rfl] at hc hnext
      rw [show k' + ((entries ms').length + 1) = k' + 1 + j + ((entries ms').length - j) by omega] at hnext
      simp only [List.cons_append, advance, hc]
      cases r with
      | nil =>
        rw [hnext.get_nil]
        exact ih
      | cons a2 o2 t2 r2 =>
        obtain ⟨m', ex', _, _, h3'⟩ := hnext.get
        rw [h3']
        simp only
        rw [if_neg (by decide)]
        refine .inl ⟨_ :: st, rfl, .cons (t := t2) (p := members base r2) (by
          rw [show base + (o + x.offset) + o2 - (o + x.offset) = base + o2 by omega]
          exact .struct hm hnext) hp.1.2.2.2 ?_ ?_ hp.2 hst⟩
        · have := hp.1.1
          simp only
          omega
        · have := hp.1.2.1
          simp only
          omega
    | union hok =>
      simp only [List.cons_append, advance]
      exact ih
    | @array c k' off' e' hok hk =>
      simp only [List.cons_append, advance]
      by_cases hc : k' + 1 < c
      · rw [if_pos (by simp [hc])]
        rw [show c - k' - 1 = (c - (k' + 1) - 1) + 1 by omega] at hp
        exact .inl ⟨_ :: st, rfl, .cons (.array hok hc) hx hp.1.1 hp.1.2.1 hp.2 hst⟩
      · rw [if_neg (by simp [hc])]
        exact ih
    | flex => exact hp.elim

/-- At the end of a list all nodes above an array of unknown size are popped. -/
theorem advance_end {W : Use → Prop} {lo hi : Nat} {e : Ty} {off k : Nat} {above : List Node} (hin : Inside W lo hi above) (tr : Nat) :
    advance true (above ++ [flexNode e off k]) tr = ([flexNode e off (k + 1)], Nat.max tr ((k + 1) * e.size)) := by
  induction hin with
  | nil => exact advance_flex true tr
  | @cons n st t p hn _ _ _ hp _ ih =>
    cases hn with
    | @struct id s base k' ms a o t r hm hs =>
      obtain ⟨m, ex, h1', h2', h3⟩ := hs.get
      simp only [List.cons_append, advance, h3]
      split
      · exact ih
      · rw [if_pos trivial]; exact ih
    | inStruct _ _ _ hs hs' =>
      obtain ⟨m, ex, _, _, h3⟩ := hs'.get
      simp only [List.cons_append, advance, hs.get_copied h3]
      split
      · exact ih
      · rw [if_pos trivial]; exact ih
    | inUnion _ _ hs he =>
      simp only [List.cons_append, advance, hs.get_copied he]
      split
      · exact ih
      · rw [if_pos trivial]; exact ih
    | union => simp only [List.cons_append, advance]; exact ih
    | array => simp only [List.cons_append, advance, Bool.not_true, Bool.false_and]; exact ih
    | flex => exact hp.elim

theorem advance_started (st : List Node) (tr : Nat) : Started (advance false st tr).1 := by
  induction st generalizing tr with
  | nil => trivial
  | cons n st ih =>
    obtain ⟨ty, o, k⟩ := n
    cases ty with
    | scalar => exact ih _
    | union => exact ih _
    | flex e => exact .inl (Nat.succ_ne_zero _)
    | array c e =>
      simp only [advance]
      split
      · exact .inl (Nat.succ_ne_zero _)
      · exact ih _
    | struct id s ms =>
      simp only [advance]
      split
      · exact ih _
      · split
        · exact ih _
        · exact .inr (fun i => by cases i <;> rfl)

theorem flex_inside {W : Use → Prop} {e : Ty} {off : Nat} (hoke : Ok W e) (hx : e.Fixed) (is : Items) (hW : is.Uses W) (hc : is.NoComma) (hd : is.NoDesignators) (t₀ : Ty) :
    ∀ (base k tr : Nat) (above : List Node) (ws : List Write) (tr' : Nat), k * e.size ≤ tr → Inside W (off + k * e.size) (off + (k + 1) * e.size) above →
      (∀ i rest n st, is = .cons i rest → above ++ [flexNode e off k] = n :: st → special n i = false) → parse same (.aggregate t₀ base (above ++ [flexNode e off k]) tr) is = some (ws, tr') →
      tr ≤ tr' ∧ (∀ i rest, is = .cons i rest → (k + 1) * e.size ≤ tr') ∧ WritesIn off (off + tr') ws := by
  match is, hW, hc, hd with
  | .close c, _, _, _ =>
    intro base k tr above ws tr' hk _ _ h
    rw [parse] at h
    cases h
    exact ⟨Nat.le_refl _, fun _ _ h => (by cases h), fun _ h => absurd h List.not_mem_nil⟩
  | .desig _ _ _, _, _, hd => exact hd.elim
  | .cons i rest, hW, hc, hd =>
    intro base k tr above ws tr' hk hin hst h
    have ih := flex_inside (off := off) hoke hx rest hW.2 hc hd t₀
    -- what follows after an item in the element `k`
    have key : ∀ (above1 : List Node) (tr1 : Nat) (ws1 : List Write) (tr2 : Nat), tr ≤ tr1 → Inside W (off + k * e.size) (off + (k + 1) * e.size) above1 →
        parse same (.aggregate t₀ base (advance (atEnd rest) (above1 ++ [flexNode e off k]) tr1).1 (advance (atEnd rest) (above1 ++ [flexNode e off k]) tr1).2) rest = some (ws1, tr2) →
        tr ≤ tr2 ∧ (k + 1) * e.size ≤ tr2 ∧ WritesIn off (off + tr2) ws1 := by
      intro above1 tr1 ws1 tr2 htr hin1 hp
      have hmax1 : tr1 ≤ Nat.max tr1 ((k + 1) * e.size) := Nat.le_max_left _ _
      have hmax2 : (k + 1) * e.size ≤ Nat.max tr1 ((k + 1) * e.size) := Nat.le_max_right _ _
      cases hend : atEnd rest with
      | true =>
        rw [hend, advance_end hin1] at hp
        cases rest with
        | cons => cases hend
        | desig => cases hend
        | close c =>
          rw [parse] at hp
          cases hp
          exact ⟨by omega, hmax2, fun _ h => absurd h List.not_mem_nil⟩
      | false =>
        cases rest with
        | close c =>
          simp only [Items.NoComma] at hc
          subst hc
          cases hend
        | desig => exact hd.elim
        | cons i' rest' =>
          rw [hend] at hp
          rcases advance_in (e := e) (off := off) (k := k) hin1 tr1 with ⟨above2, h2, hin2⟩ | h2
          · rw [h2] at hp
            have hstarted : Started (above2 ++ [flexNode e off k]) := by
              have := advance_started (above1 ++ [flexNode e off k]) tr1
              rw [h2] at this
              exact this
            obtain ⟨a1, a2, a3⟩ := ih base k tr1 above2 ws1 tr2 (by omega) hin2 (fun _ _ n st _ he => special_false (by rw [← he]; exact hstarted) _) hp
            exact ⟨by omega, a2 _ _ rfl, a3⟩
          · rw [h2] at hp
            obtain ⟨a1, a2, a3⟩ := ih base (k + 1) _ [] ws1 tr2 hmax2 .nil (fun _ _ n st _ he => by cases he; exact special_false (st := []) (.inl (by simp [flexNode])) _) hp
            exact ⟨by omega, by omega, a3⟩
    -- the current object is inside of the element `k`
    have hcur : ∃ (n : Node) (st : List Node) (t : Ty), above ++ [flexNode e off k] = n :: st ∧ currentType n = some t ∧ Ok W t ∧ t.Fixed ∧
        off + k * e.size ≤ n.offset ∧ n.offset + t.size ≤ off + (k + 1) * e.size ∧ special n i = false := by
      have hmul : (k + 1) * e.size = k * e.size + e.size := by rw [Nat.add_mul, Nat.one_mul]
      cases hin with
      | nil => exact ⟨_, _, e, rfl, rfl, hoke, hx, Nat.le_refl _, by simp only [flexNode]; omega, hst _ _ _ _ rfl rfl⟩
      | cons hn hx' h1 h2 hp hst' => exact ⟨_, _, _, rfl, hn.current, hn.ok, hx', h1, h2, hst _ _ _ _ rfl rfl⟩
    obtain ⟨n, st, t, hstack, hct, hokt, hxt, hlo, hhi, hsp⟩ := hcur
    have hmono : ∀ {tr2 : Nat} {ws1 : List Write}, (k + 1) * e.size ≤ tr2 → WritesIn (off + k * e.size) (off + (k + 1) * e.size) ws1 → WritesIn off (off + tr2) ws1 :=
      fun h1 h2 => h2.mono (by omega) (by omega)
    cases hb : i.isBraces with
    | true =>
      cases i with
      | expr => cases hb
      | str => cases hb
      | braces is =>
        rw [hstack, parse, hct] at h
        simp only at h
        cases hp : parse same (start t n.offset) is with
        | none => rw [hp] at h; cases h
        | some x =>
          obtain ⟨ws0, tr0⟩ := x
          rw [hp] at h
          simp only at h
          obtain ⟨ws', rfl, tr2, h'⟩ := (map_some (f := fun l => ws0 ++ l)).mp ⟨tr', h⟩
          rw [h'] at h
          simp only [Option.map_some] at h
          cases h
          rw [← hstack] at h'
          obtain ⟨a1, a2, a3⟩ := key above _ ws' tr' (Nat.le_max_left _ _) hin h'
          have hbr := (((claim (same := same) W is) hW.1).1 t n.offset hokt ws0).mp ⟨tr0, hp⟩
          exact ⟨a1, fun _ _ _ => a2, writesIn_append (hmono a2 (braced_in hbr hokt.1 hxt hlo hhi)) a3⟩
    | false =>
      rw [hstack, parse_item _ _ _ _ _ hb, hct] at h
      simp only [hsp] at h
      rw [if_neg (by decide), ← hstack] at h
      cases hde : descend same i n.offset t (above ++ [flexNode e off k]) with
      | none => rw [hde] at h; cases h
      | some x =>
        obtain ⟨w, st'⟩ := x
        rw [hde] at h
        simp only at h
        obtain ⟨⟨st1, rfl, hin1⟩, b1, b2, b3⟩ := descend_in hlo t above hokt hxt hhi hin hde
        obtain ⟨ws', rfl, tr2, h'⟩ := (map_some (f := fun l => w :: l)).mp ⟨tr', h⟩
        rw [h'] at h
        simp only [Option.map_some] at h
        cases h
        obtain ⟨a1, a2, a3⟩ := key st1 _ ws' tr' (Nat.le_max_left _ _) hin1 h'
        refine ⟨a1, fun _ _ _ => a2, writesIn_append (a := [w]) (hmono a2 ?_) a3⟩
        intro x hx
        rw [List.mem_singleton] at hx
        subst hx
        exact ⟨b1, b2⟩

/-- **C24**: an array of unknown size gets a size in which all writes fit, if there is no comma before
the closing brace, and no designators, except in nested braces. -/
theorem C24_unknown_size_partial (same : Ty → Ty → Bool) (e : Ty) (off : Nat) (is : Items) (hg : e.Good) (hx : e.Fixed) (hc : is.NoComma) (hd : is.NoDesignators)
    (hw : is.Uses ((Ty.flex e).Suits ·)) (hstr : ∀ i rest, is = .cons i rest → ¬ StringFor same i (.flex e)) (ws : List Write) (tr : Nat)
    (h : initList same (.flex e) off is = some (ws, tr)) : ∀ w ∈ ws, off ≤ w.offset ∧ w.offset + w.type.size ≤ off + tr := by
  have hok : Ok ((Ty.flex e).Suits ·) (.flex e) := ⟨hg, fun w hw => hw⟩
  have hoke : Ok ((Ty.flex e).Suits ·) e := ⟨hg, fun w hw => hw.2⟩
  refine (flex_inside hoke hx is hw hc hd (.flex e) off 0 0 [] ws tr (by omega) .nil ?_ (by
    have h' : parse same (.aggregate (.flex e) off [⟨.flex e, off, 0⟩] 0) is = some (ws, tr) := h
    simpa [flexNode] using h')).2.2
  rintro i rest n st rfl he
  cases he
  have := mt (stringFor_iff (same := same) hw.1 hok.2).mpr (hstr _ _ rfl)
  simpa [special, flexNode] using this

/-- Each initializer is for one element: the stack has never more than the node of the array. -/
theorem flex_each {W : Use → Prop} {e : Ty} {off : Nat} (hoke : Ok W e) (hx : e.Fixed) (is : Items) (hW : is.Uses W) (hd : e.isScalar = true ∨ is.AllBraced) :
    ∀ (st : List Node) (tr : Nat) (ws : List Write) (tr' : Nat), (st = [] ∨ ∃ k, st = [flexNode e off k]) → parse same (.aggregate (.flex e) off st tr) is = some (ws, tr') →
      tr ≤ tr' ∧ WritesIn off (off + tr') ws := by
  match is, hW, hd with
  | .close c, _, _ =>
    intro st tr ws tr' _ h
    rw [parse] at h
    cases h
    exact ⟨Nat.le_refl _, fun _ h => absurd h List.not_mem_nil⟩
  | .desig d ds rest, hW, hd =>
    intro st tr ws tr' _ h
    rw [parse] at h
    split at h
    · cases hde : designate (d :: ds) (.flex e) off [] with
      | none => rw [hde] at h; cases h
      | some st' =>
        rw [hde] at h
        refine flex_each hoke hx rest hW.2.2 (hd.imp id (·.2)) st' tr ws tr' (.inr ?_) h
        rw [designate] at hde
        cases d with
        | member => cases hde
        | index i =>
          rw [pick] at hde
          simp only at hde
          cases ds with
          | nil =>
            cases hde
            exact ⟨i, rfl⟩
          | cons d' ds' =>
            rcases hd with hs | hs
            · cases e with
              | scalar => cases d' <;> cases hde
              | _ => cases hs
            · cases hs.1
    · cases h
  | .cons i rest, hW, hd =>
    intro st tr ws tr' hst h
    rcases hst with rfl | ⟨k, rfl⟩
    · cases i <;> rw [parse] at h <;> cases h
    have ih := flex_each (off := off) hoke hx rest hW.2 (hd.imp id (·.2))
    have hmul : (k + 1) * e.size = k * e.size + e.size := by rw [Nat.add_mul, Nat.one_mul]
    have hnext : ∀ tr1, advance (atEnd rest) [flexNode e off k] tr1 = ([flexNode e off (k + 1)], Nat.max tr1 ((k + 1) * e.size)) := by
      intro tr1
      simp only [advance, flexNode, hmul, Nat.add_assoc]
    have hmax2 : ∀ tr1, (k + 1) * e.size ≤ Nat.max tr1 ((k + 1) * e.size) := fun _ => Nat.le_max_right _ _
    have hmax1 : ∀ tr1, tr1 ≤ Nat.max tr1 ((k + 1) * e.size) := fun _ => Nat.le_max_left _ _
    cases hb : i.isBraces with
    | true =>
      cases i with
      | expr => cases hb
      | str => cases hb
      | braces is =>
        rw [parse, show currentType (flexNode e off k) = some e from rfl] at h
        simp only at h
        cases hp : parse same (start e (flexNode e off k).offset) is with
        | none => rw [hp] at h; cases h
        | some x =>
          obtain ⟨ws0, tr0⟩ := x
          rw [hp] at h
          simp only [hnext] at h
          obtain ⟨ws', rfl, tr2, h'⟩ := (map_some (f := fun l => ws0 ++ l)).mp ⟨tr', h⟩
          rw [h'] at h
          simp only [Option.map_some] at h
          cases h
          obtain ⟨a1, a2⟩ := ih _ _ ws' tr' (.inr ⟨_, rfl⟩) h'
          have hbr := (((claim (same := same) W is) hW.1).1 e _ hoke ws0).mp ⟨tr0, hp⟩
          have b1 := hmax1 (Nat.max tr tr0)
          have b2 := hmax2 (Nat.max tr tr0)
          have b3 : tr ≤ Nat.max tr tr0 := Nat.le_max_left _ _
          exact ⟨by omega, writesIn_append (braced_in hbr hoke.1 hx (by simp only [flexNode]; omega) (by simp only [flexNode]; omega)) a2⟩
    | false =>
      cases e with
      | scalar id s =>
        rw [parse_item _ _ _ _ _ hb, show currentType (flexNode (.scalar id s) off k) = some (.scalar id s) from rfl] at h
        simp only at h
        split at h
        · split at h
          · obtain ⟨ws', rfl, tr2, h'⟩ := (map_some (f := fun l => Write.mk off (flexNode (.scalar id s) off k).type i.value :: l)).mp ⟨tr', h⟩
            rw [h'] at h
            simp only [Option.map_some] at h
            cases h
            obtain ⟨a1, a2⟩ := ih _ _ ws' tr' (.inl rfl) h'
            have b3 : tr ≤ Nat.max tr (stringTrailing i (flexNode (.scalar id s) off k).type) := Nat.le_max_left _ _
            refine ⟨by omega, writesIn_append (a := [_]) ?_ a2⟩
            exact writesIn_one (Nat.le_refl _) (by simp only [flexNode, Ty.size]; omega)
          · cases h
        · simp only [descend, hnext] at h
          obtain ⟨ws', rfl, tr2, h'⟩ := (map_some (f := fun l => Write.mk (flexNode (.scalar id s) off k).offset (.scalar id s) i.value :: l)).mp ⟨tr', h⟩
          rw [h'] at h
          simp only [Option.map_some] at h
          cases h
          obtain ⟨a1, a2⟩ := ih _ _ ws' tr' (.inr ⟨_, rfl⟩) h'
          have b1 := hmax1 (Nat.max tr (stringTrailing i (Ty.scalar id s)))
          have b2 := hmax2 (Nat.max tr (stringTrailing i (Ty.scalar id s)))
          have b3 : tr ≤ Nat.max tr (stringTrailing i (Ty.scalar id s)) := Nat.le_max_left _ _
          refine ⟨by omega, writesIn_append (a := [_]) (writesIn_one ?_ ?_) a2⟩
          · simp only [flexNode]; omega
          · simp only [flexNode]; omega
      | _ =>
        rcases hd with hs | hs
        · cases hs
        · exact absurd hs.1 (by rw [hb]; decide)

/-- **C24**: an array of unknown size gets a size in which all writes fit, if every initializer is for one
element, because the elements are scalars or the initializers are in braces. There may be designators
like `[3]`, in any order, and a comma before the closing brace. -/
theorem C24_unknown_size_designated (same : Ty → Ty → Bool) (e : Ty) (off : Nat) (is : Items) (hg : e.Good) (hx : e.Fixed) (hw : is.Uses ((Ty.flex e).Suits ·))
    (hd : e.isScalar = true ∨ is.AllBraced) (ws : List Write) (tr : Nat) (h : initList same (.flex e) off is = some (ws, tr)) :
    ∀ w ∈ ws, off ≤ w.offset ∧ w.offset + w.type.size ≤ off + tr :=
  (flex_each (W := ((Ty.flex e).Suits ·)) ⟨hg, fun _ hw => hw.2⟩ hx is hw hd [⟨.flex e, off, 0⟩] 0 ws tr (.inr ⟨0, by simp [flexNode]⟩) h).2

/-- **C24**: for all types, also for unnamed members of unnamed members, designators select the object of C:
its offset and its type are the ones that the initializer gets. -/
theorem C24_designated_object (d : Desig) (ds : List Desig) (t : Ty) (off : Nat) :
    match designate (d :: ds) t off [], select (d :: ds) t off with
    | none, none => True
    | some (n :: _), some (o, t', _) => n.offset = o ∧ currentType n = some t'
    | _, _ => False := by
  have hone : ∀ (d : Desig) (t : Ty) (off : Nat), match pick d t off, selectOne d t off with
      | none, none => True
      | some (k, o, t'), some (o', t'', _) => o = o' ∧ t' = t'' ∧ currentType ⟨t, o, k⟩ = some t'
      | _, _ => False := by
    intro d t off
    cases d with
    | index i =>
      cases t with
      | array n e =>
        rw [pick, selectOne]
        by_cases h : i < n
        · rw [if_pos h, if_pos h]; exact ⟨rfl, rfl, rfl⟩
        · rw [if_neg h, if_neg h]; trivial
      | flex e => exact ⟨rfl, rfl, rfl⟩
      | _ => trivial
    | member name =>
      have hf := found_member name off t
      cases t with
      | struct id s ms =>
        rw [show nested (.struct id s ms) = entries ms from rfl] at hf
        rw [pick, selectOne]
        cases h1 : find name (entries ms) with
        | none =>
          cases h2 : member name off (.struct id s ms) with
          | none => trivial
          | some y => rw [h1, h2] at hf; exact hf.elim
        | some x =>
          cases h2 : member name off (.struct id s ms) with
          | none => rw [h1, h2] at hf; exact hf.elim
          | some y =>
            rw [h1, h2] at hf
            refine ⟨hf.1.symm, hf.2.symm, ?_⟩
            show (entries ms)[x.1]?.map (·.type) = _
            rw [find_get h1]; rfl
      | union id s ms =>
        rw [show nested (.union id s ms) = entries ms from rfl] at hf
        rw [pick, selectOne]
        cases h1 : find name (entries ms) with
        | none =>
          cases h2 : member name off (.union id s ms) with
          | none => trivial
          | some y => rw [h1, h2] at hf; exact hf.elim
        | some x =>
          cases h2 : member name off (.union id s ms) with
          | none => rw [h1, h2] at hf; exact hf.elim
          | some y =>
            rw [h1, h2] at hf
            refine ⟨hf.1.symm, hf.2.symm, ?_⟩
            show (entries ms)[x.1]?.map (·.type) = _
            rw [find_get h1]; rfl
      | _ => trivial
  generalize ([] : List Node) = st
  induction ds generalizing d t off st with
  | nil =>
    have h := hone d t off
    rw [designate, select]
    cases h1 : pick d t off <;> cases h2 : selectOne d t off <;> rw [h1, h2] at h
    · trivial
    · exact h.elim
    · exact h.elim
    · obtain ⟨a, b, c⟩ := h
      simp only [designate, select]
      exact ⟨a, by rw [c, b]⟩
  | cons d' ds ih =>
    have h := hone d t off
    rw [designate, select]
    cases h1 : pick d t off <;> cases h2 : selectOne d t off <;> rw [h1, h2] at h
    · trivial
    · exact h.elim
    · exact h.elim
    · rename_i x y
      obtain ⟨k, o, t'⟩ := x
      obtain ⟨o', t'', ps⟩ := y
      obtain ⟨a, b, c⟩ := h
      subst a b
      simp only
      have ih := ih d' t' o (⟨t, o, k⟩ :: st)
      cases h3 : designate (d' :: ds) t' o (⟨t, o, k⟩ :: st) with
      | none =>
        cases h4 : select (d' :: ds) t' o with
        | none => trivial
        | some z => rw [h3, h4] at ih; exact ih.elim
      | some st' =>
        cases h4 : select (d' :: ds) t' o with
        | none => rw [h3, h4] at ih; cases st' <;> exact ih.elim
        | some z =>
          rw [h3, h4] at ih
          cases st' with
          | nil => exact ih.elim
          | cons n st' => exact ih

/-! ## Samples and findings -/

/-- `int`. -/
def int : Ty := .scalar 1 4
/-- `char`. -/
def char : Ty := .scalar 2 1
/-- Types are the same if both are the same scalar. -/
def sameScalar : Ty → Ty → Bool
  | .scalar a _, .scalar b _ => a == b
  | _, _ => false

/-- `struct { int a[2]; struct { int b; union { int c; char d; }; }; char e[4]; }`. -/
def sample : Ty := .struct 1 20 (.cons (some 1) 0 (.array 2 int) (.cons none 8 (.struct 2 8 (.cons (some 2) 0 int (.cons none 4 (.union 3 4 (.cons (some 3) 0 int (.cons (some 4) 0 char .nil))) .nil))) (.cons (some 5) 16 (.array 4 char) .nil)))

theorem sample_good : sample.Good := by simp [sample, Ty.Good, Members.Good, Members.startsAtZero, Ty.size, int, char]
theorem sample_fixed : sample.Fixed := by simp [sample, Ty.Fixed, Members.Fixed, int, char]
theorem sample_full : sample.Full := by simp [sample, Ty.Full, Members.Full, int, char]
theorem sample_suits : sample.Suits (.string 1) := by simp [sample, Ty.Suits, Members.Suits, ElementSuits, Ty.size, Ty.isScalar, int, char]

/-- What is written: offsets, sizes, values. -/
def view (x : Option (List Write × Nat)) : Option (List (Nat × Nat × Nat)) := x.map fun y => y.1.map fun w => (w.offset, w.type.size, w.v)

/-- `{ 1, 2, 3, 4, "abc" }` and `{ { 1 }, { 3, { 4 } }, { "abc" } }` and too many initializers. -/
example : view (initList sameScalar sample 0 (.cons (.expr 1 int) (.cons (.expr 2 int) (.cons (.expr 3 int) (.cons (.expr 4 int) (.cons (.str 9 4 1) (.close true)))))))
      = some [(0, 4, 1), (4, 4, 2), (8, 4, 3), (12, 4, 4), (16, 4, 9)]
    ∧ view (initList sameScalar sample 0 (.cons (.braces (.cons (.expr 1 int) (.close false))) (.cons (.braces (.cons (.expr 3 int) (.cons (.braces (.cons (.expr 4 int) (.close false))) (.close false)))) (.cons (.braces (.cons (.str 9 4 1) (.close false))) (.close false)))))
      = some [(0, 4, 1), (8, 4, 3), (12, 4, 4), (16, 4, 9)]
    ∧ view (initList sameScalar sample 0 (.cons (.braces (.cons (.expr 1 int) (.cons (.expr 2 int) (.cons (.expr 3 int) (.close false))))) (.close false))) = none := by
  decide +kernel

/-- The hypotheses of `C24_list_partial` and `C24_inside_partial` for a list with a string. -/
example : sample.Good ∧ sample.Fixed ∧ (Items.cons (.expr 1 int) (.cons (.str 9 4 1) (.close true))).Uses (sample.Suits ·) :=
  ⟨sample_good, sample_fixed, trivial, sample_suits, trivial⟩

/-- The hypotheses of `C24_flat`, and a result. -/
example : (∀ t : Ty, t.isScalar = false → sameScalar int t = false) ∧ sample.isScalar = false ∧ sample.Good ∧ sample.Fixed ∧ sample.Full
    ∧ view (initList sameScalar sample 100 (flat int [1, 2, 3, 4, 5, 6] true)) = some [(100, 4, 1), (104, 4, 2), (108, 4, 3), (112, 4, 4), (116, 1, 5), (117, 1, 6)]
    ∧ view (initList sameScalar sample 100 (flat int [1, 2, 3, 4, 5, 6, 7, 8, 9] true)) = none := by
  refine ⟨fun t h => ?_, rfl, sample_good, sample_fixed, sample_full, by decide +kernel, by decide +kernel⟩
  cases t with
  | scalar => cases h
  | _ => rfl

/-- The hypotheses of `C24_unknown_size_partial` for `int a[][2] = { 1, 2, 3 };`, and the size. -/
example : (Ty.array 2 int).Good ∧ (Ty.array 2 int).Fixed ∧ (flat int [1, 2, 3] false).NoComma ∧ (flat int [1, 2, 3] false).NoDesignators ∧ (initList sameScalar (.flex (.array 2 int)) 0 (flat int [1, 2, 3] false)).map (·.2) = some 16 :=
  ⟨⟨by decide, trivial⟩, trivial, rfl, trivial, by decide +kernel⟩

/-- Finding: in `int a[][2] = { 1, 2, 3, };` the comma before the closing brace leaves the array one
element too small: it gets 8 bytes, and the last value is written to the bytes 8 to 12. -/
theorem C24_trailing_comma_wrong : ∃ ws, initList sameScalar (.flex (.array 2 int)) 0 (flat int [1, 2, 3] true) = some (ws, 8) ∧ ∃ w ∈ ws, 8 < w.offset + w.type.size :=
  ⟨[⟨0, int, 1⟩, ⟨4, int, 2⟩, ⟨8, int, 3⟩], by rfl, ⟨8, int, 3⟩, by simp, by decide⟩

/-- Finding: `char a[3][1] = { "a", "b", "c" };` is correct C, but the first string is taken for the
whole array `a` because its elements have the size of a character, and the other strings are too many. -/
theorem C24_char_matrix_wrong (s : Item) (hs : s = .str 1 2 1) :
    initList sameScalar (.array 3 (.array 1 char)) 0 (.cons s (.cons s (.cons s (.close false)))) = none
    ∧ Braced sameScalar (.array 3 (.array 1 char)) 0 (.cons s (.cons s (.cons s (.close false)))) [⟨0, .array 1 char, 1⟩, ⟨1, .array 1 char, 1⟩, ⟨2, .array 1 char, 1⟩] := by
  subst hs
  have hw : ∀ off rest, Takes sameScalar (.array 1 char) off (.cons (.str 1 2 1) rest) [⟨off, .array 1 char, 1⟩] rest := fun off rest =>
    .whole (i := .str 1 2 1) rfl (by show 2 ≤ 1 + 1; omega)
  refine ⟨by rfl, .aggregate (ws := [⟨0, .array 1 char, 1⟩, ⟨1, .array 1 char, 1⟩, ⟨2, .array 1 char, 1⟩]) (rest := .close false) rfl (fun i rest h hs => by cases h; exact hs) ?_ .close⟩
  exact .part (hw 0 _) (.part (hw 1 _) (.part (hw 2 _) .noParts))

/-- `struct { int a; union { int b; char c; }; struct { int d; int e; }; int f[3]; }`. -/
def designatedSample : Ty := .struct 1 28 (.cons (some 1) 0 int (.cons none 4 (.union 2 4 (.cons (some 2) 0 int (.cons (some 3) 0 char .nil)))
  (.cons none 8 (.struct 3 8 (.cons (some 4) 0 int (.cons (some 5) 4 int .nil))) (.cons (some 6) 16 (.array 3 int) .nil))))

/-- `{ .f[1] = 1, 2, .c = 3, 4, .e = 5, 6, { 7 }, }`: the last item is one too many for `{ .e = 5, 6, 8, 9 }`. -/
def designatedList (last : Items) : Items := .desig (.member 6) [.index 1] (.cons (.expr 1 int) (.cons (.expr 2 int)
  (.desig (.member 3) [] (.cons (.expr 3 int) (.cons (.expr 4 int) (.desig (.member 5) [] (.cons (.expr 5 int) (.cons (.expr 6 int) last))))))))

/-- The hypotheses of `C24_list_partial` for designators, and results: after `.f[1]` comes `f[2]`, after a member of
the union comes `d`, after `e` comes `f`. -/
example : designatedSample.Good ∧ designatedSample.Fixed ∧ (designatedList (.close true)).Uses (designatedSample.Suits ·)
    ∧ view (initList sameScalar designatedSample 0 (designatedList (.close true))) = some [(20, 4, 1), (24, 4, 2), (4, 1, 3), (8, 4, 4), (12, 4, 5), (16, 4, 6)]
    ∧ view (initList sameScalar designatedSample 0 (designatedList (.cons (.expr 8 int) (.cons (.expr 9 int) (.cons (.expr 10 int) (.close false)))))) = none := by
  refine ⟨?_, ?_, ?_, by decide +kernel, by decide +kernel⟩
  · simp [designatedSample, Ty.Good, Members.Good, Members.startsAtZero, Ty.size, int, char]
  · simp [designatedSample, Ty.Fixed, Members.Fixed, int, char]
  · simp [designatedList, designatedSample, Items.Uses, Item.Uses, Ty.Suits, Members.Suits, ElementSuits, Ty.Named, Members.Named, Items.width, int, char]

/-- `int a[] = { [3] = 1, 2, [1] = 5, };` has five elements. -/
example : (Items.desig (.index 3) [] (.cons (.expr 1 int) (.cons (.expr 2 int) (.desig (.index 1) [] (.cons (.expr 5 int) (.close true)))))).Uses ((Ty.flex int).Suits ·)
    ∧ (initList sameScalar (.flex int) 0 (.desig (.index 3) [] (.cons (.expr 1 int) (.cons (.expr 2 int) (.desig (.index 1) [] (.cons (.expr 5 int) (.close true))))))).map (·.2) = some 20 := by
  refine ⟨?_, by decide +kernel⟩
  simp [Items.Uses, Item.Uses, Ty.Suits, ElementSuits, Items.width, int]

/-- `struct { union { struct { int a; int b; }; int c; }; int d; }`. -/
def nestedSample : Ty := .struct 1 12 (.cons none 0 (.union 2 8 (.cons none 0 (.struct 3 8 (.cons (some 1) 0 int (.cons (some 2) 4 int .nil))) (.cons (some 3) 0 int .nil)))
  (.cons (some 4) 8 int .nil))

/-- Finding: in `{ .a = 1, 2 }` the value 2 is for `b`, the member after `a`, but the compiler writes it to `d`, the
member after the union. -/
theorem C24_nested_anonymous_wrong :
    initList sameScalar nestedSample 0 (.desig (.member 1) [] (.cons (.expr 1 int) (.cons (.expr 2 int) (.close false)))) = some ([⟨0, int, 1⟩, ⟨8, int, 2⟩], 0)
    ∧ Braced sameScalar nestedSample 0 (.desig (.member 1) [] (.cons (.expr 1 int) (.cons (.expr 2 int) (.close false)))) [⟨0, int, 1⟩, ⟨4, int, 2⟩] := by
  refine ⟨by rfl, .aggregate (ws := []) (ws' := [⟨0, int, 1⟩, ⟨4, int, 2⟩]) rfl (fun _ _ h => by cases h) .designator ?_⟩
  refine .next (ws := [⟨0, int, 1⟩, ⟨4, int, 2⟩]) (ws' := []) (rest' := .close false) (o := 0) (t' := int) (ps := .cons 4 int (.cons 8 int .nil)) rfl ?_ .close
  exact .part (ws := [_]) (.scalar rfl) (.part (ws := [_]) (.scalar rfl) .noItems)

/-- `union { struct { int a; int b; }; int c; }`. -/
def unionSample : Ty := .union 1 8 (.cons none 0 (.struct 2 8 (.cons (some 1) 0 int (.cons (some 2) 4 int .nil))) (.cons (some 3) 0 int .nil))

/-- Finding: `{ .a = 1, 2 }` is correct C for the union and initializes `a` and `b`, but there is an error. -/
theorem C24_union_designator_wrong :
    initList sameScalar unionSample 0 (.desig (.member 1) [] (.cons (.expr 1 int) (.cons (.expr 2 int) (.close false)))) = none
    ∧ Braced sameScalar unionSample 0 (.desig (.member 1) [] (.cons (.expr 1 int) (.cons (.expr 2 int) (.close false)))) [⟨0, int, 1⟩, ⟨4, int, 2⟩] := by
  refine ⟨by rfl, .aggregate (ws := []) (ws' := [⟨0, int, 1⟩, ⟨4, int, 2⟩]) rfl (fun _ _ h => by cases h) .designator ?_⟩
  refine .next (ws := [⟨0, int, 1⟩, ⟨4, int, 2⟩]) (ws' := []) (rest' := .close false) (o := 0) (t' := int) (ps := .cons 4 int .nil) rfl ?_ .close
  exact .part (ws := [_]) (.scalar rfl) (.part (ws := [_]) (.scalar rfl) .noItems)

/-- Finding: in `struct { int x, y; } a[] = { [5].x = 1, [0].y = 2 };` the array gets 8 bytes, and the value 1 is written to
the bytes 40 to 44. -/
theorem C24_designated_size_wrong : ∃ ws, initList sameScalar (.flex (.struct 1 8 (.cons (some 1) 0 int (.cons (some 2) 4 int .nil)))) 0
      (.desig (.index 5) [.member 1] (.cons (.expr 1 int) (.desig (.index 0) [.member 2] (.cons (.expr 2 int) (.close false))))) = some (ws, 8) ∧ ∃ w ∈ ws, 8 < w.offset + w.type.size :=
  ⟨[⟨40, int, 1⟩, ⟨4, int, 2⟩], by rfl, ⟨40, int, 1⟩, by simp, by decide⟩

/-- Finding: `struct { char a[4]; int b; } s = { .a[0] = "abc", 5 };` is not C, as `a[0]` is a character and not an
array. The compiler takes the string for all of `a` without an error, and writes the value 5 to `a[0]` again. -/
theorem C24_first_string_wrong : initList sameScalar (.struct 1 8 (.cons (some 1) 0 (.array 4 char) (.cons (some 2) 4 int .nil))) 0
      (.desig (.member 1) [.index 0] (.cons (.str 9 4 1) (.cons (.expr 5 int) (.close false)))) = some ([⟨0, .array 4 char, 9⟩, ⟨0, char, 5⟩], 0) := by
  rfl

end Verif.Props.Initializer
