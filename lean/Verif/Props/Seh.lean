import Verif.Model.Seh
import Verif.Lemmas.ImageLoad

/-!
# C88: exceptions meet the handlers around them, the innermost first
-/
namespace Verif.Props.Seh
open Verif.Model.Seh
open Verif.Model.BaseReloc (u32 u16)
open Verif.Spec.Image (byte number Holds)
open Verif.Lemmas.Image (holds_append number_u32)
open Verif.Spec.Seh (Body Around around Entry entries table entriesAt Outcome dispatch decide_)

/-- There is no `__finally`. -/
def NoFinally : Body → Prop
  | .done => True
  | .code _ rest => NoFinally rest
  | .except _ inner _ handler rest => NoFinally inner ∧ NoFinally handler ∧ NoFinally rest
  | .finally_ _ _ _ => False

/-- The filters have addresses of 32 bits. -/
def FiltersFit : Body → Prop
  | .done => True
  | .code _ rest => FiltersFit rest
  | .except f inner _ handler rest => f < 2 ^ 32 ∧ FiltersFit inner ∧ FiltersFit handler ∧ FiltersFit rest
  | .finally_ inner final rest => FiltersFit inner ∧ FiltersFit final ∧ FiltersFit rest

/-- The rows: start, end and filter. -/
def lay : Body → Nat → List (Nat × Nat × Nat)
  | .done, _ => []
  | .code n rest, o => lay rest (o + n)
  | .except f inner jump handler rest, o =>
    lay rest (o + inner.size + jump + handler.size) ++ (lay handler (o + inner.size + jump) ++ (lay inner o ++ [(o, o + inner.size + jump, f)]))
  | .finally_ inner final rest, o => lay rest (o + inner.size + final.size) ++ (lay final (o + inner.size) ++ lay inner o)

theorem generate_append : ∀ (a b : List Node) (e : Nat) (o : Offsets), generate (a ++ b) e o =
    generate b (e + (a.map (fun n => match n with | .code n => n | _ => 0)).sum) (generate a e o)
  | [], _, _, _ => rfl
  | .code n :: a, b, e, o => by
    show generate (a ++ b) (e + n) o = _
    rw [generate_append a b, Nat.add_assoc]; rfl
  | .start h :: a, b, e, o => by
    show generate (a ++ b) e _ = _
    rw [generate_append a b]
    show _ = generate b (e + (0 + _)) _
    rw [Nat.zero_add]; rfl
  | .end_ h :: a, b, e, o => by
    show generate (a ++ b) e _ = _
    rw [generate_append a b]
    show _ = generate b (e + (0 + _)) _
    rw [Nat.zero_add]; rfl

abbrev bytes (ns : List Node) : Nat := (ns.map (fun n => match n with | .code n => n | _ => 0)).sum

theorem bytes_append (a b : List Node) : bytes (a ++ b) = bytes a + bytes b := by
  unfold bytes; rw [List.map_append, List.sum_append]

theorem parse_bytes : ∀ (x : Body) (hs : List Handler), bytes (parse x hs).1 = x.size
  | .done, _ => rfl
  | .code n rest, hs => by
    show n + bytes (parse rest hs).1 = n + rest.size
    rw [parse_bytes rest]
  | .except f inner jump handler rest, hs => by
    show bytes (.start _ :: (parse inner _).1 ++ [.code jump, .end_ _] ++ (parse handler _).1 ++ (parse rest _).1) = _
    rw [bytes_append, bytes_append, bytes_append, parse_bytes rest, parse_bytes handler]
    show 0 + bytes (parse inner _).1 + (jump + 0) + handler.size + rest.size = inner.size + jump + handler.size + rest.size
    rw [parse_bytes inner, Nat.zero_add]; omega
  | .finally_ inner final rest, hs => by
    show bytes (.start _ :: (parse inner _).1 ++ [.end_ _] ++ (parse final _).1 ++ (parse rest _).1) = _
    rw [bytes_append, bytes_append, bytes_append, parse_bytes rest, parse_bytes final]
    show 0 + bytes (parse inner _).1 + 0 + final.size + rest.size = inner.size + final.size + rest.size
    rw [parse_bytes inner]; omega

/-- What the parser and the code generator give. -/
theorem parse_spec : ∀ (x : Body) (hs : List Handler) (e : Nat) (o : Offsets), NoFinally x →
    ∃ new, (parse x hs).2 = new ++ hs ∧ (∀ h ∈ new, hs.length ≤ h.id ∧ h.id < hs.length + new.length) ∧
      new.map (fun h => ((generate (parse x hs).1 e o).start h.id, (generate (parse x hs).1 e o).end_ h.id, h.filter)) = (lay x e).map (fun r => (r.1, r.2.1, some r.2.2)) ∧
      ∀ i, i < hs.length → (generate (parse x hs).1 e o).start i = o.start i ∧ (generate (parse x hs).1 e o).end_ i = o.end_ i
  | .done, hs, e, o, _ => ⟨[], rfl, (fun h hh => by cases hh), rfl, fun _ _ => ⟨rfl, rfl⟩⟩
  | .code n rest, hs, e, o, hn => parse_spec rest hs (e + n) o hn
  | .finally_ _ _ _, _, _, _, hn => hn.elim
  | .except f inner jump handler rest, hs, e, o, hn => by
    have hlen : ((⟨hs.length, some f⟩ : Handler) :: hs).length = hs.length + 1 := rfl
    generalize ho1 : ({ o with start := fun i => if i = hs.length then e else o.start i } : Offsets) = o1
    obtain ⟨n1, p1, q1, m1, k1⟩ := parse_spec inner (⟨hs.length, some f⟩ :: hs) e o1 hn.1
    generalize hA : parse inner (⟨hs.length, some f⟩ :: hs) = A at *
    generalize hG1 : generate A.1 e o1 = G1 at *
    generalize ho2 : ({ G1 with end_ := fun i => if i = hs.length then e + inner.size + jump else G1.end_ i } : Offsets) = o2
    obtain ⟨n2, p2, q2, m2, k2⟩ := parse_spec handler A.2 (e + inner.size + jump) o2 hn.2.1
    generalize hB : parse handler A.2 = B at *
    generalize hG2 : generate B.1 (e + inner.size + jump) o2 = G2 at *
    obtain ⟨n3, p3, q3, m3, k3⟩ := parse_spec rest B.2 (e + inner.size + jump + handler.size) G2 hn.2.2
    generalize hC : parse rest B.2 = C at *
    have hA1 : bytes A.1 = inner.size := by rw [← hA]; exact parse_bytes inner _
    have hB1 : bytes B.1 = handler.size := by rw [← hB]; exact parse_bytes handler _
    have hp : parse (.except f inner jump handler rest) hs = (.start hs.length :: A.1 ++ [.code jump, .end_ hs.length] ++ B.1 ++ C.1, C.2) := by
      rw [← hC, ← hB, ← hA]; rfl
    have hg : generate (.start hs.length :: A.1 ++ [.code jump, .end_ hs.length] ++ B.1 ++ C.1) e o = generate C.1 (e + inner.size + jump + handler.size) G2 := by
      rw [List.append_assoc, List.append_assoc, List.cons_append]
      show generate (A.1 ++ ([.code jump, .end_ hs.length] ++ (B.1 ++ C.1))) e { o with start := fun i => if i = hs.length then e else o.start i } = _
      rw [ho1, generate_append, hG1]
      have hA2 : (A.1.map (fun n => match n with | .code n => n | _ => 0)).sum = inner.size := hA1
      rw [hA2]
      show generate (B.1 ++ C.1) (e + inner.size + jump) { G1 with end_ := fun i => if i = hs.length then e + inner.size + jump else G1.end_ i } = _
      rw [ho2, generate_append, hG2]
      have hB2 : (B.1.map (fun n => match n with | .code n => n | _ => 0)).sum = handler.size := hB1
      rw [hB2]
    rw [hp, hg]
    generalize hG3 : generate C.1 (e + inner.size + jump + handler.size) G2 = G3 at *
    have hAl : A.2.length = n1.length + (hs.length + 1) := by rw [p1, List.length_append, hlen]
    have hBl : B.2.length = n2.length + A.2.length := by rw [p2, List.length_append]
    have s1 : ∀ i, i < A.2.length → G3.start i = G1.start i := by
      intro i hi
      rw [(k3 i (by omega)).1, (k2 i hi).1, ← ho2]
    have s2 : ∀ i, i < A.2.length → G3.end_ i = if i = hs.length then e + inner.size + jump else G1.end_ i := by
      intro i hi
      rw [(k3 i (by omega)).2, (k2 i hi).2, ← ho2]
    refine ⟨n3 ++ (n2 ++ (n1 ++ [⟨hs.length, some f⟩])), ?_, ?_, ?_, ?_⟩
    · show C.2 = _
      rw [p3, p2, p1]; simp only [List.append_assoc, List.cons_append, List.nil_append]
    · intro h hh
      simp only [List.length_append, List.length_cons, List.length_nil]
      rcases List.mem_append.1 hh with hh | hh
      · have := q3 h hh; omega
      rcases List.mem_append.1 hh with hh | hh
      · have := q2 h hh; omega
      rcases List.mem_append.1 hh with hh | hh
      · have := q1 h hh; omega
      · rw [List.mem_singleton.1 hh]
        show hs.length ≤ hs.length ∧ hs.length < _
        omega
    · show _ = (lay rest (e + inner.size + jump + handler.size) ++ (lay handler (e + inner.size + jump) ++ (lay inner e ++ [(e, e + inner.size + jump, f)]))).map _
      rw [List.map_append, List.map_append, List.map_append, List.map_append, List.map_append, List.map_append, ← m3, ← m2, ← m1]
      congr 1
      congr 1
      · apply List.map_congr_left
        intro h hh
        have hq := q2 h hh
        have := k3 h.id (by omega)
        rw [this.1, this.2]
      congr 1
      · apply List.map_congr_left
        intro h hh
        have hq := q1 h hh
        rw [hlen] at hq
        rw [s1 h.id (by omega), s2 h.id (by omega), if_neg (by omega)]
      · show [(G3.start hs.length, G3.end_ hs.length, some f)] = [(e, e + inner.size + jump, some f)]
        rw [s1 _ (by omega), s2 _ (by omega), if_pos rfl, (k1 hs.length (by rw [hlen]; omega)).1, ← ho1]
        show [((if hs.length = hs.length then e else o.start hs.length), _, _)] = _
        rw [if_pos rfl]
    · intro i hi
      rw [s1 i (by omega), s2 i (by omega), if_neg (by omega), (k1 i (by rw [hlen]; omega)).1, (k1 i (by rw [hlen]; omega)).2, ← ho1]
      show (if i = hs.length then e else o.start i) = o.start i ∧ _
      rw [if_neg (by omega)]
      exact ⟨rfl, rfl⟩

/-! The rows and the handlers around a byte. -/

def has (c : Nat) (r : Nat × Nat × Nat) : Bool := decide (r.1 ≤ c ∧ c < r.2.1)

theorem lay_range : ∀ (x : Body) (o : Nat), NoFinally x → ∀ r ∈ lay x o, o ≤ r.1 ∧ r.1 ≤ r.2.1 ∧ r.2.1 ≤ o + x.size
  | .done, _, _, r, h => by cases h
  | .code n rest, o, hn, r, h => by
    have := lay_range rest (o + n) hn r h
    show o ≤ r.1 ∧ r.1 ≤ r.2.1 ∧ r.2.1 ≤ o + (n + rest.size)
    omega
  | .finally_ _ _ _, _, hn, _, _ => hn.elim
  | .except f inner jump handler rest, o, hn, r, h => by
    show o ≤ r.1 ∧ r.1 ≤ r.2.1 ∧ r.2.1 ≤ o + (inner.size + jump + handler.size + rest.size)
    rcases List.mem_append.1 h with h | h
    · have := lay_range rest _ hn.2.2 r h; omega
    rcases List.mem_append.1 h with h | h
    · have := lay_range handler _ hn.2.1 r h; omega
    rcases List.mem_append.1 h with h | h
    · have := lay_range inner _ hn.1 r h; omega
    · rw [List.mem_singleton.1 h]
      show o ≤ o ∧ o ≤ o + inner.size + jump ∧ o + inner.size + jump ≤ _
      omega

theorem lay_outside (x : Body) (o c : Nat) (hn : NoFinally x) (h : c < o ∨ o + x.size ≤ c) : (lay x o).filter (has c) = [] := by
  rw [List.filter_eq_nil_iff]
  intro r hr
  have := lay_range x o hn r hr
  unfold has
  rw [decide_eq_true_eq]
  omega

theorem around_length : ∀ (x : Body) (outer : List Around) (a : Nat), (around outer x a).length = x.size
  | .done, _, _ => rfl
  | .code n rest, outer, a => by
    show (List.replicate n outer ++ around outer rest (a + n)).length = n + rest.size
    rw [List.length_append, List.length_replicate, around_length rest]
  | .except f inner jump handler rest, outer, a => by
    show (around _ inner a ++ List.replicate jump _ ++ around outer handler _ ++ around outer rest _).length = inner.size + jump + handler.size + rest.size
    simp only [List.length_append, List.length_replicate, around_length inner, around_length handler, around_length rest]
  | .finally_ inner final rest, outer, a => by
    show (around _ inner a ++ around outer final _ ++ around outer rest _).length = inner.size + final.size + rest.size
    simp only [List.length_append, around_length inner, around_length final, around_length rest]

def view (rva : Nat) (r : Nat × Nat × Nat) : Around := ⟨some r.2.2, rva + r.2.1⟩

theorem around_eq (rva : Nat) : ∀ (x : Body) (o i : Nat) (outer : List Around), NoFinally x → i < x.size →
    (around outer x (rva + o))[i]? = some (((lay x o).filter (has (o + i))).map (view rva) ++ outer)
  | .done, _, _, _, _, h => by cases h
  | .finally_ _ _ _, _, _, _, hn, _ => hn.elim
  | .code n rest, o, i, outer, hn, h => by
    have h : i < n + rest.size := h
    show (List.replicate n outer ++ around outer rest (rva + o + n))[i]? = some (((lay rest (o + n)).filter (has (o + i))).map (view rva) ++ outer)
    by_cases hi : i < n
    · rw [List.getElem?_append_left (by rw [List.length_replicate]; exact hi), List.getElem?_replicate, if_pos hi, lay_outside rest _ _ hn (by omega)]
      rfl
    · rw [List.getElem?_append_right (by rw [List.length_replicate]; omega), List.length_replicate, Nat.add_assoc, around_eq rva rest (o + n) (i - n) outer hn (by omega),
        show o + n + (i - n) = o + i by omega]
  | .except f inner jump handler rest, o, i, outer, hn, h => by
    have h : i < inner.size + jump + handler.size + rest.size := h
    show (around (⟨some f, rva + o + inner.size + jump⟩ :: outer) inner (rva + o) ++ List.replicate jump (⟨some f, rva + o + inner.size + jump⟩ :: outer) ++
      around outer handler (rva + o + inner.size + jump) ++ around outer rest (rva + o + inner.size + jump + handler.size))[i]? = some
        (((lay rest (o + inner.size + jump + handler.size) ++ (lay handler (o + inner.size + jump) ++ (lay inner o ++ [(o, o + inner.size + jump, f)]))).filter (has (o + i))).map (view rva) ++ outer)
    rw [List.append_assoc, List.append_assoc]
    simp only [List.filter_append, List.map_append]
    have hself : ∀ b : Bool, has (o + i) (o, o + inner.size + jump, f) = b → ([(o, o + inner.size + jump, f)] : List (Nat × Nat × Nat)).filter (has (o + i)) =
        if b then [(o, o + inner.size + jump, f)] else [] := by
      intro b hb
      rw [List.filter_cons, hb]
      cases b <;> rfl
    by_cases h1 : i < inner.size
    · rw [List.getElem?_append_left (by rw [around_length]; exact h1), around_eq rva inner o i _ hn.1 h1, lay_outside rest _ _ hn.2.2 (by omega), lay_outside handler _ _ hn.2.1 (by omega),
        hself true (decide_eq_true (show o ≤ o + i ∧ o + i < o + inner.size + jump by omega)), if_pos rfl]
      show _ = some ([] ++ ([] ++ (_ ++ [⟨some f, rva + (o + inner.size + jump)⟩])) ++ outer)
      rw [show rva + o + inner.size + jump = rva + (o + inner.size + jump) by omega]
      simp only [List.nil_append, List.append_assoc, List.cons_append]
    rw [List.getElem?_append_right (by rw [around_length]; omega), around_length]
    by_cases h2 : i < inner.size + jump
    · rw [List.getElem?_append_left (by rw [List.length_replicate]; omega), List.getElem?_replicate, if_pos (by omega), lay_outside rest _ _ hn.2.2 (by omega),
        lay_outside handler _ _ hn.2.1 (by omega), lay_outside inner _ _ hn.1 (by omega), hself true (decide_eq_true (show o ≤ o + i ∧ o + i < o + inner.size + jump by omega)), if_pos rfl]
      show some (⟨some f, rva + o + inner.size + jump⟩ :: outer) = some (⟨some f, rva + (o + inner.size + jump)⟩ :: outer)
      rw [show rva + o + inner.size + jump = rva + (o + inner.size + jump) by omega]
    rw [List.getElem?_append_right (by rw [List.length_replicate]; omega), List.length_replicate]
    have hs0 := hself false (decide_eq_false (show ¬(o ≤ o + i ∧ o + i < o + inner.size + jump) by omega))
    by_cases h3 : i < inner.size + jump + handler.size
    · rw [List.getElem?_append_left (by rw [around_length]; omega), show rva + o + inner.size + jump = rva + (o + inner.size + jump) by omega,
        around_eq rva handler _ _ outer hn.2.1 (by omega), lay_outside rest _ _ hn.2.2 (by omega), lay_outside inner _ _ hn.1 (by omega), hs0,
        show o + inner.size + jump + (i - inner.size - jump) = o + i by omega]
      simp
    · rw [List.getElem?_append_right (by rw [around_length]; omega), around_length, show rva + o + inner.size + jump + handler.size = rva + (o + inner.size + jump + handler.size) by omega,
        around_eq rva rest _ _ outer hn.2.2 (by omega), lay_outside handler _ _ hn.2.1 (by omega), lay_outside inner _ _ hn.1 (by omega), hs0,
        show o + inner.size + jump + handler.size + (i - inner.size - jump - handler.size) = o + i by omega]
      simp

/-! Reading the table. -/

theorem lay_filters : ∀ (x : Body) (o : Nat), NoFinally x → FiltersFit x → ∀ r ∈ lay x o, r.2.2 < 2 ^ 32
  | .done, _, _, _, r, h => by cases h
  | .code n rest, o, hn, hf, r, h => lay_filters rest _ hn hf r h
  | .finally_ _ _ _, _, hn, _, _, _ => hn.elim
  | .except f inner jump handler rest, o, hn, hf, r, h => by
    rcases List.mem_append.1 h with h | h
    · exact lay_filters rest _ hn.2.2 hf.2.2.2 r h
    rcases List.mem_append.1 h with h | h
    · exact lay_filters handler _ hn.2.1 hf.2.2.1 r h
    rcases List.mem_append.1 h with h | h
    · exact lay_filters inner _ hn.1 hf.2.1 r h
    · rw [List.mem_singleton.1 h]; exact hf.1

def row (rva : Nat) (r : Nat × Nat × Nat) : List Nat := u32 (r.1 + rva) ++ (u32 (r.2.1 + rva) ++ (u32 r.2.2 ++ u32 (r.2.1 + rva)))

theorem rows_eq (rva : Nat) (o : Offsets) : ∀ (hs : List Handler) (l : List (Nat × Nat × Nat)),
    hs.map (fun h => (o.start h.id, o.end_ h.id, h.filter)) = l.map (fun r => (r.1, r.2.1, some r.2.2)) → rows rva o hs = some (l.flatMap (row rva))
  | [], [], _ => rfl
  | [], _ :: _, h => by cases h
  | _ :: _, [], h => by cases h
  | h :: hs, r :: l, e => by
    have e1 := (List.cons.inj e).1
    have e2 := rows_eq rva o hs l (List.cons.inj e).2
    have f1 : o.start h.id = r.1 := congrArg (·.1) e1
    have f2 : o.end_ h.id = r.2.1 := congrArg (·.2.1) e1
    have f3 : h.filter = some r.2.2 := congrArg (·.2.2) e1
    show h.filter.bind _ = _
    rw [f3, Option.bind_some]
    show (rows rva o hs).bind _ = _
    rw [e2, Option.bind_some]
    show some (u32 (o.start h.id + rva) ++ u32 (o.end_ h.id + rva) ++ u32 r.2.2 ++ u32 (o.end_ h.id + rva) ++ l.flatMap (row rva)) = some (row rva r ++ l.flatMap (row rva))
    rw [f1, f2]
    simp only [row, List.append_assoc]

theorem entries_eq {b : List Nat} (rva : Nat) : ∀ (l : List (Nat × Nat × Nat)) (p : Nat), (∀ r ∈ l, r.1 + rva < 2 ^ 32 ∧ r.2.1 + rva < 2 ^ 32 ∧ r.2.2 < 2 ^ 32) →
    Holds (byte b) p (l.flatMap (row rva)) → entries b l.length p = l.map (fun r => ⟨r.1 + rva, r.2.1 + rva, r.2.2, r.2.1 + rva⟩)
  | [], _, _, _ => rfl
  | r :: l, p, hr, h => by
    have h : Holds (byte b) p (row rva r ++ l.flatMap (row rva)) := h
    have h1 := holds_append.1 h
    have h2 := holds_append.1 h1.1
    have h3 := holds_append.1 h2.2
    have h4 := holds_append.1 h3.2
    have hb := hr r List.mem_cons_self
    have ih := entries_eq rva l (p + 16) (fun x hx => hr x (List.mem_cons_of_mem _ hx)) h1.2
    show (⟨number (byte b) 4 p, number (byte b) 4 (p + 4), number (byte b) 4 (p + 8), number (byte b) 4 (p + 12)⟩ : Entry) :: entries b l.length (p + 16) = _
    rw [ih, number_u32 h2.1 hb.1, show number (byte b) 4 (p + 4) = _ from number_u32 h3.1 hb.2.1, show number (byte b) 4 (p + 8) = _ from number_u32 h4.1 hb.2.2,
      show number (byte b) 4 (p + 12) = _ from number_u32 h4.2 hb.2.1]
    rfl

theorem data_eq {specificHandler rva prolog : Nat} {x : Body} {d : List Nat} (hn : NoFinally x) (hd : data specificHandler rva prolog x = some d) :
    (lay x prolog = [] ∧ d = []) ∨ (lay x prolog ≠ [] ∧ d = u32 specificHandler ++ (u32 (lay x prolog).length ++ (lay x prolog).flatMap (row rva))) := by
  obtain ⟨new, p1, -, m, -⟩ := parse_spec x [] prolog ⟨fun _ => 0, fun _ => 0⟩ hn
  rw [List.append_nil] at p1
  have hlen : (lay x prolog).length = new.length := by
    have := congrArg List.length m
    rw [List.length_map, List.length_map] at this
    exact this.symm
  unfold data at hd
  simp only [p1] at hd
  by_cases hx : new = []
  · rw [if_pos hx] at hd
    left
    rw [hx] at hlen
    exact ⟨List.eq_nil_of_length_eq_zero hlen, (Option.some.inj hd).symm⟩
  · rw [if_neg hx, rows_eq rva _ new _ m] at hd
    right
    refine ⟨fun hz => hx ?_, ?_⟩
    · rw [hz] at hlen
      exact List.eq_nil_of_length_eq_zero hlen.symm
    · have := Option.some.inj hd
      rw [← this, hlen]
      simp only [List.append_assoc]

theorem flags_eq {specificHandler rva prolog : Nat} {x : Body} {d : List Nat} (hn : NoFinally x) (hd : data specificHandler rva prolog x = some d) :
    (lay x prolog = [] ∧ d = [] ∧ flags x = 0) ∨
      (flags x = 1 ∧ d = u32 specificHandler ++ (u32 (lay x prolog).length ++ (lay x prolog).flatMap (row rva))) := by
  obtain ⟨new, p1, -, m, -⟩ := parse_spec x [] prolog ⟨fun _ => 0, fun _ => 0⟩ hn
  rw [List.append_nil] at p1
  have hlen : (lay x prolog).length = new.length := by
    have := congrArg List.length m
    rw [List.length_map, List.length_map] at this
    exact this.symm
  unfold flags
  rw [p1]
  rcases data_eq hn hd with ⟨h1, h2⟩ | ⟨h1, h2⟩
  · left
    rw [h1] at hlen
    rw [if_pos (List.eq_nil_of_length_eq_zero hlen.symm)]
    exact ⟨h1, h2, rfl⟩
  · right
    rw [if_neg (fun hz => h1 (List.eq_nil_of_length_eq_zero (by rw [hlen, hz]; rfl)))]
    exact ⟨rfl, h2⟩

/-- What Windows makes of an exception: without the flag, nothing; otherwise there is the address of `__C_specific_handler`, which has to be the right one, and the table. -/
def windows (specificHandler : Nat) (flags : Nat) (d : List Nat) (verdict : Nat → Int) (address : Nat) : Option Outcome :=
  if flags = 0 then some .passed
  else if number (byte d) 4 0 = specificHandler then some (dispatch verdict (entriesAt d 4 address))
  else none

/-- The full statement: for every function there is a table, and an exception at any byte of the body goes to the filters around it, the innermost first. -/
def Statement : Prop := ∀ (specificHandler rva prolog : Nat) (x : Body), FiltersFit x → specificHandler < 2 ^ 32 → 0 < rva → rva + prolog + x.size < 2 ^ 32 →
  ∃ d, data specificHandler rva prolog x = some d ∧ (d.length < 2 ^ 32 → ∀ verdict c, c < x.size → ∃ hs, (around [] x (rva + prolog))[c]? = some hs ∧
    windows specificHandler (flags x) d verdict (rva + prolog + c) = some (decide_ verdict hs))

/-- Without `__finally` there is a table. -/
theorem C88_total_partial (specificHandler rva prolog : Nat) {x : Body} (hn : NoFinally x) : ∃ d, data specificHandler rva prolog x = some d := by
  obtain ⟨new, p1, -, m, -⟩ := parse_spec x [] prolog ⟨fun _ => 0, fun _ => 0⟩ hn
  rw [List.append_nil] at p1
  unfold data
  simp only [p1]
  by_cases hx : new = []
  · rw [if_pos hx]; exact ⟨[], rfl⟩
  · rw [if_neg hx, rows_eq rva _ new _ m]; exact ⟨_, rfl⟩

theorem flatMap_length (rva : Nat) : ∀ (l : List (Nat × Nat × Nat)), (l.flatMap (row rva)).length = 16 * l.length
  | [] => rfl
  | r :: l => by
    rw [List.flatMap_cons, List.length_append, flatMap_length rva l]
    show 16 + 16 * l.length = 16 * (l.length + 1)
    omega

/-- The entries for the address of a byte. -/
theorem table_eq {specificHandler rva prolog : Nat} {x : Body} {d : List Nat} (hn : NoFinally x) (hf : FiltersFit x) (hsh : specificHandler < 2 ^ 32)
    (hs : rva + prolog + x.size < 2 ^ 32) (hc : d.length < 2 ^ 32) (hd : d = u32 specificHandler ++ (u32 (lay x prolog).length ++ (lay x prolog).flatMap (row rva))) :
    number (byte d) 4 0 = specificHandler ∧ ∀ c, entriesAt d 4 (rva + prolog + c) =
      ((lay x prolog).filter (has (prolog + c))).map (fun r => ⟨r.1 + rva, r.2.1 + rva, r.2.2, r.2.1 + rva⟩) := by
  have hh : Holds (byte d) 0 d := by
    intro i hi
    rw [Nat.zero_add]
    show d.getD i 0 = _
    rw [List.getD_eq_getElem?_getD, List.getElem?_eq_getElem hi]; rfl
  have hl : d.length = 8 + 16 * (lay x prolog).length := by
    rw [hd, List.length_append, List.length_append, flatMap_length]
    show 4 + (4 + _) = _
    omega
  conv at hh => rhs; rw [hd]
  have g1 := holds_append.1 hh
  have g2 := holds_append.1 g1.2
  have hb : ∀ r ∈ lay x prolog, r.1 + rva < 2 ^ 32 ∧ r.2.1 + rva < 2 ^ 32 ∧ r.2.2 < 2 ^ 32 := by
    intro r hr
    have := lay_range x prolog hn r hr
    have := lay_filters x prolog hn hf r hr
    omega
  refine ⟨number_u32 g1.1 hsh, fun c => ?_⟩
  have hcount : number (byte d) 4 4 = (lay x prolog).length := number_u32 g2.1 (by omega)
  unfold entriesAt table
  rw [hcount, entries_eq rva (lay x prolog) (4 + 4) hb g2.2, List.filter_map]
  congr 1
  apply List.filter_congr
  intro r _
  unfold has
  apply decide_eq_decide.2
  show r.1 + rva ≤ rva + prolog + c ∧ rva + prolog + c < r.2.1 + rva ↔ _
  omega

/-- The entries for a byte of the body are the `__try` statements around it, the innermost first. -/
theorem C88_entries_partial {specificHandler rva prolog : Nat} {x : Body} {d : List Nat} (hn : NoFinally x) (hf : FiltersFit x) (hsh : specificHandler < 2 ^ 32)
    (hd : data specificHandler rva prolog x = some d) (hs : rva + prolog + x.size < 2 ^ 32) (hc : d.length < 2 ^ 32) (h1 : flags x = 1) {c : Nat} (h : c < x.size) :
    (around [] x (rva + prolog))[c]? = some ((entriesAt d 4 (rva + prolog + c)).map (fun e => ⟨some e.filter, e.target⟩)) := by
  rcases flags_eq hn hd with ⟨-, -, h2⟩ | ⟨-, h2⟩
  · omega
  · rw [around_eq rva x prolog c [] hn h, List.append_nil, (table_eq hn hf hsh hs hc h2).2 c, List.map_map]
    congr 1
    apply List.map_congr_left
    intro r _
    show (⟨some r.2.2, rva + r.2.1⟩ : Around) = ⟨some r.2.2, r.2.1 + rva⟩
    rw [Nat.add_comm]

theorem dispatch_eq (verdict : Nat → Int) (rva : Nat) (hr : 0 < rva) : ∀ (l : List (Nat × Nat × Nat)),
    dispatch verdict (l.map (fun r => ⟨r.1 + rva, r.2.1 + rva, r.2.2, r.2.1 + rva⟩)) = decide_ verdict (l.map (view rva))
  | [] => rfl
  | r :: l => by
    show (if r.2.1 + rva = 0 then _ else if 0 < verdict r.2.2 then Outcome.handled (r.2.1 + rva) else if verdict r.2.2 < 0 then Outcome.continued else
      dispatch verdict (l.map _)) = if 0 < verdict r.2.2 then Outcome.handled (rva + r.2.1) else if verdict r.2.2 < 0 then Outcome.continued else decide_ verdict (l.map (view rva))
    rw [if_neg (by omega), dispatch_eq verdict rva hr l, Nat.add_comm rva]

/-- **C88.** Without `__finally`: an exception at any byte of the body goes to the filters of the `__try` statements around it, the innermost first, until one of them
decides; the code that handles it is the one of that statement. -/
theorem C88_handlers_partial {specificHandler rva prolog : Nat} {x : Body} {d : List Nat} (hn : NoFinally x) (hf : FiltersFit x) (hsh : specificHandler < 2 ^ 32) (hr : 0 < rva)
    (hd : data specificHandler rva prolog x = some d) (hs : rva + prolog + x.size < 2 ^ 32) (hc : d.length < 2 ^ 32) (verdict : Nat → Int) {c : Nat} (h : c < x.size) :
    ∃ hs, (around [] x (rva + prolog))[c]? = some hs ∧ windows specificHandler (flags x) d verdict (rva + prolog + c) = some (decide_ verdict hs) := by
  refine ⟨((lay x prolog).filter (has (prolog + c))).map (view rva), ?_, ?_⟩
  · rw [around_eq rva x prolog c [] hn h, List.append_nil]
  · unfold windows
    rcases flags_eq hn hd with ⟨h1, -, h2⟩ | ⟨h1, h2⟩
    · rw [if_pos h2, h1]; rfl
    · have ht := table_eq hn hf hsh hs hc h2
      rw [if_neg (by omega), if_pos ht.1, ht.2 c, dispatch_eq verdict rva hr]

/-- The compiler dereferences a null pointer for every function with `__finally`. -/
theorem C88_finally_wrong : ¬Statement := by
  intro h
  obtain ⟨d, hd, -⟩ := h 0 4096 7 (.finally_ (.code 3 .done) (.code 2 .done) .done) ⟨trivial, trivial, trivial⟩ (by decide) (by decide) (by decide)
  have : data 0 4096 7 (.finally_ (.code 3 .done) (.code 2 .done) .done) = none := by decide +kernel
  rw [this] at hd
  cases hd

/-- No function with `__finally` has a result, whatever else it has. -/
theorem C88_finally_never (specificHandler rva prolog : Nat) (x : Body) : (∃ d, data specificHandler rva prolog x = some d) ↔ NoFinally x := by
  refine ⟨fun ⟨d, hd⟩ => ?_, fun h => C88_total_partial specificHandler rva prolog h⟩
  have hp : ∀ (x : Body) (hs : List Handler), (∀ h ∈ hs, h ∈ (parse x hs).2) ∧ ((∀ h ∈ (parse x hs).2, h.filter ≠ none) → NoFinally x) := by
    intro x
    induction x with
    | done => exact fun hs => ⟨fun h hh => hh, fun _ => trivial⟩
    | code n rest ih => exact fun hs => ih hs
    | except f inner jump handler rest ih1 ih2 ih3 =>
      intro hs
      refine ⟨fun h hh => (ih3 _).1 _ ((ih2 _).1 _ ((ih1 _).1 _ (List.mem_cons_of_mem _ hh))), fun hall => ⟨?_, ?_, ?_⟩⟩
      · exact (ih1 _).2 (fun h hh => hall h ((ih3 _).1 _ ((ih2 _).1 _ hh)))
      · exact (ih2 _).2 (fun h hh => hall h ((ih3 _).1 _ hh))
      · exact (ih3 _).2 hall
    | finally_ inner final rest ih1 ih2 ih3 =>
      intro hs
      refine ⟨fun h hh => (ih3 _).1 _ ((ih2 _).1 _ ((ih1 _).1 _ (List.mem_cons_of_mem _ hh))), fun hall => ?_⟩
      exact hall _ ((ih3 _).1 _ ((ih2 _).1 _ ((ih1 _).1 ⟨hs.length, none⟩ List.mem_cons_self))) rfl
  have hr : ∀ (o : Offsets) (hs : List Handler) (r : List Nat), rows rva o hs = some r → ∀ h ∈ hs, h.filter ≠ none := by
    intro o hs
    induction hs with
    | nil => intro r _ h hh; cases hh
    | cons g hs ih =>
      intro r hr h hh
      have hr : g.filter.bind (fun f => (rows rva o hs).bind (fun r => some _)) = some r := hr
      obtain ⟨f, hf, hr⟩ := Option.bind_eq_some_iff.1 hr
      obtain ⟨r', hr', -⟩ := Option.bind_eq_some_iff.1 hr
      rcases List.mem_cons.1 hh with rfl | hh
      · rw [hf]; exact fun hz => by cases hz
      · exact ih r' hr' h hh
  apply (hp x []).2
  unfold data at hd
  by_cases hx : (parse x []).2 = []
  · rw [hx]; intro h hh; cases hh
  · simp only at hd
    rw [if_neg hx] at hd
    obtain ⟨r, hr', -⟩ := Option.bind_eq_some_iff.1 hd
    exact hr _ _ r hr'

/-! Two nested `__try`, another one in the code that handles, and one after. -/

def sample : Body :=
  .code 2 (.except 0x2000 (.code 3 (.except 0x2100 (.code 4 .done) 5 (.code 2 .done) (.code 1 .done))) 5 (.except 0x2200 (.code 3 .done) 5 .done (.code 1 .done))
    (.code 2 (.except 0x2300 (.code 1 .done) 2 (.code 1 .done) .done)))

example : NoFinally sample ∧ FiltersFit sample ∧ sample.size = 37 := by
  refine ⟨⟨⟨trivial, trivial, trivial⟩, ⟨trivial, trivial, trivial⟩, trivial, trivial, trivial⟩,
    ⟨by decide, ⟨by decide, trivial, trivial, trivial⟩, ⟨by decide, trivial, trivial, trivial⟩, by decide, trivial, trivial, trivial⟩, by decide⟩

/-- At the byte 6 (of the inner `__try`) both filters are asked. -/
example : ∃ d, data 0x3000 0x1000 7 sample = some d ∧ d.length = 72 ∧ flags sample = 1 ∧
    (entriesAt d 4 (0x1007 + 6)).map (fun e => (e.filter, e.target)) = [(0x2100, 0x1015), (0x2000, 0x101d)] ∧
    windows 0x3000 1 d (fun f => if f = 0x2000 then 1 else 0) (0x1007 + 6) = some (.handled 0x101d) ∧
    windows 0x3000 1 d (fun f => if f = 0x2000 then 1 else -1) (0x1007 + 6) = some .continued ∧
    windows 0x3000 1 d (fun _ => 1) (0x1007 + 36) = some .passed :=
  ⟨((data 0x3000 0x1000 7 sample).getD []), by decide +kernel⟩

end Verif.Props.Seh
