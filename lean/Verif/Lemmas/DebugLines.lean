import Verif.Spec.DebugLines
import Verif.Model.DebugLines

/-!
# Lemmas: the lines of the code of a function
-/
namespace Verif.Lemmas.DebugLines
open Verif.Model.DebugLines
open Verif.Spec.DebugLines (linesOf)

/-- The line of the last entry that does not start after `o`. -/
def lineAt (d : Nat) : List Entry → Nat → Nat
  | [], _ => d
  | e :: es, o => if e.offset ≤ o then lineAt e.line es o else lineAt d es o

theorem lineAt_append (es : List Entry) (e : Entry) : ∀ d o, lineAt d (es ++ [e]) o = if e.offset ≤ o then e.line else lineAt d es o := by
  induction es with
  | nil => intro d o; rfl
  | cons a l ih =>
    intro d o
    show (if a.offset ≤ o then lineAt a.line (l ++ [e]) o else lineAt d (l ++ [e]) o) = if e.offset ≤ o then e.line else if a.offset ≤ o then lineAt a.line l o else lineAt d l o
    rw [ih, ih]
    by_cases h : a.offset ≤ o
    · rw [if_pos h, if_pos h]
    · rw [if_neg h, if_neg h]

theorem lineAt_none (es : List Entry) (o : Nat) (h : ∀ e ∈ es, o < e.offset) : ∀ d, lineAt d es o = d := by
  induction es with
  | nil => intro d; rfl
  | cons a l ih =>
    intro d
    show (if a.offset ≤ o then _ else lineAt d l o) = d
    rw [if_neg (by have := h a (List.mem_cons_self ..); omega), ih (fun e he => h e (List.mem_cons_of_mem _ he))]

/-- The lines of the code of the nodes, if `L` has the lines of the nodes. -/
def expand (L : Nat → Nat) : Nat → List (Nat × Nat) → List Nat
  | _, [] => []
  | cur, (s, b) :: rest => List.replicate b (L cur) ++ expand L (cur + s) rest

def total (ns : List (Nat × Nat)) : Nat := (ns.map (·.1)).sum

theorem total_cons (s b : Nat) (ns : List (Nat × Nat)) : total ((s, b) :: ns) = s + total ns := rfl

theorem expand_congr {L L' : Nat → Nat} : ∀ (ns : List (Nat × Nat)) (cur : Nat), (∀ n ∈ ns, 0 < n.1) → (∀ o, cur ≤ o → o < cur + total ns → L o = L' o) →
    expand L cur ns = expand L' cur ns
  | [], _, _, _ => rfl
  | (s, b) :: rest, cur, hp, h => by
    have hs : 0 < s := hp (s, b) (List.mem_cons_self ..)
    show List.replicate b (L cur) ++ _ = List.replicate b (L' cur) ++ _
    rw [h cur (by omega) (by rw [total_cons]; omega), expand_congr rest (cur + s) (fun n hn => hp n (List.mem_cons_of_mem _ hn))
      (fun o h1 h2 => h o (by omega) (by rw [total_cons]; omega))]

theorem expand_append (L : Nat → Nat) : ∀ (ns ms : List (Nat × Nat)) (cur : Nat), expand L cur (ns ++ ms) = expand L cur ns ++ expand L (cur + total ns) ms
  | [], _, _ => rfl
  | (s, b) :: rest, ms, cur => by
    show List.replicate b (L cur) ++ expand L (cur + s) (rest ++ ms) = List.replicate b (L cur) ++ expand L (cur + s) rest ++ _
    rw [expand_append L rest ms, total_cons, List.append_assoc, Nat.add_assoc]

/-- The starts of the nodes and the end. -/
def bounds : Nat → List (Nat × Nat) → List Nat
  | cur, [] => [cur]
  | cur, (s, _) :: rest => cur :: bounds (cur + s) rest

theorem bounds_ge : ∀ (ns : List (Nat × Nat)) (cur : Nat), ∀ o ∈ bounds cur ns, cur ≤ o
  | [], _, o, h => by rcases List.mem_singleton.1 h with rfl; omega
  | (s, _) :: rest, cur, o, h => by
    rcases List.mem_cons.1 h with rfl | h
    · omega
    · have := bounds_ge rest (cur + s) o h
      omega

theorem bounds_append : ∀ (ns : List (Nat × Nat)) (n : Nat × Nat) (cur : Nat), bounds cur (ns ++ [n]) = bounds cur ns ++ [cur + total ns + n.1]
  | [], _, _ => rfl
  | (s, b) :: rest, n, cur => by
    show cur :: bounds (cur + s) (rest ++ [n]) = cur :: bounds (cur + s) rest ++ _
    rw [bounds_append rest n, total_cons, List.cons_append, Nat.add_assoc cur s]

theorem bounds_end : ∀ (ns : List (Nat × Nat)) (cur : Nat), cur + total ns ∈ bounds cur ns
  | [], _ => List.mem_singleton.2 rfl
  | (s, b) :: rest, cur => by
    rw [total_cons, ← Nat.add_assoc]
    exact List.mem_cons_of_mem _ (bounds_end rest _)

def Increasing (es : List Entry) : Prop := es.Pairwise (fun a b => a.offset < b.offset)

/-- What the code generator makes of the entries. -/
theorem remap_ok : ∀ (ns : List (Nat × Nat)) (cur em : Nat) (es : List Entry), (∀ n ∈ ns, 0 < n.1) → Increasing es → (∀ e ∈ es, e.offset ∈ bounds cur ns) →
    (remap ns cur em es).2.length ≤ 1 ∧ (∀ e ∈ (remap ns cur em es).1, em ≤ e.offset ∧ e.offset ≤ em + (ns.map (·.2)).sum) ∧
    (remap ns cur em es).1.Pairwise (fun a b => a.offset ≤ b.offset) ∧ (∀ e ∈ (remap ns cur em es).1, ∃ e' ∈ es, e.line = e'.line) ∧
    ∀ d k, k < (ns.map (·.2)).sum → some (lineAt d (remap ns cur em es).1 (em + k)) = (expand (lineAt d es) cur ns)[k]?
  | [], cur, em, es, _, hi, hb => by
    refine ⟨?_, (fun e h => by cases h), List.Pairwise.nil, (fun e h => by cases h), (fun d k hk => by simp at hk)⟩
    show es.length ≤ 1
    match es, hi, hb with
    | [], _, _ => simp
    | [_], _, _ => simp
    | a :: b :: l, hi, hb =>
      have h1 := List.mem_singleton.1 (hb a (List.mem_cons_self ..))
      have h2 := List.mem_singleton.1 (hb b (List.mem_cons_of_mem _ (List.mem_cons_self ..)))
      have h3 := (List.pairwise_cons.1 hi).1 b (List.mem_cons_self ..)
      omega
  | (s, b) :: rest, cur, em, [], hp, _, _ => by
    obtain ⟨h1, h2, h3, h4, h5⟩ := remap_ok rest (cur + s) (em + b) [] (fun n hn => hp n (List.mem_cons_of_mem _ hn)) List.Pairwise.nil (fun e he => by cases he)
    have hnil : (remap rest (cur + s) (em + b) []).1 = [] := by
      cases hq : (remap rest (cur + s) (em + b) []).1 with
      | nil => rfl
      | cons x l =>
        obtain ⟨e', he', _⟩ := h4 x (by rw [hq]; exact List.mem_cons_self ..)
        cases he'
    have e : remap ((s, b) :: rest) cur em [] = remap rest (cur + s) (em + b) [] := rfl
    rw [e]
    refine ⟨h1, ?_, h3, h4, ?_⟩
    · rw [hnil]; intro x hx; cases hx
    · intro d k hk
      show _ = (List.replicate b d ++ expand (lineAt d []) (cur + s) rest)[k]?
      by_cases hkb : k < b
      · rw [hnil, List.getElem?_append_left (by rw [List.length_replicate]; exact hkb), List.getElem?_replicate, if_pos hkb]
        rfl
      · rw [List.getElem?_append_right (by rw [List.length_replicate]; omega), List.length_replicate]
        have hk' : k - b < (rest.map (·.2)).sum := by simp only [List.map_cons, List.sum_cons] at hk; omega
        rw [← h5 d (k - b) hk', show em + b + (k - b) = em + k by omega]
  | (s, b) :: rest, cur, em, e :: es, hp, hi, hb => by
    have hs : 0 < s := hp (s, b) (List.mem_cons_self ..)
    obtain ⟨hi1, hi2⟩ := List.pairwise_cons.1 hi
    have hge := hb e (List.mem_cons_self ..)
    by_cases he : e.offset = cur
    · -- the entry is for this node
      obtain ⟨h1, h2, h3, h4, h5⟩ := remap_ok rest (cur + s) (em + b) es (fun n hn => hp n (List.mem_cons_of_mem _ hn)) hi2 (fun x hx => by
        rcases List.mem_cons.1 (hb x (List.mem_cons_of_mem _ hx)) with h | h
        · have := hi1 x hx; omega
        · exact h)
      have eq : remap ((s, b) :: rest) cur em (e :: es) = (⟨e.line, em⟩ :: (remap rest (cur + s) (em + b) es).1, (remap rest (cur + s) (em + b) es).2) := by
        show (if e.offset = cur then _ else _) = _
        rw [if_pos he]
      rw [eq]
      refine ⟨h1, ?_, ?_, ?_, ?_⟩
      · intro x hx
        simp only [List.map_cons, List.sum_cons]
        rcases List.mem_cons.1 hx with rfl | hx
        · simp only; omega
        · have := h2 x hx; omega
      · refine List.pairwise_cons.2 ⟨fun x hx => ?_, h3⟩
        have := h2 x hx
        simp only; omega
      · intro x hx
        rcases List.mem_cons.1 hx with rfl | hx
        · exact ⟨e, List.mem_cons_self .., rfl⟩
        · obtain ⟨e', he', h⟩ := h4 x hx
          exact ⟨e', List.mem_cons_of_mem _ he', h⟩
      · intro d k hk
        have hhd : lineAt d (⟨e.line, em⟩ :: (remap rest (cur + s) (em + b) es).1) (em + k) = lineAt e.line (remap rest (cur + s) (em + b) es).1 (em + k) := by
          show (if em ≤ em + k then _ else _) = _
          rw [if_pos (by omega)]
        rw [hhd]
        have hcur : lineAt d (e :: es) cur = e.line := by
          show (if e.offset ≤ cur then _ else _) = _
          rw [if_pos (by omega), lineAt_none es cur (fun x hx => by have := hi1 x hx; omega)]
        have hrest : expand (lineAt d (e :: es)) (cur + s) rest = expand (lineAt e.line es) (cur + s) rest :=
          expand_congr rest (cur + s) (fun n hn => hp n (List.mem_cons_of_mem _ hn)) (fun o ho _ => by
            show (if e.offset ≤ o then _ else _) = _
            rw [if_pos (by omega)])
        show _ = (List.replicate b (lineAt d (e :: es) cur) ++ expand (lineAt d (e :: es)) (cur + s) rest)[k]?
        rw [hcur, hrest]
        by_cases hkb : k < b
        · rw [List.getElem?_append_left (by rw [List.length_replicate]; exact hkb), List.getElem?_replicate, if_pos hkb,
            lineAt_none _ _ (fun x hx => by have := h2 x hx; omega)]
        · rw [List.getElem?_append_right (by rw [List.length_replicate]; omega), List.length_replicate]
          have hk' : k - b < (rest.map (·.2)).sum := by simp only [List.map_cons, List.sum_cons] at hk; omega
          rw [← h5 e.line (k - b) hk', show em + b + (k - b) = em + k by omega]
    · -- the entry is for a later node
      have hlt : ∀ x ∈ e :: es, x.offset ∈ bounds (cur + s) rest := by
        intro x hx
        rcases List.mem_cons.1 (hb x hx) with h | h
        · rcases List.mem_cons.1 hx with rfl | hx
          · exact absurd h he
          · have := hi1 x hx
            rcases List.mem_cons.1 hge with h' | h'
            · exact absurd h' he
            · have := bounds_ge rest (cur + s) _ h'; omega
        · exact h
      obtain ⟨h1, h2, h3, h4, h5⟩ := remap_ok rest (cur + s) (em + b) (e :: es) (fun n hn => hp n (List.mem_cons_of_mem _ hn)) hi hlt
      have eq : remap ((s, b) :: rest) cur em (e :: es) = remap rest (cur + s) (em + b) (e :: es) := by
        show (if e.offset = cur then _ else _) = _
        rw [if_neg he]
      rw [eq]
      refine ⟨h1, ?_, h3, h4, ?_⟩
      · intro x hx
        have := h2 x hx
        simp only [List.map_cons, List.sum_cons]
        omega
      · intro d k hk
        show _ = (List.replicate b (lineAt d (e :: es) cur) ++ expand (lineAt d (e :: es)) (cur + s) rest)[k]?
        by_cases hkb : k < b
        · rw [List.getElem?_append_left (by rw [List.length_replicate]; exact hkb), List.getElem?_replicate, if_pos hkb,
            lineAt_none _ _ (fun x hx => by have := h2 x hx; omega),
            lineAt_none _ _ (fun x hx => by have := bounds_ge rest (cur + s) _ (hlt x hx); omega)]
        · rw [List.getElem?_append_right (by rw [List.length_replicate]; omega), List.length_replicate]
          have hk' : k - b < (rest.map (·.2)).sum := by simp only [List.map_cons, List.sum_cons] at hk; omega
          rw [← h5 d (k - b) hk', show em + b + (k - b) = em + k by omega]

/-- What the events are for the specification. -/
def seen : Event → Verif.Spec.DebugLines.Event
  | .mark f l => .starts f l
  | .node _ b => .code b

/-- The line after the events. -/
def lineAfter (file : Nat) : Nat → List Event → Nat
  | line, [] => line
  | line, .mark f l :: rest => lineAfter file (if f = file then l else line) rest
  | line, .node _ _ :: rest => lineAfter file line rest

theorem linesOf_append (file : Nat) : ∀ (a b : List Event) (line : Nat), linesOf file line ((a ++ b).map seen) =
    linesOf file line (a.map seen) ++ linesOf file (lineAfter file line a) (b.map seen)
  | [], _, _ => rfl
  | .mark f l :: rest, b, line => linesOf_append file rest b _
  | .node s n :: rest, b, line => by
    show List.replicate n line ++ linesOf file line ((rest ++ b).map seen) = List.replicate n line ++ linesOf file line (rest.map seen) ++ _
    rw [linesOf_append file rest b, List.append_assoc]
    rfl

theorem lineAfter_append (file : Nat) : ∀ (a b : List Event) (line : Nat), lineAfter file line (a ++ b) = lineAfter file (lineAfter file line a) b
  | [], _, _ => rfl
  | .mark _ _ :: rest, b, _ => lineAfter_append file rest b _
  | .node _ _ :: rest, b, _ => lineAfter_append file rest b _

theorem nodes_append : ∀ (a b : List Event), nodes (a ++ b) = nodes a ++ nodes b
  | [], _ => rfl
  | .mark _ _ :: rest, b => nodes_append rest b
  | .node s n :: rest, b => by
    show (s, n) :: nodes (rest ++ b) = (s, n) :: nodes rest ++ nodes b
    rw [nodes_append rest b]
    rfl

/-- The invariant of the parser. -/
structure Inv (file : Nat) (ev : List Event) (p : Parser) : Prop where
  position : p.position = total (nodes ev)
  increasing : Increasing p.entries
  bound : ∀ e ∈ p.entries, e.offset ∈ bounds 0 (nodes ev)
  le : ∀ e ∈ p.entries, e.offset ≤ p.position
  lastLine : p.lastLine = p.entries.getLast?.map (·.line)
  lastOffset : p.lastOffset = p.entries.getLast?.map (·.offset)
  line : ∀ d, lineAt d p.entries p.position = lineAfter file d ev
  lines : ∀ d, linesOf file d (ev.map seen) = expand (lineAt d p.entries) 0 (nodes ev)
  marked : ∀ e ∈ p.entries, ∃ f, Event.mark f e.line ∈ ev

theorem snoc_cases (es : List Entry) : es = [] ∨ ∃ l x, es = l ++ [x] := by
  rcases List.eq_nil_or_concat es with h | ⟨l, x, h⟩
  · exact .inl h
  · exact .inr ⟨l, x, by rw [h, List.concat_eq_append]⟩

theorem inv_node {file : Nat} {ev : List Event} {p : Parser} (h : Inv file ev p) (s b : Nat) (hp : ∀ n ∈ nodes ev, 0 < n.1) (hs : 0 < s) :
    Inv file (ev ++ [.node s b]) (parseStep file p (.node s b)) := by
  have hn : nodes (ev ++ [.node s b]) = nodes ev ++ [(s, b)] := nodes_append _ _
  refine ⟨?_, h.increasing, ?_, ?_, h.lastLine, h.lastOffset, ?_, ?_, ?_⟩
  · show p.position + s = _
    rw [hn, h.position]
    unfold total
    simp
  · intro e he
    rw [hn, bounds_append]
    exact List.mem_append_left _ (h.bound e he)
  · intro e he
    have := h.le e he
    show _ ≤ p.position + s
    omega
  · intro d
    show lineAt d p.entries (p.position + s) = _
    rw [lineAfter_append]
    show _ = lineAfter file d ev
    rw [← h.line]
    have hle := h.le
    generalize p.position = q at *
    generalize p.entries = es at *
    clear h
    induction es generalizing d with
    | nil => rfl
    | cons a l ih =>
      show (if a.offset ≤ q + s then lineAt a.line l (q + s) else lineAt d l (q + s)) = if a.offset ≤ q then lineAt a.line l q else lineAt d l q
      have := hle a (List.mem_cons_self ..)
      rw [if_pos (by omega), if_pos (by omega), ih _ (fun e he => hle e (List.mem_cons_of_mem _ he))]
  · intro d
    rw [linesOf_append, hn, expand_append, h.lines, Nat.zero_add, ← h.position, ← h.line]
    rfl
  · intro e he
    obtain ⟨f, hf⟩ := h.marked e he
    exact ⟨f, List.mem_append_left _ hf⟩

theorem inv_mark {file : Nat} {ev : List Event} {p : Parser} (h : Inv file ev p) (f l : Nat) (hp : ∀ n ∈ nodes ev, 0 < n.1) :
    Inv file (ev ++ [.mark f l]) (parseStep file p (.mark f l)) := by
  have hn : nodes (ev ++ [.mark f l]) = nodes ev := by rw [nodes_append]; exact List.append_nil _
  have hla : ∀ d, lineAfter file d (ev ++ [.mark f l]) = if f = file then l else lineAfter file d ev := by
    intro d
    rw [lineAfter_append]
    rfl
  have hlo : ∀ d, linesOf file d ((ev ++ [Event.mark f l]).map seen) = linesOf file d (ev.map seen) := by
    intro d
    rw [linesOf_append]
    exact List.append_nil _
  show Inv file _ (addLine file p f l)
  unfold addLine
  by_cases hc : f = file ∧ p.lastLine ≠ some l
  · rw [if_pos hc]
    -- the entries are those before with an offset below, and the new one
    have key : ∃ es, (if p.lastOffset = some p.position then p.entries.dropLast ++ [⟨l, ((p.entries.getLast?).map (·.offset)).getD 0⟩]
        else p.entries ++ [⟨l, p.position⟩]) = es ++ [⟨l, p.position⟩] ∧ Increasing es ∧ (∀ e ∈ es, e ∈ p.entries ∧ e.offset < p.position) ∧
        ∀ d o, o < p.position → lineAt d es o = lineAt d p.entries o := by
      rcases snoc_cases p.entries with hnil | ⟨l', x, hl⟩
      · have hlo := h.lastOffset
        rw [hnil] at hlo
        rw [if_neg (by rw [hlo]; simp), hnil]
        exact ⟨[], rfl, List.Pairwise.nil, (fun e he => by cases he), fun d o _ => rfl⟩
      · have hlo := h.lastOffset
        rw [hl, List.getLast?_append] at hlo
        have hlo : p.lastOffset = some x.offset := by rw [hlo]; rfl
        have hinc := h.increasing
        rw [hl] at hinc
        obtain ⟨i1, _, i3⟩ := List.pairwise_append.1 hinc
        have hx := h.le x (by rw [hl]; simp)
        by_cases hx' : x.offset = p.position
        · rw [if_pos (by rw [hlo, hx']), hl]
          refine ⟨l', ?_, i1, ?_, ?_⟩
          · rw [List.dropLast_concat, List.getLast?_append]
            show _ ++ [(⟨l, x.offset⟩ : Entry)] = _
            rw [hx']
          · intro e he
            refine ⟨List.mem_append_left _ he, ?_⟩
            have := i3 e he x (List.mem_singleton.2 rfl)
            omega
          · intro d o ho
            rw [lineAt_append, if_neg (by omega)]
        · rw [if_neg (by rw [hlo]; intro hh; exact hx' (Option.some.inj hh))]
          refine ⟨p.entries, rfl, h.increasing, ?_, fun d o _ => rfl⟩
          intro e he
          refine ⟨he, ?_⟩
          rw [hl] at he
          rcases List.mem_append.1 he with he | he
          · have := i3 e he x (List.mem_singleton.2 rfl); omega
          · rw [List.mem_singleton.1 he]; omega
    obtain ⟨es, hes, hinc, hmem, hline⟩ := key
    rw [hes]
    refine ⟨by rw [hn]; exact h.position, ?_, ?_, ?_, ?_, ?_, ?_, ?_, ?_⟩
    · refine List.pairwise_append.2 ⟨hinc, List.pairwise_singleton _ _, ?_⟩
      intro a ha b hb
      rw [List.mem_singleton.1 hb]
      exact (hmem a ha).2
    · intro e he
      rw [hn]
      rcases List.mem_append.1 he with he | he
      · exact h.bound e (hmem e he).1
      · rw [List.mem_singleton.1 he]
        show p.position ∈ _
        have := bounds_end (nodes ev) 0
        rw [Nat.zero_add, ← h.position] at this
        exact this
    · intro e he
      rcases List.mem_append.1 he with he | he
      · exact h.le e (hmem e he).1
      · rw [List.mem_singleton.1 he]
        exact Nat.le_refl _
    · show some l = _
      rw [List.getLast?_append]
      rfl
    · show some p.position = _
      rw [List.getLast?_append]
      rfl
    · intro d
      rw [hla, if_pos hc.1]
      show lineAt d (es ++ [⟨l, p.position⟩]) p.position = l
      rw [lineAt_append, if_pos (Nat.le_refl _)]
    · intro d
      rw [hlo, hn, h.lines]
      refine expand_congr _ _ hp (fun o _ ho => ?_)
      rw [Nat.zero_add, ← h.position] at ho
      show _ = lineAt d (es ++ [⟨l, p.position⟩]) o
      rw [lineAt_append, if_neg (by simp only; omega), hline d o ho]
    · intro e he
      rcases List.mem_append.1 he with he | he
      · obtain ⟨f', hf'⟩ := h.marked e (hmem e he).1
        exact ⟨f', List.mem_append_left _ hf'⟩
      · rw [List.mem_singleton.1 he]
        exact ⟨f, List.mem_append_right _ (List.mem_singleton.2 rfl)⟩
  · rw [if_neg hc]
    refine ⟨by rw [hn]; exact h.position, h.increasing, by rw [hn]; exact h.bound, h.le, h.lastLine, h.lastOffset, ?_, ?_, ?_⟩
    · intro d
      rw [hla, ← h.line]
      by_cases hf : f = file
      · rw [if_pos hf]
        have hl : p.lastLine = some l := by
          by_cases hq : p.lastLine = some l
          · exact hq
          · exact absurd ⟨hf, hq⟩ hc
        rw [h.lastLine] at hl
        rcases snoc_cases p.entries with hnil | ⟨l', x, hx⟩
        · rw [hnil] at hl; cases hl
        · rw [hx, List.getLast?_append] at hl
          have hl : x.line = l := Option.some.inj hl
          rw [hx, lineAt_append, if_pos (h.le x (by rw [hx]; simp)), hl]
      · rw [if_neg hf]
    · intro d
      rw [hlo, hn, h.lines]
    · intro e he
      obtain ⟨f', hf'⟩ := h.marked e he
      exact ⟨f', List.mem_append_left _ hf'⟩

theorem inv_all (file : Nat) : ∀ (ev more : List Event) (p : Parser), Inv file ev p → (∀ n ∈ nodes (ev ++ more), 0 < n.1) →
    Inv file (ev ++ more) (more.foldl (parseStep file) p)
  | ev, [], p, h, _ => by rw [List.append_nil]; exact h
  | ev, x :: more, p, h, hp => by
    rw [show ev ++ x :: more = (ev ++ [x]) ++ more by simp] at hp ⊢
    have hp1 : ∀ n ∈ nodes (ev ++ [x]), 0 < n.1 := fun n hn => hp n (by rw [nodes_append]; exact List.mem_append_left _ hn)
    have hp2 : ∀ n ∈ nodes ev, 0 < n.1 := fun n hn => hp1 n (by rw [nodes_append]; exact List.mem_append_left _ hn)
    rw [List.foldl_cons]
    refine inv_all file (ev ++ [x]) more _ ?_ hp
    cases x with
    | mark f l => exact inv_mark h f l hp2
    | node s b =>
      refine inv_node h s b hp2 (hp1 (s, b) ?_)
      rw [nodes_append]
      exact List.mem_append_right _ (List.mem_singleton.2 rfl)

theorem parse_inv (file : Nat) (ev : List Event) (hp : ∀ n ∈ nodes ev, 0 < n.1) : Inv file ev (parse file ev) := by
  have h0 : Inv file [] Parser.start :=
    ⟨rfl, List.Pairwise.nil, (fun e he => by cases he), (fun e he => by cases he), rfl, rfl, fun _ => rfl, fun _ => rfl, (fun e he => by cases he)⟩
  exact inv_all file [] ev .start h0 hp

/-- The line information of a function. -/
theorem entries_ok (f : Function) (hp : ∀ n ∈ nodes f.events, 0 < n.1) : ∃ es, f.entries = some es ∧
    (∀ e ∈ es, f.prolog ≤ e.offset ∧ e.offset ≤ f.prolog + ((nodes f.events).map (·.2)).sum) ∧ es.Pairwise (fun a b => a.offset ≤ b.offset) ∧
    (∀ e ∈ es, ∃ file, Event.mark file e.line ∈ f.events) ∧
    ∀ d k, k < ((nodes f.events).map (·.2)).sum → some (lineAt d es (f.prolog + k)) = (linesOf f.bodyFile d (f.events.map seen))[k]? := by
  have h := parse_inv f.bodyFile f.events hp
  obtain ⟨h1, h2, h3, h4, h5⟩ := remap_ok (nodes f.events) 0 f.prolog (parse f.bodyFile f.events).entries hp h.increasing h.bound
  refine ⟨(remap (nodes f.events) 0 f.prolog (parse f.bodyFile f.events).entries).1, ?_, h2, h3, ?_, ?_⟩
  · show finish _ = _
    unfold finish
    rw [if_pos h1]
  · intro e he
    obtain ⟨e', he', hl⟩ := h4 e he
    rw [hl]
    exact h.marked e' he'
  · intro d k hk
    rw [h.lines]
    exact h5 d k hk

end Verif.Lemmas.DebugLines
