import Verif.Spec.Print
import Verif.Model.Print

/-!
# C90: printlike functions print every part of their arguments, and get what they print
-/
namespace Verif.Props.Print
open Verif.Model.Print Verif.Spec.Print

/-! Members -/

theorem registered_cons (name : Option (List Char)) (o : Nat) (t : Ty) (rest : Mems) :
    ∃ flat, registered (.cons name o t rest) = ⟨name, o, t, flat.length + 1⟩ :: (flat ++ registered rest) := by
  cases name with
  | some name => exact ⟨[], by rw [registered]; rfl⟩
  | none =>
    refine ⟨(nested t).zipIdx.map (fun (m, i) => { m with offset := o + m.offset, increment := if (match t with | .union _ => true | _ => false) then (nested t).length - i else 1 }), ?_⟩
    cases t <;> rw [registered, List.length_map, List.length_zipIdx]
    all_goals first | rfl | (intro members h; cases h)

theorem registered_pos {ms : Mems} (h : ms ≠ .nil) : 0 < (registered ms).length := by
  cases ms with
  | nil => exact absurd rfl h
  | cons name o t rest =>
    obtain ⟨flat, e⟩ := registered_cons name o t rest
    rw [e]; exact Nat.succ_pos _

/-! Leaves -/

theorem under_under (p q : List Step) (l : List Leaf) : under p (under q l) = under (p ++ q) l := by
  unfold under
  rw [List.map_map]
  apply List.map_congr_left
  intro x _
  show Leaf.mk (p ++ (q ++ x.path)) _ = _
  rw [← List.append_assoc]

theorem under_append (p : List Step) (a b : List Leaf) : under p (a ++ b) = under p a ++ under p b := List.map_append

theorem under_ne {p : List Step} {l : List Leaf} (h : l ≠ []) : under p l ≠ [] := fun hx => h (List.map_eq_nil_iff.1 hx)

mutual
theorem leaves_ne : ∀ (t : Ty), Filled t → leaves t ≠ []
  | .scalar s, _ => by rw [leaves]; exact List.cons_ne_nil _ _
  | .struct ms, h => by
    rw [Filled] at h; rw [leaves]
    exact ofAll_ne ms h.2 h.1
  | .union ms, h => by
    rw [Filled] at h; rw [leaves]
    exact ofFirst_ne ms h.2 h.1
  | .array e n, h => by
    rw [Filled] at h; rw [leaves]
    cases n with
    | zero => omega
    | succ n =>
      rw [List.range_succ, List.flatMap_append]
      intro hx
      have := (List.append_eq_nil_iff.1 hx).2
      rw [List.flatMap_cons, List.flatMap_nil, List.append_nil] at this
      exact under_ne (leaves_ne e h.2) this
theorem ofAll_ne : ∀ (ms : Mems), AllFilled ms → ms ≠ .nil → ofAll ms ≠ []
  | .nil, _, h => absurd rfl h
  | .cons name o t rest, h, _ => by
    rw [AllFilled] at h; rw [ofAll]
    intro hx
    exact under_ne (leaves_ne t h.1) (List.append_eq_nil_iff.1 hx).1
theorem ofFirst_ne : ∀ (ms : Mems), AllFilled ms → ms ≠ .nil → ofFirst ms ≠ []
  | .nil, _, h => absurd rfl h
  | .cons name o t rest, h, _ => by
    rw [AllFilled] at h; rw [ofFirst]
    exact under_ne (leaves_ne t h.1)
end

/-- Only the last one ends the stack. -/
def mark : List Leaf → Bool → List (Leaf × Bool)
  | [], _ => []
  | [x], b => [(x, b)]
  | x :: y :: rest, b => (x, false) :: mark (y :: rest) b

theorem mark_append : ∀ (a c : List Leaf) (b : Bool), c ≠ [] → mark (a ++ c) b = mark a false ++ mark c b
  | [], _, _, _ => rfl
  | [x], c, b, h => by
    cases c with
    | nil => exact absurd rfl h
    | cons y c => rfl
  | x :: y :: rest, c, b, h => by
    show (x, false) :: mark ((y :: rest) ++ c) b = _
    rw [mark_append (y :: rest) c b h]; rfl

theorem mark_fst : ∀ (a : List Leaf) (b : Bool), (mark a b).map (·.1) = a
  | [], _ => rfl
  | [_], _ => rfl
  | x :: y :: rest, b => by
    show x :: (mark (y :: rest) b).map (·.1) = _
    rw [mark_fst (y :: rest) b]

mutual
/-- How many steps the walk takes. -/
def cost : Ty → Nat
  | .scalar _ => 1
  | .struct ms => costAll ms
  | .union ms => costFirst ms
  | .array e n => n * (1 + cost e)
def costAll : Mems → Nat
  | .nil => 0
  | .cons _ _ t rest => 1 + cost t + costAll rest
def costFirst : Mems → Nat
  | .nil => 0
  | .cons _ _ t _ => 1 + cost t
end

/-- What the walk does for a type. -/
def Walks (t : Ty) : Prop := ∀ (st : List Node) (out : List (Leaf × Bool)) (n : Nat),
  run (cost t + n) (⟨t, 0⟩ :: st) out = run n (advance st) (out ++ mark (under (path st) (leaves t)) (advance st).isEmpty)

theorem run_member {ms : Mems} {k : Nat} {m : Member} (hm : (registered ms)[k]? = some m) (st : List Node) (out : List (Leaf × Bool)) (n : Nat) :
    run (n + 1) (⟨.struct ms, k⟩ :: st) out = run n (⟨m.type, 0⟩ :: ⟨.struct ms, k⟩ :: st) out := by
  show (match (registered ms)[k]? with | some m => run n (⟨m.type, 0⟩ :: ⟨.struct ms, k⟩ :: st) out | none => none) = _
  rw [hm]

theorem run_union {ms : Mems} {k : Nat} {m : Member} (hm : (registered ms)[k]? = some m) (st : List Node) (out : List (Leaf × Bool)) (n : Nat) :
    run (n + 1) (⟨.union ms, k⟩ :: st) out = run n (⟨m.type, 0⟩ :: ⟨.union ms, k⟩ :: st) out := by
  show (match (registered ms)[k]? with | some m => run n (⟨m.type, 0⟩ :: ⟨.union ms, k⟩ :: st) out | none => none) = _
  rw [hm]

theorem advance_struct {ms : Mems} {k : Nat} {m : Member} (hm : (registered ms)[k]? = some m) (st : List Node) :
    advance (⟨.struct ms, k⟩ :: st) = if k + m.increment < (registered ms).length then ⟨.struct ms, k + m.increment⟩ :: st else advance st := by
  show (if k + (match (registered ms)[k]? with | some m => m.increment | none => 0) < (registered ms).length then
    (⟨.struct ms, k + (match (registered ms)[k]? with | some m => m.increment | none => 0)⟩ : Node) :: st else advance st) = _
  rw [hm]

theorem step_struct {ms : Mems} {k : Nat} {m : Member} (hm : (registered ms)[k]? = some m) : step ⟨.struct ms, k⟩ = [.member m.name m.offset] := by
  show (match (registered ms)[k]? with | some m => [Step.member m.name m.offset] | none => []) = _
  rw [hm]

theorem step_union {ms : Mems} {k : Nat} {m : Member} (hm : (registered ms)[k]? = some m) : step ⟨.union ms, k⟩ = [.member m.name m.offset] := by
  show (match (registered ms)[k]? with | some m => [Step.member m.name m.offset] | none => []) = _
  rw [hm]

theorem walk_array {e : Ty} (he : Walks e) (hne : leaves e ≠ []) (n : Nat) : ∀ (d k : Nat), k + d + 1 = n → ∀ (st : List Node) (out : List (Leaf × Bool)) (m : Nat),
    run ((d + 1) * (1 + cost e) + m) (⟨.array e n, k⟩ :: st) out =
      run m (advance st) (out ++ mark (under (path st) ((List.range' k (d + 1)).flatMap (fun i => under [.index i] (leaves e)))) (advance st).isEmpty) := by
  intro d
  induction d with
  | zero =>
    intro k hk st out m
    have h1 : run ((0 + 1) * (1 + cost e) + m) (⟨.array e n, k⟩ :: st) out = run (cost e + m) (⟨e, 0⟩ :: ⟨.array e n, k⟩ :: st) out := by
      rw [show (0 + 1) * (1 + cost e) + m = cost e + m + 1 by omega]; rfl
    have h2 : advance (⟨.array e n, k⟩ :: st) = advance st := by
      show (if k + 1 < n then _ else advance st) = _
      rw [if_neg (by omega)]
    have h3 : path (⟨.array e n, k⟩ :: st) = path st ++ [.index k] := rfl
    rw [h1, he, h2, h3]
    have h4 : (List.range' k (0 + 1)).flatMap (fun i => under [.index i] (leaves e)) = under [.index k] (leaves e) := by
      show under [.index k] (leaves e) ++ [] = _
      rw [List.append_nil]
    rw [h4, under_under]
  | succ d ih =>
    intro k hk st out m
    have h1 : run ((d + 1 + 1) * (1 + cost e) + m) (⟨.array e n, k⟩ :: st) out = run (cost e + ((d + 1) * (1 + cost e) + m)) (⟨e, 0⟩ :: ⟨.array e n, k⟩ :: st) out := by
      rw [show (d + 1 + 1) * (1 + cost e) + m = cost e + ((d + 1) * (1 + cost e) + m) + 1 by rw [Nat.add_mul (d + 1) 1]; omega]; rfl
    have h2 : advance (⟨.array e n, k⟩ :: st) = ⟨.array e n, k + 1⟩ :: st := by
      show (if k + 1 < n then _ else advance st) = _
      rw [if_pos (by omega)]
    have h3 : path (⟨.array e n, k⟩ :: st) = path st ++ [.index k] := rfl
    rw [h1, he, h2, h3, ih (k + 1) (by omega), List.append_assoc]
    congr 2
    have h4 : (List.range' k (d + 1 + 1)).flatMap (fun i => under [.index i] (leaves e)) =
        under [.index k] (leaves e) ++ (List.range' (k + 1) (d + 1)).flatMap (fun i => under [.index i] (leaves e)) := rfl
    rw [h4, under_append, mark_append, under_under]
    · rfl
    · apply under_ne
      show under [.index (k + 1)] (leaves e) ++ _ ≠ []
      intro hx
      exact under_ne hne (List.append_eq_nil_iff.1 hx).1

mutual
theorem walks : ∀ (t : Ty), Filled t → Walks t
  | .scalar s, _ => by
    intro st out n
    rw [cost, show 1 + n = n + 1 by omega]
    show run n (advance st) (out ++ [(⟨path st, s⟩, (advance st).isEmpty)]) = _
    rw [leaves]
    show _ = run n (advance st) (out ++ [(⟨path st ++ [], s⟩, (advance st).isEmpty)])
    rw [List.append_nil]
  | .struct ms, h => by
    rw [Filled] at h
    intro st out n
    rw [cost, leaves]
    exact walksAll ms h.2 h.1 ms [] rfl st out n
  | .union ms, h => by
    rw [Filled] at h
    intro st out n
    rw [cost, leaves]
    exact walksFirst ms h.2 h.1 st out n
  | .array e n, h => by
    rw [Filled] at h
    intro st out m
    rw [cost, leaves]
    cases n with
    | zero => omega
    | succ n =>
      rw [List.range_eq_range']
      exact walk_array (walks e h.2) (leaves_ne e h.2) (n + 1) n 0 (by omega) st out m
theorem walksAll : ∀ (ms : Mems), AllFilled ms → ms ≠ .nil → ∀ (S : Mems) (pre : List Member), registered S = pre ++ registered ms →
    ∀ (st : List Node) (out : List (Leaf × Bool)) (n : Nat), run (costAll ms + n) (⟨.struct S, pre.length⟩ :: st) out =
      run n (advance st) (out ++ mark (under (path st) (ofAll ms)) (advance st).isEmpty)
  | .nil, _, h, _, _, _, _, _, _ => absurd rfl h
  | .cons name o t rest, hf, _, S, pre, hS, st, out, n => by
    rw [AllFilled] at hf
    obtain ⟨flat, e⟩ := registered_cons name o t rest
    rw [e] at hS
    have hm : (registered S)[pre.length]? = some ⟨name, o, t, flat.length + 1⟩ := by
      rw [hS, List.getElem?_append_right (Nat.le_refl _), Nat.sub_self]; rfl
    rw [costAll, show 1 + cost t + costAll rest + n = cost t + (costAll rest + n) + 1 by omega, run_member hm, walks t hf.1, advance_struct hm]
    have hp : path (⟨.struct S, pre.length⟩ :: st) = path st ++ [.member name o] := by
      show path st ++ step _ = _
      rw [step_struct hm]
    rw [hp, ofAll, under_append]
    have hlen : (registered S).length = pre.length + (flat.length + 1) + (registered rest).length := by
      rw [hS, List.length_append, List.length_cons, List.length_append]; omega
    by_cases hr : rest = .nil
    · subst hr
      have h0 : registered .nil = [] := by rw [registered]
      rw [h0] at hlen
      rw [if_neg (show ¬pre.length + (flat.length + 1) < (registered S).length by rw [hlen]; simp)]
      rw [ofAll, costAll, Nat.zero_add, under_under]
      show _ = run n (advance st) (out ++ mark (_ ++ []) _)
      rw [List.append_nil]
    · have hpos := registered_pos hr
      rw [if_pos (show pre.length + (flat.length + 1) < (registered S).length by rw [hlen]; omega)]
      have ih := walksAll rest hf.2 hr S (pre ++ ⟨name, o, t, flat.length + 1⟩ :: flat) (by rw [hS, List.append_assoc]; rfl) st
        (out ++ mark (under (path st ++ [.member name o]) (leaves t)) false) n
      rw [List.length_append, List.length_cons] at ih
      show run (costAll rest + n) (⟨.struct S, pre.length + (flat.length + 1)⟩ :: st) (out ++ mark (under (path st ++ [.member name o]) (leaves t)) false) = _
      rw [ih, mark_append _ _ _ (under_ne (ofAll_ne rest hf.2 hr)), List.append_assoc, under_under]
theorem walksFirst : ∀ (ms : Mems), AllFilled ms → ms ≠ .nil → ∀ (st : List Node) (out : List (Leaf × Bool)) (n : Nat), run (costFirst ms + n) (⟨.union ms, 0⟩ :: st) out =
      run n (advance st) (out ++ mark (under (path st) (ofFirst ms)) (advance st).isEmpty)
  | .nil, _, h, _, _, _ => absurd rfl h
  | .cons name o t rest, hf, _, st, out, n => by
    rw [AllFilled] at hf
    obtain ⟨flat, e⟩ := registered_cons name o t rest
    have hm : (registered (.cons name o t rest))[0]? = some ⟨name, o, t, flat.length + 1⟩ := by rw [e]; rfl
    rw [costFirst, show 1 + cost t + n = cost t + n + 1 by omega, run_union hm, walks t hf.1]
    have hp : path (⟨.union (.cons name o t rest), 0⟩ :: st) = path st ++ [.member name o] := by
      show path st ++ step _ = _
      rw [step_union hm]
    rw [hp, ofFirst, under_under]
    rfl
end

theorem run_eq (t : Ty) (h : Filled t) (fuel : Nat) (hf : cost t < fuel) : run fuel [⟨t, 0⟩] [] = some (mark (leaves t) true) := by
  obtain ⟨n, rfl⟩ : ∃ n, fuel = cost t + (n + 1) := ⟨fuel - cost t - 1, by omega⟩
  rw [walks t h [] [] (n + 1)]
  have : under (path []) (leaves t) = leaves t := by
    unfold under
    exact List.map_id _
  rw [this]
  rfl

/-! The text -/

theorem stepText_eq (invalid : List Char) : Model.Print.stepText invalid = Spec.Print.stepText invalid := by
  funext x
  cases x <;> rfl

theorem text_lines (invalid w p sp : List Char) : ∀ (l : List Leaf) (b : Bool),
    (mark l b).flatMap (piece invalid w p sp true) = l.flatMap (fun x => "    ".toList ++ item invalid (promoted w p sp) x ++ ",\n".toList) := by
  have h : ∀ x b, piece invalid w p sp true (x, b) = "    ".toList ++ item invalid (promoted w p sp) x ++ ",\n".toList := by
    intro x b
    unfold piece item
    rw [stepText_eq]
    cases b <;> (simp only [List.append_assoc, if_true]; try rfl)
  intro l
  induction l with
  | nil => intro b; rfl
  | cons x l ih =>
    intro b
    cases l with
    | nil =>
      show piece invalid w p sp true (x, b) ++ [] = _ ++ []
      rw [h]
    | cons y l =>
      show piece invalid w p sp true (x, false) ++ (mark (y :: l) b).flatMap _ = _ ++ (y :: l).flatMap _
      rw [h, ih b]

theorem text_line (invalid w p sp : List Char) : ∀ (l : List Leaf),
    (mark l true).flatMap (piece invalid w p sp false) = (", ".toList).intercalate (l.map (item invalid (promoted w p sp)))
  | [] => rfl
  | [x] => by
    show piece invalid w p sp false (x, true) ++ [] = item invalid (promoted w p sp) x ++ []
    unfold piece item
    rw [stepText_eq]
    simp
  | x :: y :: l => by
    have ih := text_line invalid w p sp (y :: l)
    have e : (", ".toList).intercalate ((x :: y :: l).map (item invalid (promoted w p sp))) =
        item invalid (promoted w p sp) x ++ (", ".toList ++ (", ".toList).intercalate ((y :: l).map (item invalid (promoted w p sp)))) := rfl
    show piece invalid w p sp false (x, false) ++ (mark (y :: l) true).flatMap _ = _
    rw [e, ih]
    unfold piece item
    rw [stepText_eq]
    simp

/-- The text of the format string for a structure, union or array. -/
def whole (invalid name : List Char) (lines : Bool) (conversion : Scalar → List Char) (l : List Leaf) : List Char :=
  "(".toList ++ name ++ (if lines then "){\n".toList else "){".toList) ++ items invalid conversion lines l ++ "}".toList

theorem infer_compound (invalid name flags w p sp : List Char) (t : Ty) (h : Filled t) (hd : decay sp t = t) (hs : ∀ s, t ≠ .scalar s) (fuel : Nat) (hf : cost t < fuel) :
    infer fuel invalid name flags w p sp t = some (whole invalid name (decide ('#' ∈ flags)) (promoted w p sp) (leaves t), leaves t) := by
  have hl : flags.any (· == '#') = decide ('#' ∈ flags) := by
    rw [Bool.eq_iff_iff]; simp
  have hi : infer fuel invalid name flags w p sp t = (run fuel [⟨t, 0⟩] []).map (fun out =>
      ('(' :: (name ++ (if flags.any (· == '#') then "){\n".toList else "){".toList) ++ out.flatMap (piece invalid w p sp (flags.any (· == '#'))) ++ ['}']), out.map (·.1))) := by
    unfold infer
    rw [hd]
    cases t with
    | scalar s => exact absurd rfl (hs s)
    | struct ms => rfl
    | union ms => rfl
    | array e n => rfl
  rw [hi, run_eq t h fuel hf, hl]
  rw [Option.map_some, mark_fst]
  unfold whole items
  by_cases hx : '#' ∈ flags
  · rw [decide_eq_true hx, text_lines]
    simp
  · rw [decide_eq_false hx, text_line]
    simp

/-! What `printf` reads -/

def Digits (w : List Char) : Prop := ∀ c ∈ w, c ∈ ['0', '1', '2', '3', '4', '5', '6', '7', '8', '9']

theorem reads_plain : ∀ (a b : List Char), '%' ∉ a → reads .text (a ++ b) = reads .text b
  | [], _, _ => rfl
  | c :: a, b, h => by
    show (if c = '%' then reads (.conversion 0) (a ++ b) else reads .text (a ++ b)) = _
    rw [if_neg (fun hx => h (by rw [hx]; exact List.mem_cons_self)), reads_plain a b (fun hx => h (List.mem_cons_of_mem _ hx))]

theorem reads_digits (l : Nat) : ∀ (w b : List Char), Digits w → reads (.conversion l) (w ++ b) = reads (.conversion l) b
  | [], _, _ => rfl
  | c :: w, b, h => by
    have hc := h c List.mem_cons_self
    have ih := reads_digits l w b (fun x hx => h x (List.mem_cons_of_mem _ hx))
    rw [← ih]
    simp only [List.mem_cons, List.not_mem_nil, or_false] at hc
    rcases hc with rfl | rfl | rfl | rfl | rfl | rfl | rfl | rfl | rfl | rfl <;> rfl

theorem reads_start (w p b : List Char) (hw : Digits w) (hp : Digits p) :
    reads .text ('%' :: (w ++ (if p = [] then [] else ['.']) ++ p ++ b)) = reads (.conversion 0) b := by
  show reads (.conversion 0) (w ++ (if p = [] then [] else ['.']) ++ p ++ b) = _
  rw [List.append_assoc, List.append_assoc, reads_digits 0 _ _ hw]
  split
  · rw [List.nil_append, reads_digits 0 _ _ hp]
  · show reads (.conversion 0) (p ++ b) = _
    rw [reads_digits 0 _ _ hp]

/-- The letter for integers. -/
theorem fold_letter (signed : Bool) (sp : List Char) : sp.foldl (fun t c =>
      if c = 'n' then (if signed then 'd' else 'u') else if c = 'x' then 'x' else if c = 'u' then 'u' else if c = 'd' then 'd' else if c = 'o' then 'o' else t)
      (if signed then 'd' else 'x') =
    match (sp.filter (fun c => decide (c ∈ ['n', 'x', 'u', 'd', 'o']))).getLast? with
    | none => if signed then 'd' else 'x'
    | some c => if c = 'n' then (if signed then 'd' else 'u') else c := by
  rw [← List.reverse_reverse sp]
  generalize sp.reverse = r
  induction r with
  | nil => rfl
  | cons c r ih =>
    rw [List.reverse_cons, List.foldl_append, List.filter_append, ih]
    by_cases hc : c ∈ ['n', 'x', 'u', 'd', 'o']
    · have : [c].filter (fun c => decide (c ∈ ['n', 'x', 'u', 'd', 'o'])) = [c] := List.filter_cons_of_pos (by exact decide_eq_true hc)
      rw [this, List.getLast?_concat]
      simp only [List.mem_cons, List.not_mem_nil, or_false] at hc
      rcases hc with rfl | rfl | rfl | rfl | rfl <;> rfl
    · have : [c].filter (fun c => decide (c ∈ ['n', 'x', 'u', 'd', 'o'])) = [] := List.filter_cons_of_neg (by simpa using hc)
      rw [this, List.append_nil]
      simp only [List.mem_cons, List.not_mem_nil, or_false, not_or] at hc
      obtain ⟨h1, h2, h3, h4, h5⟩ := hc
      simp only [List.foldl_cons, List.foldl_nil, if_neg h1, if_neg h2, if_neg h3, if_neg h4, if_neg h5]

theorem letter_cases (given : List Char) (signed : Bool) (size : Nat) : letter given (.integer signed size) ∈ ['d', 'x', 'u', 'o'] := by
  unfold letter
  simp only
  split
  · split <;> decide
  · rename_i c hc
    have hm := List.mem_of_getLast? hc
    have hm := (List.mem_filter.1 hm).2
    have hm : c ∈ ['n', 'x', 'u', 'd', 'o'] := of_decide_eq_true hm
    simp only [List.mem_cons, List.not_mem_nil, or_false] at hm
    rcases hm with rfl | rfl | rfl | rfl | rfl
    all_goals cases (signed || decide (size < 4)) <;> decide

theorem reads_integer (w p sp b : List Char) (hw : Digits w) (hp : Digits p) (signed : Bool) (size : Nat) (h4 : 4 ≤ size) :
    reads .text (conversion w p sp (.integer signed size) ++ b) = (if size = 8 then .longLong else .int, letter sp (.integer signed size)) :: reads .text b := by
  have hl : letter sp (.integer signed size) = sp.foldl (fun t c =>
      if c = 'n' then (if signed then 'd' else 'u') else if c = 'x' then 'x' else if c = 'u' then 'u' else if c = 'd' then 'd' else if c = 'o' then 'o' else t)
      (if signed then 'd' else 'x') := by
    rw [fold_letter]
    unfold letter
    simp only
    rw [decide_eq_false (show ¬size < 4 by omega), Bool.or_false]
    rfl
  have hc := letter_cases sp signed size
  unfold conversion
  simp only
  rw [← hl]
  generalize letter sp (.integer signed size) = c at *
  have hpre : '%' ∉ (if c = 'x' then "0x".toList else if c = 'o' then "0o".toList else []) := by
    split
    · decide
    · split <;> decide
  rw [List.append_assoc, reads_plain _ _ hpre, List.cons_append]
  have e : w ++ (if p = [] then [] else ['.']) ++ p ++ (if size = 8 then "ll".toList else []) ++ [c] ++ b = w ++ (if p = [] then [] else ['.']) ++ p ++ ((if size = 8 then "ll".toList else []) ++ (c :: b)) := by
    simp only [List.append_assoc]; rfl
  rw [e, reads_start w p _ hw hp]
  simp only [List.mem_cons, List.not_mem_nil, or_false] at hc
  by_cases h8 : size = 8
  · rw [if_pos h8, if_pos h8]
    rcases hc with rfl | rfl | rfl | rfl <;> rfl
  · rw [if_neg h8, if_neg h8]
    rcases hc with rfl | rfl | rfl | rfl <;> rfl

theorem letter_small (sp : List Char) (signed : Bool) (size : Nat) (h : size < 4) : letter sp (.integer signed size) = letter sp (.integer true 4) := by
  unfold letter
  simp only
  rw [decide_eq_true h, Bool.or_true, Bool.true_or]

theorem reads_scalar (w p sp b : List Char) (hw : Digits w) (hp : Digits p) (s : Scalar) :
    reads .text (promoted w p sp s ++ b) = (passed s, letter sp s) :: reads .text b := by
  unfold promoted
  cases s with
  | integer signed size =>
    by_cases h : size < 4
    · have : promote (.integer signed size) = .integer true 4 := if_pos h
      rw [this, reads_integer w p sp b hw hp true 4 (by omega), letter_small sp signed size h]
      show _ = (if size = 8 then Class.longLong else Class.int, _) :: _
      rw [if_neg (show ¬size = 8 by omega)]
      rfl
    · have : promote (.integer signed size) = .integer signed size := if_neg h
      rw [this, reads_integer w p sp b hw hp signed size (by omega)]
      rfl
  | float =>
    show reads .text ('%' :: (w ++ (if p = [] then [] else ['.']) ++ p ++ "f".toList ++ b)) = _
    rw [List.append_assoc _ "f".toList, reads_start w p _ hw hp]
    rfl
  | double =>
    show reads .text ('%' :: (w ++ (if p = [] then [] else ['.']) ++ p ++ "f".toList ++ b)) = _
    rw [List.append_assoc _ "f".toList, reads_start w p _ hw hp]
    rfl
  | enum => rfl
  | pointer c =>
    have hany : (sp.any (· == 's') = true) = ('s' ∈ sp) := by
      apply propext; simp
    show reads .text ((if c ∧ sp.any (· == 's') then '%' :: (w ++ (if p = [] then [] else ['.']) ++ p ++ ['s']) else "%p".toList) ++ b) =
      (.pointer, if c ∧ 's' ∈ sp then 's' else 'p') :: _
    by_cases hx : c ∧ 's' ∈ sp
    · rw [if_pos (show (c : Prop) ∧ sp.any (· == 's') = true from ⟨hx.1, by rw [hany]; exact hx.2⟩), if_pos hx, List.cons_append, List.append_assoc _ ['s'], reads_start w p _ hw hp]
      rfl
    · rw [if_neg (show ¬((c : Prop) ∧ sp.any (· == 's') = true) from fun hy => hx ⟨hy.1, by rw [← hany]; exact hy.2⟩), if_neg hx]
      rfl

theorem digits_plain (i : Nat) : '%' ∉ Nat.toDigits 10 i := by
  intro h
  have := Nat.isDigit_of_mem_toDigits (by decide) (by decide) h
  exact absurd this (by decide)

/-- Names have no `%`. -/
def Plain (invalid : List Char) (l : List Leaf) : Prop := '%' ∉ invalid ∧ ∀ x ∈ l, ∀ n o, Step.member (some n) o ∈ x.path → '%' ∉ n

theorem path_plain (invalid : List Char) (hi : '%' ∉ invalid) (p : List Step) (h : ∀ n o, Step.member (some n) o ∈ p → '%' ∉ n) : '%' ∉ p.flatMap (Spec.Print.stepText invalid) := by
  intro hx
  obtain ⟨s, hs, hc⟩ := List.mem_flatMap.1 hx
  cases s with
  | index i =>
    rcases List.mem_cons.1 hc with hc | hc
    · exact absurd hc (by decide)
    · rcases List.mem_append.1 hc with hc | hc
      · exact digits_plain i hc
      · exact absurd hc (by decide)
  | member n o =>
    rcases List.mem_cons.1 hc with hc | hc
    · exact absurd hc (by decide)
    · cases n with
      | none => exact hi hc
      | some n => exact h n o hs hc

theorem reads_item (invalid w p sp b : List Char) (hw : Digits w) (hp : Digits p) (x : Leaf) (hi : '%' ∉ invalid) (h : ∀ n o, Step.member (some n) o ∈ x.path → '%' ∉ n) :
    reads .text (item invalid (promoted w p sp) x ++ b) = (passed x.scalar, letter sp x.scalar) :: reads .text b := by
  unfold item
  rw [List.append_assoc, List.append_assoc, reads_plain _ _ (path_plain invalid hi x.path h), reads_plain _ _ (by decide), reads_scalar w p sp b hw hp]

theorem reads_items (invalid w p sp : List Char) (hw : Digits w) (hp : Digits p) (lines : Bool) : ∀ (l : List Leaf) (b : List Char), Plain invalid l →
    reads .text (items invalid (promoted w p sp) lines l ++ b) = l.map (fun x => (passed x.scalar, letter sp x.scalar)) ++ reads .text b := by
  intro l
  cases lines with
  | true =>
    induction l with
    | nil => intro b _; rfl
    | cons x l ih =>
      intro b h
      have ih := ih b ⟨h.1, fun y hy => h.2 y (List.mem_cons_of_mem _ hy)⟩
      show reads .text (("    ".toList ++ item invalid (promoted w p sp) x ++ ",\n".toList ++ items invalid (promoted w p sp) true l) ++ b) = _
      rw [List.append_assoc, List.append_assoc, List.append_assoc, reads_plain _ _ (by decide), reads_item invalid w p sp _ hw hp x h.1 (h.2 x List.mem_cons_self),
        reads_plain _ _ (by decide), ih]
      rfl
  | false =>
    induction l with
    | nil => intro b _; rfl
    | cons x l ih =>
      intro b h
      have ih := ih b ⟨h.1, fun y hy => h.2 y (List.mem_cons_of_mem _ hy)⟩
      cases l with
      | nil =>
        show reads .text ((item invalid (promoted w p sp) x ++ []) ++ b) = _
        rw [List.append_nil, reads_item invalid w p sp _ hw hp x h.1 (h.2 x List.mem_cons_self)]
        rfl
      | cons y l =>
        show reads .text ((item invalid (promoted w p sp) x ++ (", ".toList ++ items invalid (promoted w p sp) false (y :: l))) ++ b) = _
        rw [List.append_assoc, List.append_assoc, reads_item invalid w p sp _ hw hp x h.1 (h.2 x List.mem_cons_self), reads_plain _ _ (by decide), ih]
        rfl

/-! The properties -/

/-- **C90 (partial)**: a structure, union or array is printed as one argument for each scalar in it, in their order, with its path in the text.
Missing: empty structures and arrays, see `C90_flexible_wrong` and `C90_empty_wrong`. -/
theorem C90_arguments_partial (invalid name flags w p sp : List Char) (t : Ty) (h : Filled t) (hs : ∀ s, t ≠ .scalar s) (ha : ∀ e n, t = .array e n → 's' ∉ sp) :
    ∃ n, ∀ fuel, n ≤ fuel → ∃ (text : List Char) (conversion : Scalar → List Char), infer fuel invalid name flags w p sp t = some (text, leaves t) ∧
      text = "(".toList ++ name ++ (if '#' ∈ flags then "){\n".toList else "){".toList) ++ items invalid conversion (decide ('#' ∈ flags)) (leaves t) ++ "}".toList ∧
      (Digits w → Digits p → ∀ s, reads .text (conversion s) = [(passed s, letter sp s)]) := by
  refine ⟨cost t + 1, fun fuel hf => ⟨whole invalid name (decide ('#' ∈ flags)) (promoted w p sp) (leaves t), promoted w p sp, ?_, ?_, ?_⟩⟩
  · apply infer_compound invalid name flags w p sp t h ?_ hs fuel (by omega)
    cases t with
    | array e n =>
      have := ha e n rfl
      unfold decay
      simp only
      rw [if_neg (by simpa using this)]
    | scalar s => rfl
    | struct ms => rfl
    | union ms => rfl
  · unfold whole
    by_cases hx : '#' ∈ flags
    · rw [decide_eq_true hx, if_pos hx, if_pos rfl]
    · rw [decide_eq_false hx, if_neg hx, if_neg (by decide)]
  · intro hw hp s
    have := reads_scalar w p sp [] hw hp s
    rw [List.append_nil] at this
    exact this

/-- **C90 (partial)**: `printf` reads exactly the arguments that are passed, each one as what it is passed as, and prints them in the way that was asked for.
Missing: a `*` for the width or precision, see `C90_star_wrong`, and empty structures and arrays. -/
theorem C90_reads_partial (invalid name flags w p sp : List Char) (t : Ty) (h : Filled t) (hw : Digits w) (hp : Digits p) (hn : '%' ∉ name) (hpl : Plain invalid (leaves t)) :
    ∃ n, ∀ fuel, n ≤ fuel → ∃ (text : List Char) (arguments : List Leaf), infer fuel invalid name flags w p sp t = some (text, arguments) ∧
      reads .text text = arguments.map (fun x => (passed x.scalar, letter sp x.scalar)) := by
  have hscalar : ∀ s, decay sp t = .scalar s → ∃ n, ∀ fuel, n ≤ fuel → ∃ (text : List Char) (arguments : List Leaf), infer fuel invalid name flags w p sp t = some (text, arguments) ∧
      reads .text text = arguments.map (fun x => (passed x.scalar, letter sp x.scalar)) := by
    intro s hd
    refine ⟨0, fun fuel _ => ⟨promoted w p sp s, [⟨[], s⟩], ?_, ?_⟩⟩
    · unfold infer
      rw [hd]
    · have := reads_scalar w p sp [] hw hp s
      rw [List.append_nil] at this
      exact this
  have hcompound : decay sp t = t → (∀ s, t ≠ .scalar s) → ∃ n, ∀ fuel, n ≤ fuel → ∃ (text : List Char) (arguments : List Leaf),
      infer fuel invalid name flags w p sp t = some (text, arguments) ∧ reads .text text = arguments.map (fun x => (passed x.scalar, letter sp x.scalar)) := by
    intro hd hs
    refine ⟨cost t + 1, fun fuel hf => ⟨_, _, infer_compound invalid name flags w p sp t h hd hs fuel (by omega), ?_⟩⟩
    unfold whole
    rw [List.append_assoc, List.append_assoc, List.append_assoc, reads_plain _ _ (by decide), reads_plain _ _ hn, reads_plain _ _ (by split <;> decide),
      reads_items invalid w p sp hw hp _ _ _ hpl]
    show _ ++ [] = _
    rw [List.append_nil]
  cases t with
  | scalar s => exact hscalar s rfl
  | struct ms => exact hcompound rfl (fun s hx => by cases hx)
  | union ms => exact hcompound rfl (fun s hx => by cases hx)
  | array e n =>
    by_cases hsp : 's' ∈ sp
    · have hany : sp.any (· == 's') = true := by simpa using hsp
      have hd : ∃ s, decay sp (.array e n) = .scalar s := by
        unfold decay
        simp only
        rw [if_pos hany]
        cases e with
        | scalar s => exact ⟨_, rfl⟩
        | struct ms => exact ⟨_, rfl⟩
        | union ms => exact ⟨_, rfl⟩
        | array e n => exact ⟨_, rfl⟩
      obtain ⟨s, hd⟩ := hd
      exact hscalar s hd
    · refine hcompound ?_ (fun s hx => by cases hx)
      unfold decay
      simp only
      rw [if_neg (by simpa using hsp)]

/-- **C90**: an array of characters with the letter `s` is printed as the string. -/
theorem C90_string (invalid name flags w p sp : List Char) (n fuel : Nat) (hw : Digits w) (hp : Digits p) (hs : 's' ∈ sp) :
    ∃ text, infer fuel invalid name flags w p sp (.array (.scalar (.integer true 1)) n) = some (text, [⟨[], .pointer true⟩]) ∧ reads .text text = [(.pointer, 's')] := by
  have hany : sp.any (· == 's') = true := by simpa using hs
  have hd : decay sp (.array (.scalar (.integer true 1)) n) = .scalar (.pointer true) := by
    unfold decay
    simp only
    rw [if_pos hany]
    rfl
  refine ⟨promoted w p sp (.pointer true), ?_, ?_⟩
  · unfold infer
    rw [hd]
  · have := reads_scalar w p sp [] hw hp (.pointer true)
    rw [List.append_nil] at this
    rw [this]
    show [(Class.pointer, if (true : Bool) = true ∧ 's' ∈ sp then 's' else 'p')] = _
    rw [if_pos ⟨rfl, hs⟩]

/-- `struct { char c; union { struct { unsigned x; double y; }; long long z; }; short a[2]; }`. -/
def sample : Ty := .struct (.cons (some ['c']) 0 (.scalar (.integer true 1)) (.cons none 8 (.union (.cons none 0 (.struct (.cons (some ['x']) 0 (.scalar (.integer false 4))
  (.cons (some ['y']) 8 (.scalar .double) .nil))) (.cons (some ['z']) 0 (.scalar (.integer true 8)) .nil))) (.cons (some ['a']) 24 (.array (.scalar (.integer true 2)) 2) .nil)))

example : Filled sample ∧ (∀ s, sample ≠ .scalar s) ∧ Digits ['8'] ∧ Plain ['?'] (leaves sample) ∧
    (infer 100 ['?'] "struct s".toList [] ['8'] [] [] sample).map (fun r => String.ofList r.1) = some "(struct s){.c = %8d, .?.?.x = 0x%8x, .?.?.y = %8f, .a[0] = %8d, .a[1] = %8d}" ∧
    (infer 100 ['?'] "struct s".toList ['#'] [] [] [] sample).map (fun r => r.2.map (·.path)) =
      some [[.member (some ['c']) 0], [.member none 8, .member none 0, .member (some ['x']) 0], [.member none 8, .member none 0, .member (some ['y']) 8],
        [.member (some ['a']) 24, .index 0], [.member (some ['a']) 24, .index 1]] := by
  refine ⟨by simp [sample, Filled, AllFilled], (fun s hx => by cases hx), by simp [Digits], ⟨by decide, ?_⟩, by decide +kernel, by decide +kernel⟩
  intro x hx n o hm
  have : leaves sample = [⟨[.member (some ['c']) 0], .integer true 1⟩, ⟨[.member none 8, .member none 0, .member (some ['x']) 0], .integer false 4⟩,
    ⟨[.member none 8, .member none 0, .member (some ['y']) 8], .double⟩, ⟨[.member (some ['a']) 24, .index 0], .integer true 2⟩,
    ⟨[.member (some ['a']) 24, .index 1], .integer true 2⟩] := by decide +kernel
  rw [this] at hx
  simp only [List.mem_cons, List.not_mem_nil, or_false] at hx
  rcases hx with rfl | rfl | rfl | rfl | rfl <;>
    simp only [List.mem_cons, List.not_mem_nil, or_false, Step.member.injEq, Option.some.injEq, reduceCtorEq, false_and, false_or] at hm <;> (rw [hm.1]; decide)

/-- **C90 is wrong of the code**: for `print("{:*}", 5, s)`, where `s` has two members, the width is passed once, but `printf` reads it for every member. -/
theorem C90_star_wrong : ∃ (t : Ty) (text : List Char) (arguments : List Leaf), Filled t ∧ infer 100 [] "struct s".toList [] ['*'] [] [] t = some (text, arguments) ∧
    (reads .text text).map (·.1) ≠ .int :: arguments.map (fun x => passed x.scalar) :=
  ⟨.struct (.cons (some ['x']) 0 (.scalar (.integer true 4)) (.cons (some ['y']) 8 (.scalar .double) .nil)), "(struct s){.x = %*d, .y = %*f}".toList,
    [⟨[.member (some ['x']) 0], .integer true 4⟩, ⟨[.member (some ['y']) 8], .double⟩], by simp [Filled, AllFilled], by decide +kernel, by decide +kernel⟩

/-- **C90 is wrong of the code**: of an array without elements, as at the end of a structure, the first element is printed. -/
theorem C90_flexible_wrong : ∃ (t : Ty) (text : List Char) (arguments : List Leaf), infer 100 [] "struct s".toList [] [] [] [] t = some (text, arguments) ∧
    arguments ≠ leaves t ∧ ⟨[.member (some ['d']) 4, .index 0], .integer true 4⟩ ∈ arguments :=
  ⟨.struct (.cons (some ['n']) 0 (.scalar (.integer true 4)) (.cons (some ['d']) 4 (.array (.scalar (.integer true 4)) 0) .nil)), "(struct s){.n = %d, .d[0] = %d}".toList,
    [⟨[.member (some ['n']) 0], .integer true 4⟩, ⟨[.member (some ['d']) 4, .index 0], .integer true 4⟩], by decide +kernel, by decide +kernel, by decide⟩

/-- **C90 is wrong of the code**: for an empty structure the compiler reads a member that does not exist. -/
theorem C90_empty_wrong (fuel : Nat) (invalid name flags w p sp : List Char) : infer fuel invalid name flags w p sp (.struct .nil) = none := by
  have : run fuel [⟨.struct .nil, 0⟩] [] = none := by
    cases fuel with
    | zero => rfl
    | succ n => rfl
  show (run fuel [⟨.struct .nil, 0⟩] []).map _ = none
  rw [this]
  rfl

end Verif.Props.Print
