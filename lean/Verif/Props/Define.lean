import Verif.Spec.Define
import Verif.Model.Define

/-!
# C94: the replacement list of a macro
-/
namespace Verif.Props.Define
open Verif.Model.Define Verif.Spec.Define

/-- What a node stands for; `order` are the arguments that are stringified. -/
def flat (order : List Nat) : Node → List Element
  | .tokens l => l.map .plain
  | .argument a => [.expanded a]
  | .hash s => [.string (order[s]?.getD 0)]
  | .hashhash p t a => (match p with | some i => [.written i] | none => []) ++ [.paste] ++ [match a with | some i => .written i | none => .plain t]

theorem flat_add (order : List Nat) (nodes : List Node) (t : Tok) : (addToken nodes t).flatMap (flat order) = nodes.flatMap (flat order) ++ [.plain t] := by
  unfold addToken
  split
  · rename_i ts hl
    have e : nodes = nodes.dropLast ++ [.tokens ts] := by
      obtain ⟨h, hx⟩ := List.getLast?_eq_some_iff.1 hl
      rw [hx, List.dropLast_concat]
    rw [List.flatMap_append]
    conv => rhs; rw [e, List.flatMap_append]
    show _ ++ ((ts ++ [t]).map Element.plain ++ []) = nodes.dropLast.flatMap (flat order) ++ (ts.map Element.plain ++ []) ++ [.plain t]
    rw [List.map_append, List.append_nil, List.append_nil, List.append_assoc]
    rfl
  · rw [List.flatMap_append]
    rfl

/-- The strings are those of arguments that are there. -/
def Known (nodes : List Node) (order : List Nat) : Prop := ∀ s, Node.hash s ∈ nodes → s < order.length

theorem known_add (nodes : List Node) (order : List Nat) (t : Tok) (h : Known nodes order) : Known (addToken nodes t) order := by
  intro s hs
  unfold addToken at hs
  split at hs
  · rcases List.mem_append.1 hs with h1 | h1
    · exact h s (List.dropLast_subset _ h1)
    · cases List.mem_singleton.1 h1
  · rcases List.mem_append.1 hs with h1 | h1
    · exact h s h1
    · cases List.mem_singleton.1 h1

theorem known_snoc (nodes : List Node) (order : List Nat) (x : Node) (hx : ∀ s, x ≠ .hash s) (h : Known nodes order) : Known (nodes ++ [x]) order := by
  intro s hs
  rcases List.mem_append.1 hs with h1 | h1
  · exact h s h1
  · exact absurd (List.mem_singleton.1 h1).symm (hx s)

theorem stringify_eq (order : List Nat) (a : Nat) : (stringify order a).1 < (stringify order a).2.length ∧ (stringify order a).2[(stringify order a).1]?.getD 0 = a ∧
    ∃ l, (stringify order a).2 = order ++ l := by
  unfold stringify
  by_cases h : a ∈ order
  · rw [if_pos h]
    dsimp only
    have hl := List.idxOf_lt_length_of_mem h
    refine ⟨hl, ?_, [], (List.append_nil _).symm⟩
    rw [List.getElem?_eq_getElem hl]
    exact List.getElem_idxOf hl
  · rw [if_neg h]
    dsimp only
    refine ⟨by rw [List.length_append]; exact Nat.lt_succ_self _, ?_, [a], rfl⟩
    rw [List.getElem?_append_right (Nat.le_refl _), Nat.sub_self]
    rfl

theorem flat_more (order l : List Nat) : ∀ (nodes : List Node), Known nodes order → nodes.flatMap (flat (order ++ l)) = nodes.flatMap (flat order)
  | [], _ => rfl
  | x :: nodes, h => by
    rw [List.flatMap_cons, List.flatMap_cons, flat_more order l nodes (fun s hs => h s (List.mem_cons_of_mem _ hs))]
    cases x with
    | hash s =>
      have := h s List.mem_cons_self
      show [Element.string ((order ++ l)[s]?.getD 0)] ++ _ = [Element.string (order[s]?.getD 0)] ++ _
      rw [List.getElem?_append_left this]
    | tokens l => rfl
    | argument a => rfl
    | hashhash p t a => rfl

theorem separate_tail (x : Tok) (l : List Tok) (h : Separate (x :: l)) : Separate l := fun a t b e => h (x :: a) t b (by rw [e]; rfl)

/-- What follows `##`. -/
def operand (parameters : List Nat) (t : Tok) : Element :=
  match postfixArgument parameters t with
  | some i => .written i
  | none => .plain t

theorem elements_after (f : Bool) (parameters : List Nat) (t : Tok) (h1 : t ≠ .hash) (h2 : t ≠ .hashhash) (rest : List Tok) :
    elements f parameters true (t :: rest) = (elements f parameters false rest).map (operand parameters t :: ·) := by
  cases t with
  | hash => exact absurd rfl h1
  | hashhash => exact absurd rfl h2
  | other k => rw [elements]; rfl
  | identifier n =>
    rw [elements]
    unfold operand postfixArgument
    dsimp only
    cases hp : parameters.idxOf? n with
    | none => rfl
    | some a =>
      dsimp only
      rw [if_pos (Or.inl rfl)]

theorem map_map (x : Option (List Element)) (a : List Element) (b : List Element) :
    (x.map (b ++ ·)).map (a ++ ·) = x.map ((a ++ b) ++ ·) := by
  cases x with
  | none => rfl
  | some l => exact congrArg some (List.append_assoc a b l).symm

theorem body_eq (f : Bool) (parameters : List Nat) : ∀ (n : Nat) (l : List Tok) (nodes : List Node) (order : List Nat), l.length < n → Separate l → (f = true ∨ Tok.hash ∉ l) → Known nodes order →
    (body parameters n l nodes order).map (fun r => r.1.flatMap (flat r.2)) = (elements f parameters false l).map (nodes.flatMap (flat order) ++ ·)
  | 0, _, _, _, h, _, _, _ => absurd h (Nat.not_lt_zero _)
  | n + 1, [], nodes, order, _, _, _, _ => by
    rw [body, elements]
    show some _ = some (_ ++ [])
    rw [List.append_nil]
  | n + 1, .other k :: rest, nodes, order, hn, hs, hf, hk => by
    have hn : rest.length + 1 < n + 1 := hn
    rw [body, elements, body_eq f parameters n rest _ order (by omega) (separate_tail _ _ hs) (hf.imp_right (fun h hx => h (List.mem_cons_of_mem _ hx))) (known_add nodes order _ hk), flat_add]
    exact (map_map (elements f parameters false rest) (nodes.flatMap (flat order)) [.plain (.other k)]).symm
  | n + 1, .hash :: rest, nodes, order, hn, hs, hf, hk => by
    have hn : rest.length + 1 < n + 1 := hn
    have ht : f = true := by
      rcases hf with h | h
      · exact h
      · exact absurd List.mem_cons_self h
    cases rest with
    | nil => rw [elements, if_pos ht]; rfl; intro n r h; cases h
    | cons t rest =>
      cases t with
      | hash => rw [elements, if_pos ht]; rfl; intro n r h; cases h
      | hashhash => rw [elements, if_pos ht]; rfl; intro n r h; cases h
      | other k => rw [elements, if_pos ht]; rfl; intro n r h; cases h
      | identifier i =>
        rw [elements, if_pos ht, show body parameters (n + 1) (.hash :: .identifier i :: rest) nodes order = (match parameters.idxOf? i with
          | none => none
          | some a => body parameters n rest (nodes ++ [.hash (stringify order a).1]) (stringify order a).2) from rfl]
        cases hp : parameters.idxOf? i with
        | none => rfl
        | some a =>
          dsimp only
          obtain ⟨h1, h2, m, h3⟩ := stringify_eq order a
          have hn : rest.length + 1 + 1 < n + 1 := hn
          have hk' : Known (nodes ++ [.hash (stringify order a).1]) (stringify order a).2 := by
            intro s hx
            rcases List.mem_append.1 hx with hx | hx
            · have := hk s hx
              rw [h3, List.length_append]
              omega
            · cases List.mem_singleton.1 hx
              exact h1
          rw [body_eq f parameters n rest _ _ (by omega) (separate_tail _ _ (separate_tail _ _ hs)) (Or.inl ht) hk', List.flatMap_append]
          have e1 : nodes.flatMap (flat (stringify order a).2) = nodes.flatMap (flat order) := by rw [h3]; exact flat_more order m nodes hk
          have e2 : [Node.hash (stringify order a).1].flatMap (flat (stringify order a).2) = [.string a] := by
            show [Element.string ((stringify order a).2[(stringify order a).1]?.getD 0)] ++ [] = _
            rw [h2]
            rfl
          rw [e1, e2]
          exact (map_map (elements f parameters false rest) (nodes.flatMap (flat order)) [.string a]).symm
  | n + 1, .hashhash :: rest, nodes, order, hn, hs, hf, hk => by
    have hn : rest.length + 1 < n + 1 := hn
    rw [elements]
    cases rest with
    | nil => rw [if_pos rfl]; rfl
    | cons t rest =>
      have hn : rest.length + 1 + 1 < n + 1 := hn
      obtain ⟨h1, h2⟩ := hs [] t rest rfl
      rw [if_neg (List.cons_ne_nil _ _), elements_after f parameters t h1 h2,
        show body parameters (n + 1) (.hashhash :: t :: rest) nodes order = body parameters n rest (nodes ++ [.hashhash none t (postfixArgument parameters t)]) order from rfl]
      rw [body_eq f parameters n rest _ order (by omega) (separate_tail _ _ (separate_tail _ _ hs))
        (hf.imp_right (fun h hx => h (List.mem_cons_of_mem _ (List.mem_cons_of_mem _ hx)))) (known_snoc nodes order _ (fun s h => by cases h) hk), List.flatMap_append]
      have e : [Node.hashhash none t (postfixArgument parameters t)].flatMap (flat order) = [.paste, operand parameters t] := by
        unfold operand
        cases postfixArgument parameters t <;> rfl
      rw [e]
      cases elements f parameters false rest with
      | none => rfl
      | some es => exact congrArg some (by simp)
  | n + 1, .identifier i :: rest, nodes, order, hn, hs, hf, hk => by
    have hn : rest.length + 1 < n + 1 := hn
    have hf' : f = true ∨ Tok.hash ∉ rest := hf.imp_right (fun h hx => h (List.mem_cons_of_mem _ hx))
    have hs' := separate_tail _ _ hs
    rw [body, elements]
    cases hp : parameters.idxOf? i with
    | none =>
      dsimp only
      rw [body_eq f parameters n rest _ order (by omega) hs' hf' (known_add nodes order _ hk), flat_add]
      exact (map_map (elements f parameters false rest) (nodes.flatMap (flat order)) [.plain (.identifier i)]).symm
    | some a =>
      dsimp only
      have plain_case : rest.head? ≠ some .hashhash → (body parameters n rest (nodes ++ [.argument a]) order).map (fun r => r.1.flatMap (flat r.2)) =
          ((elements f parameters false rest).map ((if false = true ∨ rest.head? = some .hashhash then .written a else .expanded a) :: ·)).map (nodes.flatMap (flat order) ++ ·) := by
        intro hh
        rw [if_neg (fun h => by rcases h with h | h; cases h; exact hh h),
          body_eq f parameters n rest _ order (by omega) hs' hf' (known_snoc nodes order _ (fun s h => by cases h) hk), List.flatMap_append]
        exact (map_map (elements f parameters false rest) (nodes.flatMap (flat order)) [.expanded a]).symm
      cases rest with
      | nil => exact plain_case (fun h => by cases h)
      | cons x rest =>
        cases x with
        | hash => exact plain_case (fun h => by cases h)
        | identifier j => exact plain_case (fun h => by cases h)
        | other k => exact plain_case (fun h => by cases h)
        | hashhash =>
          rw [if_pos (show false = true ∨ (Tok.hashhash :: rest).head? = some Tok.hashhash from Or.inr rfl), elements]
          cases rest with
          | nil => rw [if_pos rfl]; rfl
          | cons t rest =>
            have hn : rest.length + 1 + 1 + 1 < n + 1 := hn
            obtain ⟨h1, h2⟩ := hs' [] t rest rfl
            rw [if_neg (List.cons_ne_nil _ _), elements_after f parameters t h1 h2]
            dsimp only
            rw [body_eq f parameters n rest _ order (by omega) (separate_tail _ _ (separate_tail _ _ hs'))
              (hf'.imp_right (fun h hx => h (List.mem_cons_of_mem _ (List.mem_cons_of_mem _ hx)))) (known_snoc nodes order _ (fun s h => by cases h) hk), List.flatMap_append]
            have e : [Node.hashhash (some a) t (postfixArgument parameters t)].flatMap (flat order) = [.written a, .paste, operand parameters t] := by
              unfold operand
              cases postfixArgument parameters t <;> rfl
            rw [e]
            cases elements f parameters false rest with
            | none => rfl
            | some es => exact congrArg some (by simp)

/-- **C94 (partial)**: the replacement list of a macro is read as C says, and exactly the replacement lists that C does not allow are reported. Missing: `#` in object-like macros, see
`C94_object_wrong`, and `#` after `##`, see `C94_paste_wrong`. -/
theorem C94_replacement_partial (functionLike : Bool) (parameters : List Nat) (l : List Tok) (hs : Separate l) (hf : functionLike = true ∨ Tok.hash ∉ l) :
    (define parameters l).map (fun r => r.1.flatMap (flat r.2)) = replacement functionLike parameters l := by
  unfold define replacement
  split
  · rw [if_pos (show (Tok.hashhash :: _).head? = some Tok.hashhash from rfl)]
    rfl
  · rename_i hne
    rw [if_neg (fun h => by
      cases l with
      | nil => cases h
      | cons x l =>
        have h : some x = some Tok.hashhash := h
        exact hne l (by rw [Option.some.inj h])), body_eq functionLike parameters _ l [] [] (Nat.lt_succ_self _) hs hf (fun s h => nomatch h)]
    cases elements functionLike parameters false l with
    | none => rfl
    | some es => rfl

/-- **C94 is wrong of the code**: an object-like macro with `#`, for example `#define HASH #`, is reported. -/
theorem C94_object_wrong (l : List Tok) : define [] (.hash :: l) = none := by
  cases l with
  | nil => rfl
  | cons t l => cases t <;> rfl

example : replacement false [] [.hash] = some [.plain .hash] := by decide

/-- **C94 is wrong of the code**: in `#define WIDE(x) L ## #x`, the `#` is pasted and `x` is expanded. -/
theorem C94_paste_wrong : ((define [7] [.identifier 1, .hashhash, .hash, .identifier 7]).map (fun r => r.1.flatMap (flat r.2)) = some [.plain (.identifier 1), .paste, .plain .hash, .expanded 0]) ∧
    replacement true [7] [.identifier 1, .hashhash, .hash, .identifier 7] = some [.plain (.identifier 1), .paste, .string 0] := by
  refine ⟨by decide +kernel, by decide +kernel⟩

/-- `#define f(x, y) x ## y z #y x (#x) #y` with `x` 7 and `y` 8. -/
def sample : List Tok := [.identifier 7, .hashhash, .identifier 8, .identifier 9, .hash, .identifier 8, .identifier 7, .other 0, .hash, .identifier 7, .other 1, .hash, .identifier 8]

example : define [7, 8] sample =
    some ([.hashhash (some 0) (.identifier 8) (some 1), .tokens [.identifier 9], .hash 0, .argument 0, .tokens [.other 0], .hash 1, .tokens [.other 1], .hash 0], [1, 0]) ∧
    replacement true [7, 8] sample =
      some [.written 0, .paste, .written 1, .plain (.identifier 9), .string 1, .expanded 0, .plain (.other 0), .string 0, .plain (.other 1), .string 1] := by
  refine ⟨by decide +kernel, by decide +kernel⟩

/-- The hypotheses of `C94_replacement_partial` hold of it. -/
example : Separate sample := by
  intro a t b h
  have key : ∀ (l : List Tok), (∀ i, l[i]? = some .hashhash → l[i + 1]? ≠ some .hash ∧ l[i + 1]? ≠ some .hashhash) → ∀ a t b, l = a ++ .hashhash :: t :: b → t ≠ .hash ∧ t ≠ .hashhash := by
    intro l hl a t b e
    have h1 := hl a.length (by rw [e]; simp)
    have h2 : l[a.length + 1]? = some t := by rw [e]; simp
    rw [h2] at h1
    exact ⟨fun x => h1.1 (by rw [x]), fun x => h1.2 (by rw [x])⟩
  refine key sample ?_ a t b h
  intro i hi
  have hlt : i < 13 := by
    refine Nat.lt_of_not_le (fun hge => ?_)
    rw [List.getElem?_eq_none (by show 13 ≤ i; omega)] at hi
    cases hi
  revert hi
  revert i
  decide

theorem eat_replicate : ∀ (n : Nat) (l : List ParameterTok), eat (List.replicate n .space ++ l) = eat l
  | 0, _ => rfl
  | n + 1, l => by
    rw [List.replicate_succ, List.cons_append]
    exact eat_replicate n l

theorem loop_dots (vaArgs n : Nat) (w : Written) (hw : w.tok = .dots) (rest : List ParameterTok) (acc : List Nat) :
    parameterLoop vaArgs (n + 1) (writeOne w ++ .close :: rest) acc = some (acc ++ [vaArgs], .close :: rest) := by
  have e : writeOne w ++ .close :: rest = List.replicate w.before .space ++ (.dots :: (List.replicate w.after .space ++ .close :: rest)) := by
    unfold writeOne
    rw [hw]
    simp
  unfold parameterLoop
  rw [e, eat_replicate]
  show some (acc ++ [vaArgs], eat (List.replicate w.after .space ++ .close :: rest)) = _
  rw [eat_replicate]
  rfl

theorem loop_identifier (vaArgs n i : Nat) (w : Written) (hw : w.tok = .identifier i) (t : ParameterTok) (ht : t ≠ .space) (rest : List ParameterTok) (acc : List Nat) :
    parameterLoop vaArgs (n + 1) (writeOne w ++ t :: rest) acc =
      if i ∈ acc then none
      else
        match t :: rest with
        | .comma :: rest => parameterLoop vaArgs n rest (acc ++ [i])
        | rest => some (acc ++ [i], rest) := by
  have e : writeOne w ++ t :: rest = List.replicate w.before .space ++ (.identifier i :: (List.replicate w.after .space ++ t :: rest)) := by
    unfold writeOne
    rw [hw]
    simp
  have e2 : eat (List.replicate w.after .space ++ t :: rest) = t :: rest := by
    rw [eat_replicate]
    unfold eat
    rw [List.dropWhile_cons, if_neg (by rw [decide_eq_true_eq]; exact ht)]
  rw [e]
  show (match eat (List.replicate w.before .space ++ (.identifier i :: (List.replicate w.after .space ++ t :: rest))) with
    | .dots :: rest => some (acc ++ [vaArgs], eat rest)
    | .identifier i :: rest =>
      if i ∈ acc then none
      else
        match eat rest with
        | .comma :: rest => parameterLoop vaArgs n rest (acc ++ [i])
        | rest => some (acc ++ [i], rest)
    | _ => none) = _
  rw [eat_replicate]
  show (if i ∈ acc then none
      else
        match eat (List.replicate w.after .space ++ t :: rest) with
        | .comma :: rest => parameterLoop vaArgs n rest (acc ++ [i])
        | rest => some (acc ++ [i], rest)) = _
  rw [e2]

theorem loop_list (vaArgs : Nat) (rest : List ParameterTok) : ∀ (ws : List Written) (names : List Nat) (n : Nat) (acc : List Nat), ws ≠ [] → parametersOf vaArgs ws = some names → ws.length < n →
    parameterLoop vaArgs n (writeList ws ++ .close :: rest) acc =
      if (named ws).Nodup ∧ ∀ i ∈ named ws, i ∉ acc then some (acc ++ names, .close :: rest) else none
  | [], _, _, _, h, _, _ => absurd rfl h
  | [w], names, n, acc, _, hp, hn => by
    have hn : 1 < n := hn
    obtain ⟨m, rfl⟩ : ∃ m, n = m + 1 := ⟨n - 1, by omega⟩
    cases hw : w.tok with
    | identifier i =>
      have hp : (match w.tok with
        | .identifier n => some [n]
        | .dots => some [vaArgs]
        | _ => none) = some names := hp
      rw [hw] at hp
      have hp := Option.some.inj hp
      have hnm : named [w] = [i] := by
        unfold named
        rw [List.filterMap_cons_some (b := i) (by rw [hw])]
        rfl
      rw [show writeList [w] = writeOne w from rfl, loop_identifier vaArgs m i w hw .close (fun h => by cases h), hnm, ← hp]
      by_cases h : i ∈ acc
      · rw [if_pos h, if_neg (fun hx => hx.2 i List.mem_cons_self h)]
      · rw [if_neg h, if_pos ⟨List.nodup_cons.2 ⟨(fun h => nomatch h), List.nodup_nil⟩, fun j hj => by rw [List.mem_singleton.1 hj]; exact h⟩]
    | dots =>
      have hp : (match w.tok with
        | .identifier n => some [n]
        | .dots => some [vaArgs]
        | _ => none) = some names := hp
      rw [hw] at hp
      have hp := Option.some.inj hp
      have hnm : named [w] = [] := by
        unfold named
        rw [List.filterMap_cons_none (by rw [hw])]
        rfl
      rw [show writeList [w] = writeOne w from rfl, loop_dots vaArgs m w hw, hnm, ← hp, if_pos ⟨List.nodup_nil, fun j hj => nomatch hj⟩]
    | space => unfold parametersOf at hp; rw [hw] at hp; cases hp
    | comma => unfold parametersOf at hp; rw [hw] at hp; cases hp
    | open_ => unfold parametersOf at hp; rw [hw] at hp; cases hp
    | close => unfold parametersOf at hp; rw [hw] at hp; cases hp
    | other k => unfold parametersOf at hp; rw [hw] at hp; cases hp
  | w :: v :: ws, names, n, acc, _, hp, hn => by
    have hn : ws.length + 1 + 1 < n := hn
    obtain ⟨m, rfl⟩ : ∃ m, n = m + 1 := ⟨n - 1, by omega⟩
    have hp : (match w.tok with
      | .identifier n => (parametersOf vaArgs (v :: ws)).map (n :: ·)
      | _ => none) = some names := hp
    cases hw : w.tok with
    | identifier i =>
      rw [hw] at hp
      dsimp only at hp
      cases hq : parametersOf vaArgs (v :: ws) with
      | none => rw [hq] at hp; cases hp
      | some ns =>
        rw [hq] at hp
        have hp : i :: ns = names := Option.some.inj hp
        have hnm : named (w :: v :: ws) = i :: named (v :: ws) := by
          unfold named
          rw [List.filterMap_cons_some (b := i) (by rw [hw])]
        have e : writeList (w :: v :: ws) ++ .close :: rest = writeOne w ++ .comma :: (writeList (v :: ws) ++ .close :: rest) := by
          show (writeOne w ++ [.comma] ++ writeList (v :: ws)) ++ .close :: rest = _
          simp
        rw [e, loop_identifier vaArgs m i w hw .comma (fun h => by cases h), hnm, ← hp]
        dsimp only
        by_cases h : i ∈ acc
        · rw [if_pos h, if_neg (fun hx => hx.2 i List.mem_cons_self h)]
        · rw [if_neg h, loop_list vaArgs rest (v :: ws) ns m (acc ++ [i]) (List.cons_ne_nil _ _) hq (by show ws.length + 1 < m; omega)]
          by_cases hc : (named (v :: ws)).Nodup ∧ ∀ j ∈ named (v :: ws), j ∉ acc ++ [i]
          · rw [if_pos hc, if_pos ⟨List.nodup_cons.2 ⟨(fun hx => hc.2 i hx (List.mem_append_right _ List.mem_cons_self)), hc.1⟩, fun j hj => by
              rcases List.mem_cons.1 hj with rfl | hj
              · exact h
              · exact fun hx => hc.2 j hj (List.mem_append_left _ hx)⟩, List.append_assoc]
            rfl
          · rw [if_neg hc, if_neg (fun hx => hc ⟨(List.nodup_cons.1 hx.1).2, fun j hj hm => by
              rcases List.mem_append.1 hm with hm | hm
              · exact hx.2 j (List.mem_cons_of_mem _ hj) hm
              · rw [List.mem_singleton.1 hm] at hj
                exact (List.nodup_cons.1 hx.1).1 hj⟩)]
    | dots => rw [hw] at hp; cases hp
    | space => rw [hw] at hp; cases hp
    | comma => rw [hw] at hp; cases hp
    | open_ => rw [hw] at hp; cases hp
    | close => rw [hw] at hp; cases hp
    | other k => rw [hw] at hp; cases hp

theorem list_length : ∀ (ws : List Written), ws.length ≤ (writeList ws).length
  | [] => Nat.le_refl _
  | [w] => by
    show 1 ≤ (writeOne w).length
    unfold writeOne
    simp only [List.length_append, List.length_cons, List.length_nil]
    omega
  | w :: v :: ws => by
    have := list_length (v :: ws)
    show ws.length + 1 + 1 ≤ (writeOne w ++ [ParameterTok.comma] ++ writeList (v :: ws)).length
    rw [List.length_append, List.length_append]
    have h : (v :: ws).length = ws.length + 1 := rfl
    rw [h] at this
    show _ ≤ (writeOne w).length + 1 + _
    omega

theorem list_before (w : Written) (ws : List Written) : writeList (w :: ws) = List.replicate w.before .space ++ writeList ({ w with before := 0 } :: ws) := by
  have e : writeOne w = List.replicate w.before .space ++ writeOne { w with before := 0 } := by
    unfold writeOne
    simp
  cases ws with
  | nil => exact e
  | cons v ws =>
    show writeOne w ++ [.comma] ++ writeList (v :: ws) = List.replicate w.before .space ++ (writeOne { w with before := 0 } ++ [.comma] ++ writeList (v :: ws))
    rw [e]
    simp

theorem list_head (w : Written) (ws : List Written) : ∃ l, writeList ({ w with before := 0 } :: ws) = w.tok :: l := by
  cases ws with
  | nil => exact ⟨_, rfl⟩
  | cons v ws => exact ⟨_, rfl⟩

/-- **C94**: a parenthesis directly after the name starts the parameters; they are those that are written, with any whitespace and comments, and two with the same name are reported. -/
theorem C94_parameters (vaArgs : Nat) (ws : List Written) (names : List Nat) (h : parametersOf vaArgs ws = some names) (spaces : Nat) (rest : List ParameterTok) :
    parameters vaArgs (.open_ :: (List.replicate spaces .space ++ (writeList ws ++ .close :: rest))) = if (named ws).Nodup then some (true, names, rest) else none := by
  show (match eat (List.replicate spaces .space ++ (writeList ws ++ .close :: rest)) with
    | .close :: rest => some (true, [], rest)
    | rest =>
      match parameterLoop vaArgs (rest.length + 1) rest [] with
      | some (arguments, .close :: rest) => some (true, arguments, rest)
      | _ => none) = _
  rw [eat_replicate]
  cases ws with
  | nil =>
    have h : some [] = some names := h
    rw [← Option.some.inj h]
    rfl
  | cons w ws =>
    let v : Written := { w with before := 0 }
    have hv : parametersOf vaArgs (v :: ws) = some names := by
      rw [← h]
      cases ws <;> rfl
    have hnm : named (v :: ws) = named (w :: ws) := rfl
    obtain ⟨l, hl⟩ := list_head w ws
    have hl : writeList (v :: ws) = w.tok :: l := hl
    have htok : w.tok ≠ .space ∧ w.tok ≠ .close := by
      cases hw : w.tok with
      | identifier i => exact ⟨(fun h => by cases h), (fun h => by cases h)⟩
      | dots => exact ⟨(fun h => by cases h), (fun h => by cases h)⟩
      | space => cases ws <;> (unfold parametersOf at h; rw [hw] at h; cases h)
      | comma => cases ws <;> (unfold parametersOf at h; rw [hw] at h; cases h)
      | open_ => cases ws <;> (unfold parametersOf at h; rw [hw] at h; cases h)
      | close => cases ws <;> (unfold parametersOf at h; rw [hw] at h; cases h)
      | other k => cases ws <;> (unfold parametersOf at h; rw [hw] at h; cases h)
    have he : eat (writeList (w :: ws) ++ .close :: rest) = writeList (v :: ws) ++ .close :: rest := by
      rw [list_before w ws, List.append_assoc, eat_replicate]
      show eat (writeList (v :: ws) ++ .close :: rest) = _
      rw [hl, List.cons_append]
      unfold eat
      rw [List.dropWhile_cons, if_neg (by rw [decide_eq_true_eq]; exact htok.1)]
    have hlen := list_length (v :: ws)
    have hloop := loop_list vaArgs rest (v :: ws) names ((writeList (v :: ws) ++ .close :: rest).length + 1) [] (List.cons_ne_nil _ _) hv (by rw [List.length_append]; omega)
    rw [he]
    split
    · rename_i r hx
      rw [hl] at hx
      exact absurd (List.cons.inj hx).1 htok.2
    · rw [hloop, hnm]
      by_cases hd : (named (w :: ws)).Nodup
      · rw [if_pos ⟨hd, fun j _ hx => nomatch hx⟩, if_pos hd]
        rfl
      · rw [if_neg (fun hx => hd hx.1), if_neg hd]

/-- **C94**: without a parenthesis directly after the name the macro is object-like, and all of the line is left. -/
theorem C94_object (vaArgs : Nat) (l : List ParameterTok) (h : l.head? ≠ some .open_) : parameters vaArgs l = some (false, [], l) := by
  unfold parameters
  split
  · exact absurd rfl h
  · rfl

/-- `#define f( a,b , ... )`. -/
example : parametersOf 99 [⟨1, .identifier 1, 0⟩, ⟨0, .identifier 2, 1⟩, ⟨1, .dots, 1⟩] = some [1, 2, 99] ∧
    parameters 99 [.open_, .space, .identifier 1, .comma, .identifier 2, .space, .comma, .space, .dots, .space, .close, .space, .other 5] = some (true, [1, 2, 99], [.space, .other 5]) ∧
    parameters 99 [.open_, .identifier 1, .comma, .identifier 1, .close] = none ∧ parameters 99 [.space, .open_, .identifier 1, .close] = some (false, [], [.space, .open_, .identifier 1, .close]) := by
  refine ⟨by decide +kernel, by decide +kernel, by decide +kernel, by decide +kernel⟩

end Verif.Props.Define
