import Verif.Model.Paste
import Verif.Spec.Macro

/-!
# C66: the operator `##`
-/
namespace Verif.Props.Paste
open Verif.Spec.Paste
open Verif.Paste

variable {τ : Type}

/-- What is known about the tokenizer: the spelling of a token gives this token, and the spellings of two
tokens give at least one token. -/
structure Lawful (L : Lang τ) : Prop where
  none : L.tokenize [] = []
  one : ∀ x, L.tokenize [x] = [x]
  two : ∀ x y, L.tokenize [x, y] ≠ []

/-! ## The stack as a list of tokens -/

theorem flat_cons (ts : List τ) (stack : List (List τ)) : flat (ts :: stack) = flat stack ++ ts := by simp [flat]

theorem flat_push (ts : List τ) (stack : List (List τ)) : flat (pushNonempty ts stack) = flat stack ++ ts := by
  unfold pushNonempty
  cases ts with
  | nil => simp
  | cons t ts => exact flat_cons _ _

theorem search_flat {stack : List (List τ)} {F : List τ} {t : τ} (h : flat stack = F ++ [t]) : ∃ stack', search stack = some (t, stack') ∧ flat stack' = F := by
  induction stack with
  | nil => exact absurd h.symm (by simp [flat])
  | cons ts below ih =>
    rw [flat_cons] at h
    unfold search
    cases hl : ts.getLast? with
    | none =>
      rw [List.getLast?_eq_none_iff] at hl
      rw [hl, List.append_nil] at h
      exact ih h
    | some x =>
      obtain ⟨ini, rfl⟩ := List.getLast?_eq_some_iff.mp hl
      rw [← List.append_assoc] at h
      have h2 := List.append_inj' h rfl
      injection h2.2 with h3
      subst h3
      exact ⟨_, rfl, by rw [flat_cons, List.dropLast_concat]; exact h2.1⟩

theorem join_flat {L : Lang τ} (hL : Lawful L) (pre post : Option τ) (rest : List τ) (stack : List (List τ)) (hr : post = none → rest = []) :
    flat (joinTokens L pre post rest stack) = flat stack ++ (pair L pre post).filterMap id ++ rest := by
  unfold joinTokens
  cases pre with
  | none =>
    rw [if_neg (by simp [dropsComma]), flat_push, flat_push]
    cases post with
    | none => simp [pair, hL.none]
    | some y => simp [pair, hL.one]
  | some x =>
    cases post with
    | none =>
      rw [hr rfl]
      cases hc : L.comma x with
      | true => rw [if_pos (by simp [dropsComma, hc])]; simp [pair, hc]
      | false => rw [if_neg (by simp [dropsComma, hc]), flat_push, flat_push]; simp [pair, hc, hL.one]
    | some y => rw [if_neg (by simp [dropsComma]), flat_push, flat_push]; simp [pair]

/-! ## Joining -/

/-- The token after `##`. -/
def rawOf : Operand τ → Raw τ
  | .tok t => .tok t
  | .param i => .param i
  | .str _ => .hash

/-- It is not `#` and a parameter. -/
def Plain : Operand τ → Prop
  | .str _ => False
  | _ => True

/-- The operand after `##` as first element and rest. -/
theorem operand_split (a : Args τ) (h hh : τ) {o : Operand τ} (ho : Plain o) : operand a o = (postfixOf a h hh (rawOf o)).1 :: (postfixOf a h hh (rawOf o)).2.map some ∧
    ((postfixOf a h hh (rawOf o)).1 = none → (postfixOf a h hh (rawOf o)).2 = []) := by
  cases o with
  | tok t => exact ⟨rfl, fun h => nomatch h⟩
  | str i => exact ho.elim
  | param i =>
    simp only [operand, rawOf, postfixOf]
    cases a.raw i with
    | nil => exact ⟨rfl, fun _ => rfl⟩
    | cons t ts => exact ⟨rfl, fun h => nomatch h⟩

theorem filterMap_some (ts : List τ) : (ts.map some).filterMap id = ts := by
  induction ts with
  | nil => rfl
  | cons t ts ih => simp

theorem glue_last (L : Lang τ) (l : List (Option τ)) (x y : Option τ) (r : List (Option τ)) : glue L (l ++ [x]) (y :: r) = l ++ pair L x y ++ r := by
  simp [glue]

/-- `##` without a parameter on the left. -/
theorem expand_none {L : Lang τ} (hL : Lawful L) (a : Args τ) (h hh : τ) {o : Operand τ} (ho : Plain o) {stack : List (List τ)} {F : List τ} {l : List (Option τ)} {x : τ} (hs : flat stack = F ++ (l ++ [some x]).filterMap id) :
    ∃ stack', expandNode L a h hh stack (.hashhash none (rawOf o)) = some stack' ∧ flat stack' = F ++ (glue L (l ++ [some x]) (operand a o)).filterMap id := by
  obtain ⟨h1, h2⟩ := operand_split a h hh ho
  have hs : flat stack = (F ++ l.filterMap id) ++ [x] := by rw [hs]; simp [List.filterMap_append]
  obtain ⟨stack', h3, h4⟩ := search_flat hs
  refine ⟨joinTokens L (some x) (postfixOf a h hh (rawOf o)).1 (postfixOf a h hh (rawOf o)).2 stack', ?_, ?_⟩
  · simp [expandNode, prefixOf, h3]
  · rw [join_flat hL _ _ _ _ h2, h4, h1, glue_last]
    simp only [List.filterMap_append, filterMap_some, List.append_assoc]

/-- `##` with a parameter on the left. -/
theorem expand_some {L : Lang τ} (hL : Lawful L) (a : Args τ) (h hh : τ) {o : Operand τ} (ho : Plain o) (i : Nat) (stack : List (List τ)) :
    ∃ stack', expandNode L a h hh stack (.hashhash (some i) (rawOf o)) = some stack' ∧ flat stack' = flat stack ++ (glue L (operand a (.param i)) (operand a o)).filterMap id := by
  obtain ⟨h1, h2⟩ := operand_split a h hh ho
  have key : ∀ (l : List (Option τ)) (x : Option τ) (stack' : List (List τ)), operand a (.param i) = l ++ [x] → flat stack' = flat stack ++ l.filterMap id →
      flat (joinTokens L x (postfixOf a h hh (rawOf o)).1 (postfixOf a h hh (rawOf o)).2 stack') = flat stack ++ (glue L (operand a (.param i)) (operand a o)).filterMap id := by
    intro l x stack' hl hst
    rw [join_flat hL _ _ _ _ h2, hst, h1, hl, glue_last]
    simp only [List.filterMap_append, filterMap_some, List.append_assoc]
  cases hl : (a.raw i).getLast? with
  | none =>
    have hr := List.getLast?_eq_none_iff.mp hl
    refine ⟨_, ?_, key [] none stack ?_ (by simp)⟩
    · simp [expandNode, prefixOf, hl]
    · simp [operand, hr]
  | some x =>
    obtain ⟨ini, hr⟩ := List.getLast?_eq_some_iff.mp hl
    have hop : operand a (.param i) = ini.map some ++ [some x] := by
      simp only [operand, hr]
      cases ini <;> simp
    by_cases h1 : (a.raw i).length = 1
    · have hi : ini = [] := by rw [hr] at h1; simp at h1; exact h1
      refine ⟨_, ?_, key (ini.map some) (some x) stack hop (by simp [hi])⟩
      simp [expandNode, prefixOf, hl, h1]
    · refine ⟨_, ?_, key (ini.map some) (some x) ((a.raw i).dropLast :: stack) hop ?_⟩
      · simp [expandNode, prefixOf, hl, h1]
      · rw [flat_cons, hr, List.dropLast_concat, filterMap_some]

/-! ## Parsing and expanding -/

/-- Expands replacement nodes in reverse. -/
def ex (L : Lang τ) (a : Args τ) (h hh : τ) (acc : List (Repl τ)) : Option (List (List τ)) := expandNodes L a h hh acc.reverse []

theorem expandNodes_append (L : Lang τ) (a : Args τ) (h hh : τ) (rs rs' : List (Repl τ)) (stack : List (List τ)) :
    expandNodes L a h hh (rs ++ rs') stack = (expandNodes L a h hh rs stack).bind (expandNodes L a h hh rs') := by
  induction rs generalizing stack with
  | nil => rfl
  | cons r rs ih =>
    show (expandNode L a h hh stack r).bind (expandNodes L a h hh (rs ++ rs')) = ((expandNode L a h hh stack r).bind (expandNodes L a h hh rs)).bind _
    cases expandNode L a h hh stack r with
    | none => rfl
    | some s => exact ih s

theorem ex_cons (L : Lang τ) (a : Args τ) (h hh : τ) (r : Repl τ) (acc : List (Repl τ)) : ex L a h hh (r :: acc) = (ex L a h hh acc).bind fun stack => expandNode L a h hh stack r := by
  unfold ex
  rw [List.reverse_cons, expandNodes_append]
  congr 1
  funext stack
  show (expandNode L a h hh stack r).bind some = _
  cases expandNode L a h hh stack r <;> rfl

theorem ex_token {L : Lang τ} {a : Args τ} {h hh : τ} {acc : List (Repl τ)} {stack : List (List τ)} (hs : ex L a h hh acc = some stack) (t : τ) :
    ∃ stack', ex L a h hh (pushToken t acc) = some stack' ∧ flat stack' = flat stack ++ [t] := by
  unfold pushToken
  split
  · rename_i ts acc
    rw [ex_cons] at hs
    cases he : ex L a h hh acc with
    | none => rw [he] at hs; cases hs
    | some st =>
      rw [he] at hs
      have hs : some (ts :: st) = some stack := hs
      injection hs with hs
      refine ⟨(ts ++ [t]) :: st, by rw [ex_cons, he]; rfl, ?_⟩
      rw [← hs, flat_cons, flat_cons, List.append_assoc]
  · refine ⟨[t] :: stack, by rw [ex_cons, hs]; rfl, flat_cons _ _⟩

/-- The nodes for the operands after the first one. -/
def restAcc (acc : List (Repl τ)) : List (Operand τ) → List (Repl τ)
  | [] => acc
  | o :: os => restAcc (.hashhash none (rawOf o) :: acc) os

/-- The nodes for a chain. -/
def chainAcc (acc : List (Repl τ)) (c : Chain τ) : List (Repl τ) :=
  match c.first, c.rest with
  | .tok t, rest => restAcc (pushToken t acc) rest
  | .str i, rest => restAcc (.hash i :: acc) rest
  | .param i, [] => .argument i :: acc
  | .param i, o :: rest => restAcc (.hashhash (some i) (rawOf o) :: acc) rest

theorem parse_rest {rest : List (Operand τ)} (h : ∀ o ∈ rest, Plain o) (acc : List (Repl τ)) (tl : List (Raw τ)) :
    parseLoop acc ((rest.flatMap fun o => .hashhash :: o.written) ++ tl) = parseLoop (restAcc acc rest) tl := by
  induction rest generalizing acc with
  | nil => rfl
  | cons o rest ih =>
    have ih := ih fun o ho => h o (List.mem_cons_of_mem _ ho)
    have ho := h o List.mem_cons_self
    cases o with
    | str i => exact ho.elim
    | tok t =>
      rw [List.flatMap_cons, List.append_assoc]
      exact ih _
    | param i =>
      rw [List.flatMap_cons, List.append_assoc]
      exact ih _

/-- Replacement lists do not start with `##`. -/
def NoStart : List (Raw τ) → Prop
  | .hashhash :: _ => False
  | _ => True

theorem parse_param (acc : List (Repl τ)) (i : Nat) {tl : List (Raw τ)} (h : NoStart tl) : parseLoop acc (.param i :: tl) = parseLoop (.argument i :: acc) tl := by
  cases tl with
  | nil => rfl
  | cons t tl =>
    cases t with
    | hashhash => exact h.elim
    | _ => rfl

theorem parse_chain {c : Chain τ} (h : ∀ o ∈ c.rest, Plain o) (acc : List (Repl τ)) {tl : List (Raw τ)} (htl : NoStart tl) : parseLoop acc (c.written ++ tl) = parseLoop (chainAcc acc c) tl := by
  obtain ⟨first, rest⟩ := c
  unfold Chain.written chainAcc
  rw [List.append_assoc]
  cases first with
  | tok t => exact parse_rest h _ tl
  | str i => exact parse_rest h _ tl
  | param i =>
    cases rest with
    | nil => exact parse_param _ _ htl
    | cons o rest =>
      have hr : ∀ o ∈ rest, Plain o := fun o ho => h o (List.mem_cons_of_mem _ ho)
      have ho := h o List.mem_cons_self
      cases o with
      | str i => exact ho.elim
      | tok t => rw [List.flatMap_cons, List.append_assoc]; exact parse_rest hr _ tl
      | param j => rw [List.flatMap_cons, List.append_assoc]; exact parse_rest hr _ tl

theorem written_start (body : List (Chain τ)) : NoStart (written body) := by
  cases body with
  | nil => trivial
  | cons c body =>
    obtain ⟨first, rest⟩ := c
    cases first <;> trivial

theorem parse_body {body : List (Chain τ)} (h : ∀ c ∈ body, ∀ o ∈ c.rest, Plain o) (acc : List (Repl τ)) : parseLoop acc (written body) = some (body.foldl chainAcc acc).reverse := by
  induction body generalizing acc with
  | nil => rfl
  | cons c body ih =>
    show parseLoop acc (c.written ++ written body) = _
    rw [parse_chain (h c List.mem_cons_self) acc (written_start body)]
    exact ih (fun c hc => h c (List.mem_cons_of_mem _ hc)) _

theorem parse_written {body : List (Chain τ)} (h : ∀ c ∈ body, ∀ o ∈ c.rest, Plain o) : parse (written body) = some (body.foldl chainAcc []).reverse := by
  have hs := written_start body
  unfold parse
  split
  · rename_i heq; rw [heq] at hs; exact hs.elim
  · exact parse_body h []

theorem ex_rest {L : Lang τ} (hL : Lawful L) (a : Args τ) (h hh : τ) {rest : List (Operand τ)} (hp : ∀ o ∈ rest, Plain o) {acc : List (Repl τ)} {stack : List (List τ)} {F : List τ} {l : List (Option τ)}
    (hs : ex L a h hh acc = some stack) (hf : flat stack = F ++ l.filterMap id)
    (hl : ∀ k, k < rest.length → ∃ l' x, (rest.take k).foldl (fun l o => glue L l (operand a o)) l = l' ++ [some x]) :
    ∃ stack', ex L a h hh (restAcc acc rest) = some stack' ∧ flat stack' = F ++ (rest.foldl (fun l o => glue L l (operand a o)) l).filterMap id := by
  induction rest generalizing acc stack l with
  | nil => exact ⟨stack, hs, hf⟩
  | cons o rest ih =>
    obtain ⟨l', x, h0⟩ := hl 0 (by simp)
    have h0 : l = l' ++ [some x] := h0
    subst h0
    obtain ⟨st, h1, h2⟩ := expand_none hL a h hh (hp o List.mem_cons_self) hf
    refine ih (fun o ho => hp o (List.mem_cons_of_mem _ ho)) (acc := .hashhash none (rawOf o) :: acc) (by rw [ex_cons, hs]; exact h1) h2 fun k hk => ?_
    exact hl (k + 1) (by simp; omega)

theorem pair_ne_nil {L : Lang τ} (hL : Lawful L) (x y : Option τ) : pair L x y ≠ [] := by
  cases x with
  | none => simp [pair]
  | some x =>
    cases y with
    | none => simp only [pair]; split <;> simp
    | some y => simp [pair, hL.two]

theorem operand_ne_nil (a : Args τ) (o : Operand τ) : operand a o ≠ [] := by
  cases o with
  | param i => simp only [operand]; split <;> simp
  | _ => simp [operand]

theorem glue_ne_nil {L : Lang τ} (hL : Lawful L) {l r : List (Option τ)} (hl : l ≠ []) (hr : r ≠ []) : glue L l r ≠ [] := by
  cases r with
  | nil => exact absurd rfl hr
  | cons y r =>
    have : glue L l (y :: r) = l.dropLast ++ pair L (l.getLast hl) y ++ r := by
      unfold glue
      rw [List.getLast?_eq_some_getLast hl]
    rw [this]
    have := pair_ne_nil hL (l.getLast hl) y
    simp [this]

theorem foldl_ne_nil {L : Lang τ} (hL : Lawful L) (a : Args τ) (rest : List (Operand τ)) {l : List (Option τ)} (hl : l ≠ []) : rest.foldl (fun l o => glue L l (operand a o)) l ≠ [] := by
  induction rest generalizing l with
  | nil => exact hl
  | cons o rest ih => exact ih (glue_ne_nil hL hl (operand_ne_nil a o))

/-- After each `##` but the last one of a chain, there is a token to join with. -/
def Solid (L : Lang τ) (a : Args τ) (c : Chain τ) : Prop := ∀ k, 1 ≤ k → k < c.rest.length → (value L a c.first (c.rest.take k)).getLast? ≠ some none

theorem last_token {l : List (Option τ)} (h : l ≠ []) (h' : l.getLast? ≠ some none) : ∃ l' x, l = l' ++ [some x] := by
  cases hl : l.getLast? with
  | none => exact absurd (List.getLast?_eq_none_iff.mp hl) h
  | some x =>
    obtain ⟨ini, h1⟩ := List.getLast?_eq_some_iff.mp hl
    cases x with
    | none => exact absurd hl h'
    | some x => exact ⟨ini, x, h1⟩

theorem ex_chain {L : Lang τ} (hL : Lawful L) (a : Args τ) (h hh : τ) {c : Chain τ} (hp : ∀ o ∈ c.rest, Plain o) (hsol : Solid L a c) {acc : List (Repl τ)} {stack : List (List τ)} (hs : ex L a h hh acc = some stack) :
    ∃ stack', ex L a h hh (chainAcc acc c) = some stack' ∧ flat stack' = flat stack ++ c.tokens L a := by
  obtain ⟨first, rest⟩ := c
  unfold Solid at hsol
  dsimp only at hsol hp
  have tok : ∀ (x : τ) (acc' : List (Repl τ)) (st : List (List τ)), operand a first = [some x] → ex L a h hh acc' = some st → flat st = flat stack ++ [x] →
      ∃ stack', ex L a h hh (restAcc acc' rest) = some stack' ∧ flat stack' = flat stack ++ (value L a first rest).filterMap id := by
    intro x acc' st hx h1 h2
    refine ex_rest hL a h hh hp h1 (l := operand a first) (by rw [h2, hx]; rfl) fun k hk => ?_
    cases k with
    | zero => exact ⟨[], x, hx⟩
    | succ k => exact last_token (foldl_ne_nil hL a _ (operand_ne_nil a _)) (hsol (k + 1) (by omega) hk)
  cases first with
  | tok t =>
    obtain ⟨st, h1, h2⟩ := ex_token hs t
    obtain ⟨st', h3, h4⟩ := tok t _ st rfl h1 h2
    refine ⟨st', h3, h4.trans ?_⟩
    cases rest <;> rfl
  | str i =>
    obtain ⟨st', h3, h4⟩ := tok (a.string i) (.hash i :: acc) ([a.string i] :: stack) rfl (by rw [ex_cons, hs]; rfl) (flat_cons _ _)
    refine ⟨st', h3, h4.trans ?_⟩
    cases rest <;> rfl
  | param i =>
    cases rest with
    | nil => exact ⟨a.expanded i :: stack, by show ex L a h hh (.argument i :: acc) = _; rw [ex_cons, hs]; rfl, flat_cons _ _⟩
    | cons o rest =>
      obtain ⟨st, h1, h2⟩ := expand_some hL a h hh (hp o List.mem_cons_self) i stack
      refine ex_rest hL a h hh (fun o ho => hp o (List.mem_cons_of_mem _ ho)) (acc := .hashhash (some i) (rawOf o) :: acc) (by rw [ex_cons, hs]; exact h1) h2 fun k hk => ?_
      exact last_token (foldl_ne_nil hL a _ (glue_ne_nil hL (operand_ne_nil a _) (operand_ne_nil a _))) (hsol (k + 1) (by omega) (by simp; omega))

/-- **C66**: the tokens that a macro pushes are those that C gives for `##`, if no `##` follows an operand that is
empty after an earlier `##` of the same chain, and no `##` is followed by `#`. -/
theorem C66_result_partial (L : Lang τ) (hL : Lawful L) (a : Args τ) (hashTok hashhashTok : τ) (body : List (Chain τ)) (hp : ∀ c ∈ body, ∀ o ∈ c.rest, Plain o) (hsol : ∀ c ∈ body, Solid L a c) :
    ∃ rs stack, parse (written body) = some rs ∧ expandNodes L a hashTok hashhashTok rs [] = some stack ∧ flat stack = result L a body := by
  have key : ∀ (body : List (Chain τ)) (acc : List (Repl τ)) (stack : List (List τ)), (∀ c ∈ body, ∀ o ∈ c.rest, Plain o) → (∀ c ∈ body, Solid L a c) → ex L a hashTok hashhashTok acc = some stack →
      ∃ stack', ex L a hashTok hashhashTok (body.foldl chainAcc acc) = some stack' ∧ flat stack' = flat stack ++ result L a body := by
    intro body
    induction body with
    | nil => exact fun acc stack _ _ h => ⟨stack, h, by simp [result]⟩
    | cons c body ih =>
      intro acc stack hp hsol hs
      obtain ⟨st, h1, h2⟩ := ex_chain hL a hashTok hashhashTok (hp c List.mem_cons_self) (hsol c List.mem_cons_self) hs
      obtain ⟨st', h3, h4⟩ := ih _ st (fun c hc => hp c (List.mem_cons_of_mem _ hc)) (fun c hc => hsol c (List.mem_cons_of_mem _ hc)) h1
      exact ⟨st', h3, by rw [h4, h2, List.append_assoc]; rfl⟩
  obtain ⟨st, h1, h2⟩ := key body [] [] hp hsol rfl
  exact ⟨_, st, parse_written hp, h1, by rw [h2]; rfl⟩

/-- All elements are tokens. -/
def Full (l : List (Option τ)) : Prop := ∀ x ∈ l, x ≠ none

theorem glue_full {L : Lang τ} {l r : List (Option τ)} (hl : Full l) (hr : Full r) : Full (glue L l r) := by
  unfold glue
  split
  · rename_i x y r' hx
    obtain ⟨ini, rfl⟩ := List.getLast?_eq_some_iff.mp hx
    intro z hz
    rcases List.mem_append.mp hz with hz | hz
    · rcases List.mem_append.mp hz with hz | hz
      · rw [List.dropLast_concat] at hz
        exact hl z (List.mem_append_left _ hz)
      · cases x with
        | none => exact absurd rfl (hl none (by simp))
        | some x =>
          cases y with
          | none => exact absurd rfl (hr none (by simp))
          | some y =>
            simp only [pair, List.mem_map] at hz
            obtain ⟨_, _, rfl⟩ := hz
            simp
    · exact hr z (List.mem_cons_of_mem _ hz)
  · exact hr
  · exact hl

/-- **C66**: the same for all replacement lists, if the arguments next to `##` are not empty. -/
theorem C66_nonempty_partial (L : Lang τ) (hL : Lawful L) (a : Args τ) (hashTok hashhashTok : τ) (body : List (Chain τ)) (hp : ∀ c ∈ body, ∀ o ∈ c.rest, Plain o)
    (hne : ∀ c ∈ body, ∀ i, Operand.param i ∈ c.first :: c.rest → c.rest ≠ [] → a.raw i ≠ []) :
    ∃ rs stack, parse (written body) = some rs ∧ expandNodes L a hashTok hashhashTok rs [] = some stack ∧ flat stack = result L a body := by
  refine C66_result_partial L hL a hashTok hashhashTok body hp fun c hc k hk hlt => ?_
  have hr : c.rest ≠ [] := by intro h; rw [h] at hlt; exact absurd hlt (Nat.not_lt_zero _)
  have hop : ∀ o ∈ c.first :: c.rest, Full (operand a o) := by
    intro o ho x hx
    cases o with
    | tok t => rw [List.mem_singleton.mp hx]; simp
    | str i => rw [List.mem_singleton.mp hx]; simp
    | param i =>
      have := hne c hc i ho hr
      simp only [operand] at hx
      split at hx
      · rename_i h; exact absurd h this
      · rcases List.mem_cons.mp hx with hx | hx
        · rw [hx]; simp
        · obtain ⟨_, _, rfl⟩ := List.mem_map.mp hx; simp
  have key : ∀ (rest : List (Operand τ)) (l : List (Option τ)), (∀ o ∈ rest, o ∈ c.first :: c.rest) → Full l → Full (rest.foldl (fun l o => glue L l (operand a o)) l) := by
    intro rest
    induction rest with
    | nil => exact fun l _ h => h
    | cons o rest ih => exact fun l h1 h2 => ih _ (fun o ho => h1 o (List.mem_cons_of_mem _ ho)) (glue_full h2 (hop o (h1 o List.mem_cons_self)))
  intro h
  obtain ⟨ini, h1⟩ := List.getLast?_eq_some_iff.mp h
  exact key (c.rest.take k) (operand a c.first) (fun o ho => List.mem_cons_of_mem _ (List.mem_of_mem_take ho)) (hop _ List.mem_cons_self) none (by unfold value at h1; rw [h1]; simp) rfl

/-! ## Bounds -/

theorem search_length {stack stack' : List (List τ)} {t : τ} (h : search stack = some (t, stack')) : stack'.length ≤ stack.length := by
  induction stack with
  | nil => cases h
  | cons ts below ih =>
    unfold search at h
    split at h
    · injection h with h; injection h with _ h; subst h; simp
    · exact Nat.le_succ_of_le (ih h)

theorem push_length (ts : List τ) (stack : List (List τ)) : (pushNonempty ts stack).length ≤ stack.length + 1 := by
  unfold pushNonempty; split <;> simp

theorem node_length {L : Lang τ} {a : Args τ} {h hh : τ} {r : Repl τ} {stack stack' : List (List τ)} (he : expandNode L a h hh stack r = some stack') : stack'.length ≤ stack.length + nodeCount r := by
  cases r with
  | tokens ts => cases he; exact Nat.le_refl _
  | argument i => cases he; exact Nat.le_refl _
  | hash i => cases he; exact Nat.le_refl _
  | hashhash pre post =>
    simp only [expandNode] at he
    cases hp : prefixOf a pre stack with
    | none => rw [hp] at he; cases he
    | some p =>
      rw [hp] at he
      injection he with he
      have h1 : p.2.length ≤ stack.length + 1 := by
        unfold prefixOf at hp
        split at hp
        · split at hp
          · cases hp; simp
          · split at hp <;> (cases hp; simp)
        · cases hs : search stack with
          | none => rw [hs] at hp; cases hp
          | some q =>
            rw [hs] at hp
            cases hp
            have := search_length (t := q.1) (stack' := q.2) hs
            show q.2.length ≤ _
            omega
      subst he
      show (joinTokens L p.1 (postfixOf a h hh post).1 (postfixOf a h hh post).2 p.2).length ≤ stack.length + 3
      unfold joinTokens
      split
      · omega
      · have h2 := push_length (L.tokenize (p.1.toList ++ (postfixOf a h hh post).1.toList)) p.2
        have h3 := push_length (postfixOf a h hh post).2 (pushNonempty (L.tokenize (p.1.toList ++ (postfixOf a h hh post).1.toList)) p.2)
        omega

/-- **C66**: a macro never needs more nodes of the token stack than were reserved for it, whatever it contains. -/
theorem C66_bounds (L : Lang τ) (a : Args τ) (hashTok hashhashTok : τ) (rs : List (Repl τ)) (stack : List (List τ)) (h : expandNodes L a hashTok hashhashTok rs [] = some stack) :
    stack.length ≤ (rs.map nodeCount).sum := by
  have key : ∀ (rs : List (Repl τ)) (st stack : List (List τ)), expandNodes L a hashTok hashhashTok rs st = some stack → stack.length ≤ st.length + (rs.map nodeCount).sum := by
    intro rs
    induction rs with
    | nil => intro st stack h; cases h; simp
    | cons r rs ih =>
      intro st stack h
      unfold expandNodes at h
      cases he : expandNode L a hashTok hashhashTok st r with
      | none => rw [he] at h; cases h
      | some st' =>
        rw [he] at h
        have h1 := node_length he
        have h2 := ih st' stack h
        simp only [List.map_cons, List.sum_cons]
        omega
  simpa using key rs [] stack h

/-! ## What is wrong -/

/-- Spellings. -/
def strings : Lang String where
  tokenize ts := if String.join ts = "" then [] else [String.join ts]
  comma t := t = ","

def noArgs : Args String := ⟨fun _ => [], fun _ => [], fun _ => "\"\""⟩

/-- The tokenizer of the samples is lawful for spellings that are not empty; here only for a language of two letters. -/
def letters : Lang (List Bool) where
  tokenize ts := if ts.isEmpty then [] else [ts.flatten]
  comma t := t == []

theorem letters_lawful : Lawful letters := ⟨rfl, fun x => by simp [letters], fun x y => by simp [letters]⟩

/-- `#define F(a, b) x a ## b ## y #a`; the arguments are `t f` and nothing. -/
example : ∃ rs stack, parse (written (τ := List Bool) [⟨.tok [true], []⟩, ⟨.param 0, [.param 1, .tok [true]]⟩, ⟨.str 0, []⟩]) = some rs
    ∧ expandNodes letters ⟨fun i => if i = 0 then [[true], [false]] else [], fun _ => [], fun _ => [true, true]⟩ [] [] rs [] = some stack
    ∧ flat stack = [[true], [true], [false, true], [true, true]] := by
  refine C66_result_partial letters letters_lawful _ [] [] _ ?_ ?_
  · intro c hc o ho
    simp only [List.mem_cons, List.not_mem_nil, or_false] at hc
    rcases hc with rfl | rfl | rfl
    · cases ho
    · simp only [List.mem_cons, List.not_mem_nil, or_false] at ho
      rcases ho with rfl | rfl <;> trivial
    · cases ho
  · intro c hc k h1 h2
    simp only [List.mem_cons, List.not_mem_nil, or_false] at hc
    rcases hc with rfl | rfl | rfl
    · exact absurd h2 (Nat.not_lt_zero _)
    · have : k = 1 := by simp at h2; omega
      subst this
      decide
    · exact absurd h2 (Nat.not_lt_zero _)

/-- **C66**, a defect: with `#define E(a, b, c) 1 a##b##c`, `E(,,2)` gives `12` instead of `1 2`, and without the `1` the
search for a token leaves the macro. -/
theorem C66_chain_wrong :
    let a : Args String := { noArgs with raw := fun i => if i = 2 then ["2"] else [] }
    let body : List (Chain String) := [⟨.tok "1", []⟩, ⟨.param 0, [.param 1, .param 2]⟩]
    result strings a body = ["1", "2"] ∧ ((parse (written body)).bind fun rs => (expandNodes strings a "#" "##" rs []).map flat) = some ["12"]
    ∧ ((parse (written (τ := String) [⟨.param 0, [.param 1, .param 2]⟩])).bind fun rs => expandNodes strings a "#" "##" rs []) = none := by
  decide

/-- **C66**, a defect: with `#define W(x) L ## #x`, `W(a)` gives `L# a` instead of `L"a"`. -/
theorem C66_hash_wrong :
    let a : Args String := ⟨fun _ => ["a"], fun _ => ["a"], fun _ => "\"a\""⟩
    let body : List (Chain String) := [⟨.tok "L", [.str 0]⟩]
    result strings a body = ["L\"a\""] ∧ ((parse (written body)).bind fun rs => (expandNodes strings a "#" "##" rs []).map flat) = some ["L#", "a"] := by
  decide

/-- **C66**, a defect: `##` at the end is accepted after another `##`. -/
theorem C66_end_wrong : parse (τ := String) [.tok "x", .hashhash, .hashhash] ≠ none := by decide

/-- **C66**, a defect: a name that must not be replaced any more (`fixed`) becomes an ordinary identifier by joining it with an
empty argument, since the tokenizer sees only its spelling. -/
theorem C66_fixed_wrong (L : Lang Spec.Macro.Token) (m : Nat) (hc : L.comma (.fixed m) = false) (hL : L.tokenize [.fixed m] = [.ident m]) (e : Nat → List Spec.Macro.Token) (s : Nat → Spec.Macro.Token) :
    let a : Args Spec.Macro.Token := ⟨fun i => if i = 0 then [.fixed m] else [], e, s⟩
    let body : List (Chain Spec.Macro.Token) := [⟨.param 0, [.param 1]⟩]
    result L a body = [.fixed m] ∧ ((parse (written body)).bind fun rs => (expandNodes L a (.other 0) (.other 1) rs []).map flat) = some [.ident m] := by
  intro a body
  constructor
  · simp [result, body, a, Chain.tokens, value, operand, glue, pair, hc]
  · simp [written, body, Chain.written, Operand.written, parse, parseLoop, expandNodes, expandNode, prefixOf, a, postfixOf, joinTokens, dropsComma, hc, hL, pushNonempty, flat]

end Verif.Props.Paste
