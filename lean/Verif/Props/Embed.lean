import Verif.Spec.Embed
import Verif.Model.Embed

/-!
# C92: what `#embed` is replaced by
-/
namespace Verif.Props.Embed
open Verif.Model.Embed Verif.Spec.Embed

theorem eat_gap : ∀ (g rest : List Tok), Gap g → eat (g ++ rest) = eat rest
  | [], _, _ => rfl
  | t :: g, rest, h => by
    have : decide (t = Tok.whitespace ∨ t = Tok.comment) = true := decide_eq_true (h t List.mem_cons_self)
    unfold eat
    rw [List.cons_append, List.dropWhile_cons, if_pos this]
    exact eat_gap g rest (fun x hx => h x (List.mem_cons_of_mem _ hx))

theorem take_inside : ∀ (ts rest : List Tok), (∀ t ∈ ts, t ≠ .close ∧ t ≠ .newline) →
    (ts ++ .close :: rest).takeWhile inside = ts ∧ (ts ++ .close :: rest).dropWhile inside = .close :: rest
  | [], _, _ => ⟨rfl, rfl⟩
  | t :: ts, rest, h => by
    have ht : inside t = true := decide_eq_true (h t List.mem_cons_self)
    obtain ⟨h1, h2⟩ := take_inside ts rest (fun x hx => h x (List.mem_cons_of_mem _ hx))
    rw [List.cons_append, List.takeWhile_cons_of_pos ht, List.dropWhile_cons_of_pos ht, h1, h2]
    exact ⟨rfl, rfl⟩

/-- What a parameter changes. -/
def put (s : Parameters) (p : Parameter) : Parameters :=
  match p.kind with
  | .prefix_ => { s with prefix_ := p.tokens }
  | .suffix_ => { s with suffix_ := p.tokens }
  | .ifEmpty => { s with ifEmpty := p.tokens }

theorem assign_eq (p : Parameter) (h : Spells p.name p.kind) (s : Parameters) : assign p.name p.tokens s = some (put s p) := by
  unfold assign put
  cases hk : p.kind with
  | prefix_ => rw [hk] at h; rcases h with h | h <;> rw [h] <;> rfl
  | suffix_ => rw [hk] at h; rcases h with h | h <;> rw [h] <;> rfl
  | ifEmpty => rw [hk] at h; rcases h with h | h <;> rw [h] <;> rfl

theorem balanced_newline : ∀ (l : List Tok) (d : Nat), balanced d l = true → Tok.newline ∉ l
  | [], _, _ => fun h => nomatch h
  | t :: l, d, h => by
    intro hx
    cases t with
    | newline => cases d <;> exact absurd h (by unfold balanced; exact Bool.false_ne_true)
    | open_ =>
      rcases List.mem_cons.1 hx with hx | hx
      · cases hx
      · exact balanced_newline l (d + 1) h hx
    | close =>
      rcases List.mem_cons.1 hx with hx | hx
      · cases hx
      · cases d with
        | zero => exact absurd h (by unfold balanced; exact Bool.false_ne_true)
        | succ d => exact balanced_newline l d h hx
    | whitespace =>
      rcases List.mem_cons.1 hx with hx | hx
      · cases hx
      · exact balanced_newline l d (by cases d <;> exact h) hx
    | comment =>
      rcases List.mem_cons.1 hx with hx | hx
      · cases hx
      · exact balanced_newline l d (by cases d <;> exact h) hx
    | identifier n =>
      rcases List.mem_cons.1 hx with hx | hx
      · cases hx
      · exact balanced_newline l d (by cases d <;> exact h) hx
    | other n =>
      rcases List.mem_cons.1 hx with hx | hx
      · cases hx
      · exact balanced_newline l d (by cases d <;> exact h) hx

theorem step_eq (p : Parameter) (hp : Written p) (hc : Tok.close ∉ p.tokens) (hb : p.before = []) (n : Nat) (rest : List Tok) (s : Parameters) :
    parameters (n + 1) (write p ++ rest) s = parameters n rest (put s p) := by
  have e : write p ++ rest = .identifier p.name :: (p.between ++ .open_ :: (p.tokens ++ .close :: rest)) := by
    unfold write
    rw [hb]
    simp
  have h1 : eat (p.between ++ .open_ :: (p.tokens ++ .close :: rest)) = .open_ :: (p.tokens ++ .close :: rest) := by
    rw [eat_gap _ _ hp.between]
    rfl
  obtain ⟨h2, h3⟩ := take_inside p.tokens rest (fun t ht => ⟨(fun e => hc (e ▸ ht)), (fun e => balanced_newline p.tokens 0 hp.tokens (e ▸ ht))⟩)
  rw [e]
  show (match eat (p.between ++ .open_ :: (p.tokens ++ .close :: rest)) with
    | .open_ :: rest =>
      match rest.dropWhile inside with
      | .close :: after =>
        match assign p.name (rest.takeWhile inside) s with
        | some s => parameters n after s
        | none => none
      | _ => none
    | _ => none) = _
  rw [h1]
  simp only
  rw [h3]
  simp only
  rw [h2, assign_eq p hp.spells]

/-- A line without another parameter. -/
def Ends (rest : List Tok) : Prop := ∀ name tail, rest ≠ .identifier name :: tail

theorem ends_eq (n : Nat) (rest : List Tok) (h : Ends rest) (s : Parameters) : parameters (n + 1) rest s = some s := by
  cases rest with
  | nil => rfl
  | cons t rest =>
    cases t with
    | identifier name => exact absurd rfl (h name rest)
    | whitespace => rfl
    | comment => rfl
    | open_ => rfl
    | close => rfl
    | newline => rfl
    | other k => rfl

theorem loop_eq (rest : List Tok) (hr : Ends rest) : ∀ (ps : List Parameter) (n : Nat) (s : Parameters), ps.length < n → (∀ p ∈ ps, Written p ∧ Tok.close ∉ p.tokens ∧ p.before = []) →
    parameters n (ps.flatMap write ++ rest) s = some (ps.foldl put s)
  | [], n, s, hn, _ => by
    obtain ⟨m, rfl⟩ : ∃ m, n = m + 1 := ⟨n - 1, by have : 0 < n := hn; omega⟩
    exact ends_eq m rest hr s
  | p :: ps, n, s, hn, h => by
    have hn : ps.length + 1 < n := hn
    obtain ⟨m, rfl⟩ : ∃ m, n = m + 1 := ⟨n - 1, by omega⟩
    have hp := h p List.mem_cons_self
    rw [List.flatMap_cons, List.append_assoc, step_eq p hp.1 hp.2.1 hp.2.2, loop_eq rest hr ps m _ (by omega) (fun q hq => h q (List.mem_cons_of_mem _ hq))]
    rfl

/-- The parts of the parameters. -/
def part : Kind → Parameters → List Tok
  | .prefix_, s => s.prefix_
  | .suffix_, s => s.suffix_
  | .ifEmpty, s => s.ifEmpty

theorem part_put (k : Kind) (s : Parameters) (p : Parameter) : part k (put s p) = if p.kind = k then p.tokens else part k s := by
  unfold put
  cases hp : p.kind <;> cases k <;> rfl

theorem part_fold (k : Kind) : ∀ (ps : List Parameter) (s : Parameters), (ps.map (·.kind)).Nodup →
    part k (ps.foldl put s) = if k ∈ ps.map (·.kind) then (ps.filter (fun p => decide (p.kind = k))).flatMap (·.tokens) else part k s
  | [], s, _ => rfl
  | p :: ps, s, hd => by
    have hd := List.nodup_cons.1 hd
    rw [List.foldl_cons, part_fold k ps _ hd.2, part_put]
    by_cases hk : p.kind = k
    · have hno : k ∉ ps.map (·.kind) := fun hx => hd.1 (by show p.kind ∈ _; rw [hk]; exact hx)
      have hf : ps.filter (fun p => decide (p.kind = k)) = [] := by
        rw [List.filter_eq_nil_iff]
        intro q hq hx
        exact hno (List.mem_map.2 ⟨q, hq, of_decide_eq_true hx⟩)
      rw [if_neg hno, if_pos hk, if_pos (show k ∈ (p :: ps).map (·.kind) from List.mem_cons.2 (Or.inl hk.symm)), List.filter_cons_of_pos (by exact decide_eq_true hk), hf]
      show _ = p.tokens ++ []
      rw [List.append_nil]
    · rw [if_neg hk, List.filter_cons_of_neg (by simpa using hk)]
      by_cases hm : k ∈ ps.map (·.kind)
      · rw [if_pos hm, if_pos (show k ∈ (p :: ps).map (·.kind) from List.mem_cons_of_mem _ hm)]
      · rw [if_neg hm, if_neg (fun hx => by
          rcases List.mem_cons.1 hx with hx | hx
          · exact hk hx.symm
          · exact hm hx)]

theorem emit_part (k : Kind) (ps : List Parameter) (hd : (ps.map (·.kind)).Nodup) : emit (part k (ps.foldl put ⟨[], [], []⟩)) = tokensOf k ps := by
  have hf : ∀ l : List Tok, l.filter (fun t => decide (¬(t = .whitespace ∨ t = .comment))) = l.filter (fun t => decide (t ≠ .whitespace ∧ t ≠ .comment)) := by
    intro l
    apply List.filter_congr
    intro t _
    rw [decide_eq_decide]
    exact not_or
  have : part k (ps.foldl put ⟨[], [], []⟩) = (ps.filter (fun p => decide (p.kind = k))).flatMap (·.tokens) := by
    rw [part_fold k ps _ hd]
    split
    · rfl
    · rename_i hno
      have : ps.filter (fun p => decide (p.kind = k)) = [] := by
        rw [List.filter_eq_nil_iff]
        intro q hq hx
        exact hno (List.mem_map.2 ⟨q, hq, of_decide_eq_true hx⟩)
      rw [this]
      cases k <;> rfl
  rw [this]
  unfold emit tokensOf
  rw [hf, List.filter_flatMap]

theorem write_pos (p : Parameter) : 0 < (write p).length := by
  unfold write
  simp only [List.length_append, List.length_cons, List.length_nil]
  omega

theorem length_le : ∀ (ps : List Parameter), ps.length ≤ (ps.flatMap write).length
  | [] => Nat.le_refl _
  | p :: ps => by
    have h1 := length_le ps
    have h2 := write_pos p
    rw [List.flatMap_cons, List.length_append]
    show ps.length + 1 ≤ _
    omega

theorem eat_ident (name : String) (l : List Tok) : eat (.identifier name :: l) = .identifier name :: l := rfl

theorem embed_eq (gap rest : List Tok) (hg : Gap gap) (hr : Ends rest) (ps : List Parameter) (hne : ps ≠ []) (h : ∀ p ∈ ps, Written p ∧ Tok.close ∉ p.tokens ∧ p.before = [])
    (hd : (ps.map (·.kind)).Nodup) (file : List Nat) : embed (gap ++ ps.flatMap write ++ rest) file = some (replaced ps file) := by
  have he : eat (gap ++ ps.flatMap write ++ rest) = ps.flatMap write ++ rest := by
    rw [List.append_assoc, eat_gap _ _ hg]
    cases ps with
    | nil => exact absurd rfl hne
    | cons p ps =>
      have hb := (h p List.mem_cons_self).2.2
      rw [List.flatMap_cons]
      unfold write
      rw [hb]
      rfl
  unfold embed
  rw [he, loop_eq rest hr ps _ _ (by
    have := length_le ps
    rw [List.length_append, List.length_append]
    omega) h]
  simp only
  unfold replaced
  have e1 := emit_part .prefix_ ps hd
  have e2 := emit_part .suffix_ ps hd
  have e3 := emit_part .ifEmpty ps hd
  have e1 : emit (ps.foldl put ⟨[], [], []⟩).prefix_ = tokensOf .prefix_ ps := e1
  have e2 : emit (ps.foldl put ⟨[], [], []⟩).suffix_ = tokensOf .suffix_ ps := e2
  have e3 : emit (ps.foldl put ⟨[], [], []⟩).ifEmpty = tokensOf .ifEmpty ps := e3
  rw [e1, e2, e3]
  by_cases hf : file = []
  · rw [if_neg (fun hx => hx hf), if_pos hf]
  · rw [if_pos hf, if_neg hf]

theorem tokensOf_cons (k : Kind) (p : Parameter) (ps : List Parameter) : tokensOf k ({ p with before := [] } :: ps) = tokensOf k (p :: ps) := by
  unfold tokensOf
  rw [List.filter_cons, List.filter_cons]
  by_cases h : decide (p.kind = k) = true
  · rw [if_pos h, if_pos h]
    rfl
  · rw [if_neg h, if_neg h]

theorem replaced_cons (p : Parameter) (ps : List Parameter) (file : List Nat) : replaced ({ p with before := [] } :: ps) file = replaced (p :: ps) file := by
  unfold replaced
  rw [tokensOf_cons, tokensOf_cons, tokensOf_cons]

/-- **C92 (partial)**: `#embed` is replaced by the prefix, the file and the suffix, or by the tokens for an empty file, if the parameters follow each other directly; only the first one can
have something before it. Missing: whitespace between parameters, see `C92_space_wrong`, and parentheses
in parameters, see `C92_nested_wrong`. -/
theorem C92_embed_partial (ps : List Parameter) (h : ∀ p ∈ ps, Written p) (hc : ∀ p ∈ ps, Tok.close ∉ p.tokens) (hb : ∀ p ∈ ps.tail, p.before = []) (hd : (ps.map (·.kind)).Nodup) (gap : List Tok) (hg : Gap gap)
    (tail : List Tok) (file : List Nat) : embed (ps.flatMap write ++ gap ++ .newline :: tail) file = some (replaced ps file) := by
  cases ps with
  | nil =>
    have he : eat (gap ++ .newline :: tail) = .newline :: tail := by rw [eat_gap _ _ hg]; rfl
    unfold embed
    rw [List.flatMap_nil, List.nil_append, he]
    show (if file ≠ [] then some (emit [] ++ [Out.file file] ++ emit []) else some (emit [])) = _
    unfold replaced
    by_cases hf : file = []
    · rw [if_neg (fun hx => hx hf), if_pos hf]; rfl
    · rw [if_pos hf, if_neg hf]; rfl
  | cons p ps =>
    have hp := h p List.mem_cons_self
    let q : Parameter := { p with before := [] }
    have hq : Written q := ⟨(fun t ht => nomatch ht), hp.between, hp.spells, hp.tokens⟩
    have e : (p :: ps).flatMap write = p.before ++ (q :: ps).flatMap write := by
      rw [List.flatMap_cons, List.flatMap_cons]
      show p.before ++ [.identifier p.name] ++ p.between ++ [.open_] ++ p.tokens ++ [.close] ++ _ = p.before ++ (([] ++ [.identifier p.name] ++ p.between ++ [.open_] ++ p.tokens ++ [.close]) ++ _)
      simp
    have hr : Ends (gap ++ .newline :: tail) := by
      intro name t hx
      cases gap with
      | nil => cases hx
      | cons x g =>
        have hx := (List.cons.inj hx).1
        rcases hg x List.mem_cons_self with h1 | h1 <;> (rw [h1] at hx; cases hx)
    rw [e, List.append_assoc, embed_eq p.before _ hp.before hr (q :: ps) (List.cons_ne_nil _ _) (fun x hx => by
      rcases List.mem_cons.1 hx with rfl | hx
      · exact ⟨hq, hc p List.mem_cons_self, rfl⟩
      · exact ⟨h x (List.mem_cons_of_mem _ hx), hc x (List.mem_cons_of_mem _ hx), hb x hx⟩) hd file, replaced_cons p ps file]

/-- **C92 is wrong of the code**: with whitespace before another parameter, it and all that follow are not taken into account. -/
theorem C92_space_wrong (p q : Parameter) (hp : Written p) (hq : Written q) (hc : Tok.close ∉ p.tokens) (hs : q.before ≠ []) (rest : List Tok) (file : List Nat) :
    embed (write p ++ write q ++ rest) file = some (replaced [p] file) := by
  let p' : Parameter := { p with before := [] }
  have hp' : Written p' := ⟨(fun t ht => nomatch ht), hp.between, hp.spells, hp.tokens⟩
  have e : write p ++ write q ++ rest = p.before ++ [p'].flatMap write ++ (write q ++ rest) := by
    show p.before ++ [.identifier p.name] ++ p.between ++ [.open_] ++ p.tokens ++ [.close] ++ write q ++ rest =
      p.before ++ (([] ++ [.identifier p.name] ++ p.between ++ [.open_] ++ p.tokens ++ [.close]) ++ []) ++ (write q ++ rest)
    simp
  have hr : Ends (write q ++ rest) := by
    intro name t hx
    unfold write at hx
    cases hb : q.before with
    | nil => exact hs hb
    | cons x g =>
      rw [hb] at hx
      have hx := (List.cons.inj hx).1
      rcases hq.before x (by rw [hb]; exact List.mem_cons_self) with h1 | h1 <;> (rw [h1] at hx; cases hx)
  rw [e, embed_eq p.before _ hp.before hr [p'] (List.cons_ne_nil _ _) (fun x hx => by rw [List.mem_singleton.1 hx]; exact ⟨hp', hc, rfl⟩) (by simp) file, replaced_cons p [] file]

/-- **C92 is wrong of the code**: a parameter ends at its first closing parenthesis; here only `(1` is put after the file. -/
theorem C92_nested_wrong : ∃ (p : Parameter) (file : List Nat), Written p ∧ embed (write p ++ [.newline]) file = some [.file [65], .token .open_, .token (.other 1)] ∧
    replaced [p] file = [.file [65], .token .open_, .token (.other 1), .token .close] :=
  ⟨⟨[], "suffix", [], [.open_, .other 1, .close], .suffix_⟩, [65], ⟨(fun t ht => nomatch ht), (fun t ht => nomatch ht), Or.inl rfl, by decide⟩, by decide +kernel, by decide +kernel⟩

theorem unknown_eq (name : String) (hn : ∀ k, ¬ Spells name k) (n : Nat) (rest : List Tok) (s : Parameters) : parameters (n + 1) (.identifier name :: rest) s = none := by
  have ha : ∀ ts, assign name ts s = none := by
    intro ts
    unfold assign
    rw [if_neg (show ¬(name = "prefix" ∨ name = "__prefix__") from hn .prefix_), if_neg (show ¬(name = "suffix" ∨ name = "__suffix__") from hn .suffix_),
      if_neg (show ¬(name = "if_empty" ∨ name = "__if_empty__") from hn .ifEmpty)]
  show (match eat rest with
    | .open_ :: rest =>
      match rest.dropWhile inside with
      | .close :: after =>
        match assign name (rest.takeWhile inside) s with
        | some s => parameters n after s
        | none => none
      | _ => none
    | _ => none) = _
  split
  · split
    · rw [ha]
    · rfl
  · rfl

theorem loop_unknown (name : String) (hn : ∀ k, ¬ Spells name k) (rest : List Tok) : ∀ (ps : List Parameter) (n : Nat) (s : Parameters), ps.length < n →
    (∀ p ∈ ps, Written p ∧ Tok.close ∉ p.tokens ∧ p.before = []) → parameters n (ps.flatMap write ++ .identifier name :: rest) s = none
  | [], n, s, hl, _ => by
    obtain ⟨m, rfl⟩ : ∃ m, n = m + 1 := ⟨n - 1, by have : 0 < n := hl; omega⟩
    exact unknown_eq name hn m rest s
  | p :: ps, n, s, hl, h => by
    have hl : ps.length + 1 < n := hl
    obtain ⟨m, rfl⟩ : ∃ m, n = m + 1 := ⟨n - 1, by omega⟩
    have hp := h p List.mem_cons_self
    rw [List.flatMap_cons, List.append_assoc, step_eq p hp.1 hp.2.1 hp.2.2]
    exact loop_unknown name hn rest ps m _ (by omega) (fun q hq => h q (List.mem_cons_of_mem _ hq))

/-- **C92 (partial)**: a parameter with another name is reported; `limit` is one of them. Missing as above. -/
theorem C92_unknown_partial (gap : List Tok) (hg : Gap gap) (ps : List Parameter) (h : ∀ p ∈ ps, Written p) (hc : ∀ p ∈ ps, Tok.close ∉ p.tokens) (hb : ∀ p ∈ ps, p.before = [])
    (name : String) (hn : ∀ k, ¬ Spells name k) (rest : List Tok) (file : List Nat) : embed (gap ++ ps.flatMap write ++ .identifier name :: rest) file = none := by
  have he : eat (gap ++ ps.flatMap write ++ .identifier name :: rest) = ps.flatMap write ++ .identifier name :: rest := by
    rw [List.append_assoc, eat_gap _ _ hg]
    cases ps with
    | nil => rfl
    | cons p ps =>
      rw [List.flatMap_cons]
      unfold write
      rw [hb p List.mem_cons_self]
      rfl
  unfold embed
  rw [he, loop_unknown name hn rest ps _ _ (by
    have := length_le ps
    rw [List.length_append, List.length_append]
    omega) (fun p hp => ⟨h p hp, hc p hp, hb p hp⟩)]

/-- C23 has `limit`. -/
example : (∀ k, ¬ Spells "limit" k) ∧ embed [.whitespace, .identifier "limit", .open_, .other 1, .close, .newline] [65] = none := by
  refine ⟨?_, by decide +kernel⟩
  intro k
  cases k <;> (unfold Spells; decide)

/-- `#embed "file" prefix(1, )suffix(, 0)`. -/
def samplePrefix : Parameter := ⟨[.whitespace], "prefix", [], [.other 1, .other 2, .whitespace], .prefix_⟩
def sampleSuffix : Parameter := ⟨[], "__suffix__", [.comment], [.other 2, .whitespace, .other 0], .suffix_⟩

example : Written samplePrefix ∧ Written sampleSuffix ∧
    embed ([samplePrefix, sampleSuffix].flatMap write ++ [] ++ .newline :: []) [65, 66] =
      some [.token (.other 1), .token (.other 2), .file [65, 66], .token (.other 2), .token (.other 0)] ∧
    embed (write samplePrefix ++ write { sampleSuffix with before := [.whitespace] } ++ [.newline]) [65, 66] = some [.token (.other 1), .token (.other 2), .file [65, 66]] := by
  refine ⟨⟨by simp [Gap, samplePrefix], by simp [Gap, samplePrefix], Or.inl rfl, by decide⟩, ⟨by simp [Gap, sampleSuffix], by simp [Gap, sampleSuffix], Or.inr rfl, by decide⟩,
    by decide +kernel, by decide +kernel⟩

end Verif.Props.Embed
