import Verif.Model.Scopes
import Mathlib.Tactic.Ring

/-!
# Lemmas: the offsets of scopes
-/
namespace Verif.Lemmas.Scopes
open Verif.Model.Scopes
open Verif.Spec.Scopes (Declaration Body Variable variablesOf variablesAt)

/-- The scopes, with positions that are measured by `f`. -/
def scan (f : Nat × Nat → Nat) : Body → Nat → Scopes × Nat
  | .done, o => (.none, o)
  | .code size bytes rest, o => scan f rest (o + f (size, bytes))
  | .block ds inner rest, o =>
    let first := scan f inner o
    let next := scan f rest first.2
    (.scope o first.2 ds first.1 next.1, next.2)

theorem parse_eq : ∀ (b : Body) (o : Nat), parse b o = scan (·.1) b o
  | .done, _ => rfl
  | .code _ _ rest, o => parse_eq rest _
  | .block ds inner rest, o => by
    simp only [parse, scan, parse_eq inner, parse_eq rest]

theorem scan_end (f : Nat × Nat → Nat) : ∀ (b : Body) (o : Nat), (scan f b o).2 = o + ((nodes b).map f).sum
  | .done, _ => rfl
  | .code size bytes rest, o => by
    show (scan f rest _).2 = o + (f (size, bytes) + _)
    rw [scan_end f rest, Nat.add_assoc]; rfl
  | .block ds inner rest, o => by
    show (scan f rest (scan f inner o).2).2 = o + ((nodes inner ++ nodes rest).map f).sum
    rw [scan_end f rest, scan_end f inner, List.map_append, List.sum_append]; omega

/-- Marks and nodes. -/
abbrev Ev := Option (Nat × Nat)

def marks (f : Nat × Nat → Nat) : List Ev → Nat → List Nat
  | [], _ => []
  | none :: rest, o => o :: marks f rest o
  | some n :: rest, o => marks f rest (o + f n)

def events : Body → List Ev
  | .done => []
  | .code size bytes rest => some (size, bytes) :: events rest
  | .block _ inner rest => none :: events inner ++ none :: events rest

def total (f : Nat × Nat → Nat) (es : List Ev) : Nat := ((es.filterMap id).map f).sum

theorem marks_append (f : Nat × Nat → Nat) : ∀ (a b : List Ev) (o : Nat), marks f (a ++ b) o = marks f a o ++ marks f b (o + total f a)
  | [], _, _ => rfl
  | none :: rest, b, o => by
    show o :: marks f (rest ++ b) o = o :: (marks f rest o ++ _)
    rw [marks_append f rest b o]; rfl
  | some n :: rest, b, o => by
    show marks f (rest ++ b) (o + f n) = marks f rest (o + f n) ++ marks f b (o + (f n + total f rest))
    rw [marks_append f rest b, Nat.add_assoc]

theorem events_nodes : ∀ (b : Body), (events b).filterMap id = nodes b
  | .done => rfl
  | .code size bytes rest => by
    show (size, bytes) :: (events rest).filterMap id = _
    rw [events_nodes rest]; rfl
  | .block ds inner rest => by
    show (events inner ++ none :: events rest).filterMap id = nodes inner ++ nodes rest
    rw [List.filterMap_append, events_nodes inner]
    show _ ++ (events rest).filterMap id = _
    rw [events_nodes rest]

theorem offsets_scan (f : Nat × Nat → Nat) : ∀ (b : Body) (o : Nat), offsets (scan f b o).1 = marks f (events b) o
  | .done, _ => rfl
  | .code size bytes rest, o => offsets_scan f rest _
  | .block ds inner rest, o => by
    show o :: offsets (scan f inner o).1 ++ (scan f inner o).2 :: offsets (scan f rest (scan f inner o).2).1 = o :: marks f (events inner ++ none :: events rest) o
    rw [offsets_scan f inner, offsets_scan f rest, marks_append, scan_end]
    have : total f (events inner) = ((nodes inner).map f).sum := by unfold total; rw [events_nodes]
    rw [this]; rfl

theorem remap_mark : ∀ (ns : List (Nat × Nat)) (c e : Nat) (os : List Nat), remap ns c e (c :: os) = (remap ns c e os).map (e :: ·)
  | [], c, e, os => by
    show (if (c :: os).all (fun o => decide (o = c)) then some ((c :: os).map (fun _ => e)) else none) = Option.map _ (if os.all (fun o => decide (o = c)) then _ else _)
    rw [List.all_cons, decide_eq_true rfl, Bool.true_and]
    split <;> rfl
  | (s, b) :: rest, c, e, os => by
    show Option.map _ (remap rest _ _ ((c :: os).dropWhile _)) = Option.map _ (Option.map _ (remap rest _ _ (os.dropWhile _)))
    rw [List.dropWhile_cons_of_pos (by simp), List.takeWhile_cons_of_pos (by simp), Option.map_map]
    rfl

theorem marks_ge (f : Nat × Nat → Nat) : ∀ (es : List Ev) (o : Nat), ∀ x ∈ marks f es o, o ≤ x
  | [], _, x, h => by cases h
  | none :: rest, o, x, h => by
    rcases List.mem_cons.1 h with rfl | h
    · exact Nat.le_refl _
    · exact marks_ge f rest o x h
  | some n :: rest, o, x, h => by
    have := marks_ge f rest _ x h
    omega

theorem remap_marks : ∀ (es : List Ev) (c e : Nat), (∀ n ∈ es.filterMap id, 0 < n.1) → remap (es.filterMap id) c e (marks (·.1) es c) = some (marks (·.2) es e)
  | [], _, _, _ => rfl
  | none :: rest, c, e, h => by
    show remap (rest.filterMap id) c e (c :: marks (·.1) rest c) = some (e :: marks (·.2) rest e)
    rw [remap_mark, remap_marks rest c e h]; rfl
  | some (s, b) :: rest, c, e, h => by
    have hs : 0 < s := h (s, b) List.mem_cons_self
    have ih := remap_marks rest (c + s) (e + b) (fun n hn => h n (List.mem_cons_of_mem _ hn))
    show Option.map (fun x => ((marks (·.1) rest (c + s)).takeWhile (fun o => decide (o = c))).map (fun _ => e) ++ x)
      (remap (rest.filterMap id) (c + s) (e + b) ((marks (·.1) rest (c + s)).dropWhile (fun o => decide (o = c)))) = some (marks (·.2) rest (e + b))
    have hd : ∀ (l : List Nat), (∀ x ∈ l, c + s ≤ x) → l.dropWhile (fun o => decide (o = c)) = l ∧ l.takeWhile (fun o => decide (o = c)) = [] := by
      intro l hl
      cases l with
      | nil => exact ⟨rfl, rfl⟩
      | cons x l =>
        have := hl x List.mem_cons_self
        have hx : ¬decide (x = c) = true := by simp; omega
        exact ⟨List.dropWhile_cons_of_neg hx, List.takeWhile_cons_of_neg hx⟩
    have hd := hd _ (marks_ge (·.1) rest (c + s))
    rw [hd.1, hd.2, ih]; rfl

theorem assign_scan (f g : Nat × Nat → Nat) : ∀ (b : Body) (o p : Nat) (t : List Nat), assign (scan f b o).1 (offsets (scan g b p).1 ++ t) = ((scan g b p).1, t)
  | .done, _, _, _ => rfl
  | .code size bytes rest, o, p, t => assign_scan f g rest _ _ t
  | .block ds inner rest, o, p, t => by
    have h1 := assign_scan f g inner o p ((scan g inner p).2 :: (offsets (scan g rest (scan g inner p).2).1 ++ t))
    have h2 := assign_scan f g rest (scan f inner o).2 (scan g inner p).2 t
    have e : (offsets (scan g (.block ds inner rest) p).1 ++ t) = p :: (offsets (scan g inner p).1 ++ ((scan g inner p).2 :: (offsets (scan g rest (scan g inner p).2).1 ++ t))) := by
      show (p :: offsets (scan g inner p).1 ++ (scan g inner p).2 :: offsets (scan g rest (scan g inner p).2).1) ++ t = _
      simp only [List.cons_append, List.append_assoc]
    rw [e]
    show (let a := assign (scan f inner o).1 (offsets (scan g inner p).1 ++ _); let b := assign (scan f rest (scan f inner o).2).1 a.2.tail;
      (Scopes.scope p (a.2.headD 0) ds a.1 b.1, b.2)) = _
    rw [h1]
    simp only [List.tail_cons, h2, List.headD_cons]
    rfl

/-- What the scopes are after code generation. -/
theorem scope_eq (f : Function) (h : ∀ n ∈ nodes f.body, 0 < n.1) :
    f.scope = some (.scope f.prolog (f.prolog + ((nodes f.body).map (·.2)).sum) f.declarations (scan (·.2) f.body f.prolog).1 .none) := by
  have e : ∀ (g : Nat × Nat → Nat) (o : Nat), offsets (.scope o (scan g f.body o).2 f.declarations (scan g f.body o).1 .none) =
      marks g (none :: events f.body ++ [none]) o := by
    intro g o
    show o :: offsets (scan g f.body o).1 ++ [(scan g f.body o).2] = o :: marks g (events f.body ++ [none]) o
    rw [offsets_scan, marks_append, scan_end]
    have : total g (events f.body) = ((nodes f.body).map g).sum := by unfold total; rw [events_nodes]
    rw [this]; rfl
  have en : (none :: events f.body ++ [none] : List Ev).filterMap id = nodes f.body := by
    show (events f.body ++ [none] : List Ev).filterMap id = _
    rw [List.filterMap_append, events_nodes]
    show nodes f.body ++ [] = _
    rw [List.append_nil]
  have hr := remap_marks (none :: events f.body ++ [none]) 0 f.prolog (by rw [en]; exact h)
  rw [en, ← e, ← e] at hr
  unfold Function.scope
  rw [parse_eq]
  show Option.map _ (remap (nodes f.body) 0 f.prolog (offsets (.scope 0 (scan (·.1) f.body 0).2 f.declarations (scan (·.1) f.body 0).1 .none))) = _
  rw [hr]
  show some (assign (.scope 0 _ f.declarations (scan (·.1) f.body 0).1 .none) (f.prolog :: (offsets (scan (·.2) f.body f.prolog).1 ++ [(scan (·.2) f.body f.prolog).2]))).1 = _
  show some (let a := assign (scan (·.1) f.body 0).1 (offsets (scan (·.2) f.body f.prolog).1 ++ [(scan (·.2) f.body f.prolog).2]);
    (Scopes.scope f.prolog (a.2.headD 0) f.declarations a.1 .none)) = _
  rw [assign_scan]
  simp only [List.headD_cons, scan_end]

/-! Which scopes have a byte. -/

/-- The variables in the scopes at a byte, as the blocks say. -/
def visible (c : Nat) : Scopes → List Variable
  | .none => []
  | .scope s e ds first next =>
    (if ds = [] then visible c first else if s ≤ c ∧ c < e then variablesOf ds ++ visible c first else []) ++ visible c next

abbrev width (b : Body) : Nat := ((nodes b).map (·.2)).sum

theorem visible_outside (c : Nat) : ∀ (b : Body) (o : Nat), c < o ∨ o + width b ≤ c → visible c (scan (·.2) b o).1 = []
  | .done, _, _ => rfl
  | .code size bytes rest, o, h => by
    apply visible_outside c rest
    have : width (.code size bytes rest) = bytes + width rest := rfl
    show c < o + bytes ∨ o + bytes + width rest ≤ c
    omega
  | .block ds inner rest, o, h => by
    have hw : width (.block ds inner rest) = width inner + width rest := by
      show ((nodes inner ++ nodes rest).map (·.2)).sum = _
      rw [List.map_append, List.sum_append]
    show (if ds = [] then visible c (scan (·.2) inner o).1 else if o ≤ c ∧ c < (scan (·.2) inner o).2 then _ else []) ++ visible c (scan (·.2) rest (scan (·.2) inner o).2).1 = []
    rw [scan_end (·.2) inner o]
    rw [visible_outside c inner o (by omega), visible_outside c rest (o + width inner) (by omega), if_neg (show ¬(o ≤ c ∧ c < o + width inner) by omega)]
    split <;> rfl

theorem variablesAt_length : ∀ (b : Body) (env : List Variable), (variablesAt env b).length = width b
  | .done, _ => rfl
  | .code size bytes rest, env => by
    show (List.replicate bytes env ++ variablesAt env rest).length = bytes + width rest
    rw [List.length_append, List.length_replicate, variablesAt_length rest]
  | .block ds inner rest, env => by
    show (variablesAt _ inner ++ variablesAt _ rest).length = ((nodes inner ++ nodes rest).map (·.2)).sum
    rw [List.length_append, variablesAt_length inner, variablesAt_length rest, List.map_append, List.sum_append]

theorem visible_inside : ∀ (b : Body) (o i : Nat) (env : List Variable), i < width b → (variablesAt env b)[i]? = some (env ++ visible (o + i) (scan (·.2) b o).1)
  | .done, _, _, _, h => by cases h
  | .code size bytes rest, o, i, env, h => by
    show (List.replicate bytes env ++ variablesAt env rest)[i]? = some (env ++ visible (o + i) (scan (·.2) rest (o + bytes)).1)
    have hw : width (.code size bytes rest) = bytes + width rest := rfl
    by_cases hi : i < bytes
    · rw [visible_outside _ rest _ (by omega), List.append_nil, List.getElem?_append_left (by rw [List.length_replicate]; exact hi), List.getElem?_replicate, if_pos hi]
    · rw [List.getElem?_append_right (by rw [List.length_replicate]; omega), List.length_replicate, visible_inside rest (o + bytes) (i - bytes) env (by omega),
        show o + bytes + (i - bytes) = o + i by omega]
  | .block ds inner rest, o, i, env, h => by
    have hw : width (.block ds inner rest) = width inner + width rest := by
      show ((nodes inner ++ nodes rest).map (·.2)).sum = _
      rw [List.map_append, List.sum_append]
    show (variablesAt (env ++ variablesOf ds) inner ++ variablesAt env rest)[i]? = some (env ++ ((if ds = [] then visible (o + i) (scan (·.2) inner o).1 else
      if o ≤ o + i ∧ o + i < (scan (·.2) inner o).2 then variablesOf ds ++ visible (o + i) (scan (·.2) inner o).1 else []) ++ visible (o + i) (scan (·.2) rest (scan (·.2) inner o).2).1))
    rw [scan_end (·.2) inner o]
    by_cases hi : i < width inner
    · rw [List.getElem?_append_left (by rw [variablesAt_length]; exact hi), visible_inside inner o i _ hi, visible_outside _ rest (o + width inner) (by omega), List.append_nil,
        if_pos (show o ≤ o + i ∧ o + i < o + width inner by omega)]
      by_cases hd : ds = []
      · rw [if_pos hd, hd]
        show some (env ++ [] ++ _) = _
        rw [List.append_nil]
      · rw [if_neg hd, List.append_assoc]
    · rw [List.getElem?_append_right (by rw [variablesAt_length]; omega), variablesAt_length, visible_inside rest (o + width inner) (i - width inner) env (by omega),
        visible_outside _ inner o (by omega), if_neg (show ¬(o ≤ o + i ∧ o + i < o + width inner) by omega), show o + width inner + (i - width inner) = o + i by omega]
      split <;> rfl

end Verif.Lemmas.Scopes
