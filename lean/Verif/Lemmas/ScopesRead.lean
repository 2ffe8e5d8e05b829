import Verif.Lemmas.Scopes
import Verif.Lemmas.ImageLoad

/-!
# Lemmas: reading the records of scopes
-/
namespace Verif.Lemmas.ScopesRead
open Verif.Model.Scopes Verif.Lemmas.Scopes
open Verif.Model.BaseReloc (u32 u16)
open Verif.Model.PdbSymbols (alignBytes)
open Verif.Spec.Image (byte number Holds signed)
open Verif.Lemmas.Image (holds_append number_u32 number_u16 number_congr)
open Verif.Spec.Scopes (Declaration Body Variable variablesOf variablesAt next kind parent ending inFunction inBlock functionAt variable_ variablesFrom)

theorem u32_length (v : Nat) : (u32 v).length = 4 := rfl
theorem u16_length (v : Nat) : (u16 v).length = 2 := rfl
theorem align_length (n : Nat) : (alignBytes n).length = (4 - n % 4) % 4 := by
  unfold alignBytes; rw [List.length_map, List.length_range]
theorem record_length (k : Nat) (c : List Nat) : (record k c).length = 4 + c.length + (4 - c.length % 4) % 4 := by
  unfold record
  simp only [List.length_append, u16_length, align_length]; omega

theorem record_read {b : List Nat} {p k : Nat} {c : List Nat} (h : Holds (byte b) p (record k c)) (hk : k < 2 ^ 16) (hc : c.length + 8 < 2 ^ 16) :
    kind b p = k ∧ next b p = p + (record k c).length ∧ Holds (byte b) (p + 4) c := by
  have h1 := holds_append.1 h
  have h2 := holds_append.1 h1.2
  have h3 := holds_append.1 h2.1
  have hl : (u16 k ++ c ++ alignBytes c.length).length = 2 + c.length + (4 - c.length % 4) % 4 := by
    simp only [List.length_append, u16_length, align_length]
  refine ⟨number_u16 h3.1 hk, ?_, h3.2⟩
  have := number_u16 h1.1 (by rw [hl]; omega)
  unfold next
  rw [this, hl, record_length]; omega

theorem block_read {b : List Nat} {p par e sz off sec : Nat} (h : Holds (byte b) p (block par e sz off sec)) (h1 : par < 2 ^ 32) (h2 : e < 2 ^ 32) (h3 : sz < 2 ^ 32)
    (h4 : off < 2 ^ 32) (h5 : sec < 2 ^ 16) :
    kind b p = 0x1103 ∧ next b p = p + 24 ∧ parent b p = par ∧ ending b p = e ∧ number (byte b) 4 (p + 12) = sz ∧ number (byte b) 4 (p + 16) = off ∧ number (byte b) 2 (p + 20) = sec := by
  unfold block at h
  simp only [holds_append, List.length_append, u32_length, u16_length] at h
  obtain ⟨⟨⟨⟨⟨⟨⟨a1, a2⟩, a3⟩, a4⟩, a5⟩, a6⟩, a7⟩, -⟩ := h
  refine ⟨number_u16 a2 (by omega), ?_, number_u32 a3 h1, number_u32 a4 h2, number_u32 a5 h3, number_u32 a6 h4, number_u16 a7 h5⟩
  unfold next
  rw [number_u16 a1 (by omega)]

theorem end_read {b : List Nat} {p : Nat} (h : Holds (byte b) p (u16 2 ++ u16 6)) : kind b p = 6 ∧ next b p = p + 4 := by
  have h1 := holds_append.1 h
  refine ⟨number_u16 h1.2 (by omega), ?_⟩
  unfold next
  rw [number_u16 h1.1 (by omega)]

theorem getD_in (b : List Nat) (q : Nat) (h : q < b.length) : b.getD q 0 = b[q] := by
  rw [List.getD_eq_getElem?_getD, List.getElem?_eq_getElem h]; rfl

theorem getD_out (b : List Nat) (q : Nat) (h : b.length ≤ q) : b.getD q 0 = 0 := by
  rw [List.getD_eq_getElem?_getD, List.getElem?_eq_none h]; rfl

theorem name_read {b : List Nat} : ∀ (name : List Nat) (q : Nat), Holds (byte b) q (name ++ [0]) → (∀ c ∈ name, c ≠ 0) →
    (b.drop q).takeWhile (fun c => decide (c ≠ 0)) = name
  | [], q, h, _ => by
    have h0 : b.getD q 0 = 0 := h 0 (by show 0 < 1; omega)
    by_cases hq : q < b.length
    · rw [List.drop_eq_getElem_cons hq, List.takeWhile_cons_of_neg]
      rw [getD_in _ _ hq] at h0
      rw [h0]; decide
    · rw [List.drop_eq_nil_of_le (by omega)]; rfl
  | c :: name, q, h, hn => by
    have h0 : b.getD q 0 = c := h 0 (by rw [List.length_append]; show 0 < _ + 1; omega)
    have hc := hn c List.mem_cons_self
    have hq : q < b.length := by
      apply Classical.byContradiction
      intro hq
      rw [getD_out _ _ (by omega)] at h0
      exact hc h0.symm
    rw [List.drop_eq_getElem_cons hq]
    rw [getD_in _ _ hq] at h0
    rw [h0, List.takeWhile_cons_of_pos (by simpa using hc)]
    have h1 : Holds (byte b) (q + 1) (name ++ [0]) := by
      have := (holds_append (x := [c]) (y := name ++ [0])).1 h
      exact this.2
    rw [name_read name (q + 1) h1 (fun x hx => hn x (List.mem_cons_of_mem _ hx))]

/-- What the theorems assume of a declaration. -/
def Fits : Declaration → Prop
  | .variable name below type => (∀ c ∈ name, c ≠ 0) ∧ name.length < 65000 ∧ -2 ^ 31 < below ∧ below ≤ 2 ^ 31 ∧ type < 2 ^ 32
  | .other => True

theorem signed_wrap (v : Int) (h1 : -2 ^ 31 ≤ v) (h2 : v < 2 ^ 31) : wrap32 v < 2 ^ 32 ∧ signed (wrap32 v) = v := by
  unfold wrap32 signed
  constructor
  · omega
  · split <;> omega

theorem declaration_read {b : List Nat} {p : Nat} {name : List Nat} {below : Int} {type : Nat} (h : Holds (byte b) p (declaration (.variable name below type)))
    (hf : Fits (.variable name below type)) :
    kind b p = 0x1111 ∧ next b p = p + (declaration (.variable name below type)).length ∧ variable_ b p = ⟨name, 334, -below, type⟩ := by
  obtain ⟨h1, h2, h3, h4, h5⟩ := hf
  have hr := record_read h (by omega) (by simp only [List.length_append, u32_length, u16_length, List.length_cons, List.length_nil]; omega)
  refine ⟨hr.1, hr.2.1, ?_⟩
  have hc := hr.2.2
  simp only [List.append_assoc] at hc
  have a1 := holds_append.1 hc
  have a2 := holds_append.1 a1.2
  have a3 := holds_append.1 a2.2
  have hw := signed_wrap (-below) (by omega) (by omega)
  have n1 := number_u32 a1.1 hw.1
  have n2 : number (byte b) 4 (p + 8) = type := number_u32 a2.1 h5
  have n3 : number (byte b) 2 (p + 12) = 334 := number_u16 a3.1 (by omega)
  have n4 := name_read name (p + 14) a3.2 h1
  unfold variable_
  rw [n1, n2, n3, n4, hw.2]

theorem declarations_walk {b : List Nat} (sec A : Nat) : ∀ (ds : List Declaration) (p : Nat) (st : List Nat), (∀ d ∈ ds, Fits d) → Holds (byte b) p (declarations ds) →
    ∃ k, k ≤ (declarations ds).length ∧ ∀ n, variablesFrom b sec A (n + k) p st = (variablesFrom b sec A n (p + (declarations ds).length) st).map (variablesOf ds ++ ·)
  | [], p, st, _, _ => by
    refine ⟨0, Nat.le_refl _, fun n => ?_⟩
    show variablesFrom b sec A n p st = (variablesFrom b sec A n p st).map (fun x => x)
    rw [Option.map_id']
  | .other :: ds, p, st, hf, h => declarations_walk sec A ds p st (fun d hd => hf d (List.mem_cons_of_mem _ hd)) h
  | .variable name below type :: ds, p, st, hf, h => by
    have e : declarations (.variable name below type :: ds) = declaration (.variable name below type) ++ declarations ds := rfl
    rw [e] at h
    have h1 := holds_append.1 h
    obtain ⟨r1, r2, r3⟩ := declaration_read h1.1 (hf _ List.mem_cons_self)
    obtain ⟨k, hk, hw⟩ := declarations_walk sec A ds _ st (fun d hd => hf d (List.mem_cons_of_mem _ hd)) h1.2
    have hl : 4 ≤ (declaration (.variable name below type)).length := by
      show 4 ≤ (record _ _).length
      rw [record_length]; omega
    refine ⟨k + 1, by rw [e, List.length_append]; omega, fun n => ?_⟩
    rw [e, List.length_append, ← Nat.add_assoc, ← Nat.add_assoc]
    show (if kind b p = 0x1103 then _ else if kind b p = 6 then _ else if kind b p = 0x1111 then (variablesFrom b sec A (n + k) (next b p) st).map (variable_ b p :: ·) else _) = _
    rw [if_neg (by rw [r1]; decide), if_neg (by rw [r1]; decide), if_pos r1, r2, r3, hw, Option.map_map]
    rfl

/-- What the theorems assume of scopes. -/
def Fine (tx : Nat) : Scopes → Prop
  | .none => True
  | .scope s e ds first next => s ≤ e ∧ e + tx < 2 ^ 32 ∧ (∀ d ∈ ds, Fits d) ∧ Fine tx first ∧ Fine tx next

theorem emit_walk {b : List Nat} (tx sec c : Nat) (hs : sec < 2 ^ 16) : ∀ (t : Scopes) (p par : Nat) (st : List Nat), Fine tx t → st.head? = some par → par < 2 ^ 32 →
    p + (emit tx sec t p par).length < 2 ^ 32 → Holds (byte b) p (emit tx sec t p par) →
    ∃ k, k ≤ (emit tx sec t p par).length ∧ ∀ n, variablesFrom b sec (tx + c) (n + k) p st =
      (variablesFrom b sec (tx + c) n (p + (emit tx sec t p par).length) st).map (visible c t ++ ·)
  | .none, p, par, st, _, _, _, _, _ => by
    refine ⟨0, Nat.le_refl _, fun n => ?_⟩
    show variablesFrom b sec _ n p st = (variablesFrom b sec _ n p st).map (fun x => x)
    rw [Option.map_id']
  | .scope s e ds first next_, p, par, st, hf, hst, hp, hl, h => by
    obtain ⟨f1, f2, f3, f4, f5⟩ := hf
    by_cases hd : ds = []
    · have ee : emit tx sec (.scope s e ds first next_) p par = emit tx sec first p par ++ emit tx sec next_ (p + (emit tx sec first p par).length) par := by
        show (if ds = [] then _ else _) = _
        rw [if_pos hd]
      rw [ee] at h hl ⊢
      rw [List.length_append] at hl ⊢
      have h1 := holds_append.1 h
      obtain ⟨k1, hk1, w1⟩ := emit_walk tx sec c hs first p par st f4 hst hp (by omega) h1.1
      obtain ⟨k2, hk2, w2⟩ := emit_walk tx sec c hs next_ _ par st f5 hst hp (by omega) h1.2
      refine ⟨k2 + k1, by omega, fun n => ?_⟩
      rw [← Nat.add_assoc, w1, w2, Option.map_map, ← Nat.add_assoc]
      have hv : visible c (.scope s e ds first next_) = visible c first ++ visible c next_ := by
        show (if ds = [] then _ else _) ++ _ = _
        rw [if_pos hd]
      rw [hv]
      congr 1
      funext x
      exact (List.append_assoc _ _ _).symm
    · have ee : emit tx sec (.scope s e ds first next_) p par =
          block par (p + 24 + (declarations ds).length + (emit tx sec first (p + 24 + (declarations ds).length) p).length) (e - s) (s + tx) sec ++
            (declarations ds ++ (emit tx sec first (p + 24 + (declarations ds).length) p ++ ((u16 2 ++ u16 6) ++
              emit tx sec next_ (p + 24 + (declarations ds).length + (emit tx sec first (p + 24 + (declarations ds).length) p).length + 4) par))) := by
        show (if ds = [] then _ else _) = _
        rw [if_neg hd]
        simp only [List.append_assoc]
      rw [ee] at h hl ⊢
      generalize hD : (declarations ds).length = D at *
      generalize hI : emit tx sec first (p + 24 + D) p = I at *
      generalize hN : emit tx sec next_ (p + 24 + D + I.length + 4) par = N at *
      have hlen : (block par (p + 24 + D + I.length) (e - s) (s + tx) sec ++ (declarations ds ++ (I ++ ((u16 2 ++ u16 6) ++ N)))).length = 24 + D + I.length + 4 + N.length := by
        simp only [List.length_append, hD, u16_length]
        show 24 + _ = _
        omega
      rw [hlen] at hl ⊢
      have h1 := holds_append.1 h
      have h2 := holds_append.1 h1.2
      have h3 := holds_append.1 h2.2
      have h4 := holds_append.1 h3.2
      have hb : (block par (p + 24 + D + I.length) (e - s) (s + tx) sec).length = 24 := rfl
      rw [hb] at h2 h3 h4
      rw [hD] at h3 h4
      have he := end_read h4.1
      obtain ⟨r1, r2, r3, r4, r5, r6, r7⟩ := block_read h1.1 hp (by omega) (by omega) (by omega) hs
      obtain ⟨k3, hk3, w3⟩ := emit_walk tx sec c hs next_ (p + 24 + D + I.length + 4) par st f5 hst hp (by rw [hN]; omega) (by rw [hN]; exact h4.2)
      rw [hN] at hk3 w3
      have hin : inBlock b sec (tx + c) p ↔ s ≤ c ∧ c < e := by
        unfold inBlock
        rw [r5, r6, r7]
        omega
      have hv : visible c (.scope s e ds first next_) = (if s ≤ c ∧ c < e then variablesOf ds ++ visible c first else []) ++ visible c next_ := by
        show (if ds = [] then _ else _) ++ _ = _
        rw [if_neg hd]
      have hstep : ∀ m, variablesFrom b sec (tx + c) (m + 1) p st =
          if s ≤ c ∧ c < e then variablesFrom b sec (tx + c) m (p + 24) (p :: st) else variablesFrom b sec (tx + c) m (p + 24 + D + I.length + 4) st := by
        intro m
        show (if kind b p = 0x1103 then (if st.head? ≠ some (parent b p) then none else if inBlock b sec (tx + c) p then _ else if kind b (ending b p) ≠ 6 then none else
          variablesFrom b sec (tx + c) m (next b (ending b p)) st) else _) = _
        have h6 : ¬((6 : Nat) ≠ 6) := fun hx => hx rfl
        rw [if_pos r1, r3, if_neg (fun hx => hx hst), r4, he.1, if_neg h6, he.2, r2]
        by_cases hc : s ≤ c ∧ c < e
        · rw [if_pos (hin.2 hc), if_pos hc]
        · rw [if_neg (fun hx => hc (hin.1 hx)), if_neg hc]
      rw [hv]
      by_cases hc : s ≤ c ∧ c < e
      · obtain ⟨k1, hk1, w1⟩ := declarations_walk sec (tx + c) ds (p + 24) (p :: st) f3 h2.1
        rw [hD] at hk1 w1
        obtain ⟨k2, hk2, w2⟩ := emit_walk tx sec c hs first (p + 24 + D) p (p :: st) f4 rfl (by omega) (by rw [hI]; omega) (by rw [hI]; exact h3.1)
        rw [hI] at hk2 w2
        have hend : ∀ m, variablesFrom b sec (tx + c) (m + 1) (p + 24 + D + I.length) (p :: st) = variablesFrom b sec (tx + c) m (p + 24 + D + I.length + 4) st := by
          intro m
          show (if kind b (p + 24 + D + I.length) = 0x1103 then _ else if kind b (p + 24 + D + I.length) = 6 then
            (if ending b p ≠ p + 24 + D + I.length then none else if st = [] then some [] else variablesFrom b sec (tx + c) m (next b (p + 24 + D + I.length)) st) else _) = _
          rw [he.1, if_neg (by decide), if_pos rfl, r4, if_neg (fun hx => hx rfl), if_neg (fun hx => by rw [hx] at hst; cases hst), he.2]
        refine ⟨k3 + 1 + k2 + k1 + 1, by omega, fun n => ?_⟩
        rw [show n + (k3 + 1 + k2 + k1 + 1) = n + k3 + 1 + k2 + k1 + 1 by omega, hstep, if_pos hc, w1, w2, hend, w3, Option.map_map, Option.map_map, if_pos hc,
          show p + 24 + D + I.length + 4 + N.length = p + (24 + D + I.length + 4 + N.length) by omega]
        congr 1
        funext x
        show variablesOf ds ++ (visible c first ++ (visible c next_ ++ x)) = _
        simp only [List.append_assoc]
      · refine ⟨k3 + 1, by omega, fun n => ?_⟩
        rw [← Nat.add_assoc, hstep, if_neg hc, w3, if_neg hc, show p + 24 + D + I.length + 4 + N.length = p + (24 + D + I.length + 4 + N.length) by omega]
        rfl

/-- What the theorems assume of bodies. -/
def Small : Body → Prop
  | .done => True
  | .code size _ rest => 0 < size ∧ Small rest
  | .block ds inner rest => (∀ d ∈ ds, Fits d) ∧ Small inner ∧ Small rest

theorem small_nodes : ∀ (x : Body), Small x → ∀ n ∈ nodes x, 0 < n.1
  | .done, _, n, hn => by cases hn
  | .code size bytes rest, h, n, hn => by
    rcases List.mem_cons.1 hn with rfl | hn
    · exact h.1
    · exact small_nodes rest h.2 n hn
  | .block ds inner rest, h, n, hn => by
    rcases List.mem_append.1 hn with hn | hn
    · exact small_nodes inner h.2.1 n hn
    · exact small_nodes rest h.2.2 n hn

theorem fine_scan (tx : Nat) : ∀ (x : Body) (o : Nat), Small x → o + width x + tx < 2 ^ 32 → Fine tx (scan (·.2) x o).1
  | .done, _, _, _ => trivial
  | .code size bytes rest, o, h, hw => by
    have : width (.code size bytes rest) = bytes + width rest := rfl
    exact fine_scan tx rest (o + bytes) h.2 (by omega)
  | .block ds inner rest, o, h, hw => by
    have hw' : width (.block ds inner rest) = width inner + width rest := by
      show ((nodes inner ++ nodes rest).map (·.2)).sum = _
      rw [List.map_append, List.sum_append]
    have he := scan_end (·.2) inner o
    have hr := fine_scan tx rest (scan (·.2) inner o).2 h.2.2 (by rw [he]; show o + width inner + width rest + tx < _; omega)
    refine ⟨?_, ?_, h.1, fine_scan tx inner o h.2.1 (by omega), hr⟩
    · rw [he]; omega
    · rw [he]; show o + width inner + tx < _; omega

/-- What the theorems assume of functions. -/
structure FunctionFits (f : Function) : Prop where
  body : Small f.body
  declarations : ∀ d ∈ f.declarations, Fits d
  name : f.name.length < 65000
  end_ : f.textOffset + f.byteSize < 2 ^ 32

theorem proc_length (f : Function) (sec x : Nat) : (proc f sec x).length = (proc f sec 0).length ∧ 40 ≤ (proc f sec 0).length := by
  unfold proc
  refine ⟨?_, ?_⟩
  · simp only [record_length, List.length_append, u32_length]
  · simp only [record_length, List.length_append, u32_length, u16_length, List.length_cons, List.length_nil]
    omega

theorem frame_length (n : Nat) : (frame n).length = 32 := rfl

theorem proc_read {b : List Nat} {p : Nat} {f : Function} {sec e : Nat} (h : Holds (byte b) p (proc f sec e)) (hf : FunctionFits f) (hs : sec < 2 ^ 16) (he : e < 2 ^ 32) :
    (kind b p = 0x110f ∨ kind b p = 0x1110) ∧ next b p = p + (proc f sec 0).length ∧ ending b p = e ∧
      (∀ a, inFunction b sec a p ↔ f.textOffset ≤ a ∧ a < f.textOffset + f.byteSize) := by
  have hn := hf.name
  have hl := hf.end_
  have hr := record_read h (by split <;> omega) (by simp only [List.length_append, u32_length, u16_length, List.length_cons, List.length_nil]; omega)
  refine ⟨?_, hr.2.1.trans (by rw [← (proc_length f sec e).1]; rfl), ?_, ?_⟩
  · rw [hr.1]; split
    · exact Or.inl rfl
    · exact Or.inr rfl
  all_goals
    have hc := hr.2.2
    simp only [holds_append, List.length_append, u32_length, u16_length] at hc
    obtain ⟨⟨⟨⟨⟨⟨⟨⟨⟨⟨⟨a1, a2⟩, a3⟩, a4⟩, a5⟩, a6⟩, a7⟩, a8⟩, a9⟩, -⟩, -⟩, -⟩ := hc
  · exact number_u32 a2 he
  · intro a
    have n1 : number (byte b) 4 (p + 16) = f.byteSize := number_u32 a4 (by omega)
    have n2 : number (byte b) 4 (p + 32) = f.textOffset := number_u32 a8 (by omega)
    have n3 : number (byte b) 2 (p + 36) = sec := number_u16 a9 hs
    unfold inFunction
    rw [n1, n2, n3]
    exact ⟨fun h => h.2, fun h => ⟨rfl, h⟩⟩

/-- The records of a function. -/
def inner (sec : Nat) (f : Function) (p : Nat) : List Nat :=
  declarations f.declarations ++ emit f.textOffset sec (scan (·.2) f.body f.prolog).1 (p + (declarations f.declarations).length) (p - (proc f sec 0).length - 32)

theorem functionSymbols_eq (sec : Nat) (f : Function) (p : Nat) (hf : FunctionFits f) :
    functionSymbols sec f p = some (proc f sec (p + (proc f sec 0).length + 32 + (inner sec f (p + (proc f sec 0).length + 32)).length) ++
      (frame f.stackSpace ++ (inner sec f (p + (proc f sec 0).length + 32) ++ (u16 2 ++ u16 6)))) := by
  unfold functionSymbols
  rw [scope_eq f (small_nodes f.body hf.body)]
  have hp : p + (proc f sec 0).length + 32 - (proc f sec 0).length - 32 = p := by omega
  unfold inner
  rw [hp]
  have h6 : record 6 [] = u16 2 ++ u16 6 := rfl
  simp only [Option.bind_eq_bind, Option.bind_some, Option.pure_def, frame_length, emitFunction, List.append_assoc, h6]

/-- The variables of a function. -/
theorem function_variables {b : List Nat} {sec p : Nat} {f : Function} {a : List Nat} (hs : sec < 2 ^ 16) (hf : FunctionFits f) (ha : functionSymbols sec f p = some a)
    (h : Holds (byte b) p a) (hb : p + a.length ≤ b.length) (hb' : b.length < 2 ^ 32) (c : Nat) :
    variablesFrom b sec (f.textOffset + c) b.length (next b p) [p] = some (variablesOf f.declarations ++ visible c (scan (·.2) f.body f.prolog).1) := by
  rw [functionSymbols_eq sec f p hf] at ha
  have ha := Option.some.inj ha
  generalize hi : inner sec f (p + (proc f sec 0).length + 32) = I at ha
  rw [← ha] at h hb
  have hpl := proc_length f sec (p + (proc f sec 0).length + 32 + I.length)
  generalize hP : (proc f sec 0).length = P at *
  simp only [List.length_append, u16_length, frame_length, hpl.1] at hb
  have h1 := holds_append.1 h
  have h2 := holds_append.1 h1.2
  have h3 := holds_append.1 h2.2
  rw [frame_length] at h2 h3
  rw [hpl.1] at h2 h3
  obtain ⟨-, r2, r3, -⟩ := proc_read h1.1 hf hs (by omega)
  rw [hP] at r2
  have hw : f.prolog + width f.body ≤ f.byteSize := by
    unfold Function.byteSize; show f.prolog + width f.body ≤ f.prolog + width f.body + f.epilog; omega
  have hfi := fine_scan f.textOffset f.body f.prolog hf.body (by have := hf.end_; omega)
  have hI : I = declarations f.declarations ++ emit f.textOffset sec (scan (·.2) f.body f.prolog).1 (p + P + 32 + (declarations f.declarations).length) p := by
    rw [← hi]
    unfold inner
    rw [hP, show p + P + 32 - P - 32 = p by omega]
  have h4 := h3.1
  rw [hI] at h4
  have h5 := holds_append.1 h4
  have hIl : I.length = (declarations f.declarations).length + (emit f.textOffset sec (scan (·.2) f.body f.prolog).1 (p + P + 32 + (declarations f.declarations).length) p).length := by
    rw [hI, List.length_append]
  obtain ⟨k1, hk1, w1⟩ := declarations_walk sec (f.textOffset + c) f.declarations (p + P + 32) [p] hf.declarations h5.1
  obtain ⟨k2, hk2, w2⟩ := emit_walk f.textOffset sec c hs (scan (·.2) f.body f.prolog).1 _ p [p] hfi rfl (by omega) (by omega) h5.2
  have hfr : kind b (p + P) = 0x1012 ∧ next b (p + P) = p + P + 32 := by
    have := h2.1
    unfold frame at this
    simp only [holds_append, List.length_append, u32_length, u16_length] at this
    obtain ⟨⟨⟨⟨⟨⟨⟨⟨⟨⟨a1, a2⟩, -⟩, -⟩, -⟩, -⟩, -⟩, -⟩, -⟩, -⟩, -⟩ := this
    refine ⟨number_u16 a2 (by omega), ?_⟩
    unfold next
    rw [number_u16 a1 (by omega)]
  have he := end_read h3.2
  obtain ⟨n, hn⟩ : ∃ n, b.length = n + 1 + k2 + k1 + 1 := ⟨b.length - k2 - k1 - 2, by omega⟩
  rw [r2, hn]
  show (if kind b (p + P) = 0x1103 then _ else if kind b (p + P) = 6 then _ else if kind b (p + P) = 0x1111 then _ else
    variablesFrom b sec (f.textOffset + c) (n + 1 + k2 + k1) (next b (p + P)) [p]) = _
  rw [hfr.1, hfr.2, if_neg (by decide), if_neg (by decide), if_neg (by decide), w1, w2]
  rw [show p + P + 32 + (declarations f.declarations).length + (emit f.textOffset sec (scan (·.2) f.body f.prolog).1 (p + P + 32 + (declarations f.declarations).length) p).length =
    p + P + 32 + I.length by omega]
  have hend : variablesFrom b sec (f.textOffset + c) (n + 1) (p + P + 32 + I.length) [p] = some [] := by
    show (if kind b (p + P + 32 + I.length) = 0x1103 then _ else if kind b (p + P + 32 + I.length) = 6 then
      (if ending b p ≠ p + P + 32 + I.length then none else if ([] : List Nat) = [] then some [] else _) else _) = _
    rw [he.1, if_neg (by decide), if_pos rfl, r3, if_neg (fun hx => hx rfl), if_pos rfl]
  rw [hend]
  show some (_ ++ (_ ++ [])) = _
  rw [List.append_nil]

/-- A function that does not have the address is skipped. -/
theorem function_skip {b : List Nat} {sec p A : Nat} {f : Function} {a : List Nat} (hs : sec < 2 ^ 16) (hf : FunctionFits f) (ha : functionSymbols sec f p = some a)
    (h : Holds (byte b) p a) (hb : p + a.length ≤ b.length) (hb' : b.length < 2 ^ 32) :
    0 < a.length ∧ (f.textOffset ≤ A ∧ A < f.textOffset + f.byteSize → ∀ n, functionAt b sec A (n + 1) p = some p) ∧
      (¬(f.textOffset ≤ A ∧ A < f.textOffset + f.byteSize) → ∀ n, functionAt b sec A (n + 1) p = functionAt b sec A n (p + a.length)) := by
  rw [functionSymbols_eq sec f p hf] at ha
  have ha := Option.some.inj ha
  generalize hi : inner sec f (p + (proc f sec 0).length + 32) = I at ha
  rw [← ha] at h hb ⊢
  have hpl := proc_length f sec (p + (proc f sec 0).length + 32 + I.length)
  generalize hP : (proc f sec 0).length = P at *
  simp only [List.length_append, u16_length, frame_length, hpl.1] at hb ⊢
  have h1 := holds_append.1 h
  have h2 := holds_append.1 h1.2
  have h3 := holds_append.1 h2.2
  rw [frame_length] at h2 h3
  rw [hpl.1] at h2 h3
  obtain ⟨r1, r2, r3, r4⟩ := proc_read h1.1 hf hs (by omega)
  have he := end_read h3.2
  have hst : ∀ n, functionAt b sec A (n + 1) p = if b.length ≤ p then none else if kind b p = 0x110f ∨ kind b p = 0x1110 then
      (if inFunction b sec A p then some p else functionAt b sec A n (next b (ending b p))) else functionAt b sec A n (next b p) := fun _ => rfl
  refine ⟨by omega, fun hA n => ?_, fun hA n => ?_⟩
  · rw [hst, if_neg (by omega), if_pos r1, if_pos ((r4 A).2 hA)]
  · rw [hst, if_neg (by omega), if_pos r1, if_neg (fun hx => hA ((r4 A).1 hx)), r3, he.2]
    congr 1; omega

theorem functions_total (sec : Nat) : ∀ (fs : List Function) (p : Nat), (∀ f ∈ fs, FunctionFits f) → ∃ r, functions sec fs p = some r
  | [], _, _ => ⟨[], rfl⟩
  | f :: fs, p, hf => by
    obtain ⟨a, h1⟩ : ∃ a, functionSymbols sec f p = some a := ⟨_, functionSymbols_eq sec f p (hf f List.mem_cons_self)⟩
    obtain ⟨r, hr⟩ := functions_total sec fs (p + a.length) (fun g hg => hf g (List.mem_cons_of_mem _ hg))
    refine ⟨a ++ r, ?_⟩
    show (functionSymbols sec f p).bind _ = _
    rw [h1, Option.bind_some]
    show (functions sec fs _).bind _ = _
    rw [hr]
    rfl

theorem functions_cons {sec : Nat} {f : Function} {fs : List Function} {p : Nat} {r : List Nat} (h : functions sec (f :: fs) p = some r) :
    ∃ a r', functionSymbols sec f p = some a ∧ functions sec fs (p + a.length) = some r' ∧ r = a ++ r' := by
  have h : (functionSymbols sec f p).bind (fun a => (functions sec fs (p + a.length)).bind (fun r' => some (a ++ r'))) = some r := h
  obtain ⟨a, ha, h⟩ := Option.bind_eq_some_iff.1 h
  obtain ⟨r', hr, h⟩ := Option.bind_eq_some_iff.1 h
  exact ⟨a, r', ha, hr, (Option.some.inj h).symm⟩

theorem functions_skip {b : List Nat} {sec A : Nat} (hs : sec < 2 ^ 16) (hb' : b.length < 2 ^ 32) : ∀ (fs : List Function) (p : Nat) (r : List Nat), (∀ f ∈ fs, FunctionFits f) →
    functions sec fs p = some r → Holds (byte b) p r → p + r.length ≤ b.length → (∀ f ∈ fs, ¬(f.textOffset ≤ A ∧ A < f.textOffset + f.byteSize)) →
    ∃ k, k ≤ r.length ∧ ∀ n, functionAt b sec A (n + k) p = functionAt b sec A n (p + r.length)
  | [], p, r, _, hr, _, _, _ => by
    have : ([] : List Nat) = r := Option.some.inj hr
    rw [← this]
    exact ⟨0, Nat.le_refl _, fun _ => rfl⟩
  | f :: fs, p, r, hf, hr, h, hb, hA => by
    obtain ⟨a, r', h1, h2, rfl⟩ := functions_cons hr
    have h3 := holds_append.1 h
    rw [List.length_append] at hb ⊢
    obtain ⟨q1, -, q2⟩ := function_skip (A := A) hs (hf f List.mem_cons_self) h1 h3.1 (by omega) hb'
    obtain ⟨k, hk, hw⟩ := functions_skip hs hb' fs _ r' (fun g hg => hf g (List.mem_cons_of_mem _ hg)) h2 h3.2 (by omega) (fun g hg => hA g (List.mem_cons_of_mem _ hg))
    refine ⟨k + 1, by omega, fun n => ?_⟩
    rw [← Nat.add_assoc, q2 (hA f List.mem_cons_self), hw, Nat.add_assoc]

theorem functions_find {b : List Nat} {sec A : Nat} (hs : sec < 2 ^ 16) (hb' : b.length < 2 ^ 32) : ∀ (fs : List Function) (p : Nat) (r : List Nat), (∀ f ∈ fs, FunctionFits f) →
    functions sec fs p = some r → Holds (byte b) p r → p + r.length ≤ b.length →
    fs.Pairwise (fun f g => ∀ A, ¬((f.textOffset ≤ A ∧ A < f.textOffset + f.byteSize) ∧ g.textOffset ≤ A ∧ A < g.textOffset + g.byteSize)) →
    ∀ f ∈ fs, f.textOffset ≤ A ∧ A < f.textOffset + f.byteSize →
    ∃ k q a, k ≤ r.length ∧ (∀ n, functionAt b sec A (n + k) p = some q) ∧ functionSymbols sec f q = some a ∧ Holds (byte b) q a ∧ q + a.length ≤ b.length
  | [], _, _, _, _, _, _, _, f, hf, _ => by cases hf
  | g :: fs, p, r, hf, hr, h, hb, hd, f, hm, hA => by
    obtain ⟨a, r', h1, h2, rfl⟩ := functions_cons hr
    have h3 := holds_append.1 h
    rw [List.length_append] at hb ⊢
    obtain ⟨q1, q2, q3⟩ := function_skip (A := A) hs (hf g List.mem_cons_self) h1 h3.1 (by omega) hb'
    have hd := List.pairwise_cons.1 hd
    rcases List.mem_cons.1 hm with rfl | hm
    · exact ⟨1, p, a, by omega, q2 hA, h1, h3.1, by omega⟩
    · obtain ⟨k, q, a', hk, hw, h4, h5, h6⟩ := functions_find hs hb' fs _ r' (fun g hg => hf g (List.mem_cons_of_mem _ hg)) h2 h3.2 (by omega) hd.2 f hm hA
      refine ⟨k + 1, q, a', by omega, fun n => ?_, h4, h5, h6⟩
      rw [← Nat.add_assoc, q3 (fun hx => hd.1 f hm A ⟨hx, hA⟩), hw]

end Verif.Lemmas.ScopesRead
