import Verif.Lemmas.PdbRead
import Verif.Props.Leaf

/-!
# Lemmas: the records of symbols
-/
namespace Verif.Lemmas.PdbRecords
open Verif.Model.PdbSymbols
open Verif.Spec.PdbSymbols (kind first second third value name describe next Walk untilZero lookup bucket)
open Verif.Spec.Image (byte number)
open Verif.Model.BaseReloc (u16 u32)
open Verif.Lemmas.Image (number_u32 number_u16 holds_append number_shift)
open Verif.Lemmas.PdbTable (slot Holds)
open Verif.Lemmas.PdbRead

/-- The records with their positions. -/
def placed : Nat → List Entry → List (Nat × Entry)
  | _, [] => []
  | o, e :: es => (o, e) :: placed (o + (record o e).length) es

def sym (x : Nat × Entry) : Symbol := ⟨x.2.name, x.1, x.2.rva⟩
def bytes (l : List (Nat × Entry)) : List Nat := l.flatMap (fun x => record x.1 x.2)

theorem placed_entries : (es : List Entry) → (o : Nat) → (placed o es).map (·.2) = es
  | [], _ => rfl
  | e :: es, o => by rw [placed, List.map_cons, placed_entries es]

theorem fold_eq : (es : List Entry) → (s : Symbols) →
    (es.foldl pushEntry s).records = s.records ++ bytes (placed s.records.length es) ∧
    (es.foldl pushEntry s).globals = (((placed s.records.length es).filter (fun x => !x.2.isPublic)).map sym).foldl add s.globals ∧
    (es.foldl pushEntry s).publics = (((placed s.records.length es).filter (fun x => x.2.isPublic)).map sym).foldl add s.publics
  | [], s => ⟨(List.append_nil _).symm, rfl, rfl⟩
  | e :: es, s => by
    obtain ⟨h1, h2, h3⟩ := fold_eq es (pushEntry s e)
    rw [List.foldl_cons, h1, h2, h3]
    have hr : (pushEntry s e).records = s.records ++ record s.records.length e := rfl
    have hl : (pushEntry s e).records.length = s.records.length + (record s.records.length e).length := by rw [hr, List.length_append]
    have hg : (pushEntry s e).globals = if e.isPublic then s.globals else add s.globals (sym (s.records.length, e)) := rfl
    have hp : (pushEntry s e).publics = if e.isPublic then add s.publics (sym (s.records.length, e)) else s.publics := rfl
    rw [hl, hr, placed, hg, hp]
    refine ⟨?_, ?_, ?_⟩
    · unfold bytes
      rw [List.flatMap_cons, List.append_assoc]
    · cases hb : e.isPublic <;> simp [hb]
    · cases hb : e.isPublic <;> simp [hb]

theorem symbols_eq (p : Program) :
    (symbols p).records = bytes (placed 0 (entries p)) ∧
    Holds (symbols p).globals (((placed 0 (entries p)).filter (fun x => !x.2.isPublic)).map sym) ∧
    Holds (symbols p).publics (((placed 0 (entries p)).filter (fun x => x.2.isPublic)).map sym) := by
  obtain ⟨h1, h2, h3⟩ := fold_eq (entries p) ⟨[], ⟨fun _ => [], 0, 0⟩, ⟨fun _ => [], 0, 0⟩⟩
  unfold symbols
  refine ⟨h1, ?_, ?_⟩
  · rw [h2]; exact PdbTable.holds_all _ PdbTable.holds_nil
  · rw [h3]; exact PdbTable.holds_all _ PdbTable.holds_nil

/-! ## One record -/

def leaf (o : Nat) (e : Entry) : List Nat := match e.value with | some v => Verif.Leaf.pushSigned 0 (o + 4 + e.fields.length) v | none => []
def pad (o : Nat) (e : Entry) : List Nat := alignBytes (o + 2 + (u16 e.kind ++ e.fields ++ leaf o e ++ e.name ++ [0]).length)

theorem record_eq (o : Nat) (e : Entry) :
    record o e = u16 (recordBody o e).length ++ (u16 e.kind ++ (e.fields ++ (leaf o e ++ (e.name ++ 0 :: pad o e)))) := by
  unfold record
  congr 1
  show u16 e.kind ++ e.fields ++ leaf o e ++ e.name ++ [0] ++ pad o e = _
  simp only [List.append_assoc, List.cons_append, List.nil_append]

theorem pad_length (o : Nat) (e : Entry) : (pad o e).length = (4 - (o + 2 + (u16 e.kind ++ e.fields ++ leaf o e ++ e.name ++ [0]).length) % 4) % 4 := by
  unfold pad alignBytes
  simp

theorem pushAligned_le (junk a n v : Nat) (hn : 0 < n) : (Verif.Leaf.pushAligned junk a n v).length ≤ 2 * n := by
  unfold Verif.Leaf.pushAligned
  rw [List.length_append, List.length_replicate, Verif.Props.Leaf.le_length]
  have : (a + (n - 1)) / n * n ≤ a + (n - 1) := Nat.div_mul_le_self _ _
  omega

theorem leaf_length (o : Nat) (e : Entry) : (leaf o e).length ≤ 20 := by
  unfold leaf
  split
  · rename_i v _
    generalize o + 4 + e.fields.length = a
    have h2 := fun b w => pushAligned_le 0 b 2 w (by omega)
    have h4 := fun b w => pushAligned_le 0 b 4 w (by omega)
    have h8 := fun b w => pushAligned_le 0 b 8 w (by omega)
    unfold Verif.Leaf.pushSigned
    simp only []
    repeat' split
    all_goals try simp only [List.length_append, Verif.Props.Leaf.le_length]
    · have := h2 a (Verif.Leaf.toUnsigned 2 v); omega
    · have := h2 a 0x8001; have := h2 (a + (Verif.Leaf.pushAligned 0 a 2 0x8001).length) (Verif.Leaf.toUnsigned 2 v); omega
    · have := h2 a 0x8003; omega
    · have := h2 a 0x8009; omega
    · have := h2 a 0x8000; omega
    · have := h2 a 0x8001; have := h2 (a + (Verif.Leaf.pushAligned 0 a 2 0x8001).length) (Verif.Leaf.toUnsigned 2 v); omega
    · have := h2 a 0x8003; have := h4 (a + (Verif.Leaf.pushAligned 0 a 2 0x8003).length) (Verif.Leaf.toUnsigned 4 v); omega
    · have := h2 a 0x8009; have := h8 (a + (Verif.Leaf.pushAligned 0 a 2 0x8009).length) (Verif.Leaf.toUnsigned 8 v); omega
  · exact Nat.zero_le _

theorem record_length (o : Nat) (e : Entry) : (record o e).length = 2 + (recordBody o e).length := by
  unfold record
  rw [List.length_append]; rfl

theorem body_length (o : Nat) (e : Entry) : (recordBody o e).length = 2 + e.fields.length + (leaf o e).length + e.name.length + 1 + (pad o e).length := by
  show (u16 e.kind ++ e.fields ++ leaf o e ++ e.name ++ [0] ++ pad o e).length = _
  simp only [List.length_append]
  rfl

theorem record_aligned {o : Nat} (e : Entry) (h : o % 4 = 0) : (o + (record o e).length) % 4 = 0 := by
  rw [record_length, body_length, pad_length]
  simp only [List.length_append]
  have : (u16 e.kind).length = 2 := rfl
  have : [0].length = 1 := rfl
  omega

theorem record_long (o : Nat) (e : Entry) (h : o % 4 = 0) (hf : 4 ≤ e.fields.length) : 12 ≤ (record o e).length := by
  have := record_aligned e h
  have h1 := record_length o e
  have h2 := body_length o e
  omega

/-! ## All records -/

theorem placed_at : (es : List Entry) → (n : Nat) → (R : List Nat) → n ≤ R.length → R.drop n = bytes (placed n es) → ∀ x ∈ placed n es, ∃ post, R.drop x.1 = record x.1 x.2 ++ post
  | [], _, _, _, _, x, hx => by cases hx
  | e :: es, n, R, hn, h, x, hx => by
    rw [placed, bytes, List.flatMap_cons] at h
    rcases List.mem_cons.mp hx with rfl | hx
    · exact ⟨_, h⟩
    · refine placed_at es _ R ?_ ?_ x hx
      · have := congrArg List.length h
        rw [List.length_drop, List.length_append] at this
        simp only [] at this
        omega
      · rw [← List.drop_drop, h, List.drop_left' rfl]; rfl

theorem placed_aligned : (es : List Entry) → (n : Nat) → n % 4 = 0 → ∀ x ∈ placed n es, x.1 % 4 = 0
  | [], _, _, x, hx => by cases hx
  | e :: es, n, h, x, hx => by
    rcases List.mem_cons.mp hx with rfl | hx
    · exact h
    · exact placed_aligned es _ (record_aligned e h) x hx

theorem placed_count : (es : List Entry) → (n : Nat) → n % 4 = 0 → (∀ e ∈ es, 4 ≤ e.fields.length) → 12 * (placed n es).length ≤ (bytes (placed n es)).length
  | [], _, _, _ => by simp [placed]
  | e :: es, n, h, hf => by
    rw [placed, bytes, List.flatMap_cons, List.length_append, List.length_cons]
    have h1 := record_long n e h (hf e (List.mem_cons_self ..))
    have h2 := placed_count es _ (record_aligned e h) (fun e' he => hf e' (List.mem_cons_of_mem _ he))
    unfold bytes at h2
    simp only []
    omega

/-! ## Reading -/

theorem at_of_drop {R x post : List Nat} {o : Nat} (h : R.drop o = x ++ post) : At R o x := by
  intro i hi
  have : (R.drop o)[i]? = some x[i] := by rw [h, List.getElem?_append_left hi, List.getElem?_eq_getElem hi]
  rw [List.getElem?_drop] at this
  unfold byte
  rw [List.getD_eq_getElem?_getD, this]
  rfl

theorem drop_split {R x y : List Nat} {o b : Nat} (h : R.drop o = x ++ y) (hb : o + x.length = b) : R.drop b = y := by
  subst hb
  rw [← List.drop_drop, h, List.drop_left' rfl]

theorem untilZero_eq : (n : List Nat) → (rest : List Nat) → (∀ b ∈ n, b ≠ 0) → untilZero (n ++ 0 :: rest) = n
  | [], rest, _ => by simp [untilZero]
  | b :: n, rest, h => by
    have ih := untilZero_eq n rest (fun b hb => h b (List.mem_cons_of_mem _ hb))
    unfold untilZero at *
    rw [List.cons_append, List.takeWhile_cons, if_pos (by simp [h b (List.mem_cons_self ..)]), ih]

/-- The records that can be read. -/
inductive Good : Entry → Prop
  | numbers {e : Entry} : e.kind ∈ [0x1125, 0x1127, 0x110e, 0x110c, 0x110d] → e.fields.length = 10 → e.value = none → Good e
  | type {e : Entry} : e.kind = 0x1108 → e.fields.length = 4 → e.value = none → Good e
  | constant {e : Entry} {v : Int} : e.kind = 0x1107 → e.fields.length = 4 → e.value = some v → -2 ^ 15 ≤ v → v < 2 ^ 63 → Good e

/-- What the record says. -/
def desc (e : Entry) : List Int :=
  if e.kind ∈ [0x1125, 0x1127, 0x110e, 0x110c, 0x110d] then
    [(e.kind : Int), (number (byte e.fields) 4 0 : Int), (number (byte e.fields) 4 4 : Int), (number (byte e.fields) 2 8 : Int)]
  else if e.kind = 0x1108 then [(e.kind : Int), (number (byte e.fields) 4 0 : Int)]
  else [(e.kind : Int), (number (byte e.fields) 4 0 : Int), e.value.getD 0]

theorem Good.kind_lt {e : Entry} (h : Good e) : e.kind < 2 ^ 16 := by
  cases h with
  | numbers h _ _ =>
    simp only [List.mem_cons, List.not_mem_nil, or_false] at h
    omega
  | type h _ _ => omega
  | constant h _ _ _ _ => omega

theorem Good.long {e : Entry} (h : Good e) : 4 ≤ e.fields.length := by cases h <;> omega

theorem read_field {R : List Nat} {o : Nat} {f : List Nat} (h : At R o f) {n k : Nat} (hk : k + n ≤ f.length) : number (byte R) n (o + k) = number (byte f) n k := by
  refine number_shift n (o + k) k (fun i hi => ?_)
  rw [Nat.add_assoc, h (k + i) (by omega)]
  unfold byte
  rw [List.getD_eq_getElem?_getD, List.getElem?_eq_getElem (by omega)]
  rfl

/-- A record that can be read is read. -/
theorem read {R : List Nat} {o : Nat} {e : Entry} {post : List Nat} (h : R.drop o = record o e ++ post) (ha : o % 4 = 0) (hg : Good e) (hn : ∀ b ∈ e.name, b ≠ 0) :
    Verif.Spec.PdbSymbols.name R o = some e.name ∧ describe R o = desc e := by
  rw [record_eq, List.append_assoc] at h
  have d2 := drop_split h (b := o + 2) rfl
  rw [List.append_assoc] at d2
  have d4 := drop_split d2 (b := o + 4) rfl
  rw [List.append_assoc] at d4
  have hk : kind R o = e.kind := by
    unfold kind
    exact number_u16 (at_of_drop d2) hg.kind_lt
  have hfield := @read_field R (o + 4) e.fields (at_of_drop d4)
  have dn := drop_split d4 (b := o + 4 + e.fields.length) rfl
  rw [List.append_assoc, List.append_assoc, List.cons_append] at dn
  unfold Verif.Spec.PdbSymbols.name describe desc
  rw [hk]
  have hlong := hg.long
  have h1 : first R o = number (byte e.fields) 4 0 := hfield (n := 4) (k := 0) (by omega)
  cases hg with
  | numbers g1 g2 g3 =>
    rw [if_pos g1, if_pos g1, if_pos g1]
    have hl : leaf o e = [] := by unfold leaf; rw [g3]
    rw [hl, g2, List.nil_append] at dn
    refine ⟨?_, ?_⟩
    · rw [show o + 14 = o + 4 + 10 by omega, dn, untilZero_eq _ _ hn]
    · rw [h1, show second R o = number (byte e.fields) 4 4 from hfield (n := 4) (k := 4) (by omega),
        show third R o = number (byte e.fields) 2 8 from hfield (n := 2) (k := 8) (by omega)]
  | type g1 g2 g3 =>
    have hne : e.kind ∉ [0x1125, 0x1127, 0x110e, 0x110c, 0x110d] := by rw [g1]; decide
    rw [if_neg hne, if_neg hne, if_neg hne, if_pos g1, if_pos g1, if_pos g1]
    have hl : leaf o e = [] := by unfold leaf; rw [g3]
    rw [hl, g2, List.nil_append] at dn
    refine ⟨?_, by rw [h1]⟩
    rw [show o + 8 = o + 4 + 4 by omega, dn, untilZero_eq _ _ hn]
  | constant g1 g2 g3 g4 g5 =>
    rename_i v
    have hne : e.kind ∉ [0x1125, 0x1127, 0x110e, 0x110c, 0x110d] := by rw [g1]; decide
    have hne2 : e.kind ≠ 0x1108 := by omega
    rw [if_neg hne, if_neg hne, if_neg hne, if_neg hne2, if_neg hne2, if_neg hne2, if_pos g1, if_pos g1]
    have hl : leaf o e = Verif.Leaf.pushSigned 0 (o + 4 + 4) v := by unfold leaf; rw [g3, g2]
    rw [hl, g2] at dn
    have hr := (Verif.Props.Leaf.C47_signed_partial 0 (o + 4 + 4) v (by omega) (by omega) g5 (.inl g4) (e.name ++ 0 :: (pad o e ++ post))).1
    rw [show o + 8 = o + 4 + 4 by omega]
    refine ⟨?_, ?_⟩
    · rw [dn, hr]
      show some (untilZero _) = _
      rw [untilZero_eq _ _ hn]
    · unfold value
      rw [show o + 8 = o + 4 + 4 by omega, dn, hr, h1, g3]
      rfl

theorem read_numbers {R : List Nat} {o : Nat} {e : Entry} {post : List Nat} (h : R.drop o = record o e ++ post) (hf : e.fields.length = 10) :
    second R o = number (byte e.fields) 4 4 ∧ third R o = number (byte e.fields) 2 8 := by
  rw [record_eq, List.append_assoc] at h
  have d2 := drop_split h (b := o + 2) rfl
  rw [List.append_assoc] at d2
  have d4 := drop_split d2 (b := o + 4) rfl
  rw [List.append_assoc] at d4
  have hfield := @read_field R (o + 4) e.fields (at_of_drop d4)
  exact ⟨hfield (n := 4) (k := 4) (by omega), hfield (n := 2) (k := 8) (by omega)⟩

/-! ## Finding a symbol -/

theorem lookup_eq {R s : List Nat} {a : Nat} {t : Table} {X : List (Nat × Entry)} (hs : At s a (hashStream t)) (h : Holds t (X.map sym)) (hl : 12 * X.length < 2 ^ 32)
    (ho : ∀ x ∈ X, x.1 + 1 < 2 ^ 32) (hb : ∀ x ∈ X, ∀ b ∈ x.2.name, b < 256) (hr : ∀ x ∈ X, Verif.Spec.PdbSymbols.name R x.1 = some x.2.name) (n : List Nat) :
    (lookup R s a n).Perm ((X.filter (fun x => decide (x.2.name = n))).map (·.1)) := by
  unfold lookup
  have hi : Verif.Spec.PdbSymbols.hash n % 4096 < 4096 := Nat.mod_lt _ (by omega)
  have hlen : 12 * (X.map sym).length < 2 ^ 32 := by rw [List.length_map]; exact hl
  have hoff : ∀ y ∈ X.map sym, y.offset + 1 < 2 ^ 32 := by
    intro y hy
    obtain ⟨x, hx, rfl⟩ := List.mem_map.mp hy
    exact ho x hx
  have hbucket : bucket s a (Verif.Spec.PdbSymbols.hash n % 4096) = (t.chain (Verif.Spec.PdbSymbols.hash n % 4096)).map (·.offset) :=
    bucket_eq (N := 4096 + 1) (parts hs h hlen rfl) h hlen hoff rfl (by omega)
  rw [hbucket]
  refine (((h.chains _).map _).filter _).trans ?_
  rw [List.filter_map, List.filter_filter, List.filter_map, List.map_map]
  refine List.Perm.of_eq ?_
  rw [show ((fun x : Symbol => x.offset) ∘ sym) = (fun x : Nat × Entry => x.1) from rfl]
  congr 1
  refine List.filter_congr (fun x hx => ?_)
  show (decide (Verif.Spec.PdbSymbols.name R x.1 = some n) && decide (stringHash x.2.name % 4096 = _)) = _
  rw [hr x hx, PdbHash.hash_eq (hb x hx)]
  by_cases he : x.2.name = n
  · simp [he]
  · simp [he]

/-- Following the lengths of the records. -/
theorem walk : (es : List Entry) → (n : Nat) → (R : List Nat) → n % 4 = 0 → n ≤ R.length → R.drop n = bytes (placed n es) →
    (∀ x ∈ placed n es, (recordBody x.1 x.2).length < 2 ^ 16) → Walk R n ((placed n es).map (·.1))
  | [], n, R, _, hn, h, _ => by
    have : n = R.length := by
      have := congrArg List.length h
      rw [List.length_drop] at this
      have h0 : (bytes (placed n [])).length = 0 := rfl
      omega
    rw [this]
    exact .done
  | e :: es, n, R, ha, hn, h, hl => by
    rw [placed, bytes, List.flatMap_cons] at h
    simp only [] at h
    rw [placed, List.map_cons]
    have hlen := congrArg List.length h
    rw [List.length_drop, List.length_append, record_length] at hlen
    have hnext : next R n = n + (record n e).length := by
      unfold next
      rw [record_length]
      rw [record_eq, List.append_assoc] at h
      rw [number_u16 (at_of_drop h) (hl (n, e) (List.mem_cons_self ..))]
      omega
    refine .step (by omega) ha ?_
    rw [hnext]
    refine walk es _ R (record_aligned e ha) (by rw [record_length]; omega) ?_ (fun x hx => hl x (List.mem_cons_of_mem _ hx))
    rw [← List.drop_drop, h, List.drop_left' rfl]
    rfl

end Verif.Lemmas.PdbRecords
