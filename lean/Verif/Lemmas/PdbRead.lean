import Verif.Lemmas.PdbTable
import Verif.Lemmas.ImageLoad

/-!
# Lemmas: reading the hash tables of symbols
-/
namespace Verif.Lemmas.PdbRead
open Verif.Model.PdbSymbols
open Verif.Spec.PdbSymbols (present rank startsAt bitsAt tailSize startCount start reference bucket references recordsSize)
open Verif.Spec.Image (byte number)
open Verif.Model.BaseReloc (u16 u32)
open Verif.Lemmas.Image (number_u32 holds_append)
open Verif.Lemmas.Msf (flat_u32_length)
open Verif.Lemmas.PdbTable

/-- The bytes at an address. -/
abbrev At (s : List Nat) (a : Nat) (bytes : List Nat) : Prop := Verif.Spec.Image.Holds (byte s) a bytes

theorem at_split {s : List Nat} {a b : Nat} {x y : List Nat} (h : At s a (x ++ y)) (hb : a + x.length = b) : At s a x ∧ At s b y := by
  subst hb
  exact holds_append.mp h

theorem flat_at {s : List Nat} {a : Nat} {l : List Nat} (h : At s a (l.flatMap u32)) {i v : Nat} (hi : l[i]? = some v) : At s (a + 4 * i) (u32 v) := by
  obtain ⟨hlt, he⟩ := List.getElem?_eq_some_iff.mp hi
  have hs : l = l.take i ++ v :: l.drop (i + 1) := by
    rw [← he]; simp
  rw [hs, List.flatMap_append, List.flatMap_cons] at h
  have := (at_split h (b := a + 4 * i) (by rw [flat_u32_length, List.length_take]; omega)).2
  exact (at_split this rfl).1

theorem pairs_length (l : List Nat) : (l.flatMap (fun r => u32 r ++ u32 1)).length = 8 * l.length := by
  induction l with
  | nil => rfl
  | cons x xs ih => rw [List.flatMap_cons, List.length_append, ih]; simp [u32]; omega

theorem pairs_at {s : List Nat} {a : Nat} {l : List Nat} (h : At s a (l.flatMap (fun r => u32 r ++ u32 1))) {i v : Nat} (hi : l[i]? = some v) :
    At s (a + 8 * i) (u32 v) := by
  obtain ⟨hlt, he⟩ := List.getElem?_eq_some_iff.mp hi
  have hs : l = l.take i ++ v :: l.drop (i + 1) := by
    rw [← he]; simp
  rw [hs, List.flatMap_append, List.flatMap_cons] at h
  have := (at_split h (b := a + 8 * i) (by rw [pairs_length, List.length_take]; omega)).2
  exact (at_split (at_split this rfl).1 rfl).1

theorem bit_of_byte {s : List Nat} {a v : Nat} (h : At s a (u32 v)) {j k : Nat} (hj : j < 4) (hk : k < 8) : (byte s (a + j)).testBit k = v.testBit (8 * j + k) := by
  have e := h j (by show j < 4; exact hj)
  have hv : byte s (a + j) = v / 2 ^ (8 * j) % 2 ^ 8 := by
    rw [e]
    have hj' : j = 0 ∨ j = 1 ∨ j = 2 ∨ j = 3 := by omega
    rcases hj' with rfl | rfl | rfl | rfl
    · show v % 256 = _; simp
    · rfl
    · rfl
    · rfl
  rw [hv, Nat.testBit_mod_two_pow, Nat.testBit_div_two_pow, decide_eq_true hk, Bool.true_and, Nat.add_comm]

/-! ## All symbols -/

theorem filter_slots (l : List Symbol) : (n : Nat) →
    ((List.range n).flatMap (fun i => l.filter (fun s => decide (slot s = i)))).Perm (l.filter (fun s => decide (slot s < n)))
  | 0 => by simp
  | n + 1 => by
    rw [List.range_succ, List.flatMap_append, List.flatMap_cons, List.flatMap_nil, List.append_nil]
    refine ((filter_slots l n).append_right _).trans ?_
    have := List.filter_append_perm (fun s => decide (slot s < n)) (l.filter (fun s => decide (slot s < n + 1)))
    rw [List.filter_filter, List.filter_filter] at this
    rw [show l.filter (fun s => decide (slot s < n)) = l.filter (fun a => decide (slot a < n) && decide (slot a < n + 1)) from
      List.filter_congr (fun s _ => by by_cases h : slot s < n <;> simp [h]; omega),
      show l.filter (fun s => decide (slot s = n)) = l.filter (fun a => (!decide (slot a < n)) && decide (slot a < n + 1)) from
      List.filter_congr (fun s _ => by
        by_cases h : slot s = n
        · simp [h]
        · by_cases h2 : slot s < n
          · simp [h2]; omega
          · simp [h]; omega)]
    exact this

theorem perm_flatMap {α : Type} (f g : Nat → List α) (h : ∀ i, (f i).Perm (g i)) : (l : List Nat) → (l.flatMap f).Perm (l.flatMap g)
  | [] => List.Perm.refl _
  | x :: l => by
    rw [List.flatMap_cons, List.flatMap_cons]
    exact (h x).append (perm_flatMap f g h l)

theorem all_symbols {t : Table} {l : List Symbol} (h : Holds t l) {n : Nat} (hn : 4096 ≤ n) : ((List.range n).flatMap t.chain).Perm l := by
  refine (perm_flatMap _ _ h.chains _).trans ((filter_slots l n).trans ?_)
  rw [List.filter_eq_self.mpr]
  intro s _
  have : slot s < 4096 := Nat.mod_lt _ (by omega)
  simp; omega

theorem chains_flatten (t : Table) : (n : Nat) → (chains t n).flatten = (List.range n).flatMap t.chain
  | 0 => rfl
  | n + 1 => by
    rw [chains_succ, List.range_succ, List.flatten_append, chains_flatten t n, List.flatMap_append]
    by_cases h : t.chain n = [] <;> simp [h]

theorem chains_length (t : Table) : (n : Nat) → (chains t n).length = used t n
  | 0 => rfl
  | n + 1 => by
    rw [chains_succ, List.length_append, chains_length t n, used, used, List.range_succ, List.filter_append, List.length_append]
    by_cases h : t.chain n = [] <;> simp [h]

theorem chains_prefix (t : Table) (i : Nat) : (n : Nat) → i ≤ n → ∃ rest, chains t n = chains t i ++ rest
  | 0, h => ⟨[], by rw [show i = 0 by omega, List.append_nil]⟩
  | n + 1, h => by
    by_cases hi : i = n + 1
    · exact ⟨[], by rw [hi, List.append_nil]⟩
    · obtain ⟨rest, e⟩ := chains_prefix t i n (by omega)
      exact ⟨rest ++ (if t.chain n = [] then [] else [t.chain n]), by rw [chains_succ, e, List.append_assoc]⟩

/-- Where the parts of the table are. -/
structure Parts (s : List Nat) (a : Nat) (t : Table) (l : List Symbol) (N : Nat) : Prop where
  size : recordsSize s a = 8 * l.length
  tail : tailSize s a = 4 * 129 + 4 * (chains t N).length
  refs : At s (a + 16) (((chains t N).flatten.map (fun s => s.offset + 1)).flatMap (fun r => u32 r ++ u32 1))
  starts : At s (a + 16 + 8 * l.length + 4 * 129) (((List.range (chains t N).length).map (fun k => 12 * ((chains t N).take k).flatten.length)).flatMap u32)
  bits : ∀ (i : Nat), i < N → present s a i = decide (t.chain i ≠ [])

theorem used_skip {t : Table} {n : Nat} (h : t.chain n = []) : used t (n + 1) = used t n := by
  unfold used
  rw [List.range_succ, List.filter_append]
  simp [h]

theorem buckets_of {t : Table} {l : List Symbol} (h : Holds t l) {n : Nat} (h1 : 4096 ≤ n) (h2 : t.buckets = used t n) : t.buckets = (chains t (n + 1)).length := by
  rw [chains_length, used_skip (chain_last h h1), h2]

theorem buckets_eq {t : Table} {l : List Symbol} (h : Holds t l) {N : Nat} (hN : N = 4096 + 1) : t.buckets = (chains t N).length := by
  rw [hN]
  exact buckets_of h (Nat.le_refl _) h.buckets

/-- The stream, for what the loop has written. -/
def stream (t : Table) (w : Writer) : List Nat :=
  u32 (2 ^ 32 - 1) ++ u32 (0xeffe0000 + 19990810) ++ u32 (t.symbols * 2 * 4) ++ u32 ((4096 + 32) / 32 * 4 + t.buckets * 4) ++
    w.records.flatMap (fun r => u32 r ++ u32 1) ++ w.bitmap.flatMap u32 ++ w.offsets.flatMap u32

theorem stream_eq (t : Table) : hashStream t = stream t (writeBuckets t) := rfl

theorem parts_of {s : List Nat} {a : Nat} {t : Table} {l : List Symbol} {w : Writer} (hs : At s a (stream t w)) (h : Holds t l) (hl : 12 * l.length < 2 ^ 32)
    {N : Nat} (hN : N = 4096 + 1) (hc : Complete t N w) : Parts s a t l N := by
  obtain ⟨c1, c2, c3, c4, c5⟩ := hc
  have hb := buckets_eq h hN
  have hbl : t.buckets ≤ 4096 := by
    rw [h.buckets]
    have := List.length_filter_le (fun i => decide (t.chain i ≠ [])) (List.range 4096)
    rw [List.length_range] at this
    exact this
  have hfl : (chains t N).flatten.length = l.length := by
    rw [chains_flatten]; exact (all_symbols h (by omega)).length_eq
  have hcount := h.count
  unfold stream at hs
  have hrl : w.records.length = l.length := by rw [c1, List.length_map, hfl]
  obtain ⟨hs, p7⟩ := at_split hs (b := a + 16 + 8 * l.length + 4 * 129) (by
    simp only [List.length_append, pairs_length, flat_u32_length, c3, hrl]
    simp only [u32, List.length_cons, List.length_nil]; omega)
  obtain ⟨hs, p6⟩ := at_split hs (b := a + 16 + 8 * l.length) (by
    simp only [List.length_append, pairs_length, hrl]
    simp only [u32, List.length_cons, List.length_nil]; omega)
  obtain ⟨hs, p5⟩ := at_split hs (b := a + 16) (by simp only [List.length_append, u32, List.length_cons, List.length_nil])
  obtain ⟨hs, p4⟩ := at_split hs (b := a + 12) (by simp only [List.length_append, u32, List.length_cons, List.length_nil])
  obtain ⟨hs, p3⟩ := at_split hs (b := a + 8) (by simp only [List.length_append, u32, List.length_cons, List.length_nil])
  have hsize : recordsSize s a = 8 * l.length := by
    unfold recordsSize
    rw [number_u32 p3 (by omega)]; omega
  refine ⟨hsize, ?_, by rw [← c1]; exact p5, by rw [← c2]; exact p7, fun i hi => ?_⟩
  · unfold tailSize
    rw [number_u32 p4 (by omega)]; omega
  · rw [← c5 i hi]
    unfold present bitsAt
    rw [hsize]
    have hlt : i / 32 < w.bitmap.length := by omega
    have hw := flat_at p6 (i := i / 32) (v := w.bitmap.getD (i / 32) 0) (by rw [List.getD_eq_getElem?_getD, List.getElem?_eq_getElem hlt]; rfl)
    have := bit_of_byte hw (j := i / 8 % 4) (k := i % 8) (by omega) (by omega)
    rw [show a + 16 + 8 * l.length + 4 * (i / 32) + i / 8 % 4 = a + 16 + 8 * l.length + i / 8 by omega] at this
    rw [this]
    congr 1
    omega

theorem parts {s : List Nat} {a : Nat} {t : Table} {l : List Symbol} (hs : At s a (hashStream t)) (h : Holds t l) (hl : 12 * l.length < 2 ^ 32)
    {N : Nat} (hN : N = 4096 + 1) : Parts s a t l N := by
  rw [stream_eq] at hs
  subst hN
  exact parts_of hs h hl rfl (complete t)

theorem stream_length {t : Table} {l : List Symbol} {w : Writer} (h : Holds t l) {N : Nat} (hN : N = 4096 + 1) (hc : Complete t N w) :
    (stream t w).length ≤ 16916 + 8 * l.length := by
  have hb := buckets_eq h hN
  have hbl : t.buckets ≤ 4096 := by
    rw [h.buckets]
    have := List.length_filter_le (fun i => decide (t.chain i ≠ [])) (List.range 4096)
    rw [List.length_range] at this
    exact this
  have hfl : (chains t N).flatten.length = l.length := by
    rw [chains_flatten]; exact (all_symbols h (by omega)).length_eq
  have hrl : w.records.length = l.length := by rw [hc.records, List.length_map, hfl]
  have hol : w.offsets.length = t.buckets := by rw [hc.offsets, List.length_map, List.length_range, hb]
  unfold stream
  simp only [List.length_append, pairs_length, flat_u32_length, hrl, hc.bitmap, hol]
  simp only [u32, List.length_cons, List.length_nil]
  omega

theorem hashStream_length {t : Table} {l : List Symbol} (h : Holds t l) : (hashStream t).length ≤ 16916 + 8 * l.length := by
  rw [stream_eq]
  exact stream_length h rfl (complete t)

/-- What is found in a bucket. -/
theorem bucket_eq {s : List Nat} {a : Nat} {t : Table} {l : List Symbol} {N : Nat} (hp : Parts s a t l N) (h : Holds t l) (hl : 12 * l.length < 2 ^ 32)
    (ho : ∀ x ∈ l, x.offset + 1 < 2 ^ 32) (hN : N = 4096 + 1) {i : Nat} (hi : i < N) : bucket s a i = (t.chain i).map (·.offset) := by
  obtain ⟨p1, p2, p3, p4, p5⟩ := hp
  unfold bucket
  rw [p5 i hi]
  by_cases hc : t.chain i = []
  · simp [hc]
  · rw [decide_eq_true hc, if_pos rfl]
    have hrank : rank s a i = (chains t i).length := by
      unfold rank
      rw [chains_length]
      unfold used
      congr 1
      refine List.filter_congr (fun x hx => ?_)
      rw [List.mem_range] at hx
      exact p5 x (by omega)
    obtain ⟨rest, he⟩ := chains_prefix t (i + 1) N (by omega)
    rw [chains_succ, if_neg hc, List.append_assoc] at he
    have hperm : (chains t N).flatten.Perm l := by rw [chains_flatten]; exact all_symbols h (by omega)
    have hfl : (chains t N).flatten.length = l.length := hperm.length_eq
    have hcount : startCount s a = (chains t N).length := by unfold startCount; rw [p2]; omega
    have hstart : ∀ k, k ≤ (chains t N).length → start s a k = ((chains t N).take k).flatten.length := by
      intro k hk
      unfold start
      rw [hcount]
      by_cases hlt : k < (chains t N).length
      · rw [if_pos hlt]
        have hle : ((chains t N).take k).flatten.length ≤ l.length := by
          rw [← hfl]
          conv => rhs; rw [← List.take_append_drop k (chains t N), List.flatten_append, List.length_append]
          omega
        have := flat_at p4 (i := k) (v := 12 * ((chains t N).take k).flatten.length) (by
          rw [List.getElem?_map, List.getElem?_range hlt]; rfl)
        unfold startsAt bitsAt
        rw [p1, number_u32 this (by omega)]
        omega
      · rw [if_neg hlt, p1, List.take_of_length_le (by omega), hfl]
        omega
    have hlen : (chains t N).length = (chains t i).length + (1 + rest.length) := by
      rw [he]; simp only [List.length_append, List.length_cons, List.length_nil]
    have hs1 : start s a (rank s a i) = (chains t i).flatten.length := by
      rw [hstart _ (by omega), hrank, he, List.take_left' rfl]
    have hs2 : start s a (rank s a i + 1) = (chains t i).flatten.length + (t.chain i).length := by
      rw [hstart _ (by omega), hrank, he, ← List.append_assoc, List.take_left' (by simp)]
      simp
    rw [hs1, hs2, Nat.add_sub_cancel_left]
    apply List.ext_getElem
    · simp
    · intro j h1 h2
      rw [List.getElem_map, List.getElem_range, List.getElem_map]
      have hj : j < (t.chain i).length := by simpa using h1
      have hget : (chains t N).flatten[(chains t i).flatten.length + j]? = some (t.chain i)[j] := by
        rw [he, List.flatten_append, List.getElem?_append_right (by omega), Nat.add_sub_cancel_left, List.cons_append, List.nil_append, List.flatten_cons,
          List.getElem?_append_left hj, List.getElem?_eq_getElem hj]
      have := pairs_at p3 (i := (chains t i).flatten.length + j) (v := (t.chain i)[j].offset + 1) (by rw [List.getElem?_map, hget]; rfl)
      unfold reference
      rw [number_u32 this (ho _ (hperm.mem_iff.mp (List.mem_of_getElem? hget)))]
      rfl

theorem flatMap_congr {α : Type} (f g : Nat → List α) : (l : List Nat) → (∀ x ∈ l, f x = g x) → l.flatMap f = l.flatMap g
  | [], _ => rfl
  | x :: l, h => by
    rw [List.flatMap_cons, List.flatMap_cons, h x (List.mem_cons_self ..), flatMap_congr f g l (fun y hy => h y (List.mem_cons_of_mem _ hy))]

/-- All references. -/
theorem references_eq {s : List Nat} {a : Nat} {t : Table} {l : List Symbol} (hs : At s a (hashStream t)) (h : Holds t l) (hl : 12 * l.length < 2 ^ 32)
    (ho : ∀ x ∈ l, x.offset + 1 < 2 ^ 32) : (references s a).Perm (l.map (·.offset)) := by
  unfold references
  rw [show (4097 : Nat) = 4096 + 1 from rfl]
  generalize hN : 4096 + 1 = N
  have hp := parts hs h hl hN.symm
  rw [flatMap_congr (bucket s a) (fun i => (t.chain i).map (·.offset)) _ (fun i hi => bucket_eq hp h hl ho hN.symm (List.mem_range.mp hi))]
  have := (all_symbols h (n := N) (by omega)).map (·.offset)
  rw [List.map_flatMap] at this
  exact this

end Verif.Lemmas.PdbRead
