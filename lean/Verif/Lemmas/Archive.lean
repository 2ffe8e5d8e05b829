import Verif.Model.Archive
import Verif.Spec.Archive
import Verif.Props.ToU64

/-! # Lemmas about the archive model -/

namespace Verif.Archive

open Verif.Spec.Archive Verif.Spec.ToU64 Verif.Props.ToU64

/-- `s` is in the file at `p`. -/
def Has (f : List Nat) (p : Nat) (s : List Nat) : Prop := ∃ rest, f.drop p = s ++ rest

theorem Has.left {f p s t} (h : Has f p (s ++ t)) : Has f p s := by
  obtain ⟨r, h⟩ := h; exact ⟨t ++ r, by rw [h, List.append_assoc]⟩

theorem Has.right {f p s t} (h : Has f p (s ++ t)) : Has f (p + s.length) t := by
  obtain ⟨r, h⟩ := h
  refine ⟨r, ?_⟩
  rw [← List.drop_drop, h, List.append_assoc, List.drop_left]

theorem Has.right' {f p s t q} (h : Has f p (s ++ t)) (hq : q = p + s.length) : Has f q t := hq ▸ h.right

theorem Has.le {f p s} (h : Has f p s) (hs : s ≠ []) : p + s.length ≤ f.length := by
  obtain ⟨r, h⟩ := h
  have h1 := congrArg List.length h
  rw [List.length_drop, List.length_append] at h1
  have : 0 < s.length := List.length_pos_iff.2 hs
  omega

theorem Has.byte {f p b s} (h : Has f p (b :: s)) : byteAt f p = .ok b := by
  obtain ⟨r, h⟩ := h
  have : f[p]? = some b := by
    have h1 : (f.drop p)[0]? = some b := by rw [h]; rfl
    rw [List.getElem?_drop] at h1; exact h1
  unfold byteAt; rw [this]

theorem Has.tail {f p b s} (h : Has f p (b :: s)) : Has f (p + 1) s := Has.right (s := [b]) h

theorem Has.u16 {f p n} (h : Has f p (le16 n)) (hn : n < 2^16) : u16At f p = .ok n := by
  unfold u16At; unfold le16 at h
  rw [h.byte, Res.bind, h.tail.byte, Res.bind]
  congr 1; omega

theorem Has.u32 {f p n} (h : Has f p (le32 n)) (hn : n < 2^32) : u32At f p = .ok n := by
  unfold le32 at h
  have h1 : u16At f p = .ok (n % 256 + 256 * (n / 256 % 256)) := by
    unfold u16At; rw [h.byte, Res.bind, h.tail.byte, Res.bind]
  have h2 : u16At f (p + 2) = .ok (n / 65536 % 256 + 256 * (n / 16777216 % 256)) := by
    unfold u16At; rw [h.tail.tail.byte, Res.bind, h.tail.tail.tail.byte, Res.bind]
  unfold u32At
  rw [h1, Res.bind, h2, Res.bind]
  congr 1; omega

theorem Has.bytes {f p s} (h : Has f p s) (hs : s ≠ []) : bytesAt f p s.length = .ok s := by
  unfold bytesAt
  rw [if_pos (h.le hs)]
  obtain ⟨r, h⟩ := h
  rw [h, List.take_left]

theorem Has.cstring {s f p} (h : Has f p (s ++ [0])) (h0 : 0 ∉ s) : cstring f p = .ok s := by
  induction s generalizing p with
  | nil =>
    have hle := h.le (by simp)
    have hb := h.byte
    unfold Archive.cstring
    have hp : p < f.length := by simp at hle; omega
    rw [dif_pos hp]
    unfold byteAt at hb
    rw [List.getElem?_eq_getElem hp] at hb
    rw [if_pos (by simpa using hb)]
  | cons b s ih =>
    have hle := h.le (by simp)
    have hb := h.byte
    unfold Archive.cstring
    have hp : p < f.length := by simp at hle; omega
    rw [dif_pos hp]
    unfold byteAt at hb
    rw [List.getElem?_eq_getElem hp] at hb
    have hb' : f[p] = b := by simpa using hb
    have hne : ¬ f[p] = 0 := by rw [hb']; intro h'; exact h0 (by rw [← h']; exact List.mem_cons_self)
    rw [if_neg hne, ih h.tail (fun h' => h0 (List.mem_cons_of_mem _ h')), Res.bind, hb']

theorem Has.strings {ss : List (List Nat × Nat)} {f p} (h : Has f p (ss.flatMap (fun s => s.1 ++ [0]))) (h0 : ∀ s ∈ ss, 0 ∉ s.1) :
    strings f p (p + (ss.flatMap (fun s => s.1 ++ [0])).length) = .ok (ss.map (·.1)) := by
  induction ss generalizing p with
  | nil => unfold Archive.strings; simp
  | cons s ss ih =>
    rw [List.flatMap_cons] at h ⊢
    unfold Archive.strings
    rw [dif_pos (by simp only [List.length_append, List.length_cons, List.length_nil]; omega), h.left.cstring (h0 s List.mem_cons_self), Res.bind]
    have hr := ih (h.right' (q := p + (s.1.length + 1)) (by simp)) (fun t ht => h0 t (List.mem_cons_of_mem _ ht))
    have e : p + (s.1 ++ [0] ++ ss.flatMap (fun (s : List Nat × Nat) => s.1 ++ [0])).length =
        p + (s.1.length + 1) + (ss.flatMap (fun (s : List Nat × Nat) => s.1 ++ [0])).length := by
      simp only [List.length_append, List.length_cons, List.length_nil]; omega
    rw [e, hr, Res.bind, List.map_cons]

theorem dropWhile_blank (n : Nat) (l : List Nat) : (List.replicate n 32 ++ l).dropWhile (· == 32) = l.dropWhile (· == 32) := by
  induction n with
  | zero => rfl
  | succ n ih => rw [List.replicate_succ, List.cons_append, List.dropWhile_cons_of_pos (by rfl), ih]

theorem dropWhile_id {l : List Nat} (h : ∀ c ∈ l, c ≠ 32) : l.dropWhile (· == 32) = l := by
  cases l with
  | nil => rfl
  | cons c l => rw [List.dropWhile_cons_of_neg (by simpa using h c List.mem_cons_self)]

theorem strip_pad {s : List Nat} (n : Nat) (h : ∀ c ∈ s, c ≠ 32) : strip (s ++ List.replicate n 32) = s := by
  unfold strip
  rw [List.reverse_append, List.reverse_replicate, dropWhile_blank, dropWhile_id (l := s.reverse) (by intro c hc; exact h c (List.mem_reverse.1 hc)),
    List.reverse_reverse, dropWhile_id h]

theorem value_lt (ds : List Nat) (h : ∀ d ∈ ds, d < 10) : value 10 ds < 10 ^ ds.length := by
  induction ds with
  | nil => simp [value]
  | cons d ds ih =>
    have h1 := ih (fun x hx => h x (List.mem_cons_of_mem _ hx))
    have h2 := h d List.mem_cons_self
    have h3 : d * 10 ^ ds.length ≤ 9 * 10 ^ ds.length := Nat.mul_le_mul_right _ (by omega)
    rw [value, List.length_cons, Nat.pow_succ]
    omega

theorem digits_u64 {s : List Nat} (h : IsDecimal s) (hl : s.length ≤ 10) :
    ToU64.stringToU64 s = some (value 10 (s.map (· - 48))) := by
  rw [C44_decimal s h]
  congr 1
  apply Nat.mod_eq_of_lt
  have h1 := value_lt (s.map (· - 48)) (by
    intro d hd
    obtain ⟨c, hc, rfl⟩ := List.mem_map.1 hd
    have := h.2 c hc; omega)
  rw [List.length_map] at h1
  have h2 : 10 ^ s.length ≤ 10 ^ 10 := Nat.pow_le_pow_right (by omega) hl
  have h3 : (10:Nat) ^ 10 < 2 ^ 64 := by decide
  omega

/-- What the model reads of a member. -/
structure Reads (f : List Nat) (off : Nat) (ident data : List Nat) : Prop where
  le : off + 60 + data.length ≤ f.length
  ident : ∃ n, bytesAt f off 16 = .ok (ident ++ List.replicate n 32)
  size : sizeField f off = .ok (some data.length)
  data : Has f (off + 60) data

theorem Member.reads {f off ident data} (h : Member f off ident data) : Reads f off ident data := by
  obtain ⟨hd, rest, ⟨other, digits, ending, ho, he, hi, hdl, hdec, hv, rfl⟩, hf⟩ := h
  have hH : Has f off (ident ++ List.replicate (16 - ident.length) 32 ++ other ++
      (digits ++ List.replicate (10 - digits.length) 32) ++ ending ++ data) := ⟨rest, hf⟩
  have hlen : (ident ++ List.replicate (16 - ident.length) 32 ++ other ++
      (digits ++ List.replicate (10 - digits.length) 32) ++ ending).length = 60 := by
    simp only [List.length_append, List.length_replicate]; omega
  have hle := hH.le (by intro h'; have := congrArg List.length h'; rw [List.length_append, hlen] at this; simp at this)
  rw [List.length_append, hlen] at hle
  refine ⟨by omega, ⟨16 - ident.length, ?_⟩, ?_, hH.right' (by rw [hlen])⟩
  · have h1 := hH.left.left.left.left
    have hne : ident ++ List.replicate (16 - ident.length) 32 ≠ [] := by
      intro h'; have := congrArg List.length h'
      simp only [List.length_append, List.length_replicate, List.length_nil] at this; omega
    have h2 := h1.bytes hne
    have e : (ident ++ List.replicate (16 - ident.length) 32).length = 16 := by
      simp only [List.length_append, List.length_replicate]; omega
    rw [e] at h2; exact h2
  · have h1 : Has f (off + 48) (digits ++ List.replicate (10 - digits.length) 32) :=
      hH.left.left.right' (by simp only [List.length_append, List.length_replicate]; omega)
    have hne : digits ++ List.replicate (10 - digits.length) 32 ≠ [] := by
      intro h'; have := congrArg List.length h'
      simp only [List.length_append, List.length_replicate, List.length_nil] at this; omega
    have h2 := h1.bytes hne
    have e : (digits ++ List.replicate (10 - digits.length) 32).length = 10 := by
      simp only [List.length_append, List.length_replicate]; omega
    rw [e] at h2
    unfold sizeField
    rw [h2, Res.bind, strip_pad _ (fun c hc => by have := hdec.2 c hc; omega), digits_u64 hdec hdl, hv]

theorem strip_slash (n : Nat) : strip ([47] ++ List.replicate n 32) = [47] := strip_pad n (by decide)

/-! ## The order of names -/

theorem compare_zero {a b} (h : compareLex a b = 0) : a = b := by
  induction a generalizing b with
  | nil => cases b with
    | nil => rfl
    | cons _ _ => simp [compareLex] at h
  | cons x a ih => cases b with
    | nil => simp [compareLex] at h
    | cons y b =>
      unfold compareLex at h
      split at h
      · simp at h
      · split at h
        · simp at h
        · rw [ih h, show x = y by omega]

theorem compare_self (a) : compareLex a a = 0 := by
  induction a with
  | nil => rfl
  | cons x a ih => unfold compareLex; simp [ih]

theorem compare_before {a b} (h : Before a b) : compareLex a b = -1 ∧ compareLex b a = 1 := by
  induction h with
  | nil => exact ⟨rfl, rfl⟩
  | @head c d cs ds h =>
    unfold compareLex
    exact ⟨if_pos h, by rw [if_neg (by omega), if_pos h]⟩
  | tail _ ih => unfold compareLex; simpa using ih

theorem bsearch_sound (names name) (min max : Int) (i : Nat) (h0 : 0 ≤ min) (h1 : max < names.length)
    (h : bsearch names name min max = some i) : i < names.length ∧ names.getD i [] = name := by
  fun_induction bsearch names name min max with
  | case1 min max hc mid c hz =>
    have e : i = mid.toNat := (Option.some.inj h).symm
    have h2 : mid.toNat < names.length := by omega
    rw [e]
    exact ⟨h2, (compare_zero hz).symm⟩
  | case2 min max hc mid c hz hl ih => exact ih h0 (by omega) h
  | case3 min max hc mid c hz hl ih => exact ih (by omega) h1 h
  | case4 min max hc => cases h

theorem bsearch_complete (names name) (min max : Int) (i : Nat) (h0 : 0 ≤ min) (h1 : max < names.length)
    (hs : names.Pairwise Before) (hi : names[i]? = some name) (hlo : min ≤ i) (hhi : i ≤ max) :
    bsearch names name min max = some i := by
  have hpw := List.pairwise_iff_getElem.1 hs
  have hil : i < names.length := by omega
  have hin : names[i] = name := by rw [List.getElem?_eq_getElem hil] at hi; exact Option.some.inj hi
  fun_induction bsearch names name min max with
  | case1 min max hc mid c hz =>
    have h2 : mid.toNat < names.length := by omega
    have e := compare_zero hz
    rw [List.getD_eq_getElem?_getD, List.getElem?_eq_getElem h2, Option.getD_some] at e
    rcases Nat.lt_trichotomy i mid.toNat with hlt | heq | hgt
    · have := (compare_before (hpw i mid.toNat hil h2 hlt)).1
      rw [hin, ← e, compare_self] at this; cases this
    · rw [heq]
    · have := (compare_before (hpw mid.toNat i h2 hil hgt)).1
      rw [hin, ← e, compare_self] at this; cases this
  | case2 min max hc mid c hz hl ih =>
    have h2 : mid.toNat < names.length := by omega
    refine ih h0 (by omega) hlo ?_
    rcases Nat.lt_trichotomy i mid.toNat with hlt | heq | hgt
    · omega
    · exfalso; apply hz; show compareLex _ _ = 0
      rw [List.getD_eq_getElem?_getD, List.getElem?_eq_getElem h2, Option.getD_some]
      simp only [← heq, hin, compare_self]
    · exfalso
      have := (compare_before (hpw mid.toNat i h2 hil hgt)).2
      rw [hin] at this
      have e : c = 1 := by
        show compareLex _ _ = 1
        rw [List.getD_eq_getElem?_getD, List.getElem?_eq_getElem h2, Option.getD_some]; exact this
      omega
  | case3 min max hc mid c hz hl ih =>
    have h2 : mid.toNat < names.length := by omega
    refine ih (by omega) h1 ?_ hhi
    rcases Nat.lt_trichotomy i mid.toNat with hlt | heq | hgt
    · exfalso
      have := (compare_before (hpw i mid.toNat hil h2 hlt)).1
      rw [hin] at this
      have e : c = -1 := by
        show compareLex _ _ = -1
        rw [List.getD_eq_getElem?_getD, List.getElem?_eq_getElem h2, Option.getD_some]; exact this
      omega
    · exfalso; apply hz; show compareLex _ _ = 0
      rw [List.getD_eq_getElem?_getD, List.getElem?_eq_getElem h2, Option.getD_some]
      simp only [← heq, hin, compare_self]
    · omega
  | case4 min max hc => omega

/-! ## Bounds -/

theorem byteAt_ok {f i} (h : i < f.length) : byteAt f i = .ok f[i] := by
  unfold byteAt; rw [List.getElem?_eq_getElem h]

theorem u16At_ok {f i} (h : i + 2 ≤ f.length) : ∃ n, u16At f i = .ok n := by
  unfold u16At; rw [byteAt_ok (by omega), Res.bind, byteAt_ok (by omega)]; exact ⟨_, rfl⟩

theorem u32At_ok {f i} (h : i + 4 ≤ f.length) : ∃ n, u32At f i = .ok n := by
  unfold u32At
  obtain ⟨a, ha⟩ := u16At_ok (f := f) (i := i) (by omega)
  obtain ⟨b, hb⟩ := u16At_ok (f := f) (i := i + 2) (by omega)
  rw [ha, Res.bind, hb]; exact ⟨_, rfl⟩

theorem bytesAt_ok {f i n} (h : i + n ≤ f.length) : ∃ s, bytesAt f i n = .ok s := ⟨_, if_pos h⟩

theorem sizeField_ok {f p} (h : p + 60 ≤ f.length) : ∃ s, sizeField f p = .ok s := by
  unfold sizeField
  obtain ⟨s, hs⟩ := bytesAt_ok (f := f) (i := p + 48) (n := 10) (by omega)
  rw [hs]; exact ⟨_, rfl⟩

theorem cstring_ok {f i z} (hi : i ≤ z) (hz : f[z]? = some 0) : ∃ s, cstring f i = .ok s ∧ i + s.length ≤ z := by
  have hzl : z < f.length := by
    rcases Nat.lt_or_ge z f.length with h | h
    · exact h
    · rw [List.getElem?_eq_none h] at hz; cases hz
  obtain ⟨n, hn⟩ : ∃ n, n = z - i := ⟨_, rfl⟩
  induction n generalizing i with
  | zero =>
    have : i = z := by omega
    subst this
    rw [List.getElem?_eq_getElem hzl] at hz
    refine ⟨[], ?_, by simp⟩
    unfold cstring; rw [dif_pos hzl, if_pos (Option.some.inj hz)]
  | succ n ih =>
    have hil : i < f.length := by omega
    unfold cstring
    rw [dif_pos hil]
    split
    · exact ⟨[], rfl, by simpa using hi⟩
    · obtain ⟨s, hs, hle⟩ := ih (i := i + 1) (by omega) (by omega)
      rw [hs, Res.bind]
      exact ⟨_, rfl, by rw [List.length_cons]; omega⟩

theorem strings_ok {f it stop} (hz : f[stop - 1]? = some 0) : ∃ ss, strings f it stop = .ok ss := by
  obtain ⟨n, hn⟩ : ∃ n, n = stop - it := ⟨_, rfl⟩
  induction n using Nat.strongRecOn generalizing it with
  | _ n ih =>
    unfold strings
    split
    · rename_i h
      obtain ⟨s, hs, hle⟩ := cstring_ok (f := f) (i := it) (z := stop - 1) (by omega) hz
      rw [hs, Res.bind]
      obtain ⟨ss, hss⟩ := ih (stop - (it + (s.length + 1))) (by omega) rfl
      rw [hss, Res.bind]; exact ⟨_, rfl⟩
    · exact ⟨_, rfl⟩

theorem scan_bounds (f idx p le) (hle : ∀ b s, le = some (b, s) → b + s ≤ f.length) :
    scan f idx p le ≠ .oob ∧ ∀ b s, scan f idx p le = .ok (some (b, s)) → b + s ≤ f.length := by
  obtain ⟨n, hn⟩ : ∃ n, n = f.length - p := ⟨_, rfl⟩
  induction n using Nat.strongRecOn generalizing idx p le with
  | _ n ih =>
    unfold scan
    split
    · rename_i h
      obtain ⟨ident, hid⟩ := bytesAt_ok (f := f) (i := p) (n := 16) (by omega)
      obtain ⟨sz, hsz⟩ := sizeField_ok h
      rw [hid, Res.bind, hsz, Res.bind]
      cases sz with
      | none => exact ⟨(fun h => by cases h), (fun _ _ h => by cases h)⟩
      | some size =>
        dsimp only
        split
        · exact ⟨(fun h => by cases h), (fun _ _ h => by cases h)⟩
        · rename_i hsize
          split
          · exact ih _ (by omega) _ _ le hle rfl
          · split
            · refine ih (f.length - (p + 60 + (size + size % 2))) (by omega) _ _ _ ?_ rfl
              intro b s he
              have := Option.some.inj he
              have h1 : b = p + 60 := (congrArg Prod.fst this).symm
              have h2 : s = size := (congrArg Prod.snd this).symm
              omega
            · exact ⟨(fun h => by cases h), fun b s h => hle b s (by injection h)⟩
    · exact ⟨(fun h => by cases h), fun b s h => hle b s (by injection h)⟩

/-- What lookups rely on. -/
structure Sane (f : List Nat) (lib : Library) : Prop where
  offs : lib.memberOffsets + 4 * lib.members ≤ f.length
  idxs : lib.symbolMemberIndices + 2 * lib.names.length ≤ f.length

theorem parseIndex_bounds (f base size) (h : base + size ≤ f.length) :
    parseIndex f base size ≠ .oob ∧ ∀ lib, parseIndex f base size = .ok (some lib) → Sane f lib := by
  unfold parseIndex
  split
  · exact ⟨(fun h => by cases h), (fun _ h => by cases h)⟩
  rename_i h4
  rw [byteAt_ok (by omega), Res.bind]
  split
  · exact ⟨(fun h => by cases h), (fun _ h => by cases h)⟩
  rename_i hlast
  have hz : f[base + size - 1]? = some 0 := by
    rw [List.getElem?_eq_getElem (by omega)]; congr 1; exact Classical.not_not.1 hlast
  obtain ⟨members, hm⟩ := u32At_ok (f := f) (i := base) (by omega)
  rw [hm, Res.bind]
  split
  · exact ⟨(fun h => by cases h), (fun _ h => by cases h)⟩
  rename_i hmem
  obtain ⟨symbols, hs⟩ := u32At_ok (f := f) (i := base + 4 + 4 * members) (by omega)
  rw [hs, Res.bind]
  split
  · exact ⟨(fun h => by cases h), (fun _ h => by cases h)⟩
  dsimp only
  split
  · exact ⟨(fun h => by cases h), (fun _ h => by cases h)⟩
  rename_i hidx
  obtain ⟨ss, hss⟩ := strings_ok (f := f) (it := base + 4 + 4 * members + 4 + 2 * symbols) (stop := base + size) hz
  rw [hss, Res.bind]
  split
  · exact ⟨(fun h => by cases h), (fun _ h => by cases h)⟩
  rename_i hcount
  refine ⟨(fun h => by cases h), fun lib hl => ?_⟩
  injection hl with hl
  have hl := Option.some.inj hl
  subst hl
  exact ⟨by dsimp only; omega, by dsimp only; omega⟩

end Verif.Archive
