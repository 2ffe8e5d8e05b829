import Verif.Lemmas.ImageLayout

/-!
# Lemmas: what the loader makes of the file
-/
namespace Verif.Lemmas.Image
open Verif.Model.Image Verif.Model.BaseReloc Verif.Spec.Image

theorem number_shift {m m' : Nat → Nat} : (n a b : Nat) → (∀ i, i < n → m (a + i) = m' (b + i)) → number m n a = number m' n b
  | 0, _, _, _ => rfl
  | n + 1, a, b, h => by
    rw [number, number, number_shift n (a + 1) (b + 1) (fun i hi => by
      rw [show a + 1 + i = a + (i + 1) by omega, show b + 1 + i = b + (i + 1) by omega]; exact h (i + 1) (by omega))]
    have := h 0 (by omega)
    rw [Nat.add_zero, Nat.add_zero] at this
    rw [this]

theorem number_congr {m m' : Nat → Nat} (n a : Nat) (h : ∀ i, i < n → m (a + i) = m' (a + i)) : number m n a = number m' n a :=
  number_shift n a a h

theorem holds_append {m : Nat → Nat} {a : Nat} {x y : List Nat} : Holds m a (x ++ y) ↔ Holds m a x ∧ Holds m (a + x.length) y := by
  refine ⟨fun h => ⟨fun i hi => ?_, fun i hi => ?_⟩, fun h i hi => ?_⟩
  · rw [h i (by rw [List.length_append]; omega), List.getElem_append_left hi]
  · rw [Nat.add_assoc, h (x.length + i) (by rw [List.length_append]; omega), List.getElem_append_right (by omega)]
    congr 1; omega
  · by_cases hx : i < x.length
    · rw [List.getElem_append_left hx]; exact h.1 i hx
    · rw [List.getElem_append_right (by omega), ← h.2 (i - x.length) (by rw [List.length_append] at hi; omega)]
      congr 1; omega

theorem number_u16 {m : Nat → Nat} {a v : Nat} (h : Holds m a (u16 v)) (hv : v < 2 ^ 16) : number m 2 a = v := by
  have h0 := h 0 (by show 0 < 2; omega)
  have h1 := h 1 (by show 1 < 2; omega)
  simp only [number]
  rw [← Nat.add_zero a, h0, show a + 0 + 1 = a + 1 by omega, h1]
  show v % 256 + 256 * (v / 256 % 256 + 256 * 0) = v
  omega

theorem number_u32 {m : Nat → Nat} {a v : Nat} (h : Holds m a (u32 v)) (hv : v < 2 ^ 32) : number m 4 a = v := by
  have h0 := h 0 (by show 0 < 4; omega)
  have h1 := h 1 (by show 1 < 4; omega)
  have h2 := h 2 (by show 2 < 4; omega)
  have h3 := h 3 (by show 3 < 4; omega)
  simp only [number]
  rw [← Nat.add_zero a, h0, show a + 0 + 1 = a + 1 by omega, h1, show a + 1 + 1 = a + 2 by omega, h2, show a + 2 + 1 = a + 3 by omega, h3]
  show v % 256 + 256 * (v / 256 % 256 + 256 * (v / 65536 % 256 + 256 * (v / 16777216 % 256 + 256 * 0))) = v
  omega

theorem number_add (m : Nat → Nat) : (n k a : Nat) → number m (n + k) a = number m n a + 256 ^ n * number m k (a + n)
  | 0, k, a => by rw [Nat.zero_add, number, Nat.pow_zero, Nat.one_mul, Nat.zero_add, Nat.add_zero]
  | n + 1, k, a => by
    rw [show n + 1 + k = (n + k) + 1 by omega, number, number, number_add m n k (a + 1), Nat.pow_succ, show a + 1 + n = a + (n + 1) by omega,
      Nat.mul_add, Nat.add_assoc, ← Nat.mul_assoc, Nat.mul_comm 256 (256 ^ n)]

theorem number_u64 {m : Nat → Nat} {a v : Nat} (h : Holds m a (u64 v)) (hv : v < 2 ^ 64) : number m 8 a = v := by
  obtain ⟨h1, h2⟩ := holds_append.1 (show Holds m a (u32 (v % 2 ^ 32) ++ u32 (v / 2 ^ 32)) from h)
  rw [number_add m 4 4 a, number_u32 h1 (by omega), number_u32 (a := a + 4) h2 (by omega)]
  show v % 2 ^ 32 + 256 ^ 4 * (v / 2 ^ 32) = v
  omega

/-- Two writes do not overlap. -/
def Apart (w v : Write) : Prop := w.key = v.key → w.offset + w.bytes.length ≤ v.offset ∨ v.offset + v.bytes.length ≤ w.offset

theorem content_append (k : Key) : (a b : List Write) → (bytes : List Nat) → content (a ++ b) k bytes = content b k (content a k bytes)
  | [], _, _ => rfl
  | w :: a, b, bytes => by rw [List.cons_append, content, content, content_append k a b]

theorem content_keeps (l : List Placed) (hd : (l.map (·.key)).Pairwise Distinct) {x : Placed} (hx : x ∈ l) {k : Key} (hk : x.key = some k)
    (i : Nat) (ws : List Write) (hw : ∀ w ∈ ws, Fits l w) (hi : ∀ w ∈ ws, w.key = k → i < w.offset ∨ w.offset + w.bytes.length ≤ i) :
    ∀ c : List Nat, c.length = x.bytes.length → (content ws k c)[i]? = c[i]? := by
  induction ws with
  | nil => intro c _; rfl
  | cons w ws ih =>
    intro c hc
    rw [content]
    have hfit := hw w List.mem_cons_self
    have hi' := hi w List.mem_cons_self
    split
    · next he =>
      obtain ⟨y, hy, hky, hl⟩ := hfit
      rw [he] at hky
      rw [same_key hd hy hx hky hk] at hl
      rw [ih (fun v hv => hw v (List.mem_cons_of_mem _ hv)) (fun v hv => hi v (List.mem_cons_of_mem _ hv)) _
        (by rw [poke_length (by omega), hc]), poke_get (by omega)]
      have := hi' he
      split
      · rfl
      · rw [if_neg (by omega)]
    · exact ih (fun v hv => hw v (List.mem_cons_of_mem _ hv)) (fun v hv => hi v (List.mem_cons_of_mem _ hv)) _ hc

theorem content_last (l : List Placed) (hd : (l.map (·.key)).Pairwise Distinct) {x : Placed} (hx : x ∈ l) {w : Write} (hk : x.key = some w.key)
    (a b : List Write) (ha : ∀ v ∈ a, Fits l v) (hwf : w.offset + w.bytes.length ≤ x.bytes.length) (hb : ∀ v ∈ b, Fits l v) (hap : ∀ v ∈ b, Apart w v) :
    At (content (a ++ w :: b) w.key x.bytes) w.offset w.bytes := by
  intro i hi
  have h1 := content_length l hd hx hk a ha x.bytes rfl
  rw [content_append, content, if_pos rfl, content_keeps l hd hx hk (w.offset + i) b hb ?_ _ (by rw [poke_length (by omega), h1]),
    poke_get (by omega), if_neg (by omega), if_pos (by omega)]
  · congr 1; omega
  · intro v hv he
    have := hap v hv he.symm
    omega

/-- The entry of the table of sections. -/
def toSection (h : Header) : Section := ⟨h.va, h.size, h.raw, h.ptr⟩

theorem consecutive_append {l₁ l₂ : List Section} : ∀ {a b c : Nat}, Consecutive a l₁ b → Consecutive b l₂ c → Consecutive a (l₁ ++ l₂) c := by
  induction l₁ with
  | nil => intro a b c h1 h2; rw [show a = b from h1]; exact h2
  | cons s l₁ ih => intro a b c h1 h2; exact ⟨h1.1, h1.2.1, h1.2.2.1, ih h1.2.2.2 h2⟩

theorem consecutive_header (name : List Nat) (c : Cursor) (hc : Cursor.Good c) (b : List Nat) (f : Nat) :
    Consecutive c.va ((Model.Image.header name c b f).map toSection) (c.after b.length).va := by
  unfold Model.Image.header
  split
  · next h =>
    rw [h]
    show c.va = alignUp (c.va + 0) 0x1000
    rw [Nat.add_zero, alignUp_self (by omega) hc.2]
  · next h =>
    refine ⟨rfl, hc.2, ?_, rfl⟩
    show 0 < b.length
    cases b with
    | nil => exact absurd rfl h
    | cons _ _ => exact Nat.succ_pos _

theorem consecutive_sections (p : Program) : Consecutive 4096 ((sectionHeaders p).map toSection) (endCursor p).va := by
  unfold sectionHeaders
  simp only [List.map_append]
  refine consecutive_append (consecutive_append (consecutive_append (consecutive_append (consecutive_append
    (b := (bssCursor p).va) ?_ ?_) (consecutive_header _ _ (rdataCursor_good p) _ _))
    (consecutive_header _ _ (dataCursor_good p) _ _)) (consecutive_header _ _ (relocCursor_good p) _ _)) (consecutive_header _ _ (pdataCursor_good p) _ _)
  · have := consecutive_header [46, 116, 101, 120, 116, 0, 0, 0] textCursor textCursor_good (textBytes p) 0x60000020
    rw [textCursor_eq] at this ⊢
    exact this
  · unfold bssHeader
    split
    · next h =>
      show (bssCursor p).va = (bssCursor p).va + bssSize p
      omega
    · next h =>
      refine ⟨rfl, (bssCursor_good p).2, ?_, ?_⟩
      · show 0 < bssSize p; omega
      · show ((bssCursor p).va + bssSize p + 0xfff) / 0x1000 * 0x1000 = (bssCursor p).va + bssSize p
        have := (rdataCursor_good p).2
        have e : (rdataCursor p).va = (bssCursor p).va + bssSize p := rfl
        omega

theorem consecutive_le {l : List Section} : ∀ {a b : Nat}, Consecutive a l b → a ≤ b := by
  induction l with
  | nil => intro a b h; exact Nat.le_of_eq h
  | cons s l ih => intro a b h; have := ih h.2.2.2; omega

theorem consecutive_bound {l : List Section} : ∀ {a b : Nat}, Consecutive a l b → ∀ s ∈ l, a ≤ s.address ∧ s.address + s.size ≤ b := by
  induction l with
  | nil => intro a b _ s hs; cases hs
  | cons t l ih =>
    intro a b h s hs
    have h1 := consecutive_le h.2.2.2
    rcases List.mem_cons.1 hs with rfl | hs
    · have := h.1; omega
    · have := ih h.2.2.2 s hs
      omega

/-- The section of an address is found. -/
theorem find_section {l : List Section} : ∀ {a b : Nat}, Consecutive a l b → ∀ s ∈ l, ∀ x, s.address ≤ x → x < s.address + s.size →
    l.find? (fun s => s.address ≤ x && x < s.address + s.size) = some s := by
  induction l with
  | nil => intro a b _ s hs; cases hs
  | cons t l ih =>
    intro a b h s hs x h1 h2
    rcases List.mem_cons.1 hs with rfl | hs
    · rw [List.find?_cons_of_pos (by simp only [Bool.and_eq_true, decide_eq_true_eq]; exact ⟨h1, h2⟩)]
    · have := (consecutive_bound h.2.2.2 s hs).1
      have e := h.1
      rw [List.find?_cons_of_neg]
      · exact ih h.2.2.2 s hs x h1 h2
      · simp only [Bool.and_eq_true, decide_eq_true_eq]; omega

theorem header_mem {name : List Nat} {c : Cursor} {b : List Nat} {f : Nat} {h : Header} (hh : h ∈ Model.Image.header name c b f) :
    h = ⟨name, b.length, c.va, alignUp (c.file + b.length) 0x200 - c.file, c.file, f⟩ ∧ b ≠ [] := by
  unfold Model.Image.header at hh
  split at hh
  · cases hh
  · next hb => exact ⟨List.mem_singleton.1 hh, hb⟩

theorem mem_header (name : List Nat) (c : Cursor) (b : List Nat) (f : Nat) (hb : b ≠ []) :
    ⟨name, b.length, c.va, alignUp (c.file + b.length) 0x200 - c.file, c.file, f⟩ ∈ Model.Image.header name c b f := by
  unfold Model.Image.header; rw [if_neg hb]; exact List.mem_singleton.2 rfl

/-- A region that is not empty has an entry. -/
theorem region_header (p : Program) : ∀ r ∈ regions p, r.bytes ≠ [] → ∃ name f,
    (⟨name, r.bytes.length, r.c.va, alignUp (r.c.file + r.bytes.length) 0x200 - r.c.file, r.c.file, f⟩ : Header) ∈ sectionHeaders p := by
  intro r hr hb
  unfold regions at hr
  simp only [List.mem_cons, List.not_mem_nil, or_false] at hr
  unfold sectionHeaders
  simp only [List.mem_append]
  rcases hr with rfl | rfl | rfl | rfl | rfl
  · exact ⟨_, _, .inl (.inl (.inl (.inl (.inl (mem_header _ _ _ _ hb)))))⟩
  · exact ⟨_, _, .inl (.inl (.inl (.inr (mem_header _ _ _ _ hb))))⟩
  · exact ⟨_, _, .inl (.inl (.inr (mem_header _ _ _ _ hb)))⟩
  · exact ⟨_, _, .inl (.inr (mem_header _ _ _ _ hb))⟩
  · exact ⟨_, _, .inr (mem_header _ _ _ _ hb)⟩

/-- Every entry is for a region or for `.bss`. -/
theorem header_region (p : Program) : ∀ h ∈ sectionHeaders p, h.raw = 0 ∧ h.ptr = 0 ∨
    ∃ r ∈ regions p, r.bytes ≠ [] ∧ h.size = r.bytes.length ∧ h.va = r.c.va ∧ h.raw = alignUp (r.c.file + r.bytes.length) 0x200 - r.c.file ∧ h.ptr = r.c.file := by
  intro h hh
  unfold sectionHeaders at hh
  simp only [List.mem_append] at hh
  have key : ∀ r ∈ regions p, ∀ name f, h ∈ Model.Image.header name r.c r.bytes f → ∃ r ∈ regions p, r.bytes ≠ [] ∧ h.size = r.bytes.length ∧
      h.va = r.c.va ∧ h.raw = alignUp (r.c.file + r.bytes.length) 0x200 - r.c.file ∧ h.ptr = r.c.file := by
    intro r hr name f hm
    obtain ⟨e, hb⟩ := header_mem hm
    exact ⟨r, hr, hb, by rw [e], by rw [e], by rw [e], by rw [e]⟩
  rcases hh with ((((hh | hh) | hh) | hh) | hh) | hh
  · exact .inr (key ⟨textCursor, textPushes p⟩ (by simp [regions]) _ _ hh)
  · left
    unfold bssHeader at hh
    split at hh
    · cases hh
    · rw [List.mem_singleton] at hh; rw [hh]; exact ⟨rfl, rfl⟩
  · exact .inr (key ⟨rdataCursor p, rdataPushes p⟩ (by simp [regions]) _ _ hh)
  · exact .inr (key ⟨dataCursor p, dataPushes p⟩ (by simp [regions]) _ _ hh)
  · exact .inr (key ⟨relocCursor p, relocPushes p⟩ (by simp [regions]) _ _ hh)
  · exact .inr (key ⟨pdataCursor p, pdataPushes p⟩ (by simp [regions]) _ _ hh)

end Verif.Lemmas.Image
