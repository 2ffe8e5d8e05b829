import Verif.Spec.BaseReloc
import Verif.Model.BaseReloc

/-!
# C75: the loader relocates exactly the addresses in the image
-/
namespace Verif.Props.BaseReloc
open Verif.Spec.BaseReloc Verif.Model.BaseReloc

/-- The addresses in blocks. -/
def addresses (bs : List Block) : List Nat := bs.flatMap (fun b => b.offsets.map (b.page + ·))

theorem or_kind {o : Nat} (h : o < 4096) : 10 * 2 ^ 12 ||| o = 40960 + o := by
  rw [Nat.mul_comm, ← Nat.two_pow_add_eq_or_of_lt (i := 12) (b := o) h 10]

theorem number_u32 {v : Nat} (hv : v < 2 ^ 32) (rest : List Nat) : number 4 (u32 v ++ rest) = v := by
  show v % 256 + 256 * (v / 256 % 256 + 256 * (v / 65536 % 256 + 256 * (v / 16777216 % 256 + 256 * 0))) = v
  omega

theorem entries_offsets (page : Nat) (pad : List Nat) (hp : entries page pad = some []) : (os : List Nat) → (∀ o ∈ os, o < 4096) →
    entries page (os.flatMap (fun o => u16 (10 * 2 ^ 12 ||| o)) ++ pad) = some (os.map (page + ·))
  | [], _ => hp
  | o :: os, h => by
    have ho := h o List.mem_cons_self
    have ih := entries_offsets page pad hp os (fun o ho => h o (List.mem_cons_of_mem _ ho))
    rw [List.flatMap_cons, or_kind ho]
    show entries page ((40960 + o) % 256 :: (40960 + o) / 256 % 256 ::
      (os.flatMap (fun o => u16 (10 * 2 ^ 12 ||| o)) ++ pad)) = _
    rw [entries, ih]
    have e : (40960 + o) % 256 + 256 * ((40960 + o) / 256 % 256) = 40960 + o := by omega
    rw [e]
    have e1 : (40960 + o) / 4096 = 10 := by omega
    have e2 : (40960 + o) % 4096 = o := by omega
    simp only [e1, e2, List.map_cons]

/-- Blocks that can be written. -/
def Good (b : Block) : Prop := b.page < 2 ^ 32 ∧ (∀ o ∈ b.offsets, o < 4096) ∧ b.offsets.length < 2 ^ 31 - 8

theorem length_offsets (os : List Nat) : (os.flatMap (fun o => u16 (10 * 2 ^ 12 ||| o))).length = 2 * os.length := by
  induction os with
  | nil => rfl
  | cons o os ih =>
    rw [List.flatMap_cons, List.length_append, ih, List.length_cons]
    show 2 + _ = _
    omega

theorem table_cons (b : Block) (hb : Good b) (rest : List Nat) {l : List Nat} (hr : table rest = some l) :
    table (writeBlock b ++ rest) = some (b.offsets.map (b.page + ·) ++ l) := by
  obtain ⟨hp, ho, hl⟩ := hb
  obtain ⟨n, hn⟩ : ∃ n, n = (if b.offsets.length % 2 = 1 then b.offsets.length + 1 else b.offsets.length) := ⟨_, rfl⟩
  obtain ⟨pad, hpad⟩ : ∃ pad, pad = (if b.offsets.length % 2 = 1 then u16 0 else []) := ⟨_, rfl⟩
  obtain ⟨body, hbody⟩ : ∃ body, body = b.offsets.flatMap (fun o => u16 (10 * 2 ^ 12 ||| o)) ++ pad := ⟨_, rfl⟩
  have hpe : entries b.page pad = some [] := by
    rw [hpad]; split
    · show entries b.page [0, 0] = _
      simp [entries]
    · simp [entries]
  have hlen : body.length = n * 2 := by
    rw [hbody, List.length_append, length_offsets, hpad, hn]
    split
    · show 2 * b.offsets.length + 2 = _
      omega
    · show 2 * b.offsets.length + 0 = _
      omega
  have hmod : n % 2 = 0 := by rw [hn]; split <;> omega
  have hnl : n ≤ b.offsets.length + 1 := by rw [hn]; split <;> omega
  have hw : writeBlock b ++ rest = u32 b.page ++ (u32 (n * 2 + 8) ++ (body ++ rest)) := by
    unfold writeBlock
    simp only []
    rw [← hpad, ← hn, hbody]
    simp only [List.append_assoc]
  have hdrop4 : (u32 b.page ++ (u32 (n * 2 + 8) ++ (body ++ rest))).drop 4 = u32 (n * 2 + 8) ++ (body ++ rest) := rfl
  have hne : u32 b.page ++ (u32 (n * 2 + 8) ++ (body ++ rest)) ≠ [] := by simp [u32]
  have htot : (u32 b.page ++ (u32 (n * 2 + 8) ++ (body ++ rest))).length = n * 2 + 8 + rest.length := by
    rw [List.length_append, List.length_append, List.length_append, hlen]
    show 4 + (4 + _) = _
    omega
  have htake : ((u32 b.page ++ (u32 (n * 2 + 8) ++ (body ++ rest))).take (n * 2 + 8)).drop 8 = body := by
    rw [List.drop_take]
    show (body ++ rest).take (n * 2 + 8 - 8) = body
    rw [Nat.add_sub_cancel, ← hlen, List.take_left']
    rfl
  have hdrop : (u32 b.page ++ (u32 (n * 2 + 8) ++ (body ++ rest))).drop (n * 2 + 8) = rest := by
    rw [show n * 2 + 8 = 8 + n * 2 by omega, ← List.drop_drop]
    show (body ++ rest).drop (n * 2) = rest
    rw [← hlen, List.drop_left']
    rfl
  rw [hw, table, dif_neg hne]
  simp only [hdrop4, number_u32 hp, number_u32 (show n * 2 + 8 < 2 ^ 32 by omega)]
  rw [dif_pos ⟨by omega, by omega, by omega⟩, htake, hdrop, hr, hbody, entries_offsets b.page pad hpe b.offsets ho]

/-- What is written can be read. -/
theorem table_write : (bs : List Block) → (∀ b ∈ bs, Good b) → table (write bs) = some (addresses bs)
  | [], _ => by unfold write; rw [List.flatMap_nil, table]; rfl
  | b :: bs, h => by
    have ih := table_write bs (fun c hc => h c (List.mem_cons_of_mem _ hc))
    have := table_cons b (h b List.mem_cons_self) (write bs) ih
    unfold write at this ⊢
    rw [List.flatMap_cons, this]
    unfold addresses
    rw [List.flatMap_cons]

theorem record_perm (page offset : Nat) : (bs : List Block) →
    (addresses (record page offset bs)).Perm ((page + offset) :: addresses bs)
  | [] => by simp [record, addresses]
  | b :: bs => by
    rw [record]
    split
    · rename_i hb
      unfold addresses
      rw [List.flatMap_cons, List.flatMap_cons]
      simp only [List.map_append, List.map_cons, List.map_nil, hb]
      have := (List.perm_append_comm (l₁ := b.offsets.map (page + ·)) (l₂ := [page + offset])).append_right
        (bs.flatMap (fun b => b.offsets.map (b.page + ·)))
      simpa using this
    · have ih := record_perm page offset bs
      unfold addresses at ih ⊢
      rw [List.flatMap_cons, List.flatMap_cons]
      exact (ih.append_left _).trans List.perm_middle

theorem relocate_perm (bs : List Block) (rva : Nat) : (addresses (relocate bs rva)).Perm (rva :: addresses bs) := by
  have := record_perm (rva / 2 ^ 12 * 2 ^ 12) (rva % 2 ^ 12) bs
  rwa [show rva / 2 ^ 12 * 2 ^ 12 + rva % 2 ^ 12 = rva by omega] at this

theorem foldl_perm : (ps : List Nat) → ∀ bs, (addresses (ps.foldl relocate bs)).Perm (addresses bs ++ ps)
  | [], bs => by rw [List.append_nil]; exact .refl _
  | p :: ps, bs => by
    rw [List.foldl_cons]
    refine (foldl_perm ps (relocate bs p)).trans ?_
    refine ((relocate_perm bs p).append_right ps).trans ?_
    exact List.perm_middle.symm

/-- A bound on the number of offsets in a block. -/
def Fine (n : Nat) (b : Block) : Prop := b.page < 2 ^ 32 ∧ (∀ o ∈ b.offsets, o < 4096) ∧ b.offsets.length ≤ n

theorem fine_mono {n m b} (h : Fine n b) (hn : n ≤ m) : Fine m b := ⟨h.1, h.2.1, Nat.le_trans h.2.2 hn⟩

theorem record_fine {n page offset : Nat} (hp : page < 2 ^ 32) (ho : offset < 4096) : (bs : List Block) → (∀ b ∈ bs, Fine n b) →
    ∀ b ∈ record page offset bs, Fine (n + 1) b
  | [], _, b, hb => by
    rw [record, List.mem_singleton] at hb
    subst hb
    exact ⟨hp, by simp [ho], by simp⟩
  | c :: bs, h, b, hb => by
    rw [record] at hb
    split at hb
    · rcases List.mem_cons.1 hb with rfl | hb
      · obtain ⟨h1, h2, h3⟩ := h c List.mem_cons_self
        refine ⟨h1, fun o hom => ?_, ?_⟩
        · rcases List.mem_append.1 hom with hom | hom
          · exact h2 o hom
          · rw [List.mem_singleton] at hom; omega
        · simp only [List.length_append, List.length_cons, List.length_nil]; omega
      · exact fine_mono (h b (List.mem_cons_of_mem _ hb)) (by omega)
    · rcases List.mem_cons.1 hb with rfl | hb
      · exact fine_mono (h _ List.mem_cons_self) (by omega)
      · exact record_fine hp ho bs (fun d hd => h d (List.mem_cons_of_mem _ hd)) b hb

theorem foldl_fine : (ps : List Nat) → ∀ n bs, (∀ b ∈ bs, Fine n b) → (∀ p ∈ ps, p < 2 ^ 32) →
    ∀ b ∈ ps.foldl relocate bs, Fine (n + ps.length) b
  | [], n, bs, h, _, b, hb => h b hb
  | p :: ps, n, bs, h, hp, b, hb => by
    rw [List.foldl_cons] at hb
    have hpp := hp p List.mem_cons_self
    have := foldl_fine ps (n + 1) (relocate bs p)
      (record_fine (by omega) (Nat.mod_lt _ (by decide)) bs h)
      (fun q hq => hp q (List.mem_cons_of_mem _ hq)) b hb
    exact fine_mono this (by rw [List.length_cons]; omega)

/-- The places of the addresses in the directory of thread local storage. -/
def tlsPlaces : Option Nat → List Nat
  | none => []
  | some rva => [rva, rva + 8, rva + 16, rva + 24]

/-- **C75.** The loader accepts the table the compiler writes, and it relocates each place for which there is an absolute patch as often as there are
patches for it, and the four addresses for thread local storage, and nothing else, for every image of less than 4 GB. -/
theorem C75_relocations (tls : Option Nat) (patches : List Nat) (htls : ∀ r, tls = some r → r % 64 = 0 ∧ r < 2 ^ 32)
    (hp : ∀ p ∈ patches, p < 2 ^ 32) (hl : patches.length < 2 ^ 30) :
    ∃ l, table (write (blocks tls patches)) = some l ∧ l.Perm (tlsPlaces tls ++ patches) := by
  refine ⟨addresses (blocks tls patches), table_write _ (fun b hb => ?_), ?_⟩
  · unfold blocks at hb
    have := foldl_fine patches 4 _ (fun b hb => ?_) hp b hb
    · exact ⟨this.1, this.2.1, by have := this.2.2; omega⟩
    · cases tls with
      | none => cases hb
      | some r =>
        obtain ⟨h1, h2⟩ := htls r rfl
        have hb : b ∈ [tlsBlock r] := hb
        rw [List.mem_singleton] at hb
        subst hb
        refine ⟨by show r / 2 ^ 12 * 2 ^ 12 < 2 ^ 32; omega, fun o ho => ?_, by simp [tlsBlock]⟩
        obtain ⟨i, hi, rfl⟩ := List.mem_map.1 ho
        rw [List.mem_range] at hi
        omega
  · refine (foldl_perm patches _).trans (List.Perm.append_right patches ?_)
    cases tls with
    | none => exact .refl _
    | some r =>
      show (addresses [tlsBlock r]).Perm _
      have : addresses [tlsBlock r] = [r, r + 8, r + 16, r + 24] := by
        show [r / 2 ^ 12 * 2 ^ 12 + (r % 2 ^ 12 + 0 * 8), r / 2 ^ 12 * 2 ^ 12 + (r % 2 ^ 12 + 1 * 8),
          r / 2 ^ 12 * 2 ^ 12 + (r % 2 ^ 12 + 2 * 8), r / 2 ^ 12 * 2 ^ 12 + (r % 2 ^ 12 + 3 * 8)] = _
        simp only [List.cons.injEq, and_true]
        omega
      rw [this]
      exact .refl _

/-- Patches on two pages, one of them twice as far as the other, and thread local storage. -/
example : ∃ l, table (write (blocks (some 0x2040) [0x3ff8, 0x3000, 0x2010, 0x4004])) = some l ∧
    l.Perm (tlsPlaces (some 0x2040) ++ [0x3ff8, 0x3000, 0x2010, 0x4004]) :=
  C75_relocations _ _ (by simp) (by simp) (by simp)

/-- The bytes for one patch: there is padding. -/
example : write (blocks none [0x3010]) = [0, 0x30, 0, 0, 12, 0, 0, 0, 0x10, 0xa0, 0, 0] := by decide

end Verif.Props.BaseReloc
