import Verif.Model.Jump

/-!
# C35: jumps land at their labels
-/
namespace Verif.Props.Jump
open Verif.Jump

/-- Encoded size of an item. -/
def itemSize : Item → Nat
  | .bytes bs => bs.length
  | .jump _ none => 5
  | .jump _ (some _) => 6
  | .label _ => 0

/-- The address of whatever follows `items`. -/
def addr (items : List Item) : Nat := (items.map itemSize).sum

/-- The bytes of `code` from `p` on, `n` of them. -/
def slice (code : List Nat) (p n : Nat) : List Nat := (code.drop p).take n

/-- The signed 32-bit little endian number at the start of the list. -/
def rel32 : List Nat → Option Int
  | [a, b, c, d] =>
    let u := a + 256 * b + 65536 * c + 16777216 * d
    some (if u < 2 ^ 31 then u else (u : Int) - 2 ^ 32)
  | _ => none

/-! ## Lemmas -/

theorem rel32_s32Bytes (v : Int) (h1 : -(2 ^ 31) ≤ v) (h2 : v < 2 ^ 31) : rel32 (s32Bytes v) = some v := by
  simp only [s32Bytes, rel32]
  have : (v % 2 ^ 32).toNat % 256 + 256 * ((v % 2 ^ 32).toNat / 256 % 256) + 65536 * ((v % 2 ^ 32).toNat / 65536 % 256) + 16777216 * ((v % 2 ^ 32).toNat / 16777216 % 256) = (v % 2 ^ 32).toNat := by omega
  rw [this]
  congr 1
  split <;> omega

theorem s32Bytes_length (v : Int) : (s32Bytes v).length = 4 := rfl

theorem overwrite_length (code : List Nat) (p : Nat) (bs : List Nat) (h : p + bs.length ≤ code.length) :
    (overwrite code p bs).length = code.length := by
  simp only [overwrite, List.length_append, List.length_take, List.length_drop]; omega

theorem slice_overwrite_same (code : List Nat) (p : Nat) (bs : List Nat) (h : p + bs.length ≤ code.length) :
    slice (overwrite code p bs) p bs.length = bs := by
  simp only [slice, overwrite]
  have h1 : (List.take p code).length = p := by simp; omega
  rw [List.append_assoc, List.drop_append_of_le_length (by omega), List.drop_eq_nil_of_le (by omega)]
  simp

theorem slice_overwrite_disjoint (code : List Nat) (p : Nat) (bs : List Nat) (h : p + bs.length ≤ code.length) (q n : Nat)
    (hd : q + n ≤ p ∨ p + bs.length ≤ q) : slice (overwrite code p bs) q n = slice code q n := by
  apply List.ext_getElem?
  intro i
  simp only [slice, overwrite, List.getElem?_take, List.getElem?_drop]
  split
  · rename_i hi
    rw [List.append_assoc]
    simp only [List.getElem?_append, List.length_take, List.getElem?_take, List.getElem?_drop]
    rw [Nat.min_eq_left (by omega)]
    rcases hd with hd | hd
    · rw [if_pos (by omega), if_pos (by omega)]
    · rw [if_neg (by omega), if_neg (by omega)]
      congr 1; omega
  · rfl

/-- A patch: a position and four bytes. -/
abbrev Patch := Nat × List Nat

def applyAll (code : List Nat) (ps : List Patch) : List Nat := ps.foldl (fun c p => overwrite c p.1 p.2) code

theorem applyAll_length (ps : List Patch) : ∀ (code : List Nat), (∀ p ∈ ps, p.1 + p.2.length ≤ code.length) →
    (applyAll code ps).length = code.length := by
  induction ps with
  | nil => intro code _; rfl
  | cons p ps ih =>
    intro code h
    have h1 := overwrite_length code p.1 p.2 (h p (by simp))
    show (applyAll (overwrite code p.1 p.2) ps).length = _
    rw [ih _ (fun q hq => by rw [h1]; exact h q (by simp [hq])), h1]

theorem applyAll_disjoint (ps : List Patch) (q n : Nat) : ∀ (code : List Nat), (∀ p ∈ ps, p.1 + p.2.length ≤ code.length) →
    (∀ p ∈ ps, q + n ≤ p.1 ∨ p.1 + p.2.length ≤ q) → slice (applyAll code ps) q n = slice code q n := by
  induction ps with
  | nil => intro code _ _; rfl
  | cons p ps ih =>
    intro code h hd
    have h1 := overwrite_length code p.1 p.2 (h p (by simp))
    show slice (applyAll (overwrite code p.1 p.2) ps) q n = _
    rw [ih _ (fun q hq => by rw [h1]; exact h q (by simp [hq])) (fun r hr => hd r (by simp [hr]))]
    exact slice_overwrite_disjoint code p.1 p.2 (h p (by simp)) q n (hd p (by simp))

theorem applyAll_mem (ps : List Patch) (p : Patch) : ∀ (code : List Nat), (∀ p ∈ ps, p.1 + p.2.length ≤ code.length) → p ∈ ps →
    (∀ q ∈ ps, q = p ∨ p.1 + p.2.length ≤ q.1 ∨ q.1 + q.2.length ≤ p.1) → slice (applyAll code ps) p.1 p.2.length = p.2 := by
  induction ps with
  | nil => intro code _ h; cases h
  | cons a ps ih =>
    intro code h hp hd
    have h1 := overwrite_length code a.1 a.2 (h a (by simp))
    have h2 : ∀ q ∈ ps, q.1 + q.2.length ≤ (overwrite code a.1 a.2).length := fun q hq => by rw [h1]; exact h q (by simp [hq])
    show slice (applyAll (overwrite code a.1 a.2) ps) p.1 p.2.length = _
    by_cases hm : p ∈ ps
    · exact ih _ h2 hm (fun q hq => hd q (by simp [hq]))
    · have : p = a := by simpa [hm] using hp
      subst this
      rw [applyAll_disjoint ps _ _ _ h2 (fun q hq => by
        rcases hd q (by simp [hq]) with rfl | h | h
        · exact absurd hq hm
        · exact Or.inl h
        · exact Or.inr h)]
      exact slice_overwrite_same code p.1 p.2 (h p (by simp))

/-- The patches of all labels. -/
def patches (st : State) (n : Nat) : List Patch :=
  (List.range n).flatMap fun l => (st.jumps l).map fun nd => (nd.patch, s32Bytes ((st.loc l : Int) - nd.jumpFrom))

theorem assemble_eq (n : Nat) (items : List Item) :
    assemble n items = applyAll (items.foldl emitItem init).code (patches (items.foldl emitItem init) n) := by
  simp only [assemble]
  generalize items.foldl emitItem init = st
  unfold patches applyAll
  generalize st.code = code
  generalize List.range n = ls
  induction ls generalizing code with
  | nil => rfl
  | cons l ls ih =>
    rw [List.foldl_cons, ih, List.flatMap_cons, List.foldl_append]
    congr 1
    unfold endJumps
    rw [List.foldl_map]
    rfl

theorem append_one_split {α : Type} (xs : List α) (y : α) (pre : List α) (x : α) (post : List α) (h : xs ++ [y] = pre ++ x :: post) :
    (∃ post', post = post' ++ [y] ∧ xs = pre ++ x :: post') ∨ (post = [] ∧ x = y ∧ pre = xs) := by
  rcases List.eq_nil_or_concat post with rfl | ⟨post', z, rfl⟩
  · right
    have := List.append_inj' (s₁ := xs) (s₂ := pre) (t₁ := [y]) (t₂ := [x]) h rfl
    exact ⟨rfl, by simpa using this.2.symm, this.1.symm⟩
  · left
    have h' : xs ++ [y] = (pre ++ x :: post') ++ [z] := by simpa using h
    have := List.append_inj' h' rfl
    exact ⟨post', by simp at this; simp [this.2], this.1⟩

theorem addr_append (a b : List Item) : addr (a ++ b) = addr a + addr b := by simp [addr]

theorem slice_append_left (a b : List Nat) (p n : Nat) (h : p + n ≤ a.length) : slice (a ++ b) p n = slice a p n := by
  simp only [slice]
  rw [List.drop_append_of_le_length (by omega), List.take_append_of_le_length (by simp; omega)]

theorem slice_append_right (a b : List Nat) : slice (a ++ b) a.length b.length = b := by simp [slice]

theorem opcodeBytes_length (c : Option Nat) (l : Nat) : (opcodeBytes c).length + 4 = itemSize (.jump l c) := by
  cases c <;> rfl

/-- The invariant of emission. -/
structure Inv (items : List Item) (st : State) : Prop where
  len : st.code.length = addr items
  node : ∀ l, ∀ nd ∈ st.jumps l, nd.jumpFrom = nd.patch + 4 ∧ nd.patch + 4 ≤ st.code.length
  disj : ∀ l l', ∀ nd ∈ st.jumps l, ∀ nd' ∈ st.jumps l', (l = l' ∧ nd = nd') ∨ nd.patch + 4 ≤ nd'.patch ∨ nd'.patch + 4 ≤ nd.patch
  jump : ∀ pre l c post, items = pre ++ .jump l c :: post →
    ⟨addr pre + (opcodeBytes c).length, addr pre + itemSize (.jump l c)⟩ ∈ st.jumps l ∧
    slice st.code (addr pre) (opcodeBytes c).length = opcodeBytes c ∧
    ∀ l', ∀ nd ∈ st.jumps l', addr pre + (opcodeBytes c).length ≤ nd.patch ∨ nd.patch + 4 ≤ addr pre
  bytes : ∀ pre bs post, items = pre ++ .bytes bs :: post → slice st.code (addr pre) bs.length = bs ∧
    ∀ l', ∀ nd ∈ st.jumps l', addr pre + bs.length ≤ nd.patch ∨ nd.patch + 4 ≤ addr pre
  label : ∀ pre l post, items = pre ++ .label l :: post → .label l ∉ post → st.loc l = addr pre

theorem addr_le {pre : List Item} {x : Item} {post items : List Item} (h : items = pre ++ x :: post) : addr pre + itemSize x ≤ addr items := by
  subst h; simp [addr]

theorem inv_emit (items : List Item) (st : State) (h : Inv items st) (it : Item) : Inv (items ++ [it]) (emitItem st it) := by
  have hlen := h.len
  cases it with
  | bytes bs =>
    have hl : (emitItem st (.bytes bs)).code.length = addr (items ++ [.bytes bs]) := by simp [emitItem, addr, itemSize, hlen]
    refine ⟨hl, ?_, ?_, ?_, ?_, ?_⟩
    · intro l nd hn
      have := h.node l nd hn
      refine ⟨this.1, ?_⟩
      simp only [emitItem, List.length_append]; omega
    · exact h.disj
    · intro pre l c post he
      rcases append_one_split _ _ _ _ _ he with ⟨post', rfl, he'⟩ | ⟨_, hx, _⟩
      · have h1 := h.jump _ _ _ _ he'
        refine ⟨h1.1, ?_, h1.2.2⟩
        have := addr_le he'
        simp only [emitItem]
        have h2 := opcodeBytes_length c l
        rw [slice_append_left _ _ _ _ (by omega), h1.2.1]
      · cases hx
    · intro pre bs' post he
      rcases append_one_split _ _ _ _ _ he with ⟨post', rfl, he'⟩ | ⟨_, hx, rfl⟩
      · have h1 := h.bytes _ _ _ he'
        refine ⟨?_, h1.2⟩
        have := addr_le he'
        simp only [itemSize] at this
        simp only [emitItem]
        rw [slice_append_left _ _ _ _ (by omega), h1.1]
      · cases hx
        refine ⟨?_, ?_⟩
        · simp only [emitItem]; rw [← hlen]; exact slice_append_right _ _
        · intro l' nd hn
          have := (h.node l' nd hn).2
          exact Or.inr (by omega)
    · intro pre l post he hnot
      rcases append_one_split _ _ _ _ _ he with ⟨post', rfl, he'⟩ | ⟨_, hx, _⟩
      · exact h.label _ _ _ he' (fun hm => hnot (by simp [hm]))
      · cases hx
  | label l0 =>
    refine ⟨?_, h.node, h.disj, ?_, ?_, ?_⟩
    · simp [emitItem, addr, itemSize, hlen]
    · intro pre l c post he
      rcases append_one_split _ _ _ _ _ he with ⟨post', rfl, he'⟩ | ⟨_, hx, _⟩
      · exact h.jump _ _ _ _ he'
      · cases hx
    · intro pre bs' post he
      rcases append_one_split _ _ _ _ _ he with ⟨post', rfl, he'⟩ | ⟨_, hx, rfl⟩
      · exact h.bytes _ _ _ he'
      · cases hx
    · intro pre l post he hnot
      rcases append_one_split _ _ _ _ _ he with ⟨post', rfl, he'⟩ | ⟨_, hx, rfl⟩
      · have hne : l ≠ l0 := by rintro rfl; exact hnot (by simp)
        simp only [emitItem, if_neg hne]
        exact h.label _ _ _ he' (fun hm => hnot (by simp [hm]))
      · cases hx
        simp only [emitItem, if_true]
        exact hlen
  | jump l0 c0 =>
    have ho := opcodeBytes_length c0 l0
    have hcl : (emitItem st (.jump l0 c0)).code.length = st.code.length + itemSize (.jump l0 c0) := by
      simp only [emitItem, List.length_append, ← ho, List.length_cons, List.length_nil]; omega
    have hcode : (emitItem st (.jump l0 c0)).code = st.code ++ (opcodeBytes c0 ++ [0, 0, 0, 0]) := by
      simp [emitItem]
    have hmem : ∀ l nd, nd ∈ (emitItem st (.jump l0 c0)).jumps l ↔
        nd ∈ st.jumps l ∨ (l = l0 ∧ nd = ⟨st.code.length + (opcodeBytes c0).length, st.code.length + (opcodeBytes c0).length + 4⟩) := by
      intro l nd
      simp only [emitItem]
      by_cases e : l = l0
      · subst e; simp
      · simp [e]
    refine ⟨?_, ?_, ?_, ?_, ?_, ?_⟩
    · rw [hcl, hlen]; simp [addr]
    · intro l nd hn
      rw [hcl]
      rcases (hmem l nd).1 hn with hn | ⟨_, rfl⟩
      · have := h.node l nd hn
        exact ⟨this.1, by omega⟩
      · exact ⟨rfl, by simp only; omega⟩
    · intro l l' nd hn nd' hn'
      rcases (hmem l nd).1 hn with hn1 | ⟨hl1, rfl⟩ <;> rcases (hmem l' nd').1 hn' with hn2 | ⟨hl2, rfl⟩
      · exact h.disj l l' nd hn1 nd' hn2
      · have := (h.node l nd hn1).2
        exact Or.inr (Or.inl (by simp only; omega))
      · have := (h.node l' nd' hn2).2
        exact Or.inr (Or.inr (by simp only; omega))
      · exact Or.inl ⟨hl1.trans hl2.symm, rfl⟩
    · intro pre l c post he
      rcases append_one_split _ _ _ _ _ he with ⟨post', rfl, he'⟩ | ⟨_, hx, rfl⟩
      · have h1 := h.jump _ _ _ _ he'
        have ha := addr_le he'
        have h2 := opcodeBytes_length c l
        refine ⟨(hmem _ _).2 (Or.inl h1.1), ?_, ?_⟩
        · rw [hcode, slice_append_left _ _ _ _ (by omega), h1.2.1]
        · intro l' nd hn
          rcases (hmem l' nd).1 hn with hn | ⟨rfl, rfl⟩
          · exact h1.2.2 l' nd hn
          · exact Or.inl (by simp only; omega)
      · cases hx
        refine ⟨(hmem _ _).2 (Or.inr ⟨rfl, ?_⟩), ?_, ?_⟩
        · rw [← hlen, ← ho]; simp only [Nat.add_assoc]
        · rw [← hlen, hcode, ← List.append_assoc, slice_append_left _ _ _ _ (by simp)]
          exact slice_append_right _ _
        · intro l' nd hn
          rcases (hmem l' nd).1 hn with hn | ⟨rfl, rfl⟩
          · have := (h.node l' nd hn).2
            exact Or.inr (by omega)
          · exact Or.inl (by simp only; omega)
    · intro pre bs' post he
      rcases append_one_split _ _ _ _ _ he with ⟨post', rfl, he'⟩ | ⟨_, hx, rfl⟩
      · have h1 := h.bytes _ _ _ he'
        have ha := addr_le he'
        simp only [itemSize] at ha
        refine ⟨?_, ?_⟩
        · rw [hcode, slice_append_left _ _ _ _ (by omega), h1.1]
        · intro l' nd hn
          rcases (hmem l' nd).1 hn with hn | ⟨rfl, rfl⟩
          · exact h1.2 l' nd hn
          · exact Or.inl (by simp only; omega)
      · cases hx
    · intro pre l post he hnot
      rcases append_one_split _ _ _ _ _ he with ⟨post', rfl, he'⟩ | ⟨_, hx, _⟩
      · exact h.label _ _ _ he' (fun hm => hnot (by simp [hm]))
      · cases hx

theorem inv_init : Inv [] init := by
  refine ⟨rfl, ?_, ?_, ?_, ?_, ?_⟩
  · intro l nd hn; cases hn
  · intro l l' nd hn; cases hn
  all_goals intros; simp at *

theorem inv_all (items : List Item) : Inv items (items.foldl emitItem init) := by
  suffices h : ∀ (todo done : List Item) (st : State), Inv done st → Inv (done ++ todo) (todo.foldl emitItem st) by
    simpa using h items [] init inv_init
  intro todo
  induction todo with
  | nil => intro done st h; simpa using h
  | cons it todo ih =>
    intro done st h
    have := ih (done ++ [it]) (emitItem st it) (inv_emit done st h it)
    simpa using this

theorem patch_bound (items : List Item) (n : Nat) : ∀ p ∈ patches (items.foldl emitItem init) n,
    p.2.length = 4 ∧ p.1 + p.2.length ≤ (items.foldl emitItem init).code.length ∧ ∃ l, ∃ nd ∈ (items.foldl emitItem init).jumps l, p.1 = nd.patch := by
  intro p hp
  simp only [patches, List.mem_flatMap, List.mem_map] at hp
  obtain ⟨l, _, nd, hn, rfl⟩ := hp
  exact ⟨rfl, ((inv_all items).node l nd hn).2, l, nd, hn, rfl⟩

/-! ## Theorems -/

/-- C35: the code has the size of its items: patching never changes the size. -/
theorem C35_size (n : Nat) (items : List Item) : (assemble n items).length = addr items := by
  rw [assemble_eq, applyAll_length _ _ (fun p hp => (patch_bound items n p hp).2.1), (inv_all items).len]

/-- C35: patching changes no byte that is not a jump displacement: other code is where it was
emitted. -/
theorem C35_other_code_unchanged (n : Nat) (pre : List Item) (bs : List Nat) (post : List Item) :
    slice (assemble n (pre ++ .bytes bs :: post)) (addr pre) bs.length = bs := by
  have hi := inv_all (pre ++ .bytes bs :: post)
  have h := hi.bytes pre bs post rfl
  rw [assemble_eq, applyAll_disjoint _ _ _ _ (fun p hp => (patch_bound _ n p hp).2.1) (fun p hp => by
    obtain ⟨h4, _, l, nd, hn, he⟩ := patch_bound _ n p hp
    rw [h4, he]
    exact h.2 l nd hn)]
  exact h.1

/-- C35: every jump to a label that is placed somewhere (after the last placement nothing else
places it), forward or backward, in a function smaller than 2 GiB: the code at its address is the
opcode chosen for it followed by a displacement that leads, from the end of the instruction, to
the address of the label. -/
theorem C35_jump_lands (n : Nat) (items pre post pre' post' : List Item) (l : Nat) (c : Option Nat)
    (hjump : items = pre ++ .jump l c :: post) (hlabel : items = pre' ++ .label l :: post') (honce : .label l ∉ post')
    (hl : l < n) (hsize : addr items < 2 ^ 31) :
    ∃ op d, slice (assemble n items) (addr pre) (itemSize (.jump l c)) = op ++ d ∧
      op = (match c with | none => [0xe9] | some cc => [0x0f, cc]) ∧
      (rel32 d).map (fun r => (addr pre + itemSize (.jump l c) : Int) + r) = some (addr pre' : Int) := by
  have hi := inv_all items
  have hj := hi.jump pre l c post hjump
  have hloc := hi.label pre' l post' hlabel honce
  have ha := addr_le hjump
  have ha' := addr_le hlabel
  have hbound := fun p hp => (patch_bound items n p hp).2.1
  have ho := opcodeBytes_length c l
  let v : Int := (addr pre' : Int) - (addr pre + itemSize (.jump l c) : Nat)
  have hop : slice (assemble n items) (addr pre) (opcodeBytes c).length = opcodeBytes c := by
    rw [assemble_eq, applyAll_disjoint _ _ _ _ hbound (fun p hp => by
      obtain ⟨h4, _, l', nd, hn, he⟩ := patch_bound _ n p hp
      rw [h4, he]
      exact hj.2.2 l' nd hn)]
    exact hj.2.1
  have hd : slice (assemble n items) (addr pre + (opcodeBytes c).length) 4 = s32Bytes v := by
    rw [assemble_eq]
    have := applyAll_mem (patches (items.foldl emitItem init) n) (addr pre + (opcodeBytes c).length, s32Bytes v)
      (items.foldl emitItem init).code hbound ?_ ?_
    · exact this
    · simp only [patches, List.mem_flatMap, List.mem_map]
      refine ⟨l, List.mem_range.2 hl, _, hj.1, ?_⟩
      rw [hloc]
    · intro q hq
      simp only [patches, List.mem_flatMap, List.mem_map] at hq
      obtain ⟨l', _, nd, hn, rfl⟩ := hq
      rcases hi.disj l l' _ hj.1 nd hn with ⟨rfl, rfl⟩ | h | h
      · left; rw [hloc]
      · exact Or.inr (Or.inl h)
      · exact Or.inr (Or.inr h)
  refine ⟨opcodeBytes c, s32Bytes v, ?_, by cases c <;> rfl, ?_⟩
  · have happ : slice (assemble n items) (addr pre) (itemSize (.jump l c)) =
        slice (assemble n items) (addr pre) (opcodeBytes c).length ++ slice (assemble n items) (addr pre + (opcodeBytes c).length) 4 := by
      rw [← ho]
      simp only [slice]
      rw [← List.drop_drop, List.take_add]
    rw [happ, hop, hd]
  · rw [rel32_s32Bytes v (by omega) (by omega)]
    simp only [Option.map_some]
    congr 1
    omega

/-- A loop: forward conditional jump out, backward jump to the start. -/
def demo : List Item := [.label 0, .bytes [0x85, 0xc0], .jump 1 (some 0x84), .bytes [0x90], .jump 0 none, .label 1, .bytes [0xc3]]
example : assemble 2 demo = [0x85, 0xc0, 0x0f, 0x84, 6, 0, 0, 0, 0x90, 0xe9, 0xf2, 0xff, 0xff, 0xff, 0xc3] ∧
    demo = [.label 0, .bytes [0x85, 0xc0]] ++ .jump 1 (some 0x84) :: [.bytes [0x90], .jump 0 none, .label 1, .bytes [0xc3]] ∧
    demo = [.label 0, .bytes [0x85, 0xc0], .jump 1 (some 0x84), .bytes [0x90], .jump 0 none] ++ .label 1 :: [.bytes [0xc3]] ∧
    .label 1 ∉ [Item.bytes [0xc3]] ∧ addr demo = 15 := by decide

end Verif.Props.Jump
