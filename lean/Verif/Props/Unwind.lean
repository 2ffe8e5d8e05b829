import Verif.Model.Unwind

/-!
# C76: frames can be unwound everywhere

From every instruction of the prolog, from the body (also after `_alloca`) and from every instruction of the epilog, the information for
unwinding leads to the caller.
-/
namespace Verif.Props.Unwind
open Verif.Spec.Unwind Verif.Model.Unwind

/-- Functions the compiler emits: the instructions that store an argument have at most 8 bytes and there are at most 4 of them, the frame
is a multiple of 8. Frames of 512 KB and more are left out, see `C76_large_frame_wrong`. -/
structure Valid (f : Function) : Prop where
  few : f.stores.length ≤ 4
  short : ∀ n ∈ f.stores, n ≤ 8
  aligned : f.space % 8 = 0
  small : f.space ≤ 512 * 1024 - 8
  some_ : 8 ≤ f.space

/-- A state in the body: `rbp`, the words from there to the return address and the registers that are not saved are as after the prolog;
`rsp` is arbitrary. -/
structure InBody (f : Function) (after entry s : State) : Prop where
  frame : s.regs 5 = after.regs 5
  saved : ∀ a, after.regs 5 ≤ a → a ≤ entry.regs 4 → s.mem a = after.mem a
  other : ∀ r ∈ nonvolatile, r ∉ pushed f → s.regs r = after.regs r

theorem put_same (r : Nat) (v : Int) (g : Nat → Int) : put r v g r = v := by simp [put]
theorem put_other (r i : Nat) (v : Int) (g : Nat → Int) (h : i ≠ r) : put r v g i = g i := by simp [put, h]

theorem fold_size (is : List Ins) (n : Nat) : is.foldl (fun n i => n + i.length) n = n + size is := by
  induction is generalizing n with
  | nil => simp [size]
  | cons i is ih =>
    unfold size
    rw [List.foldl_cons, List.foldl_cons, ih, ih (0 + _)]
    omega

theorem size_cons (i : Ins) (is : List Ins) : size (i :: is) = i.length + size is := by
  conv => lhs; unfold size
  rw [List.foldl_cons, fold_size]; omega

theorem size_append (a b : List Ins) : size (a ++ b) = size a + size b := by
  induction a with
  | nil => simp [size]
  | cons i is ih => rw [List.cons_append, size_cons, size_cons, ih]; omega

theorem size_storeAll (ns : List Nat) (i k : Nat) (h : ∀ n ∈ ns, n ≤ 8) (hk : ns.length ≤ k) : size (storeAll i ns) ≤ 8 * k := by
  induction ns generalizing i k with
  | nil => simp [storeAll, size]
  | cons n ns ih =>
    rw [storeAll, size_cons]
    cases k with
    | zero => simp at hk
    | succ k =>
      have h1 := ih (i + 1) k (fun m hm => h m (by simp [hm])) (by simp at hk; omega)
      have h2 := h n (by simp)
      show n + _ ≤ _
      omega

theorem prologSize_eq (f : Function) :
    prologSize f = pushOffset f + 3 + (if f.isFilter then 10 else 0) + size (storeAll 0 f.stores) + 7 := by
  unfold prologSize prolog
  simp only [size_append]
  cases f with
  | mk b st sp =>
    cases b <;> simp [size, Ins.length, pushOffset, pushed]

theorem pushOffset_eq (f : Function) : pushOffset f = if f.isFilter then 7 else 3 := by
  cases f with
  | mk b st sp => cases b <;> rfl

theorem prologSize_lt (f : Function) (h : Valid f) : prologSize f < 256 := by
  have h1 := size_storeAll f.stores 0 4 h.short h.few
  rw [prologSize_eq, pushOffset_eq]
  split <;> omega

theorem prologSize_gt (f : Function) : pushOffset f + 3 < prologSize f := by
  rw [prologSize_eq]; omega

/-- The code of the allocation. -/
theorem codes_alloc (f : Function) (h : Valid f) (fr fo off : Nat) (mem : Int → Int) (rest : List Nat) (regs : Nat → Int) :
    codes fr fo off mem 0 (allocCode f ++ rest) regs =
      codes fr fo off mem 0 rest (if prologSize f ≤ off then put 4 (regs 4 + f.space) regs else regs) := by
  have hs := prologSize_lt f h
  have hm : prologSize f % 256 = prologSize f := Nat.mod_eq_of_lt hs
  have ha := h.aligned
  have hb := h.small
  have hc := h.some_
  unfold allocCode
  split
  · next h1 =>
    have e1 : (2 + 16 * ((f.space - 8) / 8 % 16)) % 16 = 2 := by omega
    have e2 : (2 + 16 * ((f.space - 8) / 8 % 16)) / 16 = (f.space - 8) / 8 := by omega
    simp only [List.cons_append, List.nil_append, codes, e1, e2, hm, undo, extra]
    split
    · have e3 : (f.space - 8) / 8 * 8 + 8 = f.space := by omega
      rw [e3]
    · rfl
  · · next h1 =>
      simp only [List.cons_append, List.nil_append, codes, hm]
      have e3 : 8 * (f.space / 8 % 256 + 256 * (f.space / 8 / 256 % 256)) = f.space := by omega
      split
      · show codes fr fo off mem 0 rest (put 4 (regs 4 + 8 * ((f.space / 8 % 256 + 256 * (f.space / 8 / 256 % 256) : Nat) : Int)) regs) = _
        have e4 : (8 : Int) * ((f.space / 8 % 256 + 256 * (f.space / 8 / 256 % 256) : Nat) : Int) = (f.space : Int) := by omega
        rw [e4]
      · rfl

theorem allocCode_even (f : Function) : ∃ k, (allocCode f).length = 2 * k ∧ k ≤ 4 := by
  unfold allocCode
  split
  · exact ⟨1, rfl, by omega⟩
  · split
    · exact ⟨2, rfl, by omega⟩
    · exact ⟨4, rfl, by omega⟩

theorem allCodes_even (f : Function) : ∃ k, (allCodes f).length = 2 * k ∧ k ≤ 10 := by
  obtain ⟨k, hk, hl⟩ := allocCode_even f
  unfold allCodes
  cases f with
  | mk b st sp =>
    cases b
    · exact ⟨k + 4, by simp [List.length_append, hk, pushed, pushCodes]; omega, by omega⟩
    · exact ⟨k + 6, by simp [List.length_append, hk, pushed, pushCodes]; omega, by omega⟩

theorem info_codes (f : Function) (hd : Bool) (off : Nat) (s : State) :
    unwind (unwindInfo f hd) off s =
      match codes 5 0 off s.mem 0 (allCodes f) s.regs with
      | some regs => some (put 4 (regs 4 + 8) regs, s.mem (regs 4))
      | none => none := by
  obtain ⟨k, hk, hl⟩ := allCodes_even f
  have e1 : (allCodes f).length / 2 % 256 = k := by omega
  have e2 : ∀ pad : List Nat, (allCodes f ++ pad).take (2 * k) = allCodes f := by
    intro pad; rw [← hk, List.take_left]
  unfold unwindInfo
  simp only [List.cons_append, List.nil_append, unwind, e1, e2]
  have e3 : (1 + 8 * (if hd = true then 1 else 0)) % 8 = 1 := by cases hd <;> rfl
  rw [if_pos ⟨e3, by rw [List.length_append]; omega⟩]
  rfl

/-- All codes of a function. -/
theorem codes_all (f : Function) (h : Valid f) (off : Nat) (mem : Int → Int) (regs : Nat → Int) :
    codes 5 0 off mem 0 (allCodes f) regs =
      codes 5 0 off mem 0 ([pushOffset f + 3, 3] ++ pushCodes (pushOffset f) (pushed f))
        (if prologSize f ≤ off then put 4 (regs 4 + f.space) regs else regs) := by
  unfold allCodes
  rw [List.append_assoc, codes_alloc f h]
  have : (pushOffset f + 3) % 256 = pushOffset f + 3 := by rw [pushOffset_eq]; split <;> rfl
  rw [this]

/-- The bytes of the pushes of some registers. -/
def pushBytes : List Nat → Nat
  | [] => 0
  | r :: rs => (1 + if 8 ≤ r then 1 else 0) + pushBytes rs

theorem pushBytes_pushed (f : Function) : pushBytes (pushed f) = pushOffset f := by
  cases f with
  | mk b st sp => cases b <;> rfl

/-- Codes of pushes that are executed are undone in order. -/
theorem codes_pushed (off : Nat) (mem : Int → Int) (rs : List Nat) (regs : Nat → Int) (h : pushBytes rs ≤ off) (h' : pushBytes rs < 256) :
    codes 5 0 off mem 0 (pushCodes (pushBytes rs) rs) regs = some (simulate mem rs regs) := by
  induction rs generalizing regs with
  | nil => rfl
  | cons r rs ih =>
    have e1 : (0 + 16 * r) % 16 = 0 := by omega
    have e2 : (0 + 16 * r) / 16 = r := by omega
    have e3 : pushBytes (r :: rs) % 256 = pushBytes (r :: rs) := Nat.mod_eq_of_lt h'
    have e4 : pushBytes (r :: rs) - (1 + if 8 ≤ r then 1 else 0) = pushBytes rs := by
      rw [pushBytes]; omega
    have e5 : pushBytes rs ≤ pushBytes (r :: rs) := by rw [pushBytes]; omega
    simp only [pushCodes, List.cons_append, List.nil_append, codes, e1, e2, e3, e4]
    rw [if_pos h]
    simp only [undo, extra, simulate]
    exact ih _ (by omega) (by omega)

/-- Codes of pushes that are not executed yet are skipped. -/
theorem codes_split (mem : Int → Int) (as rs : List Nat) (regs : Nat → Int) (h' : pushBytes (as ++ rs) < 256) :
    codes 5 0 (pushBytes rs) mem 0 (pushCodes (pushBytes (as ++ rs)) (as ++ rs)) regs = some (simulate mem rs regs) := by
  induction as with
  | nil => exact codes_pushed _ mem rs regs (Nat.le_refl _) h'
  | cons a as ih =>
    have e1 : (0 + 16 * a) % 16 = 0 := by omega
    have e3 : pushBytes (a :: as ++ rs) % 256 = pushBytes (a :: as ++ rs) := Nat.mod_eq_of_lt h'
    have e4 : pushBytes (a :: as ++ rs) - (1 + if 8 ≤ a then 1 else 0) = pushBytes (as ++ rs) := by
      rw [List.cons_append, pushBytes]; omega
    have e5 : pushBytes (as ++ rs) < pushBytes (a :: as ++ rs) := by
      rw [List.cons_append, pushBytes]; omega
    have e6 : pushBytes rs ≤ pushBytes (as ++ rs) := by
      clear ih h' e3 e4 e5
      induction as with
      | nil => exact Nat.le_refl _
      | cons b bs ih => rw [List.cons_append, pushBytes]; omega
    simp only [List.cons_append] at e3 e4 e5 h' ⊢
    simp only [pushCodes, List.cons_append, List.nil_append, codes, e1, e3, e4]
    rw [if_neg (by omega)]
    simp only [extra]
    exact ih (by omega)

/-- The registers `rs` are on the stack at `base`, below the return address; the others are unchanged. -/
structure Holds (rs : List Nat) (entry : State) (mem : Int → Int) (regs : Nat → Int) (base : Int) : Prop where
  place : base = entry.regs 4 - 8 * (rs.length : Int)
  ret : mem (entry.regs 4) = entry.mem (entry.regs 4)
  words : ∀ (k : Nat) (r : Nat), rs[k]? = some r → mem (base + 8 * (k : Int)) = entry.regs r
  other : ∀ r ∈ nonvolatile, r ∉ rs → regs r = entry.regs r

theorem simulate_stack (mem : Int → Int) (rs : List Nat) (regs : Nat → Int) (h : 4 ∉ rs) :
    simulate mem rs regs 4 = regs 4 + 8 * (rs.length : Int) := by
  induction rs generalizing regs with
  | nil => simp [simulate]
  | cons r rs ih =>
    rw [simulate, ih _ (fun hm => h (List.mem_cons_of_mem _ hm)), put_same, List.length_cons]
    omega

theorem simulate_other (mem : Int → Int) (rs : List Nat) (regs : Nat → Int) (r : Nat) (h : r ∉ rs) (h4 : r ≠ 4) :
    simulate mem rs regs r = regs r := by
  induction rs generalizing regs with
  | nil => rfl
  | cons q rs ih =>
    rw [simulate, ih _ (fun hm => h (List.mem_cons_of_mem _ hm)), put_other _ _ _ _ h4,
      put_other _ _ _ _ (fun he => h (by rw [he]; exact List.mem_cons_self))]

theorem simulate_value (mem : Int → Int) (rs : List Nat) (regs : Nat → Int) (r : Nat) (h : r ∈ rs) (h4 : 4 ∉ rs) (v : Nat → Int)
    (hv : ∀ (k : Nat) (q : Nat), rs[k]? = some q → mem (regs 4 + 8 * (k : Int)) = v q) :
    simulate mem rs regs r = v r := by
  induction rs generalizing regs with
  | nil => cases h
  | cons q rs ih =>
    rw [simulate]
    have hq := hv 0 q rfl
    have hq' : mem (regs 4) = v q := by rw [← hq]; congr 1; omega
    by_cases hm : r ∈ rs
    · refine ih _ hm (fun hm => h4 (List.mem_cons_of_mem _ hm)) ?_
      intro k p hk
      rw [put_same, ← hv (k + 1) p (by rw [List.getElem?_cons_succ]; exact hk)]
      congr 1; omega
    · have e : r = q := by
        cases h with
        | head => rfl
        | tail _ h => exact absurd h hm
      have h4' : r ≠ 4 := fun he => h4 (by rw [← he]; exact h)
      rw [simulate_other _ _ _ _ hm h4', put_other _ _ _ _ h4', e, put_same]
      exact hq'

theorem nonvolatile_4 : 4 ∉ nonvolatile := by decide

/-- Undoing the pushes leads to the caller. -/
theorem holds_finds {rs : List Nat} {entry : State} {mem : Int → Int} {regs : Nat → Int} {base : Int}
    (h : Holds rs entry mem regs base) (hb : regs 4 = base) (h4 : 4 ∉ rs) :
    Finds entry (some (put 4 (simulate mem rs regs 4 + 8) (simulate mem rs regs), mem (simulate mem rs regs 4))) := by
  have e : simulate mem rs regs 4 = entry.regs 4 := by
    rw [simulate_stack _ _ _ h4, hb, h.place]; omega
  refine ⟨_, by rw [e, h.ret], by rw [put_same], ?_⟩
  intro r hr
  have hr4 : r ≠ 4 := fun he => nonvolatile_4 (he ▸ hr)
  rw [put_other _ _ _ _ hr4]
  by_cases hm : r ∈ rs
  · exact simulate_value mem rs regs r hm h4 entry.regs (fun k q hk => by rw [hb]; exact h.words k q hk)
  · rw [simulate_other _ _ _ _ hm hr4]
    exact h.other r hr hm

theorem pushed_4 (f : Function) : 4 ∉ pushed f := by
  cases f with
  | mk b st sp => cases b <;> simp [pushed, nonvolatile]

theorem pushBytes_small (f : Function) : pushBytes (pushed f) < 256 := by
  rw [pushBytes_pushed, pushOffset_eq]; split <;> omega

/-- After `mov rbp, rsp` the caller is found. -/
theorem framed_finds (f : Function) (h : Valid f) (hd : Bool) (entry s : State) (hs : Holds (pushed f) entry s.mem s.regs (s.regs 5)) (off : Nat)
    (ho : pushOffset f + 3 ≤ off) : Finds entry (unwind (unwindInfo f hd) off s) := by
  rw [info_codes, codes_all f h]
  generalize hg : (if prologSize f ≤ off then put 4 (s.regs 4 + f.space) s.regs else s.regs) = g
  have hg5 : ∀ r, r ≠ 4 → g r = s.regs r := by
    intro r hr; rw [← hg]; split
    · exact put_other _ _ _ _ hr
    · rfl
  have e : codes 5 0 off s.mem 0 ([pushOffset f + 3, 3] ++ pushCodes (pushOffset f) (pushed f)) g =
      some (simulate s.mem (pushed f) (put 4 (g 5 - 16 * ((0 : Nat) : Int)) g)) := by
    simp only [List.cons_append, List.nil_append, codes]
    rw [if_pos ho]
    show codes 5 0 off s.mem 0 (pushCodes (pushOffset f) (pushed f)) (put 4 (g 5 - 16 * ((0 : Nat) : Int)) g) = _
    rw [← pushBytes_pushed]
    exact codes_pushed off s.mem _ _ (by rw [pushBytes_pushed]; omega) (pushBytes_small f)
  rw [e]
  refine holds_finds (base := s.regs 5) ⟨hs.place, hs.ret, hs.words, ?_⟩ ?_ (pushed_4 f)
  · intro r hr hm
    have hr4 : r ≠ 4 := fun he => nonvolatile_4 (he ▸ hr)
    rw [put_other _ _ _ _ hr4, hg5 r hr4]
    exact hs.other r hr hm
  · rw [put_same, hg5 5 (by omega)]
    omega

/-- Between the pushes the caller is found. -/
theorem pushing_finds (f : Function) (h : Valid f) (hd : Bool) (entry s : State) (as rs : List Nat) (hp : pushed f = as ++ rs)
    (hs : Holds rs entry s.mem s.regs (s.regs 4)) : Finds entry (unwind (unwindInfo f hd) (pushBytes rs) s) := by
  rw [info_codes, codes_all f h]
  have hle : pushBytes rs ≤ pushOffset f := by
    rw [← pushBytes_pushed, hp]
    clear hp hs
    induction as with
    | nil => exact Nat.le_refl _
    | cons b bs ih => rw [List.cons_append, pushBytes]; omega
  have hgt := prologSize_gt f
  rw [if_neg (by omega)]
  have e : codes 5 0 (pushBytes rs) s.mem 0 ([pushOffset f + 3, 3] ++ pushCodes (pushOffset f) (pushed f)) s.regs =
      some (simulate s.mem rs s.regs) := by
    simp only [List.cons_append, List.nil_append, codes]
    rw [if_neg (by omega)]
    show codes 5 0 _ s.mem 0 (pushCodes (pushOffset f) (pushed f)) s.regs = _
    have hl := pushBytes_small f
    rw [← pushBytes_pushed]
    rw [hp] at hl ⊢
    exact codes_split s.mem as rs s.regs hl
  rw [e]
  refine holds_finds hs rfl ?_
  intro hm
  exact pushed_4 f (by rw [hp]; exact List.mem_append_right _ hm)

theorem run_append (f : Function) (a b : List Ins) (v : Nat → Int) (s : State) :
    run f (a ++ b) v s = run f b (fun k => v (k + a.length)) (run f a v s) := by
  induction a generalizing v s with
  | nil => rfl
  | cons i is ih =>
    rw [List.cons_append, run, run, ih]
    congr 1

/-- A push keeps what is on the stack. -/
theorem holds_push (f : Function) (v : Int) (rs : List Nat) (entry s : State) (r : Nat) (hr : r ∈ nonvolatile) (hn : r ∉ rs)
    (hs : Holds rs entry s.mem s.regs (s.regs 4)) :
    Holds (r :: rs) entry ((Ins.push r).run f v s).mem ((Ins.push r).run f v s).regs (((Ins.push r).run f v s).regs 4) := by
  have hp := hs.place
  have e4 : ((Ins.push r).run f v s).regs 4 = s.regs 4 - 8 := put_same 4 _ s.regs
  rw [e4]
  refine ⟨by rw [List.length_cons]; omega, ?_, ?_, ?_⟩
  · show (if entry.regs 4 = s.regs 4 - 8 then s.regs r else s.mem (entry.regs 4)) = _
    rw [if_neg (by omega)]
    exact hs.ret
  · intro k q hk
    show (if s.regs 4 - 8 + 8 * (k : Int) = s.regs 4 - 8 then s.regs r else s.mem (s.regs 4 - 8 + 8 * (k : Int))) = _
    cases k with
    | zero =>
      rw [if_pos (by omega)]
      have : r = q := by simpa using hk
      rw [← this]
      exact hs.other r hr hn
    | succ k =>
      rw [if_neg (by omega)]
      rw [← hs.words k q (by rw [List.getElem?_cons_succ] at hk; exact hk)]
      congr 1; omega
  · intro q hq hm
    have hq4 : q ≠ 4 := fun he => nonvolatile_4 (he ▸ hq)
    show put 4 _ s.regs q = _
    rw [put_other _ _ _ _ hq4]
    exact hs.other q hq (fun h => hm (List.mem_cons_of_mem _ h))

/-- The other instructions keep it, too. -/
theorem holds_rest (f : Function) (is : List Ins) (v : Nat → Int) (entry s : State)
    (hi : ∀ i ∈ is, (∃ r n, i = .load r n ∧ r ∈ pushed f ∧ r ≠ 5) ∨ (∃ k n, i = .store k n) ∨ ∃ n, i = .sub n)
    (hl : (saved f : Int) + 1 = ((pushed f).length : Int))
    (hs : Holds (pushed f) entry s.mem s.regs (s.regs 5)) :
    Holds (pushed f) entry (run f is v s).mem (run f is v s).regs ((run f is v s).regs 5) := by
  induction is generalizing v s with
  | nil => exact hs
  | cons i is ih =>
    rw [run]
    refine ih _ _ (fun j hj => hi j (List.mem_cons_of_mem _ hj)) ?_
    have hp := hs.place
    rcases hi i List.mem_cons_self with ⟨r, n, rfl, hr, h5⟩ | ⟨k, n, rfl⟩ | ⟨n, rfl⟩
    · have e5 : ((Ins.load r n).run f (v 0) s).regs 5 = s.regs 5 := put_other r 5 _ s.regs (fun he => h5 he.symm)
      rw [e5]
      refine ⟨hs.place, hs.ret, hs.words, ?_⟩
      intro q hq hm
      show put r _ s.regs q = _
      rw [put_other r q _ _ (fun he => hm (by rw [he]; exact hr))]
      exact hs.other q hq hm
    · refine ⟨hs.place, ?_, ?_, hs.other⟩
      · show (if entry.regs 4 = s.regs 5 + (16 + 8 * (saved f : Int)) + 8 * (k : Int) then v 0 else s.mem (entry.regs 4)) = _
        rw [if_neg (by omega)]
        exact hs.ret
      · intro j q hj
        show (if s.regs 5 + 8 * (j : Int) = s.regs 5 + (16 + 8 * (saved f : Int)) + 8 * (k : Int) then v 0 else s.mem (s.regs 5 + 8 * (j : Int))) = _
        have hlt : j < (pushed f).length := by
          rcases Nat.lt_or_ge j (pushed f).length with h | h
          · exact h
          · rw [List.getElem?_eq_none h] at hj; cases hj
        rw [if_neg (by omega)]
        exact hs.words j q hj
    · have e5 : ((Ins.sub n).run f (v 0) s).regs 5 = s.regs 5 := put_other 4 5 (s.regs 4 - n) s.regs (by omega)
      rw [e5]
      refine ⟨hs.place, hs.ret, hs.words, ?_⟩
      intro q hq hm
      have hq4 : q ≠ 4 := fun he => nonvolatile_4 (he ▸ hq)
      show put 4 _ s.regs q = _
      rw [put_other _ _ _ _ hq4]
      exact hs.other q hq hm

/-- The pushes of a prolog. -/
theorem prolog_eq (f : Function) : prolog f = (pushed f).reverse.map Ins.push ++ (.frame ::
    ((if f.isFilter then [.load 13 3, .load 12 3, .load 12 4] else []) ++ storeAll 0 f.stores ++ [.sub f.space])) := by
  cases f with
  | mk b st sp => cases b <;> rfl

theorem storeAll_mem (i : Nat) (ns : List Nat) : ∀ x ∈ storeAll i ns, ∃ k n, x = .store k n := by
  induction ns generalizing i with
  | nil => intro x hx; cases hx
  | cons n ns ih =>
    intro x hx
    rcases List.mem_cons.1 hx with h | h
    · exact ⟨i, n, h⟩
    · exact ih _ x h

theorem rest_kinds (f : Function) : ∀ i ∈ (if f.isFilter then [Ins.load 13 3, .load 12 3, .load 12 4] else []) ++ storeAll 0 f.stores ++ [.sub f.space],
    (∃ r n, i = .load r n ∧ r ∈ pushed f ∧ r ≠ 5) ∨ (∃ k n, i = .store k n) ∨ ∃ n, i = .sub n := by
  intro i hi
  rcases List.mem_append.1 hi with hi | hi
  · rcases List.mem_append.1 hi with hi | hi
    · left
      cases f with
      | mk b st sp =>
        cases b
        · cases hi
        · rcases List.mem_cons.1 hi with h | hi
          · exact ⟨13, 3, h, by simp [pushed], by decide⟩
          · rcases List.mem_cons.1 hi with h | hi
            · exact ⟨12, 3, h, by simp [pushed], by decide⟩
            · exact ⟨12, 4, List.mem_singleton.1 hi, by simp [pushed], by decide⟩
    · exact Or.inr (Or.inl (storeAll_mem _ _ i hi))
  · exact Or.inr (Or.inr ⟨_, List.mem_singleton.1 hi⟩)

theorem holds_entry (entry : State) : Holds [] entry entry.mem entry.regs (entry.regs 4) :=
  ⟨by simp, rfl, fun k r h => by simp at h, fun _ _ _ => rfl⟩

/-- After pushing the registers `rs`, the last one first. -/
theorem holds_pushes (f : Function) (v : Nat → Int) (entry : State) (rs : List Nat) (hn : rs.Nodup) (hr : ∀ r ∈ rs, r ∈ nonvolatile) :
    Holds rs entry (run f (rs.reverse.map Ins.push) v entry).mem (run f (rs.reverse.map Ins.push) v entry).regs
      ((run f (rs.reverse.map Ins.push) v entry).regs 4) := by
  induction rs with
  | nil => exact holds_entry entry
  | cons r rs ih =>
    rw [List.reverse_cons, List.map_append, run_append]
    have h := ih (List.nodup_cons.1 hn).2 (fun q hq => hr q (List.mem_cons_of_mem _ hq))
    exact holds_push f (v (0 + (rs.reverse.map Ins.push).length)) rs entry _ r (hr r List.mem_cons_self) (List.nodup_cons.1 hn).1 h

theorem size_pushes (rs : List Nat) : size (rs.reverse.map Ins.push) = pushBytes rs := by
  induction rs with
  | nil => rfl
  | cons r rs ih =>
    rw [List.reverse_cons, List.map_append, size_append, ih, pushBytes]
    have : size (List.map Ins.push [r]) = 1 + if 8 ≤ r then 1 else 0 := by
      show 0 + (if r < 8 then 1 else 2) = _
      split <;> split <;> omega
    omega

theorem pushed_nodup (f : Function) : (pushed f).Nodup := by
  cases f with
  | mk b st sp => cases b <;> simp [pushed]

theorem pushed_nonvolatile (f : Function) : ∀ r ∈ pushed f, r ∈ nonvolatile := by
  cases f with
  | mk b st sp => cases b <;> simp [pushed, nonvolatile]

theorem saved_length (f : Function) : (saved f : Int) + 1 = ((pushed f).length : Int) := by
  cases f with
  | mk b st sp => cases b <;> rfl

theorem holds_frame (f : Function) (v : Int) (rs : List Nat) (entry s : State) (h5 : 5 ∈ rs) (hs : Holds rs entry s.mem s.regs (s.regs 4)) :
    Holds rs entry (Ins.frame.run f v s).mem (Ins.frame.run f v s).regs ((Ins.frame.run f v s).regs 5) := by
  have e5 : (Ins.frame.run f v s).regs 5 = s.regs 4 := put_same 5 _ s.regs
  rw [e5]
  refine ⟨hs.place, hs.ret, hs.words, ?_⟩
  intro q hq hm
  show put 5 _ s.regs q = _
  rw [put_other 5 q _ _ (fun he => hm (by rw [he]; exact h5))]
  exact hs.other q hq hm

theorem pushed_5 (f : Function) : 5 ∈ pushed f := by
  cases f with
  | mk b st sp => cases b <;> simp [pushed, nonvolatile]

/-- The state after part of a prolog that includes `mov rbp, rsp`. -/
theorem holds_framed (f : Function) (v : Nat → Int) (entry : State) (is : List Ins)
    (hi : ∀ i ∈ is, (∃ r n, i = .load r n ∧ r ∈ pushed f ∧ r ≠ 5) ∨ (∃ k n, i = .store k n) ∨ ∃ n, i = .sub n) :
    let s := run f ((pushed f).reverse.map Ins.push ++ (.frame :: is)) v entry
    Holds (pushed f) entry s.mem s.regs (s.regs 5) := by
  intro s
  have e : s = run f is (fun k => v (k + 1 + ((pushed f).reverse.map Ins.push).length))
      (Ins.frame.run f (v (0 + ((pushed f).reverse.map Ins.push).length)) (run f ((pushed f).reverse.map Ins.push) v entry)) := by
    show run f _ v entry = _
    rw [run_append, run]
  rw [e]
  exact holds_rest f is _ entry _ hi (saved_length f)
    (holds_frame f _ _ entry _ (pushed_5 f) (holds_pushes f v entry _ (pushed_nodup f) (pushed_nonvolatile f)))

/-- In the prolog: after every instruction the caller is found. -/
theorem C76_prolog_partial (f : Function) (h : Valid f) (handler : Bool) (entry : State) (values : Nat → Int) (k : Nat) :
    let done := (prolog f).take k
    Finds entry (unwind (unwindInfo f handler) (size done) (run f done values entry)) := by
  intro done
  have hd : done = (prolog f).take k := rfl
  rw [prolog_eq, List.take_append] at hd
  rcases Nat.lt_or_ge ((pushed f).reverse.map Ins.push).length k with hk | hk
  · obtain ⟨j, hj⟩ : ∃ j, k - ((pushed f).reverse.map Ins.push).length = j + 1 := ⟨k - ((pushed f).reverse.map Ins.push).length - 1, by omega⟩
    rw [hj, List.take_of_length_le (by omega), List.take_succ_cons] at hd
    rw [hd]
    refine framed_finds f h handler entry _ (holds_framed f values entry _ ?_) _ ?_
    · intro i hi
      exact rest_kinds f i (List.mem_of_mem_take hi)
    · rw [size_append, size_pushes, size_cons, pushBytes_pushed]
      show _ ≤ _ + (3 + _)
      omega
  · rw [show k - ((pushed f).reverse.map Ins.push).length = 0 by omega, List.take_zero, List.append_nil, ← List.map_take] at hd
    have hl : k ≤ (pushed f).length := by simpa using hk
    have hr : (pushed f).reverse.take k = ((pushed f).drop ((pushed f).length - k)).reverse := by
      rw [List.take_reverse]
    rw [hr] at hd
    rw [hd, size_pushes]
    have hsplit := (List.take_append_drop ((pushed f).length - k) (pushed f)).symm
    refine pushing_finds f h handler entry _ _ _ hsplit (holds_pushes f values entry _ ?_ ?_)
    · exact (pushed_nodup f).sublist (List.drop_sublist _ _)
    · intro r hr
      exact pushed_nonvolatile f r (List.mem_of_mem_drop hr)

theorem body_holds (f : Function) (entry s : State) (values : Nat → Int) (hs : InBody f (run f (prolog f) values entry) entry s) :
    Holds (pushed f) entry s.mem s.regs (s.regs 5) := by
  have h0 := holds_framed f values entry _ (rest_kinds f)
  rw [← prolog_eq] at h0
  have hp := h0.place
  rw [hs.frame]
  have hlen : (0 : Int) ≤ ((pushed f).length : Int) := by omega
  refine ⟨hp, ?_, ?_, ?_⟩
  · rw [hs.saved _ (by omega) (by omega)]
    exact h0.ret
  · intro k r hk
    have hlt : k < (pushed f).length := by
      rcases Nat.lt_or_ge k (pushed f).length with h | h
      · exact h
      · rw [List.getElem?_eq_none h] at hk; cases hk
    rw [hs.saved _ (by omega) (by omega)]
    exact h0.words k r hk
  · intro r hr hm
    rw [hs.other r hr hm]
    exact h0.other r hr hm

/-- In the body, whatever it did to `rsp`: the caller is found. -/
theorem C76_body_partial (f : Function) (h : Valid f) (handler : Bool) (entry s : State) (values : Nat → Int)
    (hs : InBody f (run f (prolog f) values entry) entry s) (offset : Nat) (ho : size (prolog f) ≤ offset) :
    Finds entry (unwind (unwindInfo f handler) offset s) := by
  refine framed_finds f h handler entry s (body_holds f entry s values hs) offset ?_
  have := prologSize_gt f
  unfold prologSize at this
  omega

/-- The epilog is the pops after `mov rsp, rbp`. -/
theorem epilog_eq (f : Function) : epilog f = .stack :: ((pushed f).map Instr.pop ++ [.ret]) := by
  cases f with
  | mk b st sp => cases b <;> rfl

theorem epilogPops_pops (rs : List Nat) (t : List Instr) : epilogPops (rs.map Instr.pop ++ .ret :: t) = some rs := by
  induction rs with
  | nil => rfl
  | cons r rs ih => rw [List.map_cons, List.cons_append, epilogPops, ih]; rfl

theorem leave_pops (rs : List Nat) (s : State) : leave (rs.map Instr.pop) s = ⟨simulate s.mem rs s.regs, s.mem⟩ := by
  induction rs generalizing s with
  | nil => rfl
  | cons r rs ih => rw [List.map_cons, leave, ih]; rfl

theorem simulate_append (mem : Int → Int) (a b : List Nat) (regs : Nat → Int) :
    simulate mem (a ++ b) regs = simulate mem b (simulate mem a regs) := by
  induction a generalizing regs with
  | nil => rfl
  | cons r a ih => rw [List.cons_append, simulate, ih]; rfl

/-- In the epilog: after every instruction the caller is found, and the return goes there with its registers. -/
theorem C76_epilog_partial (f : Function) (h : Valid f) (handler : Bool) (entry s : State) (values : Nat → Int)
    (hs : InBody f (run f (prolog f) values entry) entry s) (offset : Nat) (ho : size (prolog f) ≤ offset) (k : Nat)
    (hk : k < (epilog f).length) (after : List Instr) :
    Finds entry (caller ((epilog f).drop k ++ after) (unwindInfo f handler) offset (leave ((epilog f).take k) s)) := by
  rw [epilog_eq] at hk ⊢
  cases k with
  | zero => exact C76_body_partial f h handler entry s values hs offset ho
  | succ k =>
    have hb := body_holds f entry s values hs
    have hkl : k ≤ (pushed f).length := by
      simp only [List.length_cons, List.length_append, List.length_map, List.length_nil] at hk; omega
    rw [List.drop_succ_cons, List.take_succ_cons, List.drop_append_of_le_length (by rw [List.length_map]; exact hkl),
      List.take_append_of_le_length (by rw [List.length_map]; exact hkl), ← List.map_drop, ← List.map_take, leave, leave_pops]
    have e : epilogPops (List.map Instr.pop (List.drop k (pushed f)) ++ [Instr.ret] ++ after) = some (List.drop k (pushed f)) := by
      rw [List.append_assoc]; exact epilogPops_pops _ _
    simp only [caller, e]
    rw [← simulate_append, List.take_append_drop]
    refine holds_finds (base := s.regs 5) ⟨hb.place, hb.ret, hb.words, ?_⟩ (put_same _ _ _) (pushed_4 f)
    intro r hr hm
    have hr4 : r ≠ 4 := fun he => nonvolatile_4 (he ▸ hr)
    rw [put_other _ _ _ _ hr4]
    exact hb.other r hr hm

theorem codeBytes_pushes (at_ : Nat) (rs : List Nat) : codeBytes 0 (pushCodes at_ rs) = some (8 * rs.length) := by
  induction rs generalizing at_ with
  | nil => rfl
  | cons r rs ih =>
    have e1 : (0 + 16 * r) % 16 = 0 := by omega
    simp only [pushCodes, List.cons_append, List.nil_append, codeBytes, e1, extra, ih, List.length_cons]
    congr 1; omega

/-- The size of the frame is described, too, for tools that do not look at the frame register. -/
theorem C76_frame_size_partial (f : Function) (h : Valid f) (handler : Bool) (entry : State) (values : Nat → Int) :
    ∃ n : Nat, frameBytes (unwindInfo f handler) = some n ∧ (run f (prolog f) values entry).regs 4 = entry.regs 4 - n := by
  obtain ⟨k, hk, hl⟩ := allCodes_even f
  have e1 : (allCodes f).length / 2 % 256 = k := by omega
  have e2 : ∀ pad : List Nat, (allCodes f ++ pad).take (2 * k) = allCodes f := by
    intro pad; rw [← hk, List.take_left]
  refine ⟨f.space + 8 * (pushed f).length, ?_, ?_⟩
  · unfold unwindInfo
    simp only [List.cons_append, List.nil_append, frameBytes, e1, e2]
    have ha := h.aligned
    have hb := h.small
    have hc := h.some_
    have hp : codeBytes 0 ([(pushOffset f + 3) % 256, 3] ++ pushCodes (pushOffset f) (pushed f)) = some (8 * (pushed f).length) := by
      simp only [List.cons_append, List.nil_append, codeBytes, extra, codeBytes_pushes]
      congr 1; omega
    unfold allCodes
    rw [List.append_assoc]
    generalize [(pushOffset f + 3) % 256, 3] ++ pushCodes (pushOffset f) (pushed f) = rest at hp ⊢
    unfold allocCode
    split
    · have e1 : (2 + 16 * ((f.space - 8) / 8 % 16)) % 16 = 2 := by omega
      have e2 : (2 + 16 * ((f.space - 8) / 8 % 16)) / 16 = (f.space - 8) / 8 := by omega
      simp only [List.cons_append, List.nil_append, codeBytes, e1, e2, extra, hp]
      congr 1; omega
    · · show (match some (8 * (f.space / 8 % 256 + 256 * (f.space / 8 / 256 % 256))), codeBytes 0 rest with
          | some n, some m => some (n + m) | _, _ => none) = _
        rw [hp]
        show some _ = some _
        congr 1; omega
  · have hs : ∀ (is : List Ins) (v : Nat → Int) (s : State), (∀ i ∈ is, (∃ r n, i = .load r n ∧ r ≠ 4) ∨ (∃ k n, i = .store k n)) →
        (run f is v s).regs 4 = s.regs 4 := by
      intro is
      induction is with
      | nil => intro v s _; rfl
      | cons i is ih =>
        intro v s hi
        rw [run, ih _ _ (fun j hj => hi j (List.mem_cons_of_mem _ hj))]
        rcases hi i List.mem_cons_self with ⟨r, n, rfl, h4⟩ | ⟨k, n, rfl⟩
        · exact put_other r 4 _ s.regs (fun he => h4 he.symm)
        · rfl
    have h0 := (holds_pushes f values entry _ (pushed_nodup f) (pushed_nonvolatile f)).place
    rw [prolog_eq, run_append, run, run_append]
    simp only [run, Ins.run]
    rw [put_same, hs]
    · simp only []
      rw [put_other 5 4 _ _ (by omega), h0]
      simp only [Int.natCast_add, Int.natCast_mul]
      omega
    · intro i hi
      rcases List.mem_append.1 hi with hi | hi
      · left
        cases f with
        | mk b st sp =>
          cases b
          · cases hi
          · rcases List.mem_cons.1 hi with h | hi
            · exact ⟨13, 3, h, by decide⟩
            · rcases List.mem_cons.1 hi with h | hi
              · exact ⟨12, 3, h, by decide⟩
              · exact ⟨12, 4, List.mem_singleton.1 hi, by decide⟩
      · exact Or.inr (storeAll_mem _ _ i hi)

/-! A function with two arguments and a frame of 80 bytes, and a filter with a large frame. -/
namespace Sample

def plain : Function := ⟨false, [4, 5], 80⟩
def filter : Function := ⟨true, [4, 4], 65536⟩

example : Valid plain := ⟨by decide, by decide, by decide, by decide, by decide⟩
example : Valid filter := ⟨by decide, by decide, by decide, by decide, by decide⟩

example : unwindInfo plain false =
    [1, 22, 5, 5, 22, 0x92, 6, 3, 3, 0x50, 2, 0x60, 1, 0x70, 0, 0] := by decide
example : unwindInfo filter true =
    [9, 35, 8, 5, 35, 0x01, 0, 32, 10, 3, 7, 0x50, 6, 0x60, 5, 0x70, 4, 0xc0, 2, 0xd0] := by decide

def entry : State := ⟨fun r => 1000 + 8 * r, fun a => a + 1⟩

example : (run plain (prolog plain) (fun _ => 0) entry).regs 4 = 1032 - 24 - 80 := by decide
/-- In the body with `rsp` moved by `_alloca`. -/
example : InBody plain (run plain (prolog plain) (fun _ => 7) entry) entry
    ⟨put 4 500 (run plain (prolog plain) (fun _ => 7) entry).regs, (run plain (prolog plain) (fun _ => 7) entry).mem⟩ :=
  ⟨rfl, fun _ _ _ => rfl, by decide⟩

/-- A frame of 16 MB. -/
def large : Function := ⟨false, [], 16777216⟩

end Sample

/-- For frames of 512 KB and more the size is written two bytes too late. What the frame is said to have is not what the prolog allocates; for a frame
of 16 MB the caller is not found, as the bytes of the size are taken for other codes. -/
theorem C76_large_frame_wrong : ∃ f : Function, f.stores = [] ∧ f.space % 8 = 0 ∧ f.space < 2 ^ 32 ∧
    (∀ n : Nat, frameBytes (unwindInfo f false) = some n → (run f (prolog f) (fun _ => 0) Sample.entry).regs 4 ≠ Sample.entry.regs 4 - n) ∧
    ¬ Finds Sample.entry (unwind (unwindInfo f false) (size (prolog f)) (run f (prolog f) (fun _ => 0) Sample.entry)) := by
  refine ⟨Sample.large, rfl, by decide, by decide, ?_, ?_⟩
  · intro n hn
    have e : frameBytes (unwindInfo Sample.large false) = some 6216 := by decide
    rw [e] at hn
    have := Option.some.inj hn
    subst this
    decide
  · rintro ⟨regs, h1, -⟩
    have e : (unwind (unwindInfo Sample.large false) (size (prolog Sample.large)) (run Sample.large (prolog Sample.large) (fun _ => 0) Sample.entry)).map (·.2) ≠
        some (Sample.entry.mem (Sample.entry.regs 4)) := by decide
    apply e
    rw [h1]; rfl

end Verif.Props.Unwind
