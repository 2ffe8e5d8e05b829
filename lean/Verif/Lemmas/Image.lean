import Verif.Spec.Image
import Verif.Model.Image

/-!
# Lemmas: the places of pushes and the writes into them
-/
namespace Verif.Lemmas.Image
open Verif.Model.Image Verif.Model.BaseReloc

theorem padding_mod {at_ a : Nat} (h : 0 < a) : (at_ + padding at_ a) % a = 0 := by
  unfold padding
  have h1 : at_ % a < a := Nat.mod_lt _ h
  have h2 := Nat.div_add_mod at_ a
  by_cases h0 : at_ % a = 0
  · rw [h0, Nat.sub_zero, Nat.mod_self, Nat.add_zero, h0]
  · rw [Nat.mod_eq_of_lt (show a - at_ % a < a by omega)]
    have : at_ + (a - at_ % a) = a * (at_ / a) + a := by omega
    rw [this, Nat.add_mod_right, Nat.mul_mod_right]

theorem alignUp_mod {x a : Nat} : alignUp x a % a = 0 := Nat.mul_mod_left _ _

theorem le_alignUp {x a : Nat} (h : 0 < a) : x ≤ alignUp x a := by
  unfold alignUp
  have h1 := Nat.div_add_mod (x + (a - 1)) a
  have h2 := Nat.mod_lt (x + (a - 1)) h
  rw [Nat.mul_comm]
  omega

theorem alignUp_self {x a : Nat} (h : 0 < a) (hx : x % a = 0) : alignUp x a = x := by
  unfold alignUp
  obtain ⟨k, rfl⟩ : ∃ k, x = a * k := ⟨x / a, by have := Nat.div_add_mod x a; omega⟩
  rw [Nat.mul_add_div h, Nat.div_eq_of_lt (by omega), Nat.add_zero, Nat.mul_comm]

theorem alignUp_lt {x a : Nat} (h : 0 < a) : alignUp x a < x + a := by
  unfold alignUp
  have := Nat.div_mul_le_self (x + (a - 1)) a
  omega

/-- Bytes at a position. -/
def At (f : List Nat) (ptr : Nat) (bytes : List Nat) : Prop := ∀ i, i < bytes.length → f[ptr + i]? = bytes[i]?

theorem At.append {f : List Nat} {n : Nat} {a b : List Nat} (h : At f n (a ++ b)) : At f n a ∧ At f (n + a.length) b := by
  refine ⟨fun i hi => ?_, fun i hi => ?_⟩
  · rw [h i (by rw [List.length_append]; omega), List.getElem?_append_left hi]
  · rw [Nat.add_assoc, h (a.length + i) (by rw [List.length_append]; omega), List.getElem?_append_right (by omega)]
    congr 1; omega

theorem at_of_append (a b c : List Nat) : At (a ++ (b ++ c)) a.length b := by
  intro i hi
  rw [List.getElem?_append_right (by omega), List.getElem?_append_left (by omega)]
  congr 1; omega

theorem place_inside (ps : List Push) : ∀ at_ va, ∀ x ∈ place at_ va ps,
    at_ ≤ x.ptr ∧ x.ptr + x.bytes.length ≤ at_ + (lay at_ ps).length ∧ x.rva = va + (x.ptr - at_) := by
  induction ps with
  | nil => intro _ _ x hx; cases hx
  | cons p ps ih =>
    intro at_ va x hx
    rw [place] at hx
    rw [lay, List.length_append, List.length_append, List.length_replicate]
    rcases List.mem_cons.1 hx with rfl | hx
    · refine ⟨by simp, by simp only []; omega, by simp only []; omega⟩
    · obtain ⟨h1, h2, h3⟩ := ih _ _ x hx
      refine ⟨by omega, by omega, by omega⟩

theorem place_at (ps : List Push) : ∀ (pre post : List Nat) (va : Nat), ∀ x ∈ place pre.length va ps,
    At (pre ++ (lay pre.length ps ++ post)) x.ptr x.bytes := by
  induction ps with
  | nil => intro _ _ _ x hx; cases hx
  | cons p ps ih =>
    intro pre post va x hx
    rw [place] at hx
    have e : pre ++ (lay pre.length (p :: ps) ++ post) =
        (pre ++ List.replicate (padding pre.length p.align) p.fill ++ p.bytes) ++
          (lay (pre.length + padding pre.length p.align + p.bytes.length) ps ++ post) := by
      rw [lay]; simp only [List.append_assoc]
    have el : (pre ++ List.replicate (padding pre.length p.align) p.fill ++ p.bytes).length =
        pre.length + padding pre.length p.align + p.bytes.length := by
      simp only [List.length_append, List.length_replicate]
    rw [e]
    rcases List.mem_cons.1 hx with rfl | hx
    · have := at_of_append (pre ++ List.replicate (padding pre.length p.align) p.fill) p.bytes
        (lay (pre.length + padding pre.length p.align + p.bytes.length) ps ++ post)
      rw [List.length_append, List.length_replicate] at this
      rw [List.append_assoc]
      exact this
    · rw [← el] at hx ⊢
      refine ih _ _ (va + padding pre.length p.align + p.bytes.length) x ?_
      rw [el] at hx ⊢
      exact hx

/-- No overlap, in this order. -/
def Ordered (x y : Placed) : Prop := x.ptr + x.bytes.length ≤ y.ptr

theorem place_ordered (ps : List Push) : ∀ at_ va, (place at_ va ps).Pairwise Ordered := by
  induction ps with
  | nil => intro _ _; exact .nil
  | cons p ps ih =>
    intro at_ va
    rw [place]
    refine List.pairwise_cons.2 ⟨fun y hy => ?_, ih _ _⟩
    exact (place_inside ps _ _ y hy).1

theorem place_keys (ps : List Push) : ∀ at_ va, (place at_ va ps).map (·.key) = ps.map (·.key) := by
  induction ps with
  | nil => intro _ _; rfl
  | cons p ps ih => intro at_ va; rw [place, List.map_cons, List.map_cons, ih]

/-- Each push has a place, and it is aligned. -/
theorem place_of_push (ps : List Push) : ∀ at_ va, ∀ p ∈ ps, 0 < p.align →
    ∃ x ∈ place at_ va ps, x.key = p.key ∧ x.bytes = p.bytes ∧ x.ptr % p.align = 0 := by
  induction ps with
  | nil => intro _ _ p hp; cases hp
  | cons q ps ih =>
    intro at_ va p hp ha
    rw [place]
    rcases List.mem_cons.1 hp with rfl | hp
    · exact ⟨_, List.mem_cons_self, rfl, rfl, padding_mod ha⟩
    · obtain ⟨x, hx, h⟩ := ih (at_ + padding at_ q.align + q.bytes.length) (va + padding at_ q.align + q.bytes.length) p hp ha
      exact ⟨x, List.mem_cons_of_mem _ hx, h⟩

theorem push_of_place (ps : List Push) : ∀ at_ va, ∀ x ∈ place at_ va ps, ∃ p ∈ ps, x.key = p.key ∧ x.bytes = p.bytes := by
  induction ps with
  | nil => intro _ _ p hp; cases hp
  | cons q ps ih =>
    intro at_ va x hx
    rw [place] at hx
    rcases List.mem_cons.1 hx with rfl | hx
    · exact ⟨q, List.mem_cons_self, rfl, rfl⟩
    · obtain ⟨p, hp, h⟩ := ih _ _ x hx
      exact ⟨p, List.mem_cons_of_mem _ hp, h⟩

/-- Different names. -/
def Distinct (a b : Option Key) : Prop := ∀ k, a = some k → b ≠ some k

theorem find_key {l : List Placed} (hd : (l.map (·.key)).Pairwise Distinct) {x : Placed} (hx : x ∈ l) {k : Key} (hk : x.key = some k) :
    l.find? (fun y => y.key = some k) = some x := by
  induction l with
  | nil => cases hx
  | cons y l ih =>
    rw [List.map_cons, List.pairwise_cons] at hd
    rcases List.mem_cons.1 hx with rfl | hx
    · rw [List.find?_cons_of_pos (by simpa using hk)]
    · rw [List.find?_cons_of_neg]
      · exact ih hd.2 hx
      · intro hy
        have hy : y.key = some k := by simpa using hy
        exact hd.1 x.key (List.mem_map_of_mem hx) k hy hk

theorem rvaIn_eq {l : List Placed} (hd : (l.map (·.key)).Pairwise Distinct) {x : Placed} (hx : x ∈ l) {k : Key} (hk : x.key = some k) :
    rvaIn l k = x.rva := by unfold rvaIn; rw [find_key hd hx hk]

theorem ptrIn_eq {l : List Placed} (hd : (l.map (·.key)).Pairwise Distinct) {x : Placed} (hx : x ∈ l) {k : Key} (hk : x.key = some k) :
    ptrIn l k = x.ptr := by unfold ptrIn; rw [find_key hd hx hk]

theorem same_key {l : List Placed} (hd : (l.map (·.key)).Pairwise Distinct) {x y : Placed} (hx : x ∈ l) (hy : y ∈ l) {k : Key} (hkx : x.key = some k)
    (hky : y.key = some k) : x = y := by
  have h1 := find_key hd hx hkx
  rw [find_key hd hy hky] at h1
  exact (Option.some.inj h1).symm

theorem poke_length {f : List Nat} {n : Nat} {b : List Nat} (h : n + b.length ≤ f.length) : (poke f n b).length = f.length := by
  unfold poke
  rw [List.length_append, List.length_append, List.length_take, List.length_drop]
  omega

theorem poke_get {f : List Nat} {n : Nat} {b : List Nat} (h : n + b.length ≤ f.length) (i : Nat) :
    (poke f n b)[i]? = if i < n then f[i]? else if i < n + b.length then b[i - n]? else f[i]? := by
  unfold poke
  have hl : (f.take n).length = n := by rw [List.length_take]; omega
  split
  · rw [List.append_assoc, List.getElem?_append_left (by omega), List.getElem?_take]
    rw [if_pos (by assumption)]
  · split
    · rw [List.append_assoc, List.getElem?_append_right (by omega), List.getElem?_append_left (by omega), hl]
    · rw [List.getElem?_append_right (by rw [List.length_append]; omega), List.getElem?_drop, List.length_append, hl]
      congr 1; omega

theorem poke_other {f : List Nat} {n m : Nat} {b c : List Nat} (h : n + b.length ≤ f.length) (hc : At f m c)
    (hd : n + b.length ≤ m ∨ m + c.length ≤ n) : At (poke f n b) m c := by
  intro i hi
  rw [poke_get h]
  split
  · exact hc i hi
  · rw [if_neg (by omega)]; exact hc i hi

theorem poke_same {f : List Nat} {n m : Nat} {b c : List Nat} (h : m + n + b.length ≤ f.length) (hc : At f m c) (hb : n + b.length ≤ c.length) :
    At (poke f (m + n) b) m (poke c n b) := by
  intro i hi
  rw [poke_length hb] at hi
  rw [poke_get h, poke_get hb]
  have e : m + i - (m + n) = i - n := by omega
  rw [e]
  by_cases h1 : i < n
  · rw [if_pos (by omega), if_pos h1]; exact hc i hi
  · rw [if_neg (by omega), if_neg h1]
    by_cases h2 : i < n + b.length
    · rw [if_pos (by omega), if_pos h2]
    · rw [if_neg (by omega), if_neg h2]; exact hc i hi

/-- What is in a push after writes. -/
def content : List Write → Key → List Nat → List Nat
  | [], _, bytes => bytes
  | w :: ws, k, bytes => content ws k (if w.key = k then poke bytes w.offset w.bytes else bytes)

/-- The writes are inside of what they write to. -/
def Fits (l : List Placed) (w : Write) : Prop := ∃ x ∈ l, x.key = some w.key ∧ w.offset + w.bytes.length ≤ x.bytes.length

theorem content_length (l : List Placed) (hd : (l.map (·.key)).Pairwise Distinct) {x : Placed} (hx : x ∈ l) {k : Key} (hk : x.key = some k)
    (ws : List Write) (hw : ∀ w ∈ ws, Fits l w) : ∀ c : List Nat, c.length = x.bytes.length → (content ws k c).length = x.bytes.length := by
  induction ws with
  | nil => intro c hc; exact hc
  | cons w ws ih =>
    intro c hc
    rw [content]
    refine ih (fun w h => hw w (List.mem_cons_of_mem _ h)) _ ?_
    split
    · next he =>
      obtain ⟨y, hy, hky, hl⟩ := hw w List.mem_cons_self
      rw [he] at hky
      rw [same_key hd hy hx hky hk] at hl
      rw [poke_length (by omega), hc]
    · exact hc

theorem pairwise_or {l : List Placed} (ho : l.Pairwise Ordered) {x y : Placed} (hx : x ∈ l) (hy : y ∈ l) : x = y ∨ Ordered x y ∨ Ordered y x := by
  induction l with
  | nil => cases hx
  | cons z l ih =>
    rw [List.pairwise_cons] at ho
    rcases List.mem_cons.1 hx with ex | hx'
    · rcases List.mem_cons.1 hy with ey | hy'
      · exact .inl (ex.trans ey.symm)
      · rw [ex]; exact .inr (.inl (ho.1 y hy'))
    · rcases List.mem_cons.1 hy with ey | hy'
      · rw [ey]; exact .inr (.inr (ho.1 x hx'))
      · exact ih ho.2 hx' hy'

/-- What is at the place of a push after all writes. -/
theorem written (l : List Placed) (hd : (l.map (·.key)).Pairwise Distinct) (ho : l.Pairwise Ordered) (ws : List Write) (hw : ∀ w ∈ ws, Fits l w) :
    ∀ f : List Nat, (∀ x ∈ l, x.ptr + x.bytes.length ≤ f.length) →
    (ws.foldl (apply l) f).length = f.length ∧
    ∀ x ∈ l, ∀ k, x.key = some k → ∀ c, c.length = x.bytes.length → At f x.ptr c → At (ws.foldl (apply l) f) x.ptr (content ws k c) := by
  induction ws with
  | nil => intro f hf; exact ⟨rfl, fun x hx k hk c hc h => h⟩
  | cons w ws ih =>
    intro f hf
    obtain ⟨y, hy, hky, hl⟩ := hw w List.mem_cons_self
    have hp : ptrIn l w.key = y.ptr := ptrIn_eq hd hy hky
    have hyl := hf y hy
    have hlen : (apply l f w).length = f.length := by
      unfold apply; rw [hp]; exact poke_length (by omega)
    obtain ⟨h1, h2⟩ := ih (fun w h => hw w (List.mem_cons_of_mem _ h)) (apply l f w) (by rw [hlen]; exact hf)
    refine ⟨by rw [List.foldl_cons, h1, hlen], fun x hx k hk c hc ha => ?_⟩
    rw [List.foldl_cons, content]
    refine h2 x hx k hk _ ?_ ?_
    · split
      · next he =>
        rw [he] at hky
        rw [same_key hd hy hx hky hk] at hl
        rw [poke_length (by omega), hc]
      · exact hc
    · unfold apply
      rw [hp]
      split
      · next he =>
        rw [he] at hky
        have := same_key hd hy hx hky hk
        subst this
        exact poke_same (by omega) ha (by omega)
      · next he =>
        refine poke_other (by omega) ha ?_
        rcases pairwise_or ho hx hy with rfl | h | h
        · rw [hky] at hk; exact absurd (Option.some.inj hk) he
        · unfold Ordered at h; right; omega
        · unfold Ordered at h; left; omega

/-- What is before all pushes stays. -/
theorem written_before (l : List Placed) (hd : (l.map (·.key)).Pairwise Distinct) (n : Nat) (hn : ∀ x ∈ l, n ≤ x.ptr) (ws : List Write)
    (hw : ∀ w ∈ ws, Fits l w) : ∀ f : List Nat, (∀ x ∈ l, x.ptr + x.bytes.length ≤ f.length) →
    ∀ i, i < n → (ws.foldl (apply l) f)[i]? = f[i]? := by
  induction ws with
  | nil => intro f hf i hi; rfl
  | cons w ws ih =>
    intro f hf i hi
    obtain ⟨y, hy, hky, hl⟩ := hw w List.mem_cons_self
    have hp : ptrIn l w.key = y.ptr := ptrIn_eq hd hy hky
    have hyl := hf y hy
    have hyn := hn y hy
    have hlen : (apply l f w).length = f.length := by
      unfold apply; rw [hp]; exact poke_length (by omega)
    rw [List.foldl_cons, ih (fun w h => hw w (List.mem_cons_of_mem _ h)) (apply l f w) (by rw [hlen]; exact hf) i hi]
    unfold apply
    rw [hp, poke_get (by omega), if_pos (by omega)]

end Verif.Lemmas.Image
