import Verif.Model.StaticInit

/-! Lemmas for Props/StaticInit.lean. -/
namespace Verif.Lemmas.StaticInit
open Verif.Spec.StaticInit Verif.Model.StaticInit

theorem cons_append (n : Node) (c d : Code) : (Code.cons n c) ++ d = Code.cons n (c ++ d) := rfl
theorem nil_append (d : Code) : Code.nil ++ d = d := rfl

theorem append_assoc : (a b c : Code) → (a ++ b) ++ c = a ++ (b ++ c)
  | .nil, _, _ => rfl
  | .cons n a, b, c => by rw [cons_append, cons_append, cons_append, append_assoc a b c]

theorem append_nil : (a : Code) → a ++ Code.nil = a
  | .nil => rfl
  | .cons n a => by rw [cons_append, append_nil a]

/-! ## Expressions -/

/-- The code pushes an entry. -/
def Pushes (c : Code) (en : Entry) : Prop :=
  ∀ root rest stack s, exec root (c ++ rest) stack s = exec root rest (en :: stack) s

/-- What the entry for an expression is. -/
def Denotes (e : VExpr) : Option Source → Entry → Prop
  | none, en => ∃ v, v < 2 ^ 64 ∧ (∀ at_, valueOf at_ e = v) ∧ operand en = some (.null, v) ∧
      (∀ s o n arr, initializer s o n arr en = .ok { s with data := copy s.data o n (le v) })
  | some src, en => ∃ off, off < 2 ^ 64 ∧ en = ⟨.source src, off, true⟩ ∧
      (∀ at_, valueOf at_ e = (at_ src + off) % 2 ^ 64)

/-- What is patched. -/
def whatOf : Option Source → Ir
  | none => .null
  | some s => .source s

/-- The address that is added. -/
def plus (at_ : Addresses) : Option Source → Nat
  | none => 0
  | some s => at_ s

theorem denotes_operand {e b en} (h : Denotes e b en) : ∃ off, off < 2 ^ 64 ∧
    operand en = some (whatOf b, off) ∧
    ∀ at_, valueOf at_ e = (plus at_ b + off) % 2 ^ 64 := by
  cases b with
  | none =>
    obtain ⟨v, hv, h1, h2, _⟩ := h
    exact ⟨v, hv, h2, fun at_ => by rw [h1]; simp only [plus]; omega⟩
  | some s =>
    obtain ⟨off, hv, rfl, h2⟩ := h
    exact ⟨off, hv, rfl, h2⟩

theorem denotes_null {e : VExpr} {v : Nat} (hv : v < 2 ^ 64) (h : ∀ at_, valueOf at_ e = v) :
    Denotes e none ⟨.null, v, true⟩ :=
  ⟨v, hv, h, rfl, fun _ _ _ _ => rfl⟩

theorem arith_denotes {add : Bool} {a b : VExpr} {x y z : Option Source} {l r : Entry}
    (ha : Denotes a x l) (hb : Denotes b y r)
    (hz : (add = true ∧ ((y = none ∧ z = x) ∨ (x = none ∧ z = y))) ∨
      (add = false ∧ ((y = none ∧ z = x) ∨ (∃ s, x = some s ∧ y = some s ∧ z = none)))) :
    ∃ en, arith add l r = some en ∧ Denotes (if add then .add a b else .sub a b) z en := by
  obtain ⟨oa, hoa, ea, va⟩ := denotes_operand ha
  obtain ⟨ob, hob, eb, vb⟩ := denotes_operand hb
  rcases hz with ⟨rfl, hz⟩ | ⟨rfl, hz⟩
  · have hval : ∀ at_, valueOf at_ (.add a b) =
        (plus at_ x + plus at_ y +
          (oa + ob) % 2 ^ 64) % 2 ^ 64 := by
      intro at_
      rw [valueOf, va, vb]
      generalize plus at_ x = p
      generalize plus at_ y = q
      omega
    rcases hz with ⟨rfl, rfl⟩ | ⟨rfl, rfl⟩
    · cases z with
      | none =>
        refine ⟨⟨.null, (oa + ob) % 2 ^ 64, true⟩, ?_, denotes_null (by omega) (fun at_ => ?_)⟩
        · unfold arith; rw [ea, eb]; simp [whatOf]
        · show valueOf at_ (.add a b) = _
          rw [hval]; simp only [plus]; omega
      | some s =>
        refine ⟨⟨.source s, (oa + ob) % 2 ^ 64, true⟩, ?_, (oa + ob) % 2 ^ 64, by omega, rfl, fun at_ => ?_⟩
        · unfold arith; rw [ea, eb]; simp [whatOf]
        · show valueOf at_ (.add a b) = _
          rw [hval]; simp only [plus, Nat.add_zero]
    · cases z with
      | none =>
        refine ⟨⟨.null, (oa + ob) % 2 ^ 64, true⟩, ?_, denotes_null (by omega) (fun at_ => ?_)⟩
        · unfold arith; rw [ea, eb]; simp [whatOf]
        · show valueOf at_ (.add a b) = _
          rw [hval]; simp only [plus]; omega
      | some s =>
        refine ⟨⟨.source s, (oa + ob) % 2 ^ 64, true⟩, ?_, (oa + ob) % 2 ^ 64, by omega, rfl, fun at_ => ?_⟩
        · unfold arith; rw [ea, eb]; simp [whatOf]
        · show valueOf at_ (.add a b) = _
          rw [hval]; simp only [plus, Nat.zero_add]
  · have hval : ∀ at_, valueOf at_ (.sub a b) =
        ((plus at_ x + oa) % 2 ^ 64 +
          (2 ^ 64 - (plus at_ y + ob) % 2 ^ 64)) % 2 ^ 64 := by
      intro at_
      rw [valueOf, va, vb]
    rcases hz with ⟨rfl, rfl⟩ | ⟨s, rfl, rfl, rfl⟩
    · cases z with
      | none =>
        refine ⟨⟨.null, (oa + (2 ^ 64 - ob)) % 2 ^ 64, true⟩, ?_, denotes_null (by omega) (fun at_ => ?_)⟩
        · unfold arith; rw [ea, eb]; simp [whatOf]
        · show valueOf at_ (.sub a b) = _
          rw [hval]; simp only [plus]; omega
      | some s =>
        refine ⟨⟨.source s, (oa + (2 ^ 64 - ob)) % 2 ^ 64, true⟩, ?_, (oa + (2 ^ 64 - ob)) % 2 ^ 64, by omega, rfl,
          fun at_ => ?_⟩
        · unfold arith; rw [ea, eb]; simp [whatOf]
        · show valueOf at_ (.sub a b) = _
          rw [hval]; simp only [plus]; generalize at_ s = p; omega
    · refine ⟨⟨.null, (oa + (2 ^ 64 - ob)) % 2 ^ 64, true⟩, ?_, denotes_null (by omega) (fun at_ => ?_)⟩
      · unfold arith; rw [ea, eb]; simp [whatOf]
      · show valueOf at_ (.sub a b) = _
        rw [hval]; simp only [plus]; generalize at_ s = p; omega

theorem base_add {a b : VExpr} {z} (h : baseOf (.add a b) = some z) : ∃ x y, baseOf a = some x ∧ baseOf b = some y ∧
    ((y = none ∧ z = x) ∨ (x = none ∧ z = y)) := by
  rw [baseOf] at h
  split at h
  · rename_i x h1 h2; exact ⟨x, none, h1, h2, .inl ⟨rfl, (Option.some.inj h).symm⟩⟩
  · rename_i y _ h1 h2; exact ⟨none, y, h1, h2, .inr ⟨rfl, (Option.some.inj h).symm⟩⟩
  · cases h

theorem base_sub {a b : VExpr} {z} (h : baseOf (.sub a b) = some z) : ∃ x y, baseOf a = some x ∧ baseOf b = some y ∧
    ((y = none ∧ z = x) ∨ (∃ s, x = some s ∧ y = some s ∧ z = none)) := by
  rw [baseOf] at h
  split at h
  · rename_i x h1 h2; exact ⟨x, none, h1, h2, .inl ⟨rfl, (Option.some.inj h).symm⟩⟩
  · rename_i s t h1 h2
    split at h
    · rename_i hst; subst hst
      exact ⟨some s, some s, h1, h2, .inr ⟨s, rfl, rfl, (Option.some.inj h).symm⟩⟩
    · cases h
  · cases h

theorem base_addr {e : LExpr} {z} (h : (match objectOf e with | some s => some (some s) | none => none) = some z) :
    ∃ s, objectOf e = some s ∧ z = some s := by
  split at h
  · rename_i s hs; exact ⟨s, hs, (Option.some.inj h).symm⟩
  · cases h

/-- Code for an lvalue and an address. -/
theorem address_denotes {e : LExpr} {s : Source} {off : Nat} (hoff : off < 2 ^ 64)
    (hv : ∀ at_, addressOf at_ e % 2 ^ 64 = (at_ s + off) % 2 ^ 64) :
    Denotes (.decay e) (some s) ⟨.source s, off, true⟩ :=
  ⟨off, hoff, rfl, fun at_ => by rw [valueOf, hv]⟩

mutual
theorem lowerL_pushes : (e : LExpr) → (s : Source) → objectOf e = some s → e.plainIndices →
    ∃ off, off < 2 ^ 64 ∧ Pushes (lowerL e) ⟨.source s, off, false⟩ ∧
      ∀ at_, addressOf at_ e % 2 ^ 64 = (at_ s + off) % 2 ^ 64
  | .object (.declaration id fixed), s, h, _ => by
    rw [objectOf] at h
    split at h
    · rename_i hf
      cases h
      refine ⟨0, by omega, fun root rest stack st => ?_, fun at_ => by rw [addressOf]; rfl⟩
      show exec root (.cons (.ident id fixed) rest) stack st = _
      rw [exec, step, if_pos hf] <;> simp
    · cases h
  | .object (.string id t), s, h, _ => by
    rw [objectOf] at h
    cases h
    refine ⟨0, by omega, fun root rest stack st => ?_, fun at_ => by rw [addressOf]; rfl⟩
    show exec root (.cons (.string id t) rest) stack st = _
    rw [exec, step] <;> simp
  | .member e o, s, h, hp => by
    rw [objectOf] at h
    obtain ⟨off, ho, hr, hv⟩ := lowerL_pushes e s h hp
    refine ⟨(off + o) % 2 ^ 64, by omega, fun root rest stack st => ?_, fun at_ => ?_⟩
    · rw [lowerL, append_assoc, hr]
      show exec root (.cons (.member o) rest) _ st = _
      rw [exec, step] <;> simp
    · have := hv at_
      rw [addressOf]
      generalize addressOf at_ e = p at this ⊢
      generalize at_ s = q at this ⊢
      omega
  | .index e i n, s, h, hp => by
    rw [objectOf] at h
    split at h
    · obtain ⟨hp, v, rfl⟩ := hp
      obtain ⟨off, ho, hr, hv⟩ := lowerL_pushes e s h hp
      refine ⟨(off + v % 2 ^ 64 * n) % 2 ^ 64, by omega, fun root rest stack st => ?_, fun at_ => ?_⟩
      · rw [lowerL, append_assoc, append_assoc, hr]
        show exec root (.cons (.int v) (.cons (.subscript n) rest)) _ st = _
        rw [exec, step]
        · simp only []
          rw [exec, step] <;> simp
        all_goals simp
      · have := hv at_
        rw [addressOf, valueOf]
        generalize addressOf at_ e = p at this ⊢
        generalize at_ s = q at this ⊢
        generalize v % 2 ^ 64 * n = r
        omega
    · cases h
theorem lowerV_pushes : (e : VExpr) → (b : Option Source) → baseOf e = some b → e.plainIndices →
    ∃ en, Denotes e b en ∧ Pushes (lowerV e) en
  | .int v, b, h, _ => by
    rw [baseOf] at h; cases h
    refine ⟨⟨.int v, 0, false⟩, ⟨v % 2 ^ 64, by omega, fun at_ => by rw [valueOf], rfl, fun _ _ _ _ => rfl⟩, fun root rest stack st => ?_⟩
    show exec root (.cons (.int v) rest) stack st = _
    rw [exec, step] <;> simp
  | .ptr v, b, h, _ => by
    rw [baseOf] at h; cases h
    refine ⟨⟨.ptr v, 0, false⟩, ⟨v % 2 ^ 64, by omega, fun at_ => by rw [valueOf], rfl, fun _ _ _ _ => rfl⟩, fun root rest stack st => ?_⟩
    show exec root (.cons (.ptr v) rest) stack st = _
    rw [exec, step] <;> simp
  | .addr e, b, h, hp => by
    rw [baseOf] at h
    obtain ⟨s, hs, rfl⟩ := base_addr h
    obtain ⟨off, ho, hr, hv⟩ := lowerL_pushes e s hs hp
    refine ⟨⟨.source s, off, true⟩, ⟨off, ho, rfl, fun at_ => by rw [valueOf, hv]⟩, fun root rest stack st => ?_⟩
    rw [lowerV, append_assoc, hr]
    show exec root (.cons .loadAddress rest) _ st = _
    rw [exec, step] <;> simp
  | .decay e, b, h, hp => by
    rw [baseOf] at h
    obtain ⟨s, hs, rfl⟩ := base_addr h
    obtain ⟨off, ho, hr, hv⟩ := lowerL_pushes e s hs hp
    refine ⟨⟨.source s, off, true⟩, ⟨off, ho, rfl, fun at_ => by rw [valueOf, hv]⟩, fun root rest stack st => ?_⟩
    rw [lowerV, append_assoc, hr]
    show exec root (.cons .loadAddress rest) _ st = _
    rw [exec, step] <;> simp
  | .add a b, z, h, hp => by
    obtain ⟨x, y, hx, hy, hz⟩ := base_add h
    obtain ⟨eb, db, pb⟩ := lowerV_pushes b y hy hp.2
    cases a with
    | decay e =>
      rw [baseOf] at hx
      obtain ⟨s, hs, rfl⟩ := base_addr hx
      obtain ⟨off, ho, hr, hv⟩ := lowerL_pushes e s hs hp.1
      obtain ⟨en, hen, den⟩ := arith_denotes (add := true) (address_denotes ho hv) db (.inl ⟨rfl, hz⟩)
      refine ⟨en, den, fun root rest stack st => ?_⟩
      rw [lowerV, append_assoc, append_assoc, hr, pb]
      show exec root (.cons .loadAddressLhs (.cons .add rest)) _ st = _
      rw [exec, step]
      · simp only []
        rw [exec, step] <;> simp [hen]
      all_goals simp
    | int _ | ptr _ | addr _ | add _ _ | sub _ _ =>
      obtain ⟨ea, da, pa⟩ := lowerV_pushes _ x hx hp.1
      obtain ⟨en, hen, den⟩ := arith_denotes (add := true) da db (.inl ⟨rfl, hz⟩)
      refine ⟨en, den, fun root rest stack st => ?_⟩
      rw [lowerV, append_assoc, append_assoc, pa, pb]
      · show exec root (.cons .add rest) _ st = _
        rw [exec, step] <;> simp [hen]
      all_goals simp
  | .sub a b, z, h, hp => by
    obtain ⟨x, y, hx, hy, hz⟩ := base_sub h
    obtain ⟨eb, db, pb⟩ := lowerV_pushes b y hy hp.2
    cases a with
    | decay e =>
      rw [baseOf] at hx
      obtain ⟨s, hs, rfl⟩ := base_addr hx
      obtain ⟨off, ho, hr, hv⟩ := lowerL_pushes e s hs hp.1
      obtain ⟨en, hen, den⟩ := arith_denotes (add := false) (address_denotes ho hv) db (.inr ⟨rfl, hz⟩)
      refine ⟨en, den, fun root rest stack st => ?_⟩
      rw [lowerV, append_assoc, append_assoc, hr, pb]
      show exec root (.cons .loadAddressLhs (.cons .sub rest)) _ st = _
      rw [exec, step]
      · simp only []
        rw [exec, step] <;> simp [hen]
      all_goals simp
    | int _ | ptr _ | addr _ | add _ _ | sub _ _ =>
      obtain ⟨ea, da, pa⟩ := lowerV_pushes _ x hx hp.1
      obtain ⟨en, hen, den⟩ := arith_denotes (add := false) da db (.inr ⟨rfl, hz⟩)
      refine ⟨en, den, fun root rest stack st => ?_⟩
      rw [lowerV, append_assoc, append_assoc, pa, pb]
      · show exec root (.cons .sub rest) _ st = _
        rw [exec, step] <;> simp [hen]
      all_goals simp
end

/-! ## Initializers -/

/-- What the interpretation does for a part. -/
def Does (p : Part) (s s' : State) : Prop := match p.what with
  | .clear => s' = s
  | .value e =>
    (baseOf e = some none ∧ ∃ v, (∀ at_, valueOf at_ e = v) ∧
      s' = { s with data := copy s.data p.offset p.length (le v) }) ∨
    (∃ src off, baseOf e = some (some src) ∧ off < 2 ^ 64 ∧ (∀ at_, valueOf at_ e = (at_ src + off) % 2 ^ 64) ∧
      s' = emitPatch s src off p.offset)
  | .bytes bs => s' = { s with data := copy s.data p.offset bs.length (fun k => bs.getD k 0) }
  | .text bs => s'.patches = s.patches ∧ ∀ i,
      (p.offset ≤ i ∧ i < p.offset + bs.length → s'.data i = bs.getD (i - p.offset) 0) ∧
      (¬ (p.offset ≤ i ∧ i < p.offset + bs.length) → s'.data i = s.data i ∨
        (p.offset ≤ i ∧ i < p.offset + p.length ∧ s'.data i = 0))

/-- The same for several parts. -/
def DoesAll : List Part → State → State → Prop
  | [], s, s' => s' = s
  | p :: ps, s, s' => ∃ t, Does p s t ∧ DoesAll ps t s'

theorem doesAll_append : ∀ {ps qs : List Part} {s t u}, DoesAll ps s t → DoesAll qs t u → DoesAll (ps ++ qs) s u
  | [], _, _, _, _, h, h' => by cases h; exact h'
  | _ :: ps, _, _, _, _, ⟨t, h1, h2⟩, h' => ⟨t, h1, doesAll_append h2 h'⟩

theorem exec_init {root o n rest en stack s s'} (h : initializer s (root + o) n none en = .ok s') :
    exec root (.cons (.init o n) rest) (en :: stack) s = exec root rest stack s' := by
  rw [exec]; simp only [h]

theorem exec_initArray {root o n elem rest en stack s s'} (h : initializer s (root + o) n (some elem) en = .ok s') :
    exec root (.cons (.initArray o elem n) rest) (en :: stack) s = exec root rest stack s' := by
  rw [exec]; simp only [h]

theorem text_does {s : State} {o n elem : Nat} {bs : List Nat} : Does ⟨o, n, .text bs⟩ s
    ⟨if o + bs.length + elem ≤ n then
        copy (copy s.data o bs.length (fun k => bs.getD k 0)) (o + bs.length) elem (fun _ => 0)
        else copy s.data o bs.length (fun k => bs.getD k 0), s.patches⟩ := by
  refine ⟨rfl, fun i => ⟨fun hi => ?_, fun hi => ?_⟩⟩
  · show (if o + bs.length + elem ≤ n then _ else _ : Nat → Nat) i = _
    simp only [] at hi
    split
    · unfold copy
      rw [if_neg (by omega), if_pos hi]
    · unfold copy
      rw [if_pos hi]
  · show (if o + bs.length + elem ≤ n then _ else _ : Nat → Nat) i = s.data i ∨ o ≤ i ∧ i < o + n ∧
      (if o + bs.length + elem ≤ n then _ else _ : Nat → Nat) i = 0
    simp only [] at hi
    split
    · unfold copy
      by_cases hj : o + bs.length ≤ i ∧ i < o + bs.length + elem
      · right
        refine ⟨by omega, by omega, ?_⟩
        rw [if_pos hj]
      · left
        rw [if_neg hj, if_neg hi]
    · left; unfold copy; rw [if_neg hi]

mutual
theorem lowerItem_does : (i : Item) → ∀ root base rest stack s, (∀ p ∈ partsOf (root + base) i, p.constant) →
    ∃ s', DoesAll (partsOf (root + base) i) s s' ∧ exec root (lowerItem base i ++ rest) stack s = exec root rest stack s'
  | .value e n, root, base, rest, stack, s, h => by
    have hc : e.plainIndices ∧ (baseOf e = some none ∨ ∃ s, baseOf e = some (some s) ∧ n = 8) :=
      h ⟨root + base, n, .value e⟩ (by rw [partsOf]; exact List.mem_singleton.2 rfl)
    rw [lowerItem, append_assoc]
    show ∃ s', _ ∧ exec root (lowerV e ++ (.cons (.init base n) rest)) stack s = _
    rcases hc with ⟨hp, hb | ⟨src, hb, rfl⟩⟩
    · obtain ⟨en, ⟨v, hv, hval, hop, hi⟩, hr⟩ := lowerV_pushes e none hb hp
      refine ⟨{ s with data := copy s.data (root + base) n (le v) }, ?_, ?_⟩
      · rw [partsOf]; exact ⟨_, .inl ⟨hb, v, hval, rfl⟩, rfl⟩
      · rw [hr]; exact exec_init (hi s (root + base) n none)
    · obtain ⟨en, ⟨off, ho, rfl, hval⟩, hr⟩ := lowerV_pushes e (some src) hb hp
      refine ⟨emitPatch s src off (root + base), ?_, ?_⟩
      · rw [partsOf]; exact ⟨_, .inr ⟨src, off, hb, ho, hval, rfl⟩, rfl⟩
      · rw [hr]; exact exec_init rfl
  | .float bs, root, base, rest, stack, s, _ => by
    refine ⟨{ s with data := copy s.data (root + base) bs.length (fun k => bs.getD k 0) }, ?_, ?_⟩
    · rw [partsOf]; exact ⟨_, rfl, rfl⟩
    · rw [lowerItem]
      show exec root (.cons (.float bs) (.cons (.init base bs.length) rest)) stack s = _
      rw [exec, step]
      · exact exec_init rfl
      all_goals simp
  | .file bs, root, base, rest, stack, s, _ => by
    refine ⟨{ s with data := copy s.data (root + base) bs.length (fun k => bs.getD k 0) }, ?_, ?_⟩
    · rw [partsOf]; exact ⟨_, rfl, rfl⟩
    · rw [lowerItem]
      show exec root (.cons (.embed bs) (.cons (.init base 1) rest)) stack s = _
      rw [exec, step]
      · exact exec_init rfl
      all_goals simp
  | .text id bs elem n, root, base, rest, stack, s, _ => by
    refine ⟨⟨if root + base + bs.length + elem ≤ n then
        copy (copy s.data (root + base) bs.length (fun k => bs.getD k 0)) (root + base + bs.length) elem (fun _ => 0)
        else copy s.data (root + base) bs.length (fun k => bs.getD k 0), s.patches⟩, ?_, ?_⟩
    · rw [partsOf]; exact ⟨_, text_does, rfl⟩
    · rw [lowerItem]
      show exec root (.cons (.string id bs) (.cons (.initArray base elem n) rest)) stack s = _
      rw [exec, step]
      · exact exec_initArray rfl
      all_goals simp
  | .list true id is n, root, base, rest, stack, s, h => by
    rw [partsOf] at h ⊢
    obtain ⟨s', hd, he⟩ := lowerItems_does is (root + base) 0 .nil [] s (fun p hp => h p (List.mem_cons_of_mem _ hp))
    refine ⟨s', ⟨s, rfl, hd⟩, ?_⟩
    rw [append_nil] at he
    rw [lowerItem]
    show exec root (.cons (.compound id (lowerItems 0 is)) (.cons (.init base n) rest)) stack s = _
    rw [exec, he]
    rfl
  | .list false id is n, root, base, rest, stack, s, h => by
    rw [partsOf] at h ⊢
    obtain ⟨s', hd, he⟩ := lowerItems_does is root base rest stack s (fun p hp => h p (List.mem_cons_of_mem _ hp))
    exact ⟨s', ⟨s, rfl, hd⟩, by rw [lowerItem]; exact he⟩
theorem lowerItems_does : (is : Items) → ∀ root base rest stack s, (∀ p ∈ partsOfList (root + base) is, p.constant) →
    ∃ s', DoesAll (partsOfList (root + base) is) s s' ∧ exec root (lowerItems base is ++ rest) stack s = exec root rest stack s'
  | .nil, root, base, rest, stack, s, _ => ⟨s, by rw [partsOfList]; rfl, by rw [lowerItems]; rfl⟩
  | .cons o i is, root, base, rest, stack, s, h => by
    rw [partsOfList] at h ⊢
    rw [Nat.add_assoc] at h ⊢
    obtain ⟨t, hd, he⟩ := lowerItem_does i root (base + o) (lowerItems base is ++ rest) stack s
      (fun p hp => h p (List.mem_append_left _ hp))
    obtain ⟨u, hd', he'⟩ := lowerItems_does is root base rest stack t
      (fun p hp => h p (List.mem_append_right _ hp))
    refine ⟨u, doesAll_append hd hd', ?_⟩
    rw [lowerItems, append_assoc, he, he']
end

/-! ## The image -/

theorem image_append (at_ : Addresses) (ps : List Part) (q : Part) (i : Nat) : image at_ (ps ++ [q]) i =
    if q.offset ≤ i ∧ i < q.offset + q.length then q.what.byte at_ (i - q.offset) else image at_ ps i := by
  unfold image; rw [List.foldl_append]; rfl

theorem image_clear (at_ : Addresses) (i : Nat) : (ps : List Part) →
    (∀ p ∈ ps, p.offset ≤ i ∧ i < p.offset + p.length → p.isClear) → image at_ ps i = 0 := by
  intro ps
  unfold image
  suffices ∀ (ps : List Part) a, a = 0 → (∀ p ∈ ps, p.offset ≤ i ∧ i < p.offset + p.length → p.isClear) →
      ps.foldl (fun old p => if p.offset ≤ i ∧ i < p.offset + p.length then p.what.byte at_ (i - p.offset) else old) a = 0 from
    this ps 0 rfl
  intro ps
  induction ps with
  | nil => intro a ha _; exact ha
  | cons p ps ih =>
    intro a ha h
    refine ih _ ?_ (fun q hq => h q (List.mem_cons_of_mem _ hq))
    show (if p.offset ≤ i ∧ i < p.offset + p.length then p.what.byte at_ (i - p.offset) else a) = 0
    split
    · rename_i hi
      have := h p List.mem_cons_self hi
      unfold Part.isClear at this
      split at this
      · rename_i he; rw [he]; rfl
      · exact this.elim
    · exact ha

/-- Patches that have no byte in common. -/
def Apart (p q : Patch) : Prop := p.dest + 8 ≤ q.dest ∨ q.dest + 8 ≤ p.dest

/-- Is the byte one of those a patch is for? -/
def Covers (p : Patch) (i : Nat) : Prop := p.dest ≤ i ∧ i < p.dest + 8

/-- How the state and what was said so far are related. -/
structure Inv (at_ : Addresses) (ps : List Part) (s : State) : Prop where
  apart : s.patches.Pairwise Apart
  from_ : ∀ p ∈ s.patches, ∃ q ∈ ps, q.offset = p.dest ∧ q.length = 8 ∧ q.isAddress
  patched : ∀ p ∈ s.patches, ∀ k, k < 8 → image at_ ps (p.dest + k) = le ((at_ p.source + p.offset) % 2 ^ 64) k
  rest : ∀ i, (∀ p ∈ s.patches, ¬ Covers p i) → s.data i = image at_ ps i

theorem inv_nil (at_ : Addresses) : Inv at_ [] ⟨fun _ => 0, []⟩ :=
  ⟨.nil, by simp, by simp, fun _ _ => rfl⟩

/-- Parts after the last patch do not touch it. -/
theorem apart_of_harmless {at_ ps s} {q : Part} (inv : Inv at_ ps s) (h : ∀ p ∈ ps, Harmless p q) (p : Patch) (hp : p ∈ s.patches)
    (_ : 0 < q.length) : p.dest + 8 ≤ q.offset ∨ q.offset + q.length ≤ p.dest := by
  obtain ⟨r, hr, h1, h2, h3⟩ := inv.from_ p hp
  by_cases ho : r.overlaps q
  · exact absurd h3 (h r hr ho).1
  · unfold Part.overlaps at ho; omega

theorem not_in {at_ ps s q} (inv : Inv at_ ps s) (h : ∀ p ∈ ps, Harmless p q) (p : Patch) (hp : p ∈ s.patches) (k : Nat)
    (hk : k < 8) : ¬ (q.offset ≤ p.dest + k ∧ p.dest + k < q.offset + q.length) := by
  intro hi
  have := apart_of_harmless inv h p hp (by omega)
  omega

/-- All that was said about the bytes of a part that pads is that they are zero. -/
theorem cleared {ps : List Part} {q : Part} (at_ : Addresses) (h : ∀ p ∈ ps, Harmless p q) (hq : q.pads) (i : Nat)
    (hi : q.offset ≤ i ∧ i < q.offset + q.length) : image at_ ps i = 0 := by
  refine image_clear at_ i ps (fun p hp hpi => ?_)
  exact (h p hp ⟨by omega, by omega⟩).2 hq

theorem inv_step {at_ ps s s' q} (inv : Inv at_ ps s) (hd : Does q s s') (hc : q.constant)
    (h : ∀ p ∈ ps, Harmless p q) : Inv at_ (ps ++ [q]) s' := by
  have old : ∀ p ∈ s.patches, ∀ k, k < 8 → image at_ (ps ++ [q]) (p.dest + k) = le ((at_ p.source + p.offset) % 2 ^ 64) k := by
    intro p hp k hk
    rw [image_append, if_neg (not_in inv h p hp k hk)]
    exact inv.patched p hp k hk
  have from' : ∀ p ∈ s.patches, ∃ r ∈ ps ++ [q], r.offset = p.dest ∧ r.length = 8 ∧ r.isAddress := by
    intro p hp
    obtain ⟨r, hr, hh⟩ := inv.from_ p hp
    exact ⟨r, List.mem_append_left _ hr, hh⟩
  obtain ⟨o, n, w⟩ := q
  cases w with
  | clear =>
    have : s' = s := hd
    subst this
    refine ⟨inv.apart, from', old, fun i hi => ?_⟩
    rw [image_append]
    split
    · rename_i hin
      rw [inv.rest i hi, cleared at_ h trivial i hin]; rfl
    · exact inv.rest i hi
  | bytes bs =>
    have hs : s' = { s with data := copy s.data o bs.length (fun k => bs.getD k 0) } := hd
    have hl : bs.length = n := hc
    subst hs
    refine ⟨inv.apart, from', old, fun i hi => ?_⟩
    rw [image_append]
    show copy s.data o bs.length (fun k => bs.getD k 0) i = _
    unfold copy
    rw [hl]
    split
    · rfl
    · exact inv.rest i hi
  | text bs =>
    obtain ⟨hpat, hdat⟩ := hd
    have hl : bs.length ≤ n := hc
    refine ⟨by rw [hpat]; exact inv.apart, by rw [hpat]; exact from', by rw [hpat]; exact old, fun i hi => ?_⟩
    rw [hpat] at hi
    rw [image_append]
    have hb := hdat i
    simp only [] at hb
    by_cases hin : o ≤ i ∧ i < o + bs.length
    · rw [hb.1 hin, if_pos ⟨hin.1, by show i < o + n; omega⟩]; rfl
    · have hz : o ≤ i ∧ i < o + n → s'.data i = 0 := by
        intro hin2
        rcases hb.2 hin with h' | h'
        · rw [h', inv.rest i hi]
          exact cleared at_ h (show bs.length < n by omega) i hin2
        · exact h'.2.2
      split
      · rename_i hin2
        rw [hz hin2]
        show 0 = bs.getD (i - o) 0
        have hin3 : o ≤ i ∧ i < o + n := hin2
        rw [List.getD_eq_getElem?_getD, List.getElem?_eq_none (by omega)]; rfl
      · rename_i hin2
        have hin3 : ¬ (o ≤ i ∧ i < o + n) := hin2
        rcases hb.2 hin with h' | h'
        · rw [h']; exact inv.rest i hi
        · exact absurd ⟨h'.1, h'.2.1⟩ hin3
  | value e =>
    rcases hd with ⟨hb, v, hv, hs⟩ | ⟨src, off, hb, hoff, hv, hs⟩
    · subst hs
      refine ⟨inv.apart, from', old, fun i hi => ?_⟩
      rw [image_append]
      show copy s.data o n (le v) i = _
      unfold copy
      split
      · show _ = valueOf at_ e / _ % 256
        rw [hv]; rfl
      · exact inv.rest i hi
    · subst hs
      have hn : n = 8 := by
        rcases hc.2 with h' | ⟨_, _, h'⟩
        · rw [hb] at h'; cases h'
        · exact h'
      subst hn
      refine ⟨?_, ?_, ?_, ?_⟩
      · show (s.patches ++ [(⟨src, off, o⟩ : Patch)]).Pairwise Apart
        rw [List.pairwise_append]
        refine ⟨inv.apart, by simp, fun p hp q hq => ?_⟩
        rw [List.mem_singleton] at hq
        subst hq
        have := apart_of_harmless inv h p hp (by show 0 < 8; omega)
        exact this
      · intro p hp
        rcases List.mem_append.1 hp with hp | hp
        · exact from' p hp
        · rw [List.mem_singleton] at hp
          subst hp
          exact ⟨_, List.mem_append_right _ (List.mem_singleton.2 rfl), rfl, rfl, src, hb⟩
      · intro p hp k hk
        rcases List.mem_append.1 hp with hp | hp
        · exact old p hp k hk
        · rw [List.mem_singleton] at hp
          subst hp
          rw [image_append, if_pos ⟨by show o ≤ o + k; omega, by show o + k < o + 8; omega⟩]
          show valueOf at_ e / 256 ^ (o + k - o) % 256 = _
          rw [hv, Nat.add_sub_cancel_left]; rfl
      · intro i hi
        rw [image_append]
        have hnin : ¬ (o ≤ i ∧ i < o + 8) := hi ⟨src, off, o⟩ (List.mem_append_right _ (List.mem_singleton.2 rfl))
        rw [if_neg (by exact hnin)]
        exact inv.rest i (fun p hp => hi p (List.mem_append_left _ hp))

theorem inv_all {at_} : (qs : List Part) → ∀ ps s s', Inv at_ ps s → DoesAll qs s s' → (∀ q ∈ qs, q.constant) →
    (ps ++ qs).Pairwise Harmless → Inv at_ (ps ++ qs) s'
  | [], ps, s, s', inv, h, _, _ => by cases h; rw [List.append_nil]; exact inv
  | q :: qs, ps, s, s', inv, ⟨t, h1, h2⟩, hc, hp => by
    have e : ps ++ q :: qs = (ps ++ [q]) ++ qs := by rw [List.append_assoc]; rfl
    rw [e] at hp ⊢
    refine inv_all qs (ps ++ [q]) t s' (inv_step inv h1 (hc q List.mem_cons_self) ?_) h2
      (fun r hr => hc r (List.mem_cons_of_mem _ hr)) hp
    have := (List.pairwise_append.1 hp).1
    intro p hp'
    exact (List.pairwise_append.1 this).2.2 p hp' q (List.mem_singleton.2 rfl)

/-! ## Patches -/

theorem setWord_in {d : Nat → Nat} {a v k : Nat} (hk : k < 8) : setWord d a v (a + k) = le v k := by
  unfold setWord copy
  rw [if_pos ⟨by omega, by omega⟩, Nat.add_sub_cancel_left]

theorem setWord_out {d : Nat → Nat} {a v i : Nat} (hi : ¬ (a ≤ i ∧ i < a + 8)) : setWord d a v i = d i := by
  unfold setWord copy
  rw [if_neg hi]

theorem word_sum {d : Nat → Nat} {a v : Nat} (n : Nat) (h : ∀ k, k < n → d (a + k) = le v k) :
    (List.range n).foldl (fun x k => x + d (a + k) * 256 ^ k) 0 = v % 256 ^ n := by
  induction n with
  | zero => simp [Nat.mod_one]
  | succ n ih =>
    rw [List.range_succ, List.foldl_append, ih (fun k hk => h k (by omega)), List.foldl_cons, List.foldl_nil, h n (by omega),
      Nat.mod_pow_succ, Nat.mul_comm]
    rfl
theorem word_le {d : Nat → Nat} {a v : Nat} (hv : v < 2 ^ 64) (h : ∀ k, k < 8 → d (a + k) = le v k) : word d a = v := by
  unfold word
  rw [word_sum 8 h]
  exact Nat.mod_eq_of_lt hv

theorem word_congr {d d' : Nat → Nat} {a : Nat} (h : ∀ k, k < 8 → d (a + k) = d' (a + k)) : word d a = word d' a := by
  unfold word
  suffices ∀ n, n ≤ 8 → (List.range n).foldl (fun x k => x + d (a + k) * 256 ^ k) 0 =
      (List.range n).foldl (fun x k => x + d' (a + k) * 256 ^ k) 0 from this 8 (Nat.le_refl 8)
  intro n
  induction n with
  | zero => intro _; rfl
  | succ n ih =>
    intro hn
    rw [List.range_succ, List.foldl_append, List.foldl_append, ih (by omega)]
    simp only [List.foldl_cons, List.foldl_nil]
    rw [h n (by omega)]

/-- Words that are changed one after the other, at places that are apart. -/
theorem foldl_patches (g : Patch → Nat → Nat) : (ps : List Patch) → ps.Pairwise Apart → ∀ d : Nat → Nat,
    (∀ p ∈ ps, ∀ k, k < 8 →
      ps.foldl (fun d p => setWord d p.dest (g p (word d p.dest))) d (p.dest + k) = le (g p (word d p.dest)) k) ∧
    (∀ i, (∀ p ∈ ps, ¬ Covers p i) → ps.foldl (fun d p => setWord d p.dest (g p (word d p.dest))) d i = d i)
  | [], _, d => ⟨by simp, fun _ _ => rfl⟩
  | p :: ps, hp, d => by
    obtain ⟨h1, h2⟩ := List.pairwise_cons.1 hp
    obtain ⟨ih1, ih2⟩ := foldl_patches g ps h2 (setWord d p.dest (g p (word d p.dest)))
    constructor
    · intro q hq k hk
      rw [List.foldl_cons]
      rcases List.mem_cons.1 hq with rfl | hq
      · rw [ih2 _ (fun r hr hcov => by
          have := h1 r hr
          unfold Apart at this; unfold Covers at hcov
          omega)]
        exact setWord_in hk
      · rw [ih1 q hq k hk]
        rw [word_congr (d' := d)]
        intro j hj
        refine setWord_out ?_
        have := h1 q hq
        unfold Apart at this
        omega
    · intro i hi
      rw [List.foldl_cons, ih2 i (fun r hr => hi r (List.mem_cons_of_mem _ hr))]
      exact setWord_out (hi p List.mem_cons_self)

theorem obj_final (at_ : Addresses) (ps : List Patch) (hp : ps.Pairwise Apart) (d : Nat → Nat) :
    (∀ p ∈ ps, ∀ k, k < 8 → objLink at_ (objPatch d ps) ps (p.dest + k) = le ((p.offset % 2 ^ 64 + at_ p.source) % 2 ^ 64) k) ∧
    (∀ i, (∀ p ∈ ps, ¬ Covers p i) → objLink at_ (objPatch d ps) ps i = d i) := by
  obtain ⟨a1, a2⟩ := foldl_patches (fun p _ => p.offset % 2 ^ 64) ps hp d
  obtain ⟨b1, b2⟩ := foldl_patches (fun p w => (w + at_ p.source) % 2 ^ 64) ps hp (objPatch d ps)
  constructor
  · intro p hpm k hk
    unfold objLink
    rw [b1 p hpm k hk]
    rw [word_le (d := objPatch d ps) (v := p.offset % 2 ^ 64) (Nat.mod_lt _ (by decide)) (fun j hj => a1 p hpm j hj)]
  · intro i hi
    unfold objLink
    rw [b2 i hi]
    exact a2 i hi

theorem exe_final (imageBase delta : Nat) (rva : Source → Nat) (ps : List Patch) (hp : ps.Pairwise Apart) (d : Nat → Nat) :
    (∀ p ∈ ps, ∀ k, k < 8 → exeLoad delta (exePatch imageBase rva d ps) ps (p.dest + k) =
      le ((exeSource imageBase rva p + delta) % 2 ^ 64) k) ∧
    (∀ i, (∀ p ∈ ps, ¬ Covers p i) → exeLoad delta (exePatch imageBase rva d ps) ps i = d i) := by
  obtain ⟨a1, a2⟩ := foldl_patches (fun p _ => exeSource imageBase rva p) ps hp d
  obtain ⟨b1, b2⟩ := foldl_patches (fun p w => (w + delta) % 2 ^ 64) ps hp (exePatch imageBase rva d ps)
  constructor
  · intro p hpm k hk
    unfold exeLoad
    rw [b1 p hpm k hk]
    have hlt : exeSource imageBase rva p < 2 ^ 64 := by
      unfold exeSource; split <;> exact Nat.mod_lt _ (by omega)
    rw [word_le (d := exePatch imageBase rva d ps) hlt (fun j hj => a1 p hpm j hj)]
  · intro i hi
    unfold exeLoad
    rw [b2 i hi]
    exact a2 i hi

end Verif.Lemmas.StaticInit
