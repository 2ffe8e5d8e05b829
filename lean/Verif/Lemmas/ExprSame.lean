import Verif.Lemmas.ExprSafe

/-!
# Lemmas: what the emitter does depends on the allocator only

The contents of registers and memory have no influence on which instructions are emitted and where the operands are.
-/
namespace Verif.Lemmas.ExprSame
open Verif.RegAlloc Verif.ExprCode Verif.Spec.X64 Verif.Spec.ExprCode

/-- The same but for the contents. -/
structure SameS (s s' : State) : Prop where
  map : s.map = s'.map
  rolling : s.rolling = s'.rolling
  locs : s.locs = s'.locs
  next : s.next = s'.next
  base : s.base = s'.base
  temp : s.temp = s'.temp

def Same (m m' : Machine) : Prop := SameS m.s m'.s

/-- Results are related if both are there. -/
def Rel {α β : Type} (R : α → β → Prop) (x : Option α) (y : Option β) : Prop := ∀ a b, x = some a → y = some b → R a b

theorem Rel.bind {α β α' β' : Type} {R : α → β → Prop} {R' : α' → β' → Prop} {x y} {f : α → Option α'} {g : β → Option β'} (h : Rel R x y)
    (hf : ∀ a b, R a b → Rel R' (f a) (g b)) : Rel R' (x.bind f) (y.bind g) := by
  intro a b ha hb
  obtain ⟨a', h1, h2⟩ := Option.bind_eq_some_iff.1 ha
  obtain ⟨b', h3, h4⟩ := Option.bind_eq_some_iff.1 hb
  exact hf a' b' (h a' b' h1 h3) a b h2 h4

theorem Rel.map {α β α' β' : Type} {R : α → β → Prop} {R' : α' → β' → Prop} {x y} {f : α → α'} {g : β → β'} (h : Rel R x y)
    (hf : ∀ a b, R a b → R' (f a) (g b)) : Rel R' (x.map f) (y.map g) := by
  intro a b ha hb
  obtain ⟨a', h1, h2⟩ := Option.map_eq_some_iff.1 ha
  obtain ⟨b', h3, h4⟩ := Option.map_eq_some_iff.1 hb
  subst h2; subst h4
  exact hf a' b' (h a' b' h1 h3)

theorem Rel.none {α β : Type} {R : α → β → Prop} {y} : Rel R (none : Option α) y := fun _ _ h => by cases h
theorem Rel.some {α β : Type} {R : α → β → Prop} {a b} (h : R a b) : Rel R (some a : Option α) (some b : Option β) := by
  intro _ _ h1 h2; cases h1; cases h2; exact h
theorem Rel.ite {α β : Type} {R : α → β → Prop} {p : Prop} [Decidable p] {x x' y y'} (h : Rel R x y) (h' : Rel R x' y') :
    Rel R (if p then x else x') (if p then y else y') := by split <;> assumption
theorem Rel.eq {α : Type} {x : Option α} : Rel (fun a b : α => a = b) x x := by
  intro a b h1 h2; rw [h1] at h2; cases h2; rfl
theorem Rel.weaken {α β : Type} {R R' : α → β → Prop} {x y} (h : Rel R x y) (hf : ∀ a b, R a b → R' a b) : Rel R' x y :=
  fun a b h1 h2 => hf a b (h a b h1 h2)

def Pair {α : Type} (x y : α × Machine) : Prop := x.1 = y.1 ∧ Same x.2 y.2
def PairS {α : Type} (x y : α × State) : Prop := x.1 = y.1 ∧ SameS x.2 y.2

theorem SameS.contents {s s' : State} {r g r' g'} (h : SameS s s') : SameS { s with regs := r, mem := g } { s' with regs := r', mem := g' } :=
  ⟨h.map, h.rolling, h.locs, h.next, h.base, h.temp⟩

theorem spill_same {s s' r} (h : SameS s s') : Rel SameS (spill s r) (spill s' r) := by
  unfold spill
  rw [← h.map, ← h.locs, ← h.temp, ← h.base]
  cases s.map r with
  | none => exact Rel.none
  | some id =>
    dsimp only
    cases s.locs id with
    | none => exact Rel.none
    | some l =>
      dsimp only
      exact Rel.ite (Rel.some ⟨rfl, h.rolling, rfl, h.next, rfl, rfl⟩) Rel.none

theorem specific_same {s s' r} (h : SameS s s') : Rel SameS (allocateSpecific s r) (allocateSpecific s' r) := by
  unfold allocateSpecific
  rw [← h.map]
  exact Rel.ite (spill_same h) (Rel.some h)

theorem unlocked_same {s s'} (h : SameS s s') : unlocked s = unlocked s' := by
  funext r
  unfold unlocked
  rw [h.map, h.locs]

theorem allocate_same {s s' k} (h : SameS s s') : Rel PairS (allocate s k) (allocate s' k) := by
  unfold allocate
  dsimp only
  rw [← h.rolling]
  have h1 : SameS { s with rolling := upd s.rolling k (if s.rolling k + 1 ≥ (volatiles k).length then 0 else s.rolling k + 1) }
      { s' with rolling := upd s.rolling k (if s.rolling k + 1 ≥ (volatiles k).length then 0 else s.rolling k + 1) } :=
    ⟨h.map, rfl, h.locs, h.next, h.base, h.temp⟩
  generalize e1 : ({ s with rolling := upd s.rolling k (if s.rolling k + 1 ≥ (volatiles k).length then 0 else s.rolling k + 1) } : State) = t at h1 ⊢
  generalize e2 : ({ s' with rolling := upd s.rolling k (if s.rolling k + 1 ≥ (volatiles k).length then 0 else s.rolling k + 1) } : State) = t' at h1 ⊢
  rw [← h.map, ← unlocked_same h1]
  cases (order k (s.rolling k)).find? (fun r => (s.map r).isNone) with
  | some r => exact Rel.some ⟨rfl, h1⟩
  | none =>
    dsimp only
    cases (order k (s.rolling k)).find? (unlocked t) with
    | none => exact Rel.none
    | some r => exact (spill_same h1).map (fun a b h => ⟨rfl, h⟩)

theorem new_same {s s' r size v v'} (h : SameS s s') : Rel SameS (newLoaded s r size v) (newLoaded s' r size v') := by
  unfold newLoaded
  rw [← h.map, ← h.locs, ← h.next]
  exact Rel.ite (Rel.some ⟨rfl, h.rolling, rfl, rfl, h.base, h.temp⟩) Rel.none

theorem free_same {s s' id} (h : SameS s s') : Rel SameS (free s id) (free s' id) := by
  unfold free
  rw [← h.map, ← h.locs]
  cases s.locs id with
  | none => exact Rel.none
  | some l =>
    dsimp only
    cases l.place with
    | freed => exact Rel.none
    | loaded r => exact Rel.ite (Rel.some h) (Rel.some ⟨rfl, h.rolling, rfl, h.next, h.base, h.temp⟩)
    | stack o => exact Rel.ite (Rel.some h) (Rel.some ⟨rfl, h.rolling, rfl, h.next, h.base, h.temp⟩)

theorem setLoc_same {s s' id f} (h : SameS s s') : Rel SameS (setLoc s id f) (setLoc s' id f) := by
  unfold setLoc
  rw [← h.locs]
  refine Rel.bind Rel.eq (fun l l' e => ?_)
  subst e
  refine Rel.map Rel.eq (fun l l' e => ?_)
  subst e
  exact ⟨h.map, h.rolling, rfl, h.next, h.base, h.temp⟩

theorem spillList_same : ∀ {s s'} (rs : List Reg), SameS s s' → Rel SameS (spillList s rs) (spillList s' rs)
  | _, _, [], h => Rel.some h
  | _, _, _ :: rs, h => (specific_same h).bind (fun _ _ h => spillList_same rs h)

/-! ## The machine -/

theorem write_same {m m' r v v'} (h : Same m m') : Same (write m r v) (write m' r v') := ⟨h.map, h.rolling, h.locs, h.next, h.base, h.temp⟩

theorem allocReg_same {m m'} (h : Same m m') : Rel Pair (allocateReg m) (allocateReg m') := (allocate_same h).map (fun _ _ h => ⟨h.1, h.2⟩)
theorem claim_same {m m' r} (h : Same m m') : Rel Same (claim m r) (claim m' r) := (specific_same h).map (fun _ _ h => h)
theorem loaded_same {m m' r size v v'} (h : Same m m') : Rel Pair (loaded m r size v) (loaded m' r size v') :=
  (new_same h).map (fun _ _ h' => ⟨h.next, h'⟩)
theorem freeLoc_same {m m' id} (h : Same m m') : Rel Same (freeLoc m id) (freeLoc m' id) := (free_same h).map (fun _ _ h => h)
theorem lock_same {m m' id} (h : Same m m') : Rel Same (lock m id) (lock m' id) :=
  Rel.map (x := setLoc m.s id _) (setLoc_same h) (fun _ _ h => h)
theorem unlock_same {m m' id} (h : Same m m') : Rel Same (unlock m id) (unlock m' id) :=
  Rel.map (x := setLoc m.s id _) (setLoc_same h) (fun _ _ h => h)

theorem opSize_same {m m' o} (h : Same m m') : opSize m o = opSize m' o := by
  cases o <;> first | rfl | (show (m.s.locs _).map _ = (m'.s.locs _).map _; rw [h.locs])
theorem regOf_same {m m' id} (h : Same m m') : regOf m id = regOf m' id := by
  unfold regOf; rw [h.locs]
theorem inMemory_same {m m' o} (h : Same m m') : inMemory m o = inMemory m' o := by
  cases o <;> first | rfl | (unfold inMemory; dsimp only; rw [h.locs])
theorem release_same {m m'} : ∀ {o}, Same m m' → Rel Same (release m o) (release m' o)
  | .imm .., h => Rel.some h
  | .mem .., h => Rel.some h
  | .cond .., h => Rel.some h
  | .loc _, h => freeLoc_same h
  | .deref b _, h => release_same (o := b) h
theorem pick_same {m m'} (h : Same m m') : ∀ {dst}, Rel Pair (pick m dst) (pick m' dst)
  | none => allocReg_same h
  | some _ => Rel.some ⟨rfl, h⟩

theorem Rel.size {β : Type} {m m' : Machine} {o} {R : β → β → Prop} {f g : Nat → Option β} (h : Same m m') (hf : ∀ n, Rel R (f n) (g n)) :
    Rel R ((opSize m o).bind f) ((opSize m' o).bind g) := by
  rw [opSize_same h]
  exact Rel.bind Rel.eq (fun a b e => by subst e; exact hf a)
theorem Rel.reg {β γ : Type} {m m' : Machine} {id} {R : β → γ → Prop} {f : Reg → Option β} {g : Reg → Option γ} (h : Same m m')
    (hf : ∀ r, Rel R (f r) (g r)) : Rel R ((regOf m id).bind f) ((regOf m' id).bind g) := by
  rw [regOf_same h]
  exact Rel.bind Rel.eq (fun a b e => by subst e; exact hf a)
theorem Rel.regMap {β γ : Type} {m m' : Machine} {id} {R : β → γ → Prop} {f : Reg → β} {g : Reg → γ} (h : Same m m')
    (hf : ∀ r, R (f r) (g r)) : Rel R ((regOf m id).map f) ((regOf m' id).map g) := by
  rw [regOf_same h]
  exact Rel.map Rel.eq (fun a b e => by subst e; exact hf a)

/-- Results that consist of the same thing and the machine. -/
theorem Rel.pair {α β γ : Type} {x y : Option (α × Machine)} {R : β → γ → Prop} {f : α × Machine → Option β} {g : α × Machine → Option γ} (h : Rel Pair x y)
    (hf : ∀ a m m', Same m m' → Rel R (f (a, m)) (g (a, m'))) : Rel R (x.bind f) (y.bind g) :=
  h.bind (fun a b hab => by obtain ⟨a1, a2⟩ := a; obtain ⟨b1, b2⟩ := b; obtain ⟨e, e'⟩ := hab; cases e; exact hf a1 a2 b2 e')
theorem Rel.pairMap {α β γ : Type} {x y : Option (α × Machine)} {R : β → γ → Prop} {f : α × Machine → β} {g : α × Machine → γ} (h : Rel Pair x y)
    (hf : ∀ a m m', Same m m' → R (f (a, m)) (g (a, m'))) : Rel R (x.map f) (y.map g) :=
  h.map (fun a b hab => by obtain ⟨a1, a2⟩ := a; obtain ⟨b1, b2⟩ := b; obtain ⟨e, e'⟩ := hab; cases e; exact hf a1 a2 b2 e')

theorem cond_same {β γ : Type} {m m' : Machine} {c} {R : β → γ → Prop} {f : Bool → Option β} {g : Bool → Option γ} (hf : ∀ a b, Rel R (f a) (g b)) :
    Rel R ((condHolds m c).bind f) ((condHolds m' c).bind g) :=
  Rel.bind (R := fun _ _ => True) (fun _ _ _ _ => trivial) (fun a b _ => hf a b)

theorem emitLoad_same : ∀ (o : Opnd) {dst m m'}, Same m m' → Rel Pair (emitLoad o dst m) (emitLoad o dst m')
  | .imm v size, dst, m, m', h => by
    unfold emitLoad
    refine Rel.ite (Rel.pair (pick_same h) fun r m m' h => ?_) Rel.none
    exact Rel.ite ((claim_same h).bind fun _ _ h => loaded_same h) ((claim_same (write_same h)).bind fun _ _ h => loaded_same h)
  | .mem a size, dst, m, m', h => by
    unfold emitLoad
    refine Rel.ite (Rel.pair (pick_same h) fun r m m' h => ?_) Rel.none
    exact (claim_same (write_same h)).bind fun _ _ h => loaded_same h
  | .deref b size, dst, m, m', h => by
    unfold emitLoad
    refine Rel.ite (Rel.pair (pick_same h) fun r m m' h => ?_) Rel.none
    refine Rel.pair (emitLoad_same b h) fun b m m' h => Rel.reg h fun rb => ?_
    exact (freeLoc_same (write_same h)).bind fun _ _ h => (claim_same h).bind fun _ _ h => loaded_same h
  | .loc id, dst, m, m', h => by
    unfold emitLoad
    rw [← h.locs]
    cases m.s.locs id with
    | none => exact Rel.none
    | some l =>
      obtain ⟨place, size, a, b⟩ := l
      cases place with
      | freed => exact Rel.none
      | loaded r' =>
        dsimp only
        refine Rel.ite ?_ Rel.none
        cases dst with
        | none => exact Rel.some ⟨rfl, h⟩
        | some r =>
          dsimp only
          refine Rel.ite (Rel.ite (Rel.some ⟨rfl, h⟩) ?_) Rel.none
          exact (claim_same h).bind fun _ _ h => Rel.pair (loaded_same h) fun n _ _ h => (freeLoc_same h).map fun _ _ h => ⟨rfl, h⟩
      | stack o =>
        dsimp only
        refine Rel.ite (Rel.pair (pick_same h) fun r m m' h => ?_) Rel.none
        exact (freeLoc_same (write_same h)).bind fun _ _ h => (claim_same h).bind fun _ _ h => loaded_same h
  | .cond c size, dst, m, m', h => by
    unfold emitLoad
    refine Rel.ite (Rel.pair (pick_same h) fun r m m' h => ?_) Rel.none
    exact cond_same fun _ _ => (claim_same h).bind fun _ _ h => loaded_same h

/-- An operand that was read: the value may differ. -/
def Read (x y : Nat × Opnd × Machine) : Prop := x.2.1 = y.2.1 ∧ Same x.2.2 y.2.2

theorem Rel.read {β γ : Type} {x y : Option (Nat × Opnd × Machine)} {R : β → γ → Prop} {f : Nat × Opnd × Machine → Option β}
    {g : Nat × Opnd × Machine → Option γ} (h : Rel Read x y) (hf : ∀ v v' o m m', Same m m' → Rel R (f (v, o, m)) (g (v', o, m'))) :
    Rel R (x.bind f) (y.bind g) :=
  h.bind (fun a b hab => by
    obtain ⟨a1, a2, a3⟩ := a; obtain ⟨b1, b2, b3⟩ := b; obtain ⟨e, e'⟩ := hab
    dsimp only at e e'
    subst e; exact hf a1 b1 a2 a3 b3 e')

theorem readOpnd_same {m m' o} (h : Same m m') : Rel Read (readOpnd m o) (readOpnd m' o) := by
  cases o with
  | imm => exact Rel.none
  | cond => exact Rel.none
  | mem => exact Rel.some ⟨rfl, h⟩
  | deref b size => exact Rel.pair (emitLoad_same b h) fun _ _ _ h => Rel.regMap h fun _ => ⟨rfl, h⟩
  | loc id =>
    unfold readOpnd
    dsimp only
    rw [← h.locs]
    cases m.s.locs id with
    | none => exact Rel.none
    | some l =>
      obtain ⟨place, size, a, b⟩ := l
      cases place with
      | freed => exact Rel.none
      | loaded => exact Rel.none
      | stack => exact Rel.some ⟨rfl, h⟩

theorem setSize_same {m m' o size} (h : Same m m') : Rel Pair (setSize m o size) (setSize m' o size) := by
  cases o <;> first | exact Rel.some ⟨rfl, h⟩ | exact (setLoc_same h).map fun _ _ h => ⟨rfl, h⟩

theorem testZero_same {m m' id} (h : Same m m') : Rel Same (testZero m id) (testZero m' id) := by
  unfold testZero
  exact Rel.reg h fun r => Rel.size h fun n => freeLoc_same (m := { m with flags := _ }) (m' := { m' with flags := _ }) h

theorem integerCast_same {m m' o} (sgn : Bool) (src dst : Nat) (h : Same m m') : Rel Pair (integerCast m sgn src dst o) (integerCast m' sgn src dst o) := by
  cases o with
  | imm => exact Rel.pairMap (emitLoad_same _ h) fun _ _ _ h => ⟨rfl, h⟩
  | cond => exact Rel.none
  | mem => exact Rel.pair (allocReg_same h) fun _ _ _ h => Rel.pairMap (loaded_same h) fun _ _ _ h => ⟨rfl, h⟩
  | deref =>
    refine Rel.pair (allocReg_same h) fun _ _ _ h => Rel.pair (emitLoad_same _ h) fun _ _ _ h => Rel.reg h fun r => ?_
    exact (freeLoc_same (write_same h)).bind fun _ _ h => Rel.pairMap (loaded_same h) fun _ _ _ h => ⟨rfl, h⟩
  | loc id =>
    unfold integerCast
    dsimp only
    rw [← h.locs]
    cases m.s.locs id with
    | none => exact Rel.none
    | some l =>
      obtain ⟨place, size, a, b⟩ := l
      cases place with
      | freed => exact Rel.none
      | loaded => exact Rel.ite (setSize_same (write_same h)) Rel.none
      | stack =>
        exact Rel.pair (allocReg_same h) fun _ _ _ h => (freeLoc_same h).bind fun _ _ h => Rel.pairMap (loaded_same h) fun _ _ _ h => ⟨rfl, h⟩

theorem castOpnd_same {m m' o} (k : Cast.Kind) (h : Same m m') : Rel Pair (castOpnd m k o) (castOpnd m' k o) := by
  cases k with
  | none => exact Rel.none
  | truncate => exact setSize_same h
  | signExtend => exact integerCast_same _ _ _ h
  | zeroExtend => exact integerCast_same _ _ _ h
  | toBool =>
    exact Rel.pair (emitLoad_same o h) fun _ _ _ h => (testZero_same h).bind fun _ _ h => Rel.pairMap (emitLoad_same _ h) fun _ _ _ h => ⟨rfl, h⟩

theorem binaryOperand_same {m m' size o} (h : Same m m') : Rel Read (binaryOperand m size o) (binaryOperand m' size o) := by
  cases o with
  | imm v sz =>
    refine Rel.ite (Rel.pair (emitLoad_same _ h) fun _ _ _ h => Rel.ite (Rel.regMap h fun _ => ⟨rfl, h⟩) Rel.none) ?_
    exact Rel.ite (Rel.some ⟨rfl, h⟩) Rel.none
  | loc id =>
    unfold binaryOperand
    dsimp only
    rw [opSize_same h, regOf_same h]
    refine Rel.ite ?_ Rel.none
    cases regOf m' id with
    | none => exact readOpnd_same h
    | some r => exact Rel.some ⟨rfl, h⟩
  | mem | deref | cond =>
    unfold binaryOperand
    dsimp only
    rw [opSize_same h]
    exact Rel.ite (readOpnd_same h) Rel.none

theorem binaryInst_same {m m' op n r v v'} (h : Same m m') : Rel Same (binaryInst m op n r v) (binaryInst m' op n r v') := by
  unfold binaryInst
  cases op with
  | none => exact Rel.some h
  | some op => exact Rel.map (R := fun _ _ => True) (fun _ _ _ _ => trivial) fun _ _ _ => write_same h

theorem binaryOp_same {m m' op l r} (h : Same m m') : Rel Pair (binaryOp m op l r) (binaryOp m' op l r) := by
  unfold binaryOp
  refine Rel.pair (emitLoad_same l h) fun d _ _ h => Rel.size h fun n => Rel.ite ?_ Rel.none
  refine (lock_same h).bind fun _ _ h => Rel.read (binaryOperand_same h) fun v v' o _ _ h => Rel.reg h fun r => ?_
  exact (binaryInst_same h).bind fun _ _ h => (unlock_same h).bind fun _ _ h => (release_same h).map fun _ _ h => ⟨rfl, h⟩

theorem mulOperand_same {m m' o} (h : Same m m') : Rel Read (mulOperand m o) (mulOperand m' o) := by
  unfold mulOperand
  rw [inMemory_same h, opSize_same h]
  exact Rel.ite (readOpnd_same h) (Rel.pair (emitLoad_same o h) fun _ _ _ h => Rel.regMap h fun _ => ⟨rfl, h⟩)

def Two (x y : Nat × Nat × Machine) : Prop := x.1 = y.1 ∧ x.2.1 = y.2.1 ∧ Same x.2.2 y.2.2

theorem mulBegin_same {m m' size l} (h : Same m m') : Rel Two (mulBegin m size l) (mulBegin m' size l) := by
  unfold mulBegin
  refine (claim_same h).bind fun _ _ h => Rel.pair (loaded_same h) fun _ _ _ h => (lock_same h).bind fun _ _ h => ?_
  refine (claim_same h).bind fun _ _ h => Rel.pair (loaded_same h) fun _ _ _ h => (lock_same h).bind fun _ _ h => (unlock_same h).bind fun _ _ h => ?_
  exact Rel.pair (emitLoad_same l h) fun _ _ _ h => (lock_same h).map fun _ _ h => ⟨rfl, rfl, h⟩

theorem mulDiv_same {inst inst' m m' k sgn l r} (h : Same m m') : Rel Pair (mulDivWith inst m k sgn l r) (mulDivWith inst' m' k sgn l r) := by
  unfold mulDivWith
  refine Rel.size h fun n => Rel.ite ?_ Rel.none
  refine (mulBegin_same h).bind fun x y hxy => ?_
  obtain ⟨x1, x2, x3⟩ := x
  obtain ⟨y1, y2, y3⟩ := y
  obtain ⟨e1, e2, h⟩ := hxy
  dsimp only at e1 e2 h ⊢
  subst e1; subst e2
  refine Rel.read (mulOperand_same (write_same h)) fun v v' o _ _ h => ?_
  refine Rel.bind (R := fun _ _ => True) (fun _ _ _ _ => trivial) fun p q _ => ?_
  refine (release_same (write_same (write_same h))).bind fun _ _ h => (unlock_same h).bind fun _ _ h => (unlock_same h).bind fun _ _ h => ?_
  exact Rel.ite ((freeLoc_same h).map fun _ _ h => ⟨rfl, h⟩) ((freeLoc_same h).map fun _ _ h => ⟨rfl, h⟩)

theorem shiftRcx_same {m m' r} (h : Same m m') : Rel Pair (shiftRcx m r) (shiftRcx m' r) := by
  cases r with
  | loc id =>
    unfold shiftRcx
    dsimp only
    rw [regOf_same h]
    exact Rel.ite (Rel.some ⟨rfl, h⟩) ((claim_same h).bind fun _ _ h => emitLoad_same _ h)
  | imm | mem | deref | cond => exact (claim_same h).bind fun _ _ h => emitLoad_same _ h

theorem shiftOp_same {m m' left sgn l r} (h : Same m m') : Rel Pair (shiftOp m left sgn l r) (shiftOp m' left sgn l r) := by
  unfold shiftOp
  refine Rel.size h fun n => Rel.ite ?_ Rel.none
  have main : ∀ r : Opnd, Rel Pair
      ((shiftRcx m r).bind (fun (c, m) => (lock m c).bind (fun m =>
          (emitLoad l none m).bind (fun (d, m) => (regOf m d).bind (fun r =>
            (unlock (write m r (writeReg (8 * n) (m.s.regs r) (shiftInst left sgn (8 * n) (m.s.regs r) (m.s.regs rcx)))) c).bind (fun m =>
              (freeLoc m c).map (fun m => (d, m))))))))
      ((shiftRcx m' r).bind (fun (c, m) => (lock m c).bind (fun m =>
          (emitLoad l none m).bind (fun (d, m) => (regOf m d).bind (fun r =>
            (unlock (write m r (writeReg (8 * n) (m.s.regs r) (shiftInst left sgn (8 * n) (m.s.regs r) (m.s.regs rcx)))) c).bind (fun m =>
              (freeLoc m c).map (fun m => (d, m)))))))) := fun r => by
    refine Rel.pair (shiftRcx_same h) fun c _ _ h => (lock_same h).bind fun _ _ h => Rel.pair (emitLoad_same l h) fun d _ _ h => Rel.reg h fun r => ?_
    exact (unlock_same (write_same h)).bind fun _ _ h => (freeLoc_same h).map fun _ _ h => ⟨rfl, h⟩
  cases r with
  | imm v sz => exact Rel.ite (Rel.pair (emitLoad_same l h) fun d _ _ h => Rel.regMap h fun r => ⟨rfl, write_same h⟩) Rel.none
  | loc => exact main _
  | mem => exact main _
  | deref => exact main _
  | cond => exact main _

theorem unaryOp_same {m m' f o} (h : Same m m') : Rel Pair (unaryOp m f o) (unaryOp m' f o) := by
  unfold unaryOp
  exact Rel.pair (emitLoad_same o h) fun d _ _ h => Rel.size h fun n => Rel.reg h fun r => Rel.ite (Rel.some ⟨rfl, write_same h⟩) Rel.none

theorem settle_same {m m' next c} (h : Same m m') : Rel Pair (settle m next c) (settle m' next c) := by
  unfold settle
  exact Rel.ite (Rel.some ⟨rfl, h⟩) (Rel.pairMap (emitLoad_same _ h) fun _ _ _ h => ⟨rfl, h⟩)

theorem destOf_same {m m' o} (h : Same m m') : Rel Read (destOf m o) (destOf m' o) := by
  cases o with
  | mem => exact Rel.some ⟨rfl, h⟩
  | deref => exact Rel.pair (emitLoad_same _ h) fun _ _ _ h => Rel.regMap h fun _ => ⟨rfl, h⟩
  | imm | loc | cond => exact Rel.none

theorem storeOp_same {m m' l r} (h : Same m m') : Rel Pair (storeOp m l r) (storeOp m' l r) := by
  unfold storeOp
  refine Rel.size h fun n => ?_
  have main : ∀ r : Opnd, Rel Pair
      ((emitLoad r none m).bind (fun (k, m) => (opSize m (.loc k)).bind (fun sz => (regOf m k).bind (fun r =>
        if sz ≤ n then
          (destOf m l).bind (fun (a, b, m) =>
            (release { m with bytes := writeBytes m.bytes a n (m.s.regs r) } b).map (fun m => (Opnd.loc k, m)))
        else none))))
      ((emitLoad r none m').bind (fun (k, m) => (opSize m (.loc k)).bind (fun sz => (regOf m k).bind (fun r =>
        if sz ≤ n then
          (destOf m l).bind (fun (a, b, m) =>
            (release { m with bytes := writeBytes m.bytes a n (m.s.regs r) } b).map (fun m => (Opnd.loc k, m)))
        else none)))) := fun r => by
    refine Rel.pair (emitLoad_same r h) fun k _ _ h => Rel.size h fun sz => Rel.reg h fun r => Rel.ite ?_ Rel.none
    refine Rel.read (destOf_same h) fun a a' b m m' h => ?_
    exact Rel.map (R := Same) (release_same h) fun _ _ h => ⟨rfl, h⟩
  cases r with
  | imm v sz =>
    refine Rel.ite (Rel.ite ?_ ?_) Rel.none
    · refine Rel.pair (emitLoad_same _ h) fun k _ _ h => Rel.reg h fun r => Rel.read (destOf_same h) fun a a' b m m' h => ?_
      exact Rel.bind (R := Same) (freeLoc_same h) fun _ _ h => (release_same h).map fun _ _ h => ⟨rfl, h⟩
    · refine Rel.read (destOf_same h) fun a a' b m m' h => ?_
      exact Rel.map (R := Same) (release_same h) fun _ _ h => ⟨rfl, h⟩
  | loc => exact main _
  | mem => exact main _
  | deref => exact main _
  | cond => exact main _

theorem condOf_same {m m' o} (h : Same m m') : Rel Pair (condOf m o) (condOf m' o) := by
  cases o with
  | cond => exact Rel.some ⟨rfl, h⟩
  | imm | loc | mem | deref => exact Rel.pair (emitLoad_same _ h) fun _ _ _ h => (testZero_same h).map fun _ _ h => ⟨rfl, h⟩

/-- The same allocator and the same stack of locations. -/
def SameSt (st st' : St) : Prop := Same st.m st'.m ∧ st.stack = st'.stack

theorem push_same {st st' o} (h : SameSt st st') : Rel SameSt (push st o) (push st' o) := by
  unfold push
  rw [h.2]
  exact Rel.ite (Rel.some ⟨h.1, by simp⟩) Rel.none

theorem emit_same {inst inst' next ir st st'} (h : SameSt st st') : Rel SameSt (emitWith inst next ir st) (emitWith inst' next ir st') := by
  obtain ⟨m, os, t⟩ := st
  obtain ⟨m', os', t'⟩ := st'
  obtain ⟨h, e⟩ := h
  dsimp only at h e
  subst e
  cases ir with
  | literal => exact push_same ⟨h, rfl⟩
  | identifier => exact push_same ⟨h, rfl⟩
  | pointerLiteralDeref => exact push_same ⟨h, rfl⟩
  | retVoid => unfold emitWith; exact Rel.some ⟨h, rfl⟩
  | jump => unfold emitWith; exact Rel.some ⟨h, rfl⟩
  | label => unfold emitWith; exact Rel.some ⟨h, rfl⟩
  | deref size => cases os with
    | nil => exact Rel.none
    | cons o os => exact Rel.some ⟨h, rfl⟩
  | cast lhs k => cases os with
    | nil => cases lhs <;> exact Rel.none
    | cons o os =>
      cases lhs with
      | false => exact Rel.pairMap (castOpnd_same k h) fun _ _ _ h => ⟨h, rfl⟩
      | true => cases os with
        | nil => exact Rel.none
        | cons l os => exact Rel.pairMap (castOpnd_same k h) fun _ _ _ h => ⟨h, rfl⟩
  | bitwiseNot => cases os with
    | nil => exact Rel.none
    | cons o os => exact Rel.pairMap (unaryOp_same h) fun _ _ _ h => ⟨h, rfl⟩
  | negate => cases os with
    | nil => exact Rel.none
    | cons o os => exact Rel.pairMap (unaryOp_same h) fun _ _ _ h => ⟨h, rfl⟩
  | logicalNot => cases os with
    | nil => exact Rel.none
    | cons o os =>
      refine Rel.pair (condOf_same h) fun c _ _ h => Rel.bind Rel.eq fun c c' e => ?_
      subst e
      exact Rel.pairMap (settle_same h) fun _ _ _ h => ⟨h, rfl⟩
  | compare c =>
    match os with
    | [] => exact Rel.none
    | [_] => exact Rel.none
    | r :: l :: os =>
      refine Rel.bind Rel.eq fun x y e => ?_
      subst e
      exact Rel.pair (binaryOp_same h) fun _ _ _ h => (freeLoc_same h).bind fun _ _ h => Rel.pairMap (settle_same h) fun _ _ _ h => ⟨h, rfl⟩
  | mulDiv k sgn =>
    match os with
    | [] => exact Rel.none
    | [_] => exact Rel.none
    | r :: l :: os => exact Rel.pairMap (mulDiv_same h) fun _ _ _ h => ⟨h, rfl⟩
  | binary op =>
    match os with
    | [] => exact Rel.none
    | [_] => exact Rel.none
    | r :: l :: os => exact Rel.pairMap (binaryOp_same h) fun _ _ _ h => ⟨h, rfl⟩
  | shift left sgn =>
    match os with
    | [] => exact Rel.none
    | [_] => exact Rel.none
    | r :: l :: os => exact Rel.pairMap (shiftOp_same h) fun _ _ _ h => ⟨h, rfl⟩
  | store =>
    match os with
    | [] => exact Rel.none
    | [_] => exact Rel.none
    | r :: l :: os => exact Rel.pairMap (storeOp_same h) fun _ _ _ h => ⟨h, rfl⟩
  | pop => cases os with
    | nil => exact Rel.none
    | cons o os => exact (release_same h).map fun _ _ h => ⟨h, rfl⟩
  | jumpIf b l => cases os with
    | nil => exact Rel.none
    | cons o os =>
      refine Rel.pair (condOf_same h) fun c _ _ h => (spillList_same _ h).bind fun _ _ h => Rel.map Rel.eq fun _ _ _ => ⟨h, rfl⟩
  | ret => cases os with
    | nil => exact Rel.none
    | cons o os => exact Rel.pair (emitLoad_same o h) fun _ _ _ h => (freeLoc_same h).map fun _ _ h => ⟨h, rfl⟩

end Verif.Lemmas.ExprSame
