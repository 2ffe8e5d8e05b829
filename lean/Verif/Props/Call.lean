import Verif.Lemmas.CallAt

/-!
# C70: calls
-/

namespace Verif.Props.Call

open Verif.RegAlloc Verif.Call Verif.Props.RegAlloc Verif.Lemmas.Call Verif.Spec.Call
open Verif.Spec.RegAlloc (Values create)

/-! ## Reading the slots -/

theorem read_bytes : ∀ (n : Nat) (out : Int → Nat) (at_ : Int) (w : Nat), Bytes out at_ n w → read out at_ n = w % 256 ^ n
  | 0, _, _, w, _ => by simp [Spec.Call.read, Nat.mod_one]
  | n + 1, out, at_, w, h => by
    have h0 := h 0 (Nat.succ_pos _)
    rw [Spec.Call.read, read_bytes n out (at_ + 1) (w / 256) ?_]
    · simp only [Nat.pow_zero, Nat.div_one] at h0
      rw [show at_ + ((0 : Nat) : Int) = at_ from by omega] at h0
      rw [h0, Nat.pow_succ, Nat.mul_comm (256 ^ n), Nat.mod_mul]
    · intro d hd
      have := h (d + 1) (by omega)
      rw [show at_ + ((d + 1 : Nat) : Int) = at_ + 1 + (d : Int) from by omega] at this
      rw [this, Nat.div_div_eq_div_mul, Nat.pow_succ, Nat.mul_comm (256 ^ d)]

theorem Bytes.le {out at_ n m w} (h : Bytes out at_ n w) (hm : m ≤ n) : Bytes out at_ m w := fun d hd => h d (by omega)

theorem slot_address (saved i : Nat) : calleeRbp saved + paramOffset saved i = 8 * (i : Int) := by
  unfold calleeRbp paramOffset; omega

theorem home_spec (saved : Nat) (regs : Reg → Nat) : ∀ (ks : List Kind) (i : Nat) (out : Int → Nat),
    (∀ j k, ks[j]? = some k → Bytes (home saved regs i ks out) (8 * ((i + j : Nat) : Int)) 8 (regs (argReg k (i + j)))) ∧
    (∀ d : Int, d < 8 * (i : Int) ∨ 8 * ((i + ks.length : Nat) : Int) ≤ d → home saved regs i ks out d = out d)
  | [], i, out => ⟨fun j k hj => by simp at hj, fun d hd => rfl⟩
  | k :: ks, i, out => by
    obtain ⟨h1, h2⟩ := home_spec saved regs ks (i + 1) (outStore out (calleeRbp saved + paramOffset saved i) 8 (regs (argReg k i)))
    rw [slot_address] at h1 h2
    rw [home, slot_address]
    refine ⟨fun j k' hj => ?_, fun d hd => ?_⟩
    · cases j with
      | zero =>
        simp only [List.getElem?_cons_zero, Option.some.injEq] at hj
        subst hj
        intro d hd
        rw [h2 _ (.inl (by omega))]
        exact outStore_bytes _ _ _ _ d hd
      | succ j =>
        have := h1 j k' (by simpa using hj)
        rw [show i + 1 + j = i + (j + 1) from by omega] at this
        exact this
    · rw [List.length_cons] at hd
      rw [h2 d (by omega), outStore_other _ _ _ _ _ (by omega)]

theorem homeKinds_length (hidden params varargs) : (homeKinds hidden params varargs).length ≤ 4 := by
  unfold homeKinds; rw [List.length_take]; omega

theorem homeKinds_get {hidden i : Nat} {params varargs args} {a : Arg} (hm : Matches params varargs args) (ha : args[i]? = some a) (h4 : hidden + i < 4) :
    (homeKinds hidden params varargs)[hidden + i]? = some (expectedKind params.length i a) := by
  have hi : i < args.length := by
    obtain ⟨h, _⟩ := List.getElem?_eq_some_iff.1 ha; exact h
  unfold homeKinds expectedKind
  rw [List.getElem?_take, if_pos h4, List.append_assoc, List.getElem?_append_right (by simp), List.length_replicate, Nat.add_sub_cancel_left]
  by_cases hp : i < params.length
  · rw [List.getElem?_append_left (by simpa using hp), List.getElem?_map, hm.kinds i a ha hp, decide_eq_true hp]
    cases a.float <;> rfl
  · rw [List.getElem?_append_right (by simpa using hp), List.length_map, decide_eq_false hp]
    have hc := hm.count
    cases varargs with
    | false => simp at hc; omega
    | true =>
      rw [if_pos rfl, List.getElem?_replicate, if_pos (by omega)]
      rfl

/-! ## The hypotheses -/

theorem srcIds_iff {src id} : srcIds src id ↔ opId src = some id := by
  cases src <;> simp [srcIds, opId, eq_comm]

theorem mem_ids {args : List Arg} {id} : anyIds args id ↔ id ∈ (args.map (·.src)).filterMap opId := by
  simp only [anyIds, List.mem_filterMap, List.mem_map, srcIds_iff]
  constructor
  · rintro ⟨a, ha, h⟩; exact ⟨_, ⟨a, ha, rfl⟩, h⟩
  · rintro ⟨_, ⟨a, ha, rfl⟩, h⟩; exact ⟨a, ha, h⟩

theorem distinct_of_nodup : ∀ (args : List Arg), ((args.map (·.src)).filterMap opId).Nodup → Distinct args
  | [], _ => trivial
  | a :: as, h => by
    have hsub : ((as.map (·.src)).filterMap opId).Nodup := by
      refine h.sublist ?_
      simp only [List.map_cons, List.filterMap_cons]
      split
      · exact List.Sublist.refl _
      · exact List.sublist_cons_self _ _
    refine ⟨fun id hid hc => ?_, distinct_of_nodup as hsub⟩
    rw [srcIds_iff] at hid
    simp only [List.map_cons, List.filterMap_cons, hid, List.nodup_cons] at h
    exact h.1 (mem_ids.1 hc)

theorem Small.step {A : Values} (h : Small A) (op : Op) : Small (Spec.RegAlloc.step A op) := by
  cases op with
  | write id v =>
    intro j
    show upd _ _ _ _ < _
    by_cases hj : j = id
    · subst hj; rw [upd_same]; exact Nat.mod_lt _ (Nat.pow_pos (by decide))
    · rw [upd_other _ _ hj]; exact h j
  | compute _ _ _ => exact h.create _ _
  | computeIn _ _ _ => exact h.create _ _
  | temporary _ _ _ => exact h.create _ _
  | reload _ _ => exact h.create _ _
  | _ => exact h

theorem small_run : ∀ (ops : List Op) (A : Values), Small A → Small (Spec.RegAlloc.run A ops)
  | [], _, h => h
  | op :: ops, A, h => small_run ops _ (Small.step h op)

theorem small_start : Small {} := fun _ => Nat.one_pos

theorem big_false {n} (h : n = 1 ∨ n = 2 ∨ n = 4 ∨ n = 8) : big n = false := by
  rcases h with rfl | rfl | rfl | rfl <;> rfl

theorem big_cases {n} (h : big n = false) : n = 0 ∨ n = 1 ∨ n = 2 ∨ n = 4 ∨ n = 8 := by
  simp only [big, Bool.or_eq_false_iff, decide_eq_false_iff_not] at h
  omega

structure Ready' (s : State) (A : Values) (ret : Ret) (params : Nat) (args : List Arg) (fn : Option Src) : Prop where
  distinct : Distinct args
  ok : ∀ j a, args[j]? = some a → ArgOk s A ret.hidden params j a
  fn : ∀ src, fn = some src → Ready s src ∧ ∀ id, srcIds src id → ¬ anyIds args id

theorem ready_of_good {s A ret params args fn} (h : Inv s A) (hg : Good s params args fn) (hz : ∀ a ∈ args, a.size ≠ 0)
    (hf : NoFloatInGpr s ret.hidden params args) : Ready' s A ret params args fn := by
  have hnd := hg.distinct
  unfold operands at hnd
  rw [List.filterMap_append] at hnd
  have hlive : ∀ src ∈ operands args fn, Ready s src := by
    intro src hsrc id hid
    exact hg.live src hsrc id (srcIds_iff.1 hid)
  refine ⟨distinct_of_nodup args (List.nodup_append.1 hnd).1, fun j a hj => ?_, fun src hsrc => ?_⟩
  · have ha : a ∈ args := List.mem_of_getElem? hj
    refine ⟨hlive _ (List.mem_append_left _ (List.mem_map_of_mem ha)), ?_, ?_, ?_, ?_⟩
    · intro id hid
      obtain ⟨l, hl, _⟩ := hg.live a.src (List.mem_append_left _ (List.mem_map_of_mem ha)) id (by rw [hid]; rfl)
      rw [← h.size id l hl]
      exact hg.size a ha id l hid hl
    · intro hb
      cases hfl : a.float with
      | false => rfl
      | true =>
        rw [big_false (by have := hg.float a ha hfl; omega)] at hb
        cases hb
    · intro hi hfl h4 hreg
      obtain ⟨id, l, hsrc, hl, hp⟩ := regOf_loc hreg
      exact hf j a id l hj hi hfl h4 hsrc hl hp
    · intro hi hfl hb r hreg
      obtain ⟨id, l, hsrc, hl, hp⟩ := regOf_loc hreg
      refine hg.integer j a hj hi hfl ?_ id l r hsrc hl hp
      have := hz a ha
      have := big_cases hb
      omega
  · subst hsrc
    refine ⟨hlive _ (List.mem_append_right _ (by simp)), fun id hid hc => ?_⟩
    rw [srcIds_iff] at hid
    have h2 := (List.nodup_append.1 hnd).2.2 id (mem_ids.1 hc) id
    simp [hid] at h2

/-! ## The theorems -/

theorem big_iff {size : Nat} (hz : size ≠ 0) : big size = false ↔ ByValue size := by
  unfold big ByValue
  simp only [Bool.or_eq_false_iff, decide_eq_false_iff_not]
  omega

/-- **C70, arguments.** For every call, with any number of arguments, any results that are in registers or on the stack and any parameter types: the called function, after its
prologue, reads from the slot of each parameter the value of the argument, or the address of a copy of it. This needs that no
float argument is in a general purpose register with the encoding of the float register where it is expected, see `C70_float_in_gpr_wrong`. -/
theorem C70_arguments_partial (base regs mem) (ops : List Op) {c : CallState} (hrun : run (start base regs mem) ops = some c.s)
    (env : Env) (ret : Ret) (params : List Bool) (varargs : Bool) (args : List Arg) (fn : Option Src) (saved : Nat)
    (hgood : Good c.s params.length args fn) (hz : ∀ a ∈ args, a.size ≠ 0) (hfloat : NoFloatInGpr c.s ret.hidden params.length args)
    (hmatch : Matches params varargs args) {at_} (hcall : beforeCall env ret params.length args fn c = some at_)
    (hframe : at_.c.s.base + at_.c.s.temp ≤ env.rbp) (hrbp : env.rbp < 2 ^ 64) {i a v} (ha : args[i]? = some a)
    (hv : content env c.s a.src = some v) :
    (ByValue a.size → parameter saved ret params varargs at_ i a.size = v % 256 ^ a.size) ∧
    (¬ ByValue a.size →
      load at_.c.s.mem (env.rbp - parameter saved ret params varargs at_ i 8) a.size = v % 256 ^ a.size) := by
  have hi := run_inv ops _ _ _ (start_inv base regs mem) hrun
  have hsm := small_run ops _ small_start
  have hr := ready_of_good (ret := ret) hi hgood hz hfloat
  obtain ⟨_, A', e, hp, _, _, _, _⟩ := beforeCall_spec hi hsm hr.distinct hr.ok hr.fn hcall
  rw [content_eq hi (hr.ok i a ha).ready] at hv
  cases hv
  have hpi := hp i a ha
  obtain ⟨hh1, hh2⟩ := home_spec saved at_.c.s.regs (homeKinds ret.hidden params varargs) 0 at_.c.out
  have hlen := homeKinds_length ret.hidden params varargs
  -- the bytes of the slot
  have hslot : ∃ w n, Bytes (prologue saved ret.hidden params varargs at_) (8 * ((ret.hidden + i : Nat) : Int)) n w ∧
      Rep env (Spec.RegAlloc.run {} ops).count at_.c.s A' a (cont env (Spec.RegAlloc.run {} ops) a.src) w n := by
    unfold Passed at hpi
    split at hpi
    · rename_i h4
      obtain ⟨_, w, n, hb, hrep⟩ := hpi
      refine ⟨w, n, fun d hd => ?_, hrep⟩
      unfold prologue
      rw [hh2 _ (.inr (by omega))]
      exact hb d hd
    · rename_i h4
      obtain ⟨id, _, _, n, hl, hrep⟩ := hpi
      have hk := homeKinds_get (hidden := ret.hidden) hmatch ha (by omega)
      have hb := hh1 (ret.hidden + i) _ hk
      rw [Nat.zero_add] at hb
      have hreg := (e.inv.loaded id _ _ hl rfl).2
      dsimp only at hreg
      have hn : n ≤ 8 := by
        unfold Rep at hrep
        split at hrep <;> omega
      refine ⟨_, n, Bytes.le hb hn, ?_⟩
      unfold Rep at hrep ⊢
      split
      · rename_i hbig
        rw [if_pos hbig] at hrep
        obtain ⟨rfl, cid, o, k1, k2, k3, k4⟩ := hrep
        refine ⟨rfl, cid, o, k1, k2, k3, ?_⟩
        rw [← k4, ← hreg, Nat.mod_mod]
      · rename_i hbig
        rw [if_neg hbig] at hrep
        obtain ⟨k1, k2, k3⟩ := hrep
        refine ⟨k1, k2, ?_⟩
        rw [← k3, ← hreg, Nat.mod_mod_of_dvd _ (Nat.pow_dvd_pow 256 k1)]
  obtain ⟨w, n, hb, hrep⟩ := hslot
  unfold Rep at hrep
  unfold parameter
  rw [slot_address]
  have hbi := big_iff (hz a (List.mem_of_getElem? ha))
  refine ⟨fun hv => ?_, fun hv => ?_⟩
  · rw [if_neg (by rw [hbi.2 hv]; decide)] at hrep
    rw [read_bytes _ _ _ _ (Bytes.le hb hrep.1), hrep.2.2]
  · rw [if_pos (by rw [← hbi] at hv; simpa using hv)] at hrep
    obtain ⟨rfl, cid, o, k1, k2, k3, k4⟩ := hrep
    have hso := e.inv.slot cid _ o k2 rfl
    dsimp only at hso
    rw [read_bytes _ _ _ _ hb, k4, Nat.mod_eq_of_lt (by omega), show env.rbp - (env.rbp - o) = o from by omega, hso.2.2.2, k3]

theorem abi_register {i : Nat} (h : i < 4) (k : Kind) : abiRegister (decide (k = .xmm)) i = some (argReg k i) := by
  match i, h with
  | 0, _ => cases k <;> rfl
  | 1, _ => cases k <;> rfl
  | 2, _ => cases k <;> rfl
  | 3, _ => cases k <;> rfl

/-- **C70, the calling convention.** When the call instruction is executed, every argument is where the convention of x64 Windows says. A `float` or `double` parameter is in
a float register, but one that is passed for `...` is in a general purpose register. -/
theorem C70_convention_partial (base regs mem) (ops : List Op) {c : CallState} (hrun : run (start base regs mem) ops = some c.s)
    (env : Env) (ret : Ret) (params : Nat) (args : List Arg) (fn : Option Src)
    (hgood : Good c.s params args fn) (hz : ∀ a ∈ args, a.size ≠ 0) (hfloat : NoFloatInGpr c.s ret.hidden params args)
    {at_} (hcall : beforeCall env ret params args fn c = some at_)
    (hframe : at_.c.s.base + at_.c.s.temp ≤ env.rbp) (hrbp : env.rbp < 2 ^ 64) {i a v} (ha : args[i]? = some a)
    (hv : content env c.s a.src = some v) :
    (ByValue a.size → passed at_ (ret.hidden + i) (a.float && decide (i < params)) a.size = v % 256 ^ a.size) ∧
    (¬ ByValue a.size → load at_.c.s.mem (env.rbp - passed at_ (ret.hidden + i) (a.float && decide (i < params)) 8) a.size = v % 256 ^ a.size) := by
  have hi := run_inv ops _ _ _ (start_inv base regs mem) hrun
  have hsm := small_run ops _ small_start
  have hr := ready_of_good (ret := ret) hi hgood hz hfloat
  obtain ⟨_, A', e, hp, _, _, _, _⟩ := beforeCall_spec hi hsm hr.distinct hr.ok hr.fn hcall
  rw [content_eq hi (hr.ok i a ha).ready] at hv
  cases hv
  have hpi := hp i a ha
  have hkind : (a.float && decide (i < params)) = decide (expectedKind params i a = .xmm) := by
    unfold expectedKind
    rw [Bool.and_comm]
    cases decide (i < params) && a.float <;> rfl
  have hslot : ∃ w n, (∀ m, m ≤ n → passed at_ (ret.hidden + i) (a.float && decide (i < params)) m = w % 256 ^ m) ∧
      Rep env (Spec.RegAlloc.run {} ops).count at_.c.s A' a (cont env (Spec.RegAlloc.run {} ops) a.src) w n := by
    unfold Passed at hpi
    split at hpi
    · rename_i h4
      obtain ⟨_, w, n, hb, hrep⟩ := hpi
      refine ⟨w, n, fun m hm => ?_, hrep⟩
      have : ∀ b, abiRegister b (ret.hidden + i) = none := by
        intro b
        match ret.hidden + i, h4 with
        | n + 4, _ => rfl
      unfold passed
      rw [this]
      exact read_bytes _ _ _ _ (Bytes.le hb hm)
    · rename_i h4
      obtain ⟨id, _, _, n, hl, hrep⟩ := hpi
      have hreg := (e.inv.loaded id _ _ hl rfl).2
      dsimp only at hreg
      refine ⟨_, n, fun m hm => ?_, hrep⟩
      unfold passed
      rw [hkind, abi_register (by omega), ← hreg]
      dsimp only
      rw [Nat.mod_mod_of_dvd _ (Nat.pow_dvd_pow 256 hm)]
  obtain ⟨w, n, hb, hrep⟩ := hslot
  unfold Rep at hrep
  have hbi := big_iff (hz a (List.mem_of_getElem? ha))
  refine ⟨fun hv => ?_, fun hv => ?_⟩
  · rw [if_neg (by rw [hbi.2 hv]; decide)] at hrep
    rw [hb _ hrep.1, hrep.2.2]
  · rw [if_pos (by rw [← hbi] at hv; simpa using hv)] at hrep
    obtain ⟨rfl, cid, o, k1, k2, k3, k4⟩ := hrep
    have hso := e.inv.slot cid _ o k2 rfl
    dsimp only at hso
    rw [hb _ (Nat.le_refl _), k4, Nat.mod_eq_of_lt (by omega), show env.rbp - (env.rbp - o) = o from by omega, hso.2.2.2, k3]

/-- **C70, the target.** A call through a function pointer goes to the value that the pointer had before the arguments were passed. -/
theorem C70_target (base regs mem) (ops : List Op) {c : CallState} (hrun : run (start base regs mem) ops = some c.s)
    (env : Env) (ret : Ret) (params : Nat) (args : List Arg) (fn : Src)
    (hgood : Good c.s params args (some fn)) (hz : ∀ a ∈ args, a.size ≠ 0) (hfloat : NoFloatInGpr c.s ret.hidden params args)
    {at_} (hcall : beforeCall env ret params args (some fn) c = some at_) : at_.target = content env c.s fn := by
  have hi := run_inv ops _ _ _ (start_inv base regs mem) hrun
  have hsm := small_run ops _ small_start
  have hr := ready_of_good (ret := ret) hi hgood hz hfloat
  obtain ⟨_, A', _, _, ht, _⟩ := beforeCall_spec hi hsm hr.distinct hr.ok hr.fn hcall
  rw [ht, content_eq hi (hr.fn fn rfl).1]
  rfl

/-- **C70, the stack.** The caller writes only to the slots of the arguments, and the prologue of the called function only to the first four slots. -/
theorem C70_area (base regs mem) (ops : List Op) {c : CallState} (hrun : run (start base regs mem) ops = some c.s)
    (env : Env) (ret : Ret) (params : List Bool) (varargs : Bool) (args : List Arg) (fn : Option Src) (saved : Nat)
    (hgood : Good c.s params.length args fn) (hz : ∀ a ∈ args, a.size ≠ 0) (hfloat : NoFloatInGpr c.s ret.hidden params.length args)
    {at_} (hcall : beforeCall env ret params.length args fn c = some at_) (d : Int) :
    (8 * ((ret.hidden + args.length : Nat) : Int) ≤ d → at_.c.out d = c.out d) ∧
    (d < 0 ∨ 32 ≤ d → prologue saved ret.hidden params varargs at_ d = at_.c.out d) := by
  have hi := run_inv ops _ _ _ (start_inv base regs mem) hrun
  have hsm := small_run ops _ small_start
  have hr := ready_of_good (ret := ret) hi hgood hz hfloat
  obtain ⟨_, A', _, _, _, _, _, ho⟩ := beforeCall_spec hi hsm hr.distinct hr.ok hr.fn hcall
  refine ⟨ho d, fun hd => ?_⟩
  have hlen := homeKinds_length ret.hidden params varargs
  exact (home_spec saved at_.c.s.regs (homeKinds ret.hidden params varargs) 0 at_.c.out).2 d (by omega)

/-! ## After the call -/

theorem clobber_inv {s : State} {A} (h : Inv s A) (f : Callee) (ret : Ret) (hm : ∀ r, r ∈ volatiles r.kind → s.map r = none) :
    Inv (clobber s f ret) A := by
  refine regs_inv h _ (fun r id hid => ?_)
  have hnv : ¬ r ∈ volatiles r.kind := fun hr => by rw [hm r hr] at hid; cases hid
  split
  · exact absurd (by decide) hnv
  · exact absurd (by decide) hnv
  · exact absurd (by decide) hnv
  · exact if_neg hnv

theorem nodup_ids {args : List Arg} {env n0 ret params c A} {v : Arg → Nat} : ∀ (ids : List (Option Nat)), Inv c.s A →
    ids.length = args.length →
    (∀ j a, args[j]? = some a → Passed env n0 ret params c A j a (v a) ((ids[j]?).join)) →
    (ids.filterMap (fun x => x)).Nodup := by
  intro ids h hlen hp
  -- the location of an argument is in the register of its index
  have key : ∀ j id, ids[j]? = some (some id) → ∃ k n, ret + j < 4 ∧ c.s.locs id = some ⟨.loaded (argReg k (ret + j)), n, 1, 0⟩ := by
    intro j id hj
    obtain ⟨hlt, _⟩ := List.getElem?_eq_some_iff.1 hj
    rw [hlen] at hlt
    have := hp j _ (List.getElem?_eq_getElem hlt)
    rw [hj] at this
    unfold Passed at this
    split at this
    · cases this.1
    · rename_i h4
      obtain ⟨i, hi, _, n, hl, _⟩ := this
      cases hi
      exact ⟨_, n, by omega, hl⟩
  have inj : ∀ k k' i i', i < 4 → i' < 4 → argReg k i = argReg k' i' → i = i' := by
    intro k k' i i' hi hi' he
    have : ∀ k k' : Kind, ∀ i : Fin 4, ∀ i' : Fin 4, argReg k i = argReg k' i' → i = i' := by
      intro k k'; cases k <;> cases k' <;> decide
    have := this k k' ⟨i, hi⟩ ⟨i', hi'⟩ he
    exact congrArg Fin.val this
  clear hp hlen
  have main : ∀ (l : List (Option Nat)) (o : Nat), (∀ j id, l[j]? = some (some id) → ids[o + j]? = some (some id)) → (l.filterMap (fun x => x)).Nodup := by
    intro l
    induction l with
    | nil => intro _ _; exact List.nodup_nil
    | cons x l ih =>
      intro o ho
      have ih' := ih (o + 1) (fun j id hj => by
        have := ho (j + 1) id (by simpa using hj)
        rwa [show o + (j + 1) = o + 1 + j from by omega] at this)
      cases x with
      | none => simpa using ih'
      | some id =>
        show (id :: l.filterMap (fun x => x)).Nodup
        rw [List.nodup_cons]
        refine ⟨fun hc => ?_, ih'⟩
        obtain ⟨y, hy, hyid⟩ := List.mem_filterMap.1 hc
        subst hyid
        obtain ⟨j, hj, hjl⟩ := List.mem_iff_getElem.1 hy
        have h1 := ho 0 id rfl
        have h2 := ho (j + 1) id (by
          rw [List.getElem?_cons_succ, List.getElem?_eq_getElem hj, hjl])
        obtain ⟨k1, n1, q1, q2⟩ := key _ _ h1
        obtain ⟨k2, n2, q3, q4⟩ := key _ _ h2
        rw [q2] at q4
        injection q4 with q4
        injection q4 with q4
        injection q4 with q4
        have := inj _ _ _ _ q1 q3 q4
        omega
  exact main ids 0 (fun j id hj => by rw [Nat.zero_add]; exact hj)

/-- The size of what a call returns. -/
def Ret.size : Ret → Option Nat
  | .nothing => none
  | .integer n => some n
  | .small n _ => some n
  | .float n => some n
  | .byAddress n _ => some n

theorem afterCall_spec {env ret params args fn c A at_ f res s'} (h : Inv c.s A) (hsm : Small A)
    (hr : Ready' c.s A ret params args fn) (hb : beforeCall env ret params args fn c = some at_)
    (hs : afterCall env ret f at_ = some (res, s')) (hframe : at_.c.s.base + at_.c.s.temp ≤ env.rbp) (hrbp : env.rbp < 2 ^ 64) :
    (∀ id l, c.s.locs id = some l → l.place ≠ .freed → ¬ allIds args fn id →
      ∃ l', s'.locs id = some l' ∧ l'.place ≠ .freed ∧ value s' id = some (A.value id)) ∧
    (∀ n, Ret.size ret = some n → ∃ id l', res = some id ∧ s'.locs id = some l' ∧ l'.place ≠ .freed ∧ value s' id = some (f.result % 256 ^ n)) := by
  obtain ⟨hlen, A1, e1, hp, _, hk, hmap, _⟩ := beforeCall_spec h hsm hr.distinct hr.ok hr.fn hb
  unfold afterCall at hs
  obtain ⟨s1, h1, h2⟩ := Option.bind_eq_some_iff.1 hs
  dsimp only at h2
  -- the locked locations
  have hkey : ∀ id, some id ∈ at_.ids → ∃ r n, at_.c.s.locs id = some ⟨.loaded r, n, 1, 0⟩ ∧ (id < A.count → anyIds args id) ∧
      (ret.hidden = 1 → r ≠ ⟨.gpr, 1⟩) := by
    intro id hid
    obtain ⟨j, hj, hjl⟩ := List.mem_iff_getElem.1 hid
    have hja : j < args.length := by rw [← hlen]; exact hj
    have := hp j _ (List.getElem?_eq_getElem hja)
    rw [List.getElem?_eq_getElem hj, hjl] at this
    unfold Passed at this
    split at this
    · cases this.1
    · rename_i h4
      obtain ⟨i, hi, hlt, n, hl, _⟩ := this
      cases hi
      refine ⟨_, n, hl, fun hc => ⟨_, List.getElem_mem hja, hlt hc⟩, fun hret hc => ?_⟩
      have : ∀ k : Kind, ∀ i : Fin 4, argReg k i = ⟨.gpr, 1⟩ → i = 0 := by intro k; cases k <;> decide
      have := congrArg Fin.val (this _ ⟨ret.hidden + j, by omega⟩ hc)
      simp at this
      omega
  have hptr : ∀ id, at_.hidden.map (·.2) = some id → at_.c.s.locs id = some ⟨.loaded ⟨.gpr, 1⟩, 8, 1, 0⟩ ∧ A.count ≤ id ∧ ret.hidden = 1 := by
    intro id hid
    cases hh : at_.hidden with
    | none => rw [hh] at hid; cases hid
    | some p =>
      rw [hh] at hid hk
      cases hid
      cases ret with
      | byAddress _ _ => exact ⟨hk.2.2.2.1, hk.2.1, rfl⟩
      | _ => cases hk
  have hnd : ((at_.ids ++ [at_.hidden.map (·.2)]).filterMap (fun x => x)).Nodup := by
    rw [List.filterMap_append, List.nodup_append]
    refine ⟨nodup_ids (v := fun a => cont env A a.src) at_.ids e1.inv hlen hp, ?_, ?_⟩
    · cases at_.hidden.map (·.2) <;> simp
    · intro x hx y hy hxy
      subst hxy
      obtain ⟨o, ho, hox⟩ := List.mem_filterMap.1 hx
      subst hox
      obtain ⟨o', ho', hox'⟩ := List.mem_filterMap.1 hy
      subst hox'
      rw [List.mem_singleton] at ho'
      obtain ⟨q1, _, q2⟩ := hptr x ho'.symm
      obtain ⟨r, n, q3, _, q4⟩ := hkey x ho
      rw [q1] at q3
      cases q3
      exact q4 q2 rfl
  obtain ⟨e2, m2, k2⟩ := unlockAll_spec (at_.ids ++ [at_.hidden.map (·.2)]) e1.inv hnd (fun id hid => by
    rcases List.mem_append.1 hid with hid | hid
    · obtain ⟨r, n, hl, _⟩ := hkey id hid; exact ⟨r, n, hl⟩
    · rw [List.mem_singleton] at hid
      exact ⟨_, _, (hptr id hid.symm).1⟩) h1
  have hnone : ∀ r, r ∈ volatiles r.kind → s1.map r = none := by
    intro r hr'
    cases hm : s1.map r with
    | none => rfl
    | some id =>
      obtain ⟨n, hn⟩ := k2 id (hmap r id hr' (m2 r id hm))
      obtain ⟨l, hl, hpl⟩ := e2.inv.mapped r id hm
      rw [hn] at hl; cases hl; cases hpl
  have hi1 := clobber_inv e2.inv f ret hnone
  have e12 : Ext (allIds args fn) c.s A s1 A1 := Ext.trans h e1 e2 (fun id hid hmem => by
    rcases List.mem_append.1 hmem with hmem | hmem
    · obtain ⟨_, _, _, q, _⟩ := hkey id hmem
      exact .inl (q hid)
    · rw [List.mem_singleton] at hmem
      have := (hptr id hmem.symm).2.1
      omega)
  have old : ∀ id l, c.s.locs id = some l → l.place ≠ .freed → ¬ allIds args fn id →
      id < A.count ∧ ∃ l', (clobber s1 f ret).locs id = some l' ∧ l'.place ≠ .freed ∧ A1.value id = A.value id := by
    intro id l hl hlive hF
    obtain ⟨p, q1, q2⟩ := e12.alive id l hl hlive hF
    exact ⟨lt_count h hl, _, q1, q2.live hlive, (e12.same id (lt_count h hl)).2⟩
  have hcount : A.count ≤ A1.count := e12.count
  -- a new location for the result
  have hnew : ∀ s2 size l, Inv s2 (create A1 size f.result) → s2.locs = upd (clobber s1 f ret).locs (clobber s1 f ret).next (some l) → l.place ≠ .freed →
      (∀ id l, c.s.locs id = some l → l.place ≠ .freed → ¬ allIds args fn id →
        ∃ l', s2.locs id = some l' ∧ l'.place ≠ .freed ∧ value s2 id = some (A.value id)) ∧
      ∃ l', s2.locs (clobber s1 f ret).next = some l' ∧ l'.place ≠ .freed ∧ value s2 (clobber s1 f ret).next = some (f.result % 256 ^ size) := by
    intro s2 size l hi2 hl2 hlive
    have hne : (clobber s1 f ret).next = A1.count := hi1.count
    refine ⟨fun id l0 hl0 hp0 hF => ?_, l, ?_, hlive, ?_⟩
    · obtain ⟨q0, l', q1, q2, q3⟩ := old id l0 hl0 hp0 hF
      have q4 : s2.locs id = some l' := by rw [hl2, upd_other _ _ (by omega)]; exact q1
      refine ⟨l', q4, q2, ?_⟩
      rw [value_eq hi2 q4 q2, (create_same (by omega)).2, q3]
    · rw [hl2, upd_same]
    · have : s2.locs (clobber s1 f ret).next = some l := by rw [hl2, upd_same]
      rw [value_eq hi2 this hlive, hne, (create_new _ _ _).2]
  cases hret : ret with
  | nothing =>
    subst hret
    cases h2
    refine ⟨fun id l hl hlive hF => ?_, fun n hn => by cases hn⟩
    obtain ⟨_, l', q1, q2, q3⟩ := old id l hl hlive hF
    exact ⟨l', q1, q2, by rw [value_eq hi1 q1 q2, q3]⟩
  | integer size =>
    subst hret
    obtain ⟨s2, g1, g2⟩ := Option.map_eq_some_iff.1 h2
    cases g2
    have hi2 := newLoaded_inv hi1 g1
    obtain ⟨q1, q2⟩ := hnew _ size _ hi2 (newLoaded_locs g1).1 (by intro hc; cases hc)
    refine ⟨q1, fun n hn => ?_⟩
    cases hn
    obtain ⟨l', q3⟩ := q2
    exact ⟨_, l', rfl, q3⟩
  | float size =>
    subst hret
    obtain ⟨s2, g1, g2⟩ := Option.map_eq_some_iff.1 h2
    cases g2
    have hi2 := newLoaded_inv hi1 g1
    obtain ⟨q1, q2⟩ := hnew _ size _ hi2 (newLoaded_locs g1).1 (by intro hc; cases hc)
    refine ⟨q1, fun n hn => ?_⟩
    cases hn
    obtain ⟨l', q3⟩ := q2
    exact ⟨_, l', rfl, q3⟩
  | small size align =>
    subst hret
    obtain ⟨s2, g1, g2⟩ := Option.map_eq_some_iff.1 h2
    cases g2
    have hi2 := newStack_inv hi1 g1
    obtain ⟨q1, q2⟩ := hnew _ size _ hi2 (newStack_locs g1).1 (by intro hc; cases hc)
    refine ⟨q1, fun n hn => ?_⟩
    cases hn
    obtain ⟨l', q3⟩ := q2
    exact ⟨_, l', rfl, q3⟩
  | byAddress size align =>
    subst hret
    cases hh : at_.hidden with
    | none => rw [hh] at hk; exact hk.elim
    | some p =>
      obtain ⟨room, ptr⟩ := p
      rw [hh] at h2 hk
      dsimp only at h2
      cases h2
      obtain ⟨k1, k3, k4, k5, o, k6, k7⟩ := hk
      have hpv := (e1.inv.loaded ptr _ _ k5 rfl).2
      dsimp only at hpv
      rw [k7] at hpv
      have hso := e1.inv.slot room _ o k6 rfl
      dsimp only at hso
      have hptrv : at_.c.s.regs ⟨.gpr, 1⟩ % 2 ^ 64 = env.rbp - o := by
        rw [show (2 : Nat) ^ 64 = 256 ^ 8 from by decide, hpv, Nat.mod_eq_of_lt (by omega)]
      have haddr : env.rbp - at_.c.s.regs ⟨.gpr, 1⟩ % 2 ^ 64 = o := by rw [hptrv]; omega
      have hnotids : ¬ some room ∈ at_.ids ++ [at_.hidden.map (·.2)] := by
        intro hc
        rcases List.mem_append.1 hc with hc | hc
        · obtain ⟨r, n, q, _⟩ := hkey room hc
          rw [k6] at q; cases q
        · rw [List.mem_singleton] at hc
          have := (hptr room hc.symm).1
          rw [k6] at this; cases this
      obtain ⟨p, q1, q2⟩ := e2.alive room _ k6 (by intro hc; cases hc) hnotids
      rw [q2.stack] at q1
      have hi2 := memStore_inv hi1 (id := room) (l := ⟨.stack o, size, 0, 0⟩) (o := o) q1 rfl f.result
      rw [haddr]
      refine ⟨fun id l hl hlive hF => ?_, fun n hn => ?_⟩
      · obtain ⟨q0, l', q3, q4, q5⟩ := old id l hl hlive hF
        have hne : id ≠ room := by omega
        refine ⟨l', q3, q4, ?_⟩
        rw [value_eq hi2 q3 q4]
        show some (upd _ _ _ _) = _
        rw [upd_other _ _ hne, q5]
      · cases hn
        refine ⟨room, _, rfl, q1, (by intro hc; cases hc), ?_⟩
        rw [value_eq hi2 q1 (by intro hc; cases hc)]
        show some (upd _ _ _ _) = _
        rw [upd_same]

/-- **C70, the result.** The value of a call expression is what the called function returns, in `rax`, in `xmm0` or at the address that it gets as a hidden first
argument. -/
theorem C70_result (base regs mem) (ops : List Op) {c : CallState} (hrun : run (start base regs mem) ops = some c.s)
    (env : Env) (ret : Ret) (params : Nat) (args : List Arg) (fn : Option Src) (f : Callee)
    (hgood : Good c.s params args fn) (hz : ∀ a ∈ args, a.size ≠ 0) (hfloat : NoFloatInGpr c.s ret.hidden params args)
    {at_ res s'} (hcall : call env ret params args fn f c = some (at_, res, s'))
    (hframe : at_.c.s.base + at_.c.s.temp ≤ env.rbp) (hrbp : env.rbp < 2 ^ 64) {n} (hn : Ret.size ret = some n) :
    ∃ id, res = some id ∧ live s' id = true ∧ value s' id = some (f.result % 256 ^ n) := by
  have hi := run_inv ops _ _ _ (start_inv base regs mem) hrun
  have hsm := small_run ops _ small_start
  have hr := ready_of_good (ret := ret) hi hgood hz hfloat
  obtain ⟨at1, h1, h2⟩ := Option.bind_eq_some_iff.1 hcall
  obtain ⟨⟨res1, s1⟩, h3, h4⟩ := Option.map_eq_some_iff.1 h2
  cases h4
  obtain ⟨id, l, q1, q2, q3, q4⟩ := (afterCall_spec hi hsm hr h1 h3 hframe hrbp).2 n hn
  refine ⟨id, q1, ?_, q4⟩
  unfold live
  rw [q2]
  simpa using q3

/-- **C70, everything else.** A value that is in use across a call, and is no argument of it, is the same after the call, whatever the called
function does with the volatile registers. -/
theorem C70_kept (base regs mem) (ops : List Op) {c : CallState} (hrun : run (start base regs mem) ops = some c.s)
    (env : Env) (ret : Ret) (params : Nat) (args : List Arg) (fn : Option Src) (f : Callee)
    (hgood : Good c.s params args fn) (hz : ∀ a ∈ args, a.size ≠ 0) (hfloat : NoFloatInGpr c.s ret.hidden params args)
    {at_ res s'} (hcall : call env ret params args fn f c = some (at_, res, s'))
    (hframe : at_.c.s.base + at_.c.s.temp ≤ env.rbp) (hrbp : env.rbp < 2 ^ 64) (id : Nat) (hl : live c.s id = true)
    (hno : ∀ src ∈ operands args fn, opId src ≠ some id) : live s' id = true ∧ value s' id = value c.s id := by
  have hi := run_inv ops _ _ _ (start_inv base regs mem) hrun
  have hsm := small_run ops _ small_start
  have hr := ready_of_good (ret := ret) hi hgood hz hfloat
  obtain ⟨at1, h1, h2⟩ := Option.bind_eq_some_iff.1 hcall
  obtain ⟨⟨res1, s1⟩, h3, h4⟩ := Option.map_eq_some_iff.1 h2
  cases h4
  unfold live at hl
  split at hl
  · cases hl
  · rename_i l hloc
    have hlive : l.place ≠ .freed := by simpa using hl
    have hF : ¬ allIds args fn id := by
      rintro (⟨a, ha, hid⟩ | ⟨src, hsrc, hid⟩)
      · exact hno a.src (List.mem_append_left _ (List.mem_map_of_mem ha)) (srcIds_iff.1 hid)
      · subst hsrc
        exact hno src (List.mem_append_right _ (by simp)) (srcIds_iff.1 hid)
    obtain ⟨l', q1, q2, q3⟩ := (afterCall_spec hi hsm hr h1 h3 hframe hrbp).1 id l hloc hlive hF
    refine ⟨?_, by rw [q3, value_eq hi hloc hlive]⟩
    unfold live
    rw [q1]
    simpa using q2

/-! ## Examples -/

/-- The location of an operand, if it is one. -/
def locOf (s : State) (src : Src) : Option Loc := match src with
  | .loc id => s.locs id
  | _ => none

/-- `Good` for a given state. -/
def goodCheck (s : State) (params : Nat) (args : List Arg) (fn : Option Src) : Bool :=
  ((operands args fn).filterMap opId).all (fun id => (s.locs id).any (fun l => l.place ≠ .freed && l.preventSpilling = 0 && l.preventFreeing = 0)) &&
  decide ((operands args fn).filterMap opId).Nodup &&
  args.all (fun a => (locOf s a.src).all (fun l => l.size = a.size)) &&
  args.all (fun a => !a.float || a.size = 4 || a.size = 8) &&
  args.all (fun a => a.float || (locOf s a.src).all (fun l => match l.place with | .loaded r => r.kind = .gpr | _ => true))

theorem good_of_check {s params args fn} (h : goodCheck s params args fn = true) : Good s params args fn := by
  simp only [goodCheck, Bool.and_eq_true, List.all_eq_true, decide_eq_true_eq] at h
  obtain ⟨⟨⟨⟨h1, h2⟩, h3⟩, h4⟩, h5⟩ := h
  refine ⟨fun src hsrc id hid => ?_, h2, fun a ha id l hs hl => ?_, fun a ha hf => ?_, fun i a ha _ hf _ id l r hs hl hp => ?_⟩
  · have := h1 id (List.mem_filterMap.2 ⟨src, hsrc, hid⟩)
    cases hl : s.locs id with
    | none => rw [hl] at this; cases this
    | some l =>
      rw [hl] at this
      simp only [Option.any_some, Bool.and_eq_true, decide_eq_true_eq] at this
      exact ⟨l, rfl, by simpa using this.1.1, this.1.2, this.2⟩
  · have := h3 a ha
    rw [hs] at this
    simp only [locOf, hl, Option.all_some, decide_eq_true_eq] at this
    exact this
  · have := h4 a ha
    rw [hf] at this
    simpa using this
  · have := h5 a (List.mem_of_getElem? ha)
    rw [hf, hs] at this
    simp only [locOf, hl, Option.all_some, hp, Bool.false_or, decide_eq_true_eq] at this
    exact this

/-- `NoFloatInGpr` for a given state. -/
def floatCheck (s : State) (args : List Arg) : Bool :=
  args.all (fun a => !a.float || (locOf s a.src).all (fun l => match l.place with | .loaded r => r.kind = .xmm | _ => true))

theorem float_of_check {s hidden params args} (h : floatCheck s args = true) : NoFloatInGpr s hidden params args := by
  intro i a id l ha _ hf _ hs hl hp
  simp only [floatCheck, List.all_eq_true] at h
  have := h a (List.mem_of_getElem? ha)
  rw [hf, hs] at this
  simp only [locOf, hl, Option.all_some, hp] at this
  cases this

/-- Before the call: 5 in `rax`, 7 in `rcx`, a structure of 12 bytes on the stack, a `double` in `xmm0`. -/
def sample : List Op := [.compute .gpr 8 5, .compute .gpr 4 7, .temporary 12 4 (2 ^ 90 + 6), .compute .xmm 8 (2 ^ 60)]

def sampleState : CallState := { s := (run (start 32 (fun _ => 0) (fun _ => 0)) sample).getD (start 0 (fun _ => 0) (fun _ => 0)), out := fun _ => 0 }

def sampleEnv : Env := ⟨100000, fun _ => 0, fun _ => 3⟩

/-- `f(9, structure, double, 7, 10)`. -/
def sampleArgs : List Arg := [⟨.imm 9, 4, false⟩, ⟨.loc 2, 12, false⟩, ⟨.loc 3, 8, true⟩, ⟨.loc 1, 4, false⟩, ⟨.variable 10, 2, false⟩]

-- The hypotheses of the theorems hold for it.
example : run (start 32 (fun _ => 0) (fun _ => 0)) sample = some sampleState.s := by
  unfold sampleState
  have : (run (start 32 (fun _ => 0) (fun _ => 0)) sample).isSome = true := by decide +kernel
  obtain ⟨s, hs⟩ := Option.isSome_iff_exists.1 this
  rw [hs]; rfl

example : Good sampleState.s 5 sampleArgs (some (.loc 0)) ∧ NoFloatInGpr sampleState.s 0 5 sampleArgs ∧
    Matches [false, false, true, false, false] false sampleArgs :=
  ⟨good_of_check (by decide +kernel), float_of_check (by decide +kernel),
    ⟨by decide, by
      intro i a ha hi
      match i, hi with
      | 0, _ => cases ha; rfl
      | 1, _ => cases ha; rfl
      | 2, _ => cases ha; rfl
      | 3, _ => cases ha; rfl
      | 4, _ => cases ha; rfl⟩⟩

-- The parameters that the function reads, the structure by its address; the function pointer that is called.
example : (beforeCall sampleEnv (.integer 4) 5 sampleArgs (some (.loc 0)) sampleState).map (fun at_ =>
    let p := parameter 2 (.integer 4) [false, false, true, false, false] false at_
    ([p 0 4, load at_.c.s.mem (100000 - p 1 8) 12, p 2 8, p 3 4, p 4 2], at_.target, decide (at_.c.s.base + at_.c.s.temp ≤ 100000))) =
  some ([9, 2 ^ 90 + 6, 2 ^ 60, 7, 10], some 5, true) := by decide +kernel

-- The same at the call instruction, by the convention.
example : (beforeCall sampleEnv (.integer 4) 5 sampleArgs (some (.loc 0)) sampleState).map (fun at_ =>
    [passed at_ 0 false 4, load at_.c.s.mem (100000 - passed at_ 1 false 8) 12, passed at_ 2 true 8, passed at_ 3 false 4, passed at_ 4 false 2]) =
  some [9, 2 ^ 90 + 6, 2 ^ 60, 7, 10] := by decide +kernel

-- A result of 24 bytes by address; the value of location 0 is kept, although the function changes `rax`.
example : (call sampleEnv (.byAddress 24 8) 5 sampleArgs none ⟨2 ^ 150 + 1, fun _ => 77⟩ sampleState).map (fun (_, res, s) =>
    (res.bind (value s), value s 0)) = some (some (2 ^ 150 + 1), some 5) := by decide +kernel

/-! ## A float in a general purpose register -/

/-- The program: the `double` 2^60 is the first argument; the second is a `double` that an assignment left in `rcx`, as for `f(x, y = z)` where the
assignment loads `z` into a general purpose register (`src/emit_x64.c:4392-4414`). -/
def floatSample : List Op := [.computeIn ⟨.gpr, 1⟩ 8 (2 ^ 61)]

def floatState : CallState := { s := (run (start 32 (fun _ => 0) (fun _ => 0)) floatSample).getD (start 0 (fun _ => 0) (fun _ => 0)), out := fun _ => 0 }

/-- **C70 fails for a `double` in `rcx`.** The check whether the argument is in its register compares the encodings only, `rcx` and `xmm1` both have 1; nothing is
emitted, and the location is locked in `rcx`. Then `rcx` is to be spilled, and the assertion at `src/emit_x64.c:868` fails; without assertions the function reads
whatever is in `xmm1`. With a different register the call is compiled. -/
theorem C70_float_in_gpr_wrong : (∃ (ops : List Op) (c : CallState) (env : Env) (args : List Arg),
    run (start 32 (fun _ => 0) (fun _ => 0)) ops = some c.s ∧ Good c.s 2 args none ∧ Matches [true, true] false args ∧
    beforeCall env .nothing 2 args none c = none) ∧
    ((run (start 32 (fun _ => 0) (fun _ => 0)) [.computeIn ⟨.gpr, 8⟩ 8 (2 ^ 61)]).bind (fun s =>
      beforeCall sampleEnv .nothing 2 [⟨.variable (2 ^ 60), 8, true⟩, ⟨.loc 0, 8, true⟩] none ⟨s, fun _ => 0⟩)).map (fun at_ =>
      [0, 1].map (fun i => parameter 0 .nothing [true, true] false at_ i 8)) = some [2 ^ 60, 2 ^ 61] := by
  refine ⟨⟨floatSample, floatState, sampleEnv, [⟨.variable (2 ^ 60), 8, true⟩, ⟨.loc 0, 8, true⟩], ?_, good_of_check (by decide +kernel), ⟨rfl, ?_⟩, ?_⟩, by decide +kernel⟩
  · unfold floatState
    have : (run (start 32 (fun _ => 0) (fun _ => 0)) floatSample).isSome = true := by decide +kernel
    obtain ⟨s, hs⟩ := Option.isSome_iff_exists.1 this
    rw [hs]; rfl
  · intro i a ha hi
    match i, hi with
    | 0, _ => cases ha; rfl
    | 1, _ => cases ha; rfl
  · have : (beforeCall sampleEnv .nothing 2 [⟨.variable (2 ^ 60), 8, true⟩, ⟨.loc 0, 8, true⟩] none floatState).isNone = true := by decide +kernel
    exact Option.isNone_iff_eq_none.1 this

end Verif.Props.Call
