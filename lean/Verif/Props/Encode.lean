import Verif.Model.Encode
import Verif.Spec.X64Decode

/-!
# C34: emitted instructions decode to the intended operands
-/
namespace Verif.Props.Encode
open Verif.Encode Verif.Spec.X64Decode

/-- The opcodes that can be given to the emitter: a one byte opcode is not a prefix, not an
escape and not VEX. -/
def OpcodeOk : Opcode → Prop
  | .one b => b < 256 ∧ isPrefix b = false ∧ ¬ (0x40 ≤ b ∧ b < 0x50) ∧ b ≠ 0x0f ∧ b ≠ 0xc4 ∧ b ≠ 0xc5
  | .two b => b < 256 ∧ b ≠ 0x38 ∧ b ≠ 0x3a
  | .three b1 b2 => (b1 = 0x38 ∨ b1 = 0x3a) ∧ b2 < 256

/-- The opcode map and opcode byte meant by `op`. -/
def mapOf : Opcode → OpMap
  | .one _ => .one
  | .two _ => .of
  | .three b1 _ => if b1 = 0x38 then .of38 else .of3a
def byteOf : Opcode → Nat
  | .one b => b
  | .two b => b
  | .three _ b => b

/-- The legacy prefixes that were asked for, with the operand size prefix for 16-bit operands. -/
def prefixList (p : Prefixes) (size : Nat) : List Nat :=
  (if p.f0 then [0xf0] else []) ++ (if p.f2 then [0xf2] else []) ++ (if p.f3 then [0xf3] else []) ++
  (if p.p64 then [0x64] else []) ++ (if p.p65 then [0x65] else []) ++
  (if p.p66 || size = 2 then [0x66] else []) ++ (if p.p67 then [0x67] else [])

theorem ext_eq {r : Nat} (h : r < 16) : ext r = decide (8 ≤ r) := by
  have : ∀ r : Fin 16, ext r.val = decide (8 ≤ r.val) := by decide
  exact this ⟨r, h⟩
theorem low3 {r : Nat} (h : r < 16) : r &&& 7 = r % 8 := by
  have : ∀ r : Fin 16, r.val &&& 7 = r.val % 8 := by decide
  exact this ⟨r, h⟩
theorem modrm_eq {m r b : Nat} (hm : m < 4) (hr : r < 8) (hb : b < 8) : makeModrm m r b = 64 * m + 8 * r + b := by
  have : ∀ (m : Fin 4) (r b : Fin 8), makeModrm m.val r.val b.val = 64 * m.val + 8 * r.val + b.val := by decide
  exact this ⟨m, hm⟩ ⟨r, hr⟩ ⟨b, hb⟩
theorem sib_eq {m r b : Nat} (hm : m < 4) (hr : r < 8) (hb : b < 8) : makeSib m r b = 64 * m + 8 * r + b := modrm_eq hm hr hb

theorem takePrefixes_append (ps : List Nat) (hps : ∀ b ∈ ps, isPrefix b = true) (b : Nat) (rest : List Nat) (hb : isPrefix b = false) :
    takePrefixes (ps ++ b :: rest) = (ps, b :: rest) := by
  induction ps with
  | nil => simp [takePrefixes, hb]
  | cons q qs ih =>
    have hq : isPrefix q = true := hps q (by simp)
    simp [takePrefixes, hq, ih (fun b hb => hps b (by simp [hb]))]

theorem prefixList_ok (p : Prefixes) (size : Nat) : ∀ b ∈ prefixList p size, isPrefix b = true := by
  intro b hb
  simp only [prefixList, List.mem_append] at hb
  rcases hb with (((((h | h) | h) | h) | h) | h) | h <;>
    · split at h <;> simp at h
      subst h; decide

theorem takeOpcode_ok {op : Opcode} (h : OpcodeOk op) (tail : List Nat) :
    takeOpcode (op.bytes ++ tail) = some (mapOf op, byteOf op, tail) := by
  cases op with
  | one b =>
    obtain ⟨_, _, _, h0f, _, _⟩ := h
    simp [Opcode.bytes, mapOf, byteOf, takeOpcode, h0f]
  | two b =>
    obtain ⟨_, h1, h2⟩ := h
    simp [Opcode.bytes, mapOf, byteOf, takeOpcode, h1, h2]
  | three b1 b2 =>
    obtain ⟨h1 | h1, h2⟩ := h <;> subst h1 <;> rfl

theorem decode_norex (ps : List Nat) (hps : ∀ b ∈ ps, isPrefix b = true) {op : Opcode} (h : OpcodeOk op) (tail : List Nat) :
    decode (ps ++ (op.bytes ++ tail)) = finish ps 0 0 0 0 (mapOf op) (byteOf op) none tail := by
  have ho := takeOpcode_ok h tail
  obtain ⟨b, rest, hb⟩ : ∃ b rest, op.bytes = b :: rest := by cases op <;> exact ⟨_, _, rfl⟩
  have hbp : isPrefix b = false ∧ b ≠ 0xc4 ∧ b ≠ 0xc5 ∧ ¬ (0x40 ≤ b ∧ b < 0x50) := by
    cases op with
    | one c => cases hb; exact ⟨h.2.1, h.2.2.2.2.1, h.2.2.2.2.2, h.2.2.1⟩
    | two c => cases hb; decide
    | three c d => cases hb; decide
  rw [hb] at ho ⊢
  simp only [List.cons_append] at ho ⊢
  unfold decode
  rw [takePrefixes_append ps hps b _ hbp.1]
  simp only
  rw [if_neg hbp.2.2.1, if_neg hbp.2.1, if_neg hbp.2.2.2, ho]; rfl

theorem decode_rex (ps : List Nat) (hps : ∀ b ∈ ps, isPrefix b = true) (rex : Nat) (hrex : 0x40 ≤ rex ∧ rex < 0x50)
    {op : Opcode} (h : OpcodeOk op) (tail : List Nat) :
    decode (ps ++ (rex :: (op.bytes ++ tail))) =
      finish ps (rex / 8 % 2) (rex / 4 % 2) (rex / 2 % 2) (rex % 2) (mapOf op) (byteOf op) none tail := by
  have ho := takeOpcode_ok h tail
  have hbp : isPrefix rex = false := by
    simp only [isPrefix, decide_eq_false_iff_not, List.mem_cons, List.not_mem_nil, or_false]; omega
  unfold decode
  rw [takePrefixes_append ps hps rex _ hbp]
  simp only
  rw [if_neg (by omega), if_neg (by omega), if_pos hrex, ho]; rfl

/-- The REX byte. -/
theorem rex_bits (w r b x : Bool) :
    let rex := (if w then 0x48 else 0) ||| (if r then 0x44 else 0) ||| (if b then 0x41 else 0) ||| (if x then 0x42 else 0)
    (rex = 0 ∧ w = false ∧ r = false ∧ b = false ∧ x = false) ∨
    (rex ≠ 0 ∧ (0x40 ≤ rex ∧ rex < 0x50) ∧ rex / 8 % 2 = (if w then 1 else 0) ∧ rex / 4 % 2 = (if r then 1 else 0) ∧
      rex / 2 % 2 = (if x then 1 else 0) ∧ rex % 2 = (if b then 1 else 0)) := by
  cases w <;> cases r <;> cases b <;> cases x <;> decide

/-- What the decoder sees after the legacy prefixes, REX and opcode. -/
theorem legacy_decode (p : Prefixes) {op : Opcode} (h : OpcodeOk op) (reg regm size : Nat) (index : Option Nat) (tail : List Nat) :
    decode (legacyBytes p reg regm index size op ++ tail) =
      finish (prefixList p size) (if decide (size = 8) then 1 else 0) (if ext reg then 1 else 0)
        (if indexExt index then 1 else 0) (if ext regm then 1 else 0) (mapOf op) (byteOf op) none tail := by
  have hps := prefixList_ok p size
  have hb := rex_bits (decide (size = 8)) (ext reg) (ext regm) (indexExt index)
  have he : legacyBytes p reg regm index size op = prefixList p size ++
      ((if ((if decide (size = 8) then 0x48 else 0) ||| (if ext reg then 0x44 else 0) ||| (if ext regm then 0x41 else 0) |||
        (if indexExt index then 0x42 else 0)) ≠ 0 then [(if decide (size = 8) then 0x48 else 0) ||| (if ext reg then 0x44 else 0) |||
        (if ext regm then 0x41 else 0) ||| (if indexExt index then 0x42 else 0)] else []) ++ op.bytes) := by
    unfold legacyBytes
    simp only [decide_eq_true_eq, ← List.append_assoc]
    rfl
  rw [he]
  simp only at hb
  generalize ((if decide (size = 8) then 0x48 else 0) ||| (if ext reg then 0x44 else 0) ||| (if ext regm then 0x41 else 0) |||
        (if indexExt index then 0x42 else 0)) = rex at hb ⊢
  rw [List.append_assoc]
  rcases hb with ⟨h0, h1, h2, h3, h4⟩ | ⟨h0, hr, h1, h2, h3, h4⟩
  · rw [if_neg (by simp [h0]), h1, h2, h3, h4]
    exact decode_norex _ hps h tail
  · rw [if_pos h0, ← h1, ← h2, ← h3, ← h4]
    exact decode_rex _ hps rex hr h tail

/-- The decoded extension bit and the low three bits give back the register. -/
theorem reg_split {r : Nat} (h : r < 16) : 8 * (if ext r then 1 else 0) + r % 8 = r := by
  rw [ext_eq h]; simp only [decide_eq_true_eq]; split <;> omega

theorem disp32_u32Bytes (v : Int) (h : -2147483648 ≤ v ∧ v < 2147483648) (rest : List Nat) : disp32 (u32Bytes v ++ rest) = some (v, rest) := by
  simp only [u32Bytes, List.cons_append, List.nil_append, disp32]
  have hu : ((v % 4294967296).toNat : Int) = if 0 ≤ v then v else v + 4294967296 := by split <;> omega
  generalize (v % 4294967296).toNat = u at hu
  have hs : ((u % 256 : Nat) : Int) + 256 * ((u / 256 % 256 : Nat) : Int) + 65536 * ((u / 65536 % 256 : Nat) : Int) +
      16777216 * ((u / 16777216 % 256 : Nat) : Int) = u := by
    have : u < 4294967296 := by split at hu <;> omega
    omega
  rw [hs]
  by_cases h0 : (u : Int) < 2147483648
  · rw [if_pos h0]; split at hu
    · rw [hu]
    · omega
  · rw [if_neg h0]; split at hu
    · omega
    · rw [show (u : Int) - 4294967296 = v by omega]

theorem disp8_u8Byte (v : Int) (h : -128 ≤ v ∧ v < 128) (rest : List Nat) : disp8 (u8Byte v :: rest) = some (v, rest) := by
  have e : u8Byte v = (v % 256).toNat := rfl
  generalize u8Byte v = x at *
  simp only [disp8]
  by_cases h0 : x < 128
  · rw [if_pos h0, show (x : Int) = v by omega]
  · rw [if_neg h0, show (x : Int) - 256 = v by omega]

/-- A memory operand the emitter is given: registers 0..15, index not `rsp`, scale 1, 2, 4 or 8,
offset of 32 bits; or a global (`rip`). -/
structure LocOk (l : MemLoc) : Prop where
  base : l.base < 16
  index : ∀ i, l.index = some i → i < 16 ∧ i ≠ 4
  scale : l.scale < 4
  offset : -2147483648 ≤ l.offset ∧ l.offset < 2147483648
  rip : l.rip = true → l.base = 5 ∧ l.index = none

/-- The base registers the encoder mistreats: `r12` without an index, `r13` without offset. -/
def Supported (l : MemLoc) : Prop := (l.index = none → l.base ≠ 12) ∧ (l.base = 13 → l.offset ≠ 0)

/-- The operand that was meant. -/
def meant (l : MemLoc) : Rm :=
  if l.rip then .rip 0 else .mem (some l.base) (l.index.map fun i => (i, l.scale)) l.offset

theorem modFor_lt (l : MemLoc) : modFor l < 3 := by unfold modFor; repeat (first | split | omega)

theorem dispFor_ok {l : MemLoc} (h : LocOk l) (hr : l.rip = false) (imm : List Nat) :
    dispFor (modFor l) ((if modFor l = 2 then u32Bytes l.offset else if modFor l = 1 then [u8Byte l.offset] else []) ++ imm)
      = some (l.offset, imm) := by
  have ho := h.offset
  have hcase : (modFor l = 2) ∨ (modFor l = 1 ∧ -128 ≤ l.offset ∧ l.offset < 128) ∨ (modFor l = 0 ∧ l.offset = 0) := by
    simp only [modFor, hr, Bool.false_eq_true, if_false]
    split
    · simp
    · split
      · right; left; omega
      · split <;> omega
  rcases hcase with h2 | ⟨h1, hb⟩ | ⟨h0, hz⟩
  · rw [h2]; simp [dispFor, disp32_u32Bytes _ ho]
  · rw [h1]; simp [dispFor, disp8_u8Byte _ hb]
  · rw [h0]; simp [dispFor, hz]

theorem finish_mem (ps : List Nat) (w : Nat) (map : OpMap) (op : Nat) (vex : Option (Nat × Bool × Nat))
    {l : MemLoc} (h : LocOk l) (hs : Supported l) {other : Nat} (hother : other < 16) (imm : List Nat) :
    finish ps w (if ext other then 1 else 0) (if indexExt l.index then 1 else 0) (if ext l.base then 1 else 0) map op vex
      (tailBytes other l ++ imm) = some (⟨ps, w = 1, map, op, other, meant l, vex⟩, imm) := by
  have hm := modFor_lt l
  have hbase := h.base
  have hreg : ∀ rm, rm < 8 → 8 * (if ext other then 1 else 0) + makeModrm (modFor l) (other &&& 7) rm / 8 % 8 = other ∧
      makeModrm (modFor l) (other &&& 7) rm / 64 = modFor l ∧ makeModrm (modFor l) (other &&& 7) rm % 8 = rm := by
    intro rm hrm
    have := reg_split hother
    rw [low3 hother, modrm_eq (by omega) (by omega) hrm]
    omega
  have hb := reg_split hbase
  unfold tailBytes
  cases hidx : l.index with
  | some i =>
    obtain ⟨hi, hi4⟩ := h.index i hidx
    have hrip : l.rip = false := by
      cases hr : l.rip
      · rfl
      · have := (h.rip hr).2; simp [hidx] at this
    have h4 := hreg 4 (by omega)
    simp only [hi4, ne_eq, not_false_eq_true, if_true, hrip, Bool.false_eq_true, if_false, List.cons_append, List.nil_append, finish, decodeRm]
    rw [h4.2.1, h4.2.2, if_neg (show ¬ modFor l = 3 by omega), if_pos (show 4 = 4 from rfl)]
    simp only [decodeSib]
    have hsib := sib_eq (m := l.scale) (r := i % 8) (b := l.base % 8) h.scale (by omega) (by omega)
    have hscale := h.scale
    rw [low3 hi, low3 hbase, hsib]
    have e1 : (64 * l.scale + 8 * (i % 8) + l.base % 8) / 64 = l.scale := by omega
    have e2 : (64 * l.scale + 8 * (i % 8) + l.base % 8) / 8 % 8 = i % 8 := by omega
    have e3 : (64 * l.scale + 8 * (i % 8) + l.base % 8) % 8 = l.base % 8 := by omega
    have hisplit := reg_split hi
    rw [e1, e2, e3, hb, show indexExt (some i) = ext i from rfl, hisplit, if_neg hi4]
    have hno : ¬ (l.base % 8 = 5 ∧ modFor l = 0) := by
      rintro ⟨h5, h0⟩
      simp only [modFor, hrip, Bool.false_eq_true, if_false] at h0
      split at h0
      · cases h0
      · split at h0
        · cases h0
        · split at h0
          · cases h0
          · have := hs.2; omega
    rw [if_neg hno, dispFor_ok h hrip]
    simp [meant, hrip, hidx, h4.1]
  | none =>
    simp only []
    by_cases hr : l.rip = true
    · obtain ⟨hb5, _⟩ := h.rip hr
      have hm0 : modFor l = 0 := by simp [modFor, hr]
      have h5 := hreg 5 (by omega)
      rw [hm0] at h5
      rw [hr, if_pos rfl, hm0, hb5, if_neg (show ¬ 5 = 4 by omega)]
      simp only [List.cons_append, List.nil_append, finish, decodeRm]
      rw [show (5 &&& 7 : Nat) = 5 from rfl, h5.2.1, h5.2.2]
      rw [if_neg (show ¬ 0 = 3 by omega), if_neg (show ¬ 5 = 4 by omega), if_pos (show 5 = 5 ∧ 0 = 0 by omega), disp32_u32Bytes _ (by omega)]
      simp [meant, hr, h5.1]
    · have hrip : l.rip = false := by simpa using hr
      by_cases hb4 : l.base = 4
      · have h4 := hreg 4 (by omega)
        simp only [hb4, if_true, hrip, Bool.false_eq_true, if_false, List.cons_append, List.nil_append, finish, decodeRm]
        rw [h4.2.1, h4.2.2, if_neg (show ¬ modFor l = 3 by omega), if_pos (show 4 = 4 from rfl)]
        simp only [decodeSib]
        rw [show (4 &&& 7 : Nat) = 4 from rfl, sib_eq (by omega) (by omega) (by omega)]
        have e2 : (64 * modFor l + 8 * 4 + 4) / 8 % 8 = 4 := by omega
        have e3 : (64 * modFor l + 8 * 4 + 4) % 8 = 4 := by omega
        rw [e2, e3, if_neg (show ¬ (4 = 5 ∧ modFor l = 0) by omega), dispFor_ok h hrip]
        simp [meant, hrip, hidx, hb4, h4.1, show ext 4 = false from rfl, indexExt]
      · have hbr := hreg (l.base &&& 7) (by rw [low3 hbase]; omega)
        simp only [hb4, if_false, hrip, Bool.false_eq_true, List.cons_append, List.nil_append, finish, decodeRm]
        rw [hbr.2.1, hbr.2.2, low3 hbase]
        have hb12 := hs.1 hidx
        rw [if_neg (show ¬ modFor l = 3 by omega), if_neg (show ¬ l.base % 8 = 4 by omega)]
        have hno : ¬ (l.base % 8 = 5 ∧ modFor l = 0) := by
          rintro ⟨h5, h0⟩
          simp only [modFor, hrip, Bool.false_eq_true, if_false] at h0
          split at h0
          · cases h0
          · split at h0
            · cases h0
            · split at h0
              · cases h0
              · have := hs.2; omega
        rw [if_neg hno, dispFor_ok h hrip, hb, ← low3 hbase]
        simp [meant, hrip, hidx, hbr.1]

/-- C34: an instruction with a memory operand, emitted without VEX, decodes to the prefixes,
operand size, opcode, register and memory operand that were meant, and the bytes after it (the
immediate) are left alone. Not covered: the operands excluded by `Supported`, see the findings. -/
theorem C34_memory_operand_partial (p : Prefixes) (hv : p.vex = false) {op : Opcode} (hop : OpcodeOk op) {other : Nat}
    (ho : other < 16) {l : MemLoc} (hl : LocOk l) (hs : Supported l) (imm : List Nat) :
    decode (regMem p op other l ++ imm) =
      some (⟨prefixList p l.size, l.size = 8, mapOf op, byteOf op, other, meant l, none⟩, imm) := by
  have : regMem p op other l = legacyBytes p other l.base l.index l.size op ++ tailBytes other l := by
    simp only [regMem, emitPrefixesAndOpcode, hv, Bool.false_eq_true, if_false]
  rw [this, List.append_assoc, legacy_decode p hop, finish_mem _ _ _ _ _ hl hs ho]
  by_cases h8 : l.size = 8 <;> simp [h8]

/-- C34: an instruction with two register operands. -/
theorem C34_register_operands (p : Prefixes) (hv : p.vex = false) {op : Opcode} (hop : OpcodeOk op) {reg regm : Nat}
    (hr : reg < 16) (hm : regm < 16) (size : Nat) (imm : List Nat) :
    decode (regReg p op reg regm size ++ imm) =
      some (⟨prefixList p size, size = 8, mapOf op, byteOf op, reg, .reg regm, none⟩, imm) := by
  simp only [regReg, emitPrefixesAndOpcode, hv, Bool.false_eq_true, if_false, List.append_assoc]
  rw [legacy_decode p hop]
  simp only [List.cons_append, List.nil_append, finish, decodeRm]
  rw [low3 hr, low3 hm, modrm_eq (by omega) (by omega) (by omega)]
  have e1 : (64 * 3 + 8 * (reg % 8) + regm % 8) / 64 = 3 := by omega
  have e2 : (64 * 3 + 8 * (reg % 8) + regm % 8) / 8 % 8 = reg % 8 := by omega
  have e3 : (64 * 3 + 8 * (reg % 8) + regm % 8) % 8 = regm % 8 := by omega
  rw [e1, e2, e3, if_pos rfl, reg_split hr, reg_split hm]
  by_cases h8 : size = 8 <;> simp [h8]

/-- The VEX `pp` field: the SIMD prefix 66, F3 or F2. -/
def ppOf (p : Prefixes) : Nat := if p.f2 then 3 else if p.f3 then 2 else if p.p66 then 1 else 0

/-- A VEX instruction: opcode of the 0F, 0F 38 or 0F 3A map, extra register 0..15. -/
structure VexOk (p : Prefixes) (op : Opcode) : Prop where
  vex : p.vex = true
  reg : p.vexRegister < 16
  ok : OpcodeOk op
  map : mapOf op ≠ .one

theorem vex_decode {p : Prefixes} {op : Opcode} (h : VexOk p op) (reg regm size : Nat) (index : Option Nat) (tail : List Nat) :
    decode (emitPrefixesAndOpcode p reg regm index size op ++ tail) =
      finish [] 0 (if ext reg then 1 else 0) (if indexExt index then 1 else 0) (if ext regm then 1 else 0)
        (mapOf op) (byteOf op) (some (p.vexRegister, decide (size = 32), ppOf p)) tail := by
  have hpp : ppOf p < 4 := by unfold ppOf; repeat (first | split | omega)
  have hreg := h.reg
  have hlast : ∃ last, (15 - p.vexRegister % 16) * 8 + (if size = 32 then 4 else 0) + ppOf p = last ∧ last < 128 ∧
      15 - last / 8 % 16 = p.vexRegister ∧ decide (last / 4 % 2 = 1) = decide (size = 32) ∧ last % 4 = ppOf p := by
    refine ⟨_, rfl, ?_⟩
    by_cases h32 : size = 32 <;> simp only [h32, if_true, if_false] <;> refine ⟨by omega, by omega, ?_, by omega⟩
    · simp; omega
    · simp; omega
  obtain ⟨last, hl, hl1, hl2, hl3, hl4⟩ := hlast
  have hnp : takePrefixes (0xc4 :: []) = ([], [0xc4]) := rfl
  simp only [emitPrefixesAndOpcode, h.vex, if_true, vexBytes]
  rw [show (if p.f2 = true then 3 else if p.f3 = true then 2 else if p.p66 = true then 1 else 0) = ppOf p from rfl, hl]
  have htp : ∀ b t, isPrefix b = false → takePrefixes (b :: t) = ([], b :: t) := fun b t hb => by simp [takePrefixes, hb]
  have hvm : ∀ (three : Bool) (m : Nat), m < 32 → vexMap m = some (mapOf op) → ∀ t,
      decode ([0xc4, ((if ext reg then 0 else 4) + (if ext regm then 0 else 1) + (if indexExt index then 0 else 2)) * 32 + m, last,
        byteOf op] ++ t) = finish [] 0 (if ext reg then 1 else 0) (if indexExt index then 1 else 0) (if ext regm then 1 else 0)
        (mapOf op) (byteOf op) (some (p.vexRegister, decide (size = 32), ppOf p)) t := by
    intro _ m hm hmap t
    simp only [List.cons_append, List.nil_append]
    rw [decode, htp _ _ (by decide)]
    simp only
    rw [if_neg (by decide), if_pos (by trivial)]
    simp only [decodeVex3]
    have e0 : last / 128 = 0 := by omega
    rw [hl2, hl3, hl4, e0]
    have e1 : (((if ext reg then 0 else 4) + (if ext regm then 0 else 1) + (if indexExt index then 0 else 2)) * 32 + m) % 32 = m := by omega
    have e2 : 1 - (((if ext reg then 0 else 4) + (if ext regm then 0 else 1) + (if indexExt index then 0 else 2)) * 32 + m) / 128
        = if ext reg then 1 else 0 := by
      cases ext reg <;> cases ext regm <;> cases indexExt index <;> simp only [if_true, Bool.false_eq_true, if_false] <;> omega
    have e3 : 1 - (((if ext reg then 0 else 4) + (if ext regm then 0 else 1) + (if indexExt index then 0 else 2)) * 32 + m) / 64 % 2
        = if indexExt index then 1 else 0 := by
      cases ext reg <;> cases ext regm <;> cases indexExt index <;> simp only [if_true, Bool.false_eq_true, if_false] <;> omega
    have e4 : 1 - (((if ext reg then 0 else 4) + (if ext regm then 0 else 1) + (if indexExt index then 0 else 2)) * 32 + m) / 32 % 2
        = if ext regm then 1 else 0 := by
      cases ext reg <;> cases ext regm <;> cases indexExt index <;> simp only [if_true, Bool.false_eq_true, if_false] <;> omega
    rw [e1, e2, e3, e4, hmap]
    rfl
  cases op with
  | one b => exact absurd rfl h.map
  | three b1 b2 =>
    have hb1 := h.ok.1
    simp only [Bool.or_true, if_true]
    exact hvm true _ (by split <;> omega) (by rcases hb1 with h | h <;> subst h <;> rfl) tail
  | two b =>
    simp only [Bool.or_false]
    cases hx : (ext regm || indexExt index)
    · rw [if_neg (by decide)]
      simp only [Bool.or_eq_false_iff] at hx
      rw [hx.1, hx.2]
      simp only [List.cons_append, List.nil_append]
      rw [decode, htp _ _ (by decide)]
      simp only
      rw [if_pos (by trivial)]
      simp only [decodeVex2]
      cases ext reg
      · simp only [Bool.false_eq_true, if_false]
        rw [show 1 - (last + 128) / 128 = 0 by omega, show (last + 128) / 8 % 16 = last / 8 % 16 by omega,
          show (last + 128) / 4 % 2 = last / 4 % 2 by omega, show (last + 128) % 4 = last % 4 by omega, hl2, hl3, hl4]
        rfl
      · simp only [Bool.false_eq_true, if_false, if_true]
        rw [Nat.add_zero, show 1 - last / 128 = 1 by omega, hl2, hl3, hl4]
        rfl
    · rw [if_pos rfl]
      exact hvm true 1 (by omega) rfl tail

/-- C34: a VEX instruction with a memory operand. -/
theorem C34_vex_memory_operand_partial {p : Prefixes} {op : Opcode} (h : VexOk p op) {other : Nat} (ho : other < 16) {l : MemLoc}
    (hl : LocOk l) (hs : Supported l) (imm : List Nat) :
    decode (regMem p op other l ++ imm) =
      some (⟨[], false, mapOf op, byteOf op, other, meant l, some (p.vexRegister, l.size = 32, ppOf p)⟩, imm) := by
  rw [regMem, List.append_assoc, vex_decode h, finish_mem _ _ _ _ _ hl hs ho]
  rfl

/-- C34: a VEX instruction with register operands. -/
theorem C34_vex_register_operands {p : Prefixes} {op : Opcode} (h : VexOk p op) {reg regm : Nat} (hr : reg < 16) (hm : regm < 16)
    (size : Nat) (imm : List Nat) :
    decode (regReg p op reg regm size ++ imm) =
      some (⟨[], false, mapOf op, byteOf op, reg, .reg regm, some (p.vexRegister, size = 32, ppOf p)⟩, imm) := by
  rw [regReg, List.append_assoc, vex_decode h]
  simp only [List.cons_append, List.nil_append, finish, decodeRm]
  rw [low3 hr, low3 hm, modrm_eq (by omega) (by omega) (by omega)]
  have e1 : (64 * 3 + 8 * (reg % 8) + regm % 8) / 64 = 3 := by omega
  have e2 : (64 * 3 + 8 * (reg % 8) + regm % 8) / 8 % 8 = reg % 8 := by omega
  have e3 : (64 * 3 + 8 * (reg % 8) + regm % 8) % 8 = regm % 8 := by omega
  rw [e1, e2, e3, if_pos rfl, reg_split hr, reg_split hm]
  rfl

/-- All operands the code generator itself produces are supported: the base registers it
allocates (`src/emit_x64.c:948-958`), `rbp`, `rsp`, `rsi`, `rdi`. -/
theorem C34_allocatable_bases_supported (l : MemLoc) (h : l.base ∈ [1, 2, 8, 9, 0, 10, 11, 5, 4, 6, 7]) : Supported l := by
  simp only [List.mem_cons, List.not_mem_nil, or_false] at h
  exact ⟨fun _ => by omega, fun h' => by omega⟩

/-- Finding (C34): `mov rax, [r13]` (the first member of what `_exception_info()` points to,
which lives in `r13`) is emitted without displacement and read as `[rip + disp32]`, swallowing
the following four bytes. -/
theorem C34_r13_wrong :
    let l : MemLoc := ⟨13, none, 0, 0, false, 8⟩
    LocOk l ∧ decode (regMem {} (.one 0x8b) 0 l ++ [0x90, 0x90, 0x90, 0x90]) =
      some (⟨[], true, .one, 0x8b, 0, .rip (-1869574000), none⟩, []) :=
  ⟨⟨by decide, by simp, by decide, by decide, by decide⟩, by decide⟩

/-- Finding (C34): with base `r12` the SIB byte is missing. -/
theorem C34_r12_wrong :
    let l : MemLoc := ⟨12, none, 0, 8, false, 8⟩
    LocOk l ∧ ∃ i rest, decode (regMem {} (.one 0x8b) 0 l ++ [0x90]) = some (i, rest) ∧ i.rm ≠ meant l ∧ rest ≠ [0x90] :=
  ⟨⟨by decide, by simp, by decide, by decide, by decide⟩, _, _, rfl, by decide, by decide⟩

/-- `mov r9, [r10 + 8*rcx - 0x1000]`, `add word [rbp], dx`, `vpaddd ymm8, ymm3, [r10]`. -/
example : LocOk ⟨10, some 1, 3, -4096, false, 8⟩ ∧ Supported ⟨10, some 1, 3, -4096, false, 8⟩ ∧ OpcodeOk (.one 0x8b) ∧
    regMem {} (.one 0x8b) 9 ⟨10, some 1, 3, -4096, false, 8⟩ = [0x4d, 0x8b, 0x8c, 0xca, 0x00, 0xf0, 0xff, 0xff] ∧
    regMem {} (.one 0x01) 2 ⟨5, none, 0, 0, false, 2⟩ = [0x66, 0x01, 0x55, 0x00] ∧
    VexOk { vex := true, p66 := true, vexRegister := 3 } (.two 0xfe) ∧
    regMem { vex := true, p66 := true, vexRegister := 3 } (.two 0xfe) 8 ⟨10, none, 0, 0, false, 32⟩ = [0xc4, 0x41, 0x65, 0xfe, 0x02] := by
  refine ⟨⟨by decide, ?_, by decide, by decide, by decide⟩, ⟨by decide, by decide⟩, by unfold OpcodeOk; decide, by decide, by decide,
    ⟨rfl, by decide, by unfold OpcodeOk; decide, by decide⟩, by decide⟩
  intro i h; cases h; decide

end Verif.Props.Encode
