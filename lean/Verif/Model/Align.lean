/-!
# Model: alignment and power-of-two helpers of `src/std.c`
-/
namespace Verif.Align

/-- `is_power_of_two`, `src/std.c:244`, on a 64-bit value. -/
def isPowerOfTwo64 (a : BitVec 64) : Bool := a != 0 && !((a &&& (a - 1)) != 0)

/-- `align_up`, `src/std.c:246`, on 64-bit values: `((x - 1) | (to - 1)) + 1`.
The assertion `is_power_of_two(to)` is a hypothesis of the theorems. -/
def alignUp64 (x to : BitVec 64) : BitVec 64 := ((x - 1) ||| (to - 1)) + 1

/-- `align_up` on unbounded numbers, used by the other models where no overflow can
happen. For `x = 0` the C expression is `(-1 | (to - 1)) + 1 = 0`.
`Props.Align.C46_alignUp64_eq` shows that it agrees with `alignUp64`. -/
def alignUp (x to : Nat) : Nat := if x = 0 then 0 else ((x - 1) ||| (to - 1)) + 1

/-- `u32_round_up_to_next_power_of_two`, `src/std.c:1702-1711`. -/
def roundUpPow2_32 (v : BitVec 32) : BitVec 32 :=
  let v := v - 1
  let v := v ||| (v >>> 1)
  let v := v ||| (v >>> 2)
  let v := v ||| (v >>> 4)
  let v := v ||| (v >>> 8)
  let v := v ||| (v >>> 16)
  v + 1

/-- `u64_round_up_to_next_power_of_two`, `src/std.c:1713-1723`. -/
def roundUpPow2_64 (v : BitVec 64) : BitVec 64 :=
  let v := v - 1
  let v := v ||| (v >>> 1)
  let v := v ||| (v >>> 2)
  let v := v ||| (v >>> 4)
  let v := v ||| (v >>> 8)
  let v := v ||| (v >>> 16)
  let v := v ||| (v >>> 32)
  v + 1

end Verif.Align
