import Verif.Libm.Atan
import Verif.Libm.Log
/-!
# Model of `atan2` and `atan2f`

libm/src/math/{atan2,atan2f}.rs

The constants are given by the bit patterns in the comments of the source, or by those of the decimal numbers in it. The products and quotients of constants
(`PI / 2.0`, `3.0 * PI / 4.0`, …) are computed by the operations of the machine. Additions of `u32` fail on overflow, as in a debug build, unless they are
`wrapping_add`.
-/
namespace Verif
namespace Atan2
open Pio2

/-- `PI`, `PI_LO`, atan2.rs 42-43 -/
def PI : D := 0x400921FB54442D18#f64.w
def PI_LO : D := 0x3CA1A62633145C07#f64.w
/-- `0.0`, `2.0`, `3.0`, `-3.0`, `4.0` -/
def zero : D := 0x0000000000000000#f64.w
def two : D := 0x4000000000000000#f64.w
def three : D := 0x4008000000000000#f64.w
def mthree : D := 0xC008000000000000#f64.w
def four : D := 0x4010000000000000#f64.w

section
variable (N : FPU f64)

/-- the result for finite `x` and any `y` that are not zero, atan2.rs 97-114: `ix` and `iy` are the upper halves without the signs, `m` the signs -/
def general (ix iy m : Nat) (y x : D) : M D :=
  if (ix + (64 <<< 20)) % 2 ^ 32 < iy ∨ iy = 0x7ff00000 then
    .ok (if m &&& 1 ≠ 0 then N.div (f64.neg PI) two else N.div PI two)
  else do
    let z ← if m &&& 2 ≠ 0 ∧ (iy + (64 <<< 20)) % 2 ^ 32 < ix then .ok zero else Atan.atan N (f64.fabs (N.div y x))
    match m with
    | 0 => .ok z
    | 1 => .ok (f64.neg z)
    | 2 => .ok (N.sub PI (N.sub z PI_LO))
    | _ => .ok (N.sub (N.sub z PI_LO) PI)

/-- `atan2`, atan2.rs 51-115 -/
def atan2 (y x : D) : M D :=
  if f64.isNan x ∨ f64.isNan y then .ok (N.add x y)
  else
    let ix := x.toNat >>> 32
    let lx := x.toNat % 2 ^ 32
    let iy := y.toNat >>> 32
    let ly := y.toNat % 2 ^ 32
    if ((ix + 2 ^ 32 - 0x3ff00000) % 2 ^ 32) ||| lx = 0 then Atan.atan N y
    else
      let m := ((iy >>> 31) &&& 1) ||| ((ix >>> 30) &&& 2)
      let ix := ix &&& 0x7fffffff
      let iy := iy &&& 0x7fffffff
      if iy ||| ly = 0 then
        match m with
        | 0 => .ok y
        | 1 => .ok y
        | 2 => .ok PI
        | _ => .ok (f64.neg PI)
      else if ix ||| lx = 0 then .ok (if m &&& 1 ≠ 0 then N.div (f64.neg PI) two else N.div PI two)
      else if ix = 0x7ff00000 then
        if iy = 0x7ff00000 then
          match m with
          | 0 => .ok (N.div PI four)
          | 1 => .ok (N.div (f64.neg PI) four)
          | 2 => .ok (N.div (N.mul three PI) four)
          | _ => .ok (N.div (N.mul mthree PI) four)
        else
          match m with
          | 0 => .ok zero
          | 1 => .ok (f64.neg zero)
          | 2 => .ok PI
          | _ => .ok (f64.neg PI)
      else general N ix iy m y x
end

namespace F32
/-- `f32` -/
abbrev S := BitVec f32.w

/-- `PI`, `PI_LO`, atan2f.rs 18-19 -/
def PI : S := 0x40490fdb#f32.w
def PI_LO : S := 0xb3bbbd2e#f32.w
/-- `0.`, `2.`, `3.`, `-3.`, `4.` -/
def zero : S := 0x00000000#f32.w
def two : S := 0x40000000#f32.w
def three : S := 0x40400000#f32.w
def mthree : S := 0xC0400000#f32.w
def four : S := 0x40800000#f32.w

section
variable (N : FPU f32)

/-- the condition `(m & 2 != 0) && (iy + (26 << 23) < ix)`, atan2f.rs 78 -/
def small (ix iy m : Nat) : M Bool :=
  if m &&& 2 ≠ 0 then do
    let c ← Log.u32C (iy + (26 <<< 23))
    pure (decide (c < ix))
  else .ok false

/-- the result for finite `x` and any `y` that are not zero, atan2f.rs 72-89: `ix` and `iy` are the bits without the signs, `m` the signs -/
def general (ix iy m : Nat) (y x : S) : M S := do
  let a ← Log.u32C (ix + (26 <<< 23))
  if a < iy ∨ iy = 0x7f800000 then
    pure (if m &&& 1 ≠ 0 then N.div (f32.neg PI) two else N.div PI two)
  else do
    let b ← small ix iy m
    let z ← if b then .ok zero else Atan.F32.atanf N (f32.fabs (N.div y x))
    match m with
    | 0 => .ok z
    | 1 => .ok (f32.neg z)
    | 2 => .ok (N.sub PI (N.sub z PI_LO))
    | _ => .ok (N.sub (N.sub z PI_LO) PI)

/-- `atan2f`, atan2f.rs 27-90 -/
def atan2f (y x : S) : M S :=
  if f32.isNan x ∨ f32.isNan y then .ok (N.add x y)
  else
    let ix := x.toNat
    let iy := y.toNat
    if ix = 0x3f800000 then Atan.F32.atanf N y
    else
      let m := ((iy >>> 31) &&& 1) ||| ((ix >>> 30) &&& 2)
      let ix := ix &&& 0x7fffffff
      let iy := iy &&& 0x7fffffff
      if iy = 0 then
        match m with
        | 0 => .ok y
        | 1 => .ok y
        | 2 => .ok PI
        | _ => .ok (f32.neg PI)
      else if ix = 0 then .ok (if m &&& 1 ≠ 0 then N.div (f32.neg PI) two else N.div PI two)
      else if ix = 0x7f800000 then
        if iy = 0x7f800000 then
          match m with
          | 0 => .ok (N.div PI four)
          | 1 => .ok (N.div (f32.neg PI) four)
          | 2 => .ok (N.div (N.mul three PI) four)
          | _ => .ok (N.div (N.mul mthree PI) four)
        else
          match m with
          | 0 => .ok zero
          | 1 => .ok (f32.neg zero)
          | 2 => .ok PI
          | _ => .ok (f32.neg PI)
      else general N ix iy m y x
end
end F32
end Atan2
end Verif
