import Verif.Libm.RemPio2
import Verif.Libm.Native
import Verif.Libm.RoundInt
/-!
# Model of `atan` and `atanf`

libm/src/math/{atan,atanf}.rs

The constants are given by the bit patterns in the comments of the source, or by those of the decimal numbers in it. The accesses to arrays by the
macro `i!` (which are not checked in a release build) fail with `.ub` here when they are out of bounds. The evaluations for their exceptions only
(`force_eval!`, atan.rs 83-86, atanf.rs 63-66) have no effect here.
-/
namespace Verif
namespace Atan
open Pio2

/-- `ATANHI`, atan.rs 34-39 -/
def HI : Nat → D
  | 0 => 0x3FDDAC670561BB4F#f64.w
  | 1 => 0x3FE921FB54442D18#f64.w
  | 2 => 0x3FEF730BD281F69B#f64.w
  | _ => 0x3FF921FB54442D18#f64.w
/-- `ATANLO`, atan.rs 41-46 -/
def LO : Nat → D
  | 0 => 0x3C7A2B7F222F65E2#f64.w
  | 1 => 0x3C81A62633145C07#f64.w
  | 2 => 0x3C7007887AF0CBBD#f64.w
  | _ => 0x3C91A62633145C07#f64.w
/-- `AT`, atan.rs 48-60 -/
def AT0 : D := 0x3FD555555555550D#f64.w
def AT1 : D := 0xBFC999999998EBC4#f64.w
def AT2 : D := 0x3FC24924920083FF#f64.w
def AT3 : D := 0xBFBC71C6FE231671#f64.w
def AT4 : D := 0x3FB745CDC54C206E#f64.w
def AT5 : D := 0xBFB3B0F2AF749A6D#f64.w
def AT6 : D := 0x3FB10D66A0D03D51#f64.w
def AT7 : D := 0xBFADDE2D52DEFD9A#f64.w
def AT8 : D := 0x3FA97B4B24760DEB#f64.w
def AT9 : D := 0xBFA2B4442C6A6C2F#f64.w
def AT10 : D := 0x3F90AD3AE322DA11#f64.w
/-- `1.`, `2.`, `1.5`, `-1.` -/
def one : D := 0x3FF0000000000000#f64.w
def two : D := 0x4000000000000000#f64.w
def oneh : D := 0x3FF8000000000000#f64.w
def mone : D := 0xBFF0000000000000#f64.w
/-- atan.rs 77 -/
def tiny : D := 0x03800000#f64.w

section
variable (N : FPU f64)

/-- `s1 + s2` of `x`, atan.rs 119-123 -/
def polyS (x : D) : D :=
  let z := N.mul x x
  let w := N.mul z z
  let s1 := N.mul z (N.add AT0 (N.mul w (N.add AT2 (N.mul w (N.add AT4 (N.mul w (N.add AT6 (N.mul w (N.add AT8 (N.mul w AT10))))))))))
  let s2 := N.mul w (N.add AT1 (N.mul w (N.add AT3 (N.mul w (N.add AT5 (N.mul w (N.add AT7 (N.mul w AT9))))))))
  N.add s1 s2

/-- the reduced argument and `id` of `x = |x|`, whose upper half is `ix`, atan.rs 94-116 -/
def reduce (ix : Nat) (x : D) : D × Nat :=
  if ix < 0x3ff30000 then
    if ix < 0x3fe60000 then (N.div (N.sub (N.mul two x) one) (N.add two x), 0)
    else (N.div (N.sub x one) (N.add x one), 1)
  else if ix < 0x40038000 then (N.div (N.sub x oneh) (N.add one (N.mul oneh x)), 2)
  else (N.div mone x, 3)

/-- the result for a reduced argument, atan.rs 129 -/
def finish (x : D) (id : Nat) : M D := do
  let hi ← rd 4 HI id
  let lo ← rd 4 LO id
  pure (N.sub hi (N.sub (N.sub (N.mul x (polyS N x)) lo) x))

/-- `atan`, atan.rs 67-132 -/
def atan (x : D) : M D :=
  let ix := x.toNat >>> 32
  let sign := ix >>> 31
  let ix := ix &&& 0x7fffffff
  if ix ≥ 0x44100000 then
    if f64.isNan x then .ok x
    else
      let z := N.add (HI 3) tiny
      .ok (if sign ≠ 0 then f64.neg z else z)
  else if ix < 0x3fdc0000 then
    if ix < 0x3e400000 then .ok x
    else .ok (N.sub x (N.mul x (polyS N x)))
  else do
    let (x, id) := reduce N ix (f64.fabs x)
    let z ← finish N x id
    pure (if sign ≠ 0 then f64.neg z else z)
end

namespace F32
/-- `f32` -/
abbrev S := BitVec f32.w

/-- `ATAN_HI`, atanf.rs 18-23 -/
def HI : Nat → S
  | 0 => 0x3eed6338#f32.w
  | 1 => 0x3f490fda#f32.w
  | 2 => 0x3f7b985e#f32.w
  | _ => 0x3fc90fda#f32.w
/-- `ATAN_LO`, atanf.rs 25-30 -/
def LO : Nat → S
  | 0 => 0x31ac3769#f32.w
  | 1 => 0x33222168#f32.w
  | 2 => 0x33140fb4#f32.w
  | _ => 0x33a22168#f32.w
/-- `A_T`, atanf.rs 32-38 -/
def AT0 : S := 0x3eaaaaa9#f32.w
def AT1 : S := 0xbe4cca98#f32.w
def AT2 : S := 0x3e11f50d#f32.w
def AT3 : S := 0xbdda1247#f32.w
def AT4 : S := 0x3d7cac25#f32.w
/-- `1.`, `2.`, `1.5`, `-1.` -/
def one : S := 0x3F800000#f32.w
def two : S := 0x40000000#f32.w
def oneh : S := 0x3FC00000#f32.w
def mone : S := 0xBF800000#f32.w
/-- `x1p_120`, atanf.rs 46 -/
def tiny : S := 0x03800000#f32.w

section
variable (N : FPU f32)

/-- `s1 + s2` of `x`, atanf.rs 97-101 -/
def polyS (x : S) : S :=
  let z := N.mul x x
  let w := N.mul z z
  let s1 := N.mul z (N.add AT0 (N.mul w (N.add AT2 (N.mul w AT4))))
  let s2 := N.mul w (N.add AT1 (N.mul w AT3))
  N.add s1 s2

/-- the reduced argument and `id` of `x = |x|` with the bits `ix`, atanf.rs 72-94 -/
def reduce (ix : Nat) (x : S) : S × Nat :=
  if ix < 0x3f980000 then
    if ix < 0x3f300000 then (N.div (N.sub (N.mul two x) one) (N.add two x), 0)
    else (N.div (N.sub x one) (N.add x one), 1)
  else if ix < 0x401c0000 then (N.div (N.sub x oneh) (N.add one (N.mul oneh x)), 2)
  else (N.div mone x, 3)

/-- the result for a reduced argument, atanf.rs 106 -/
def finish (x : S) (id : Nat) : M S := do
  let hi ← rd 4 HI id
  let lo ← rd 4 LO id
  pure (N.sub hi (N.sub (N.sub (N.mul x (polyS N x)) lo) x))

/-- `atanf`, atanf.rs 45-108 -/
def atanf (x : S) : M S :=
  let ix := x.toNat
  let sign := ix >>> 31 ≠ 0
  let ix := ix &&& 0x7fffffff
  if ix ≥ 0x4c800000 then
    if f32.isNan x then .ok x
    else do
      let hi ← rd 4 HI 3
      let z := N.add hi tiny
      pure (if sign then f32.neg z else z)
  else if ix < 0x3ee00000 then
    if ix < 0x39800000 then .ok x
    else .ok (N.sub x (N.mul x (polyS N x)))
  else do
    let (x, id) := reduce N ix (f32.fabs x)
    let z ← finish N x id
    pure (if sign then f32.neg z else z)
end
end F32
end Atan
end Verif
