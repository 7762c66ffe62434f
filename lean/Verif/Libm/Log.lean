import Verif.Libm.Exp
/-!
# Model of `log` and `logf`

libm/src/math/{log,logf}.rs

The constants are given by the bit patterns in the comments of the source, or by those of the decimal numbers in it.
-/
namespace Verif
namespace Log
open Pio2

/-- the result of an unsigned 32-bit sum -/
def u32C (x : Nat) : M Nat := if x < 2 ^ 32 then .ok x else .error .overflow

/-- log.rs 63-71 -/
def LN2_HI : D := 0x3fe62e42fee00000#f64.w
def LN2_LO : D := 0x3dea39ef35793c76#f64.w
def LG1 : D := 0x3FE5555555555593#f64.w
def LG2 : D := 0x3FD999999997FA04#f64.w
def LG3 : D := 0x3FD2492494229359#f64.w
def LG4 : D := 0x3FCC71C51D8E78AF#f64.w
def LG5 : D := 0x3FC7466496CB03DE#f64.w
def LG6 : D := 0x3FC39A09D078C69F#f64.w
def LG7 : D := 0x3FC2F112DF3E5244#f64.w
/-- `x1p54`, log.rs 76 -/
def x1p54 : D := 0x4350000000000000#f64.w
/-- `-1.`, `1.`, `2.`, `0.5` -/
def mone : D := 0xBFF0000000000000#f64.w
def one : D := 0x3FF0000000000000#f64.w
def two : D := 0x4000000000000000#f64.w
def half : D := 0x3FE0000000000000#f64.w

section
variable (N : FPU f64)

/-- `r` of `s`, log.rs 111-115 -/
def polyR (s : D) : D :=
  let z := N.mul s s
  let w := N.mul z z
  let t1 := N.mul w (N.add LG2 (N.mul w (N.add LG4 (N.mul w LG6))))
  let t2 := N.mul z (N.add LG1 (N.mul w (N.add LG3 (N.mul w (N.add LG5 (N.mul w LG7))))))
  N.add t2 t1

/-- the result for `x` in `[sqrt(2)/2, sqrt(2)]` times `2^k`, log.rs 108-117 -/
def main (x : D) (k : Int) : M D := do
  let f := N.sub x one
  let hfsq := N.mul (N.mul half f) f
  let s := N.div f (N.add two f)
  let r := polyR N s
  let dk ← ofI32 k
  pure (N.add (N.add (N.sub (N.add (N.mul s (N.add hfsq r)) (N.mul dk LN2_LO)) hfsq) f) (N.mul dk LN2_HI))

/-- reduction of `x` with exponent correction `k`, log.rs 101-106, and the rest -/
def reduce (x : D) (k : Int) : M D := do
  let ui := x.toNat
  let hx ← u32C (ui >>> 32 + (0x3ff00000 - 0x3fe6a09e))
  let k ← i32C (k + ((hx >>> 20 : Nat) - 0x3ff))
  let hx ← u32C ((hx &&& 0x000fffff) + 0x3fe6a09e)
  main N (BitVec.ofNat f64.w (hx <<< 32 ||| (ui &&& 0xffffffff))) k

/-- `log`, log.rs 75-118 -/
def log (x : D) : M D :=
  let ui := x.toNat
  let hx := ui >>> 32
  if hx < 0x00100000 ∨ hx >>> 31 ≠ 0 then
    if (ui <<< 1) % 2 ^ 64 = 0 then .ok (N.div mone (N.mul x x))
    else if hx >>> 31 ≠ 0 then .ok (N.div (N.sub x x) 0#f64.w)
    else reduce N (N.mul x x1p54) (-54)
  else if hx ≥ 0x7ff00000 then .ok x
  else if hx = 0x3ff00000 ∧ (ui <<< 32) % 2 ^ 64 = 0 then .ok 0#f64.w
  else reduce N x 0
end

namespace F32
open Exp.F32 (S)

/-- logf.rs 16-22 -/
def LN2_HI : S := 0x3f317180#f32.w
def LN2_LO : S := 0x3717f7d1#f32.w
def LG1 : S := 0x3f2aaaaa#f32.w
def LG2 : S := 0x3eccce13#f32.w
def LG3 : S := 0x3e91e9ee#f32.w
def LG4 : S := 0x3e789e26#f32.w
/-- `x1p25`, logf.rs 27 -/
def x1p25 : S := 0x4c000000#f32.w
/-- `-1.`, `1.`, `2.`, `0.5` -/
def mone : S := 0xBF800000#f32.w
def one : S := 0x3F800000#f32.w
def two : S := 0x40000000#f32.w
def half : S := 0x3F000000#f32.w

section
variable (N : FPU f32)

/-- `r` of `s`, logf.rs 58-62 -/
def polyR (s : S) : S :=
  let z := N.mul s s
  let w := N.mul z z
  let t1 := N.mul w (N.add LG2 (N.mul w LG4))
  let t2 := N.mul z (N.add LG1 (N.mul w LG3))
  N.add t2 t1

/-- the result for `x` in `[sqrt(2)/2, sqrt(2)]` times `2^k`, logf.rs 56-65 -/
def main (x : S) (k : Int) : M S := do
  let f := N.sub x one
  let s := N.div f (N.add two f)
  let r := polyR N s
  let hfsq := N.mul (N.mul half f) f
  let dk ← Exp.F32.ofI32 k
  pure (N.add (N.add (N.sub (N.add (N.mul s (N.add hfsq r)) (N.mul dk LN2_LO)) hfsq) f) (N.mul dk LN2_HI))

/-- reduction of `x` with exponent correction `k`, logf.rs 50-54, and the rest -/
def reduce (x : S) (k : Int) : M S := do
  let ix ← u32C (x.toNat + (0x3f800000 - 0x3f3504f3))
  let k ← i32C (k + ((ix >>> 23 : Nat) - 0x7f))
  let ix ← u32C ((ix &&& 0x007fffff) + 0x3f3504f3)
  main N (BitVec.ofNat f32.w ix) k

/-- `logf`, logf.rs 26-66 -/
def logf (x : S) : M S :=
  let ix := x.toNat
  if ix < 0x00800000 ∨ ix >>> 31 ≠ 0 then
    if (ix <<< 1) % 2 ^ 32 = 0 then .ok (N.div mone (N.mul x x))
    else if ix >>> 31 ≠ 0 then .ok (N.div (N.sub x x) 0#f32.w)
    else reduce N (N.mul x x1p25) (-25)
  else if ix ≥ 0x7f800000 then .ok x
  else if ix = 0x3f800000 then .ok 0#f32.w
  else reduce N x 0
end
end F32
end Log
end Verif
