import Verif.Libm.Expm1
/-!
# Model of `cosh`, `sinh`, `tanh` and of the `f32` versions

libm/src/math/{cosh,sinh,tanh,k_expo2,expo2,coshf,sinhf,tanhf,k_expo2f}.rs

`force_eval!` (cosh.rs 20, tanh.rs 48, coshf.rs 21, tanhf.rs 34) only raises floating-point exceptions; it is left out.
The formulas are the same text in the two formats; they are modelled once, for a format and its constants.
-/
namespace Verif
namespace Hyper
open Pio2 Expm1

section
variable {F : Fmt} (N : FPU F) (K : Cn F)

/-- `1. + t * t / (2. * (1. + t))`, cosh.rs 24, coshf.rs 25 -/
def cSmall (t : BitVec F.w) : BitVec F.w := N.add K.one (N.div (N.mul t t) (N.mul K.two (N.add K.one t)))
/-- `0.5 * (t + 1. / t)`, cosh.rs 31, coshf.rs 31 -/
def cMid (t : BitVec F.w) : BitVec F.w := N.mul K.half (N.add t (N.div K.one t))
/-- `h * (2.0 * t - t * t / (t + 1.0))`, sinh.rs 41, sinhf.rs 23 -/
def sSmall (h t : BitVec F.w) : BitVec F.w := N.mul h (N.sub (N.mul K.two t) (N.div (N.mul t t) (N.add t K.one)))
/-- `h * (t + t / (t + 1.0))`, sinh.rs 44, sinhf.rs 25 -/
def sMid (h t : BitVec F.w) : BitVec F.w := N.mul h (N.add t (N.div t (N.add t K.one)))
/-- `1.0 - 2.0 / (t + 2.0)`, tanh.rs 35, tanhf.rs 22 -/
def tA (t : BitVec F.w) : BitVec F.w := N.sub K.one (N.div K.two (N.add t K.two))
/-- `t / (t + 2.0)`, tanh.rs 40, tanhf.rs 27 -/
def tB (t : BitVec F.w) : BitVec F.w := N.div t (N.add t K.two)
/-- `-t / (t + 2.0)`, tanh.rs 44, tanhf.rs 31 -/
def tC (t : BitVec F.w) : BitVec F.w := N.div (F.neg t) (N.add t K.two)

/-- `k_expo2`, k_expo2.rs 8-14 and k_expo2f.rs 8-14, given the exponential function and the two constants -/
def expo2 (ex : BitVec F.w → M (BitVec F.w)) (kln2 scale x : BitVec F.w) : M (BitVec F.w) := do
  let e ← ex (N.sub x kln2)
  .ok (N.mul (N.mul e scale) scale)
end

/-- k_expo2.rs 9 -/
def KLN2 : D := 0x40962066151add8b#f64.w
/-- k_expo2.rs 11 -/
def SCALE : D := BitVec.ofNat f64.w (((0x3ff + 2043 / 2) <<< 20) <<< 32)

/-- `k_expo2`, k_expo2.rs 8-14; `expo2`, which `sinh` calls (expo2.rs 5-14), is the same apart from how the pattern of `scale` is put together -/
def kexpo2 (N : FPU f64) (x : D) : M D := expo2 N (Exp.exp N) KLN2 SCALE x

/-- `|x|`: cosh.rs 11-13, sinh.rs 27-28, tanh.rs 22-23 -/
def abs64 (x : D) : D := BitVec.ofNat f64.w (x.toNat &&& 0x7fffffffffffffff)

/-- `cosh`, cosh.rs 9-36 -/
def cosh (N : FPU f64) (x : D) : M D :=
  let x := abs64 x
  let w := x.toNat >>> 32
  if w < 0x3fe62e42 then
    if w < 0x3ff00000 - (26 <<< 20) then .ok K64.one
    else do
      let t ← expm1 N x
      .ok (cSmall N K64 t)
  else if w < 0x40862e42 then do
    let t ← Exp.exp N x
    .ok (cMid N K64 t)
  else kexpo2 N x

/-- `h`, sinh.rs 22-25 -/
def h64 (x : D) : D := if x.toNat >>> 63 ≠ 0 then f64.neg K64.half else K64.half

/-- `sinh`, sinh.rs 10-51 -/
def sinh (N : FPU f64) (x : D) : M D :=
  let h := h64 x
  let absx := abs64 x
  let w := absx.toNat >>> 32
  if w < 0x40862e42 then do
    let t ← expm1 N absx
    if w < 0x3ff00000 then
      if w < 0x3ff00000 - (26 <<< 20) then .ok x
      else .ok (sSmall N K64 h t)
    else .ok (sMid N K64 h t)
  else do
    let e ← kexpo2 N absx
    .ok (N.mul (N.mul K64.two h) e)

/-- the value before the sign is restored, tanh.rs 27-50 -/
def tanhAbs (N : FPU f64) (x : D) : M D :=
  let w := x.toNat >>> 32
  if w > 0x3fe193ea then
    if w > 0x40340000 then .ok (N.sub K64.one (N.div 0#f64.w x))
    else do
      let t ← expm1 N (N.mul K64.two x)
      .ok (tA N K64 t)
  else if w > 0x3fd058ae then do
    let t ← expm1 N (N.mul K64.two x)
    .ok (tB N K64 t)
  else if w ≥ 0x00100000 then do
    let t ← expm1 N (N.mul K64.mtwo x)
    .ok (tC N K64 t)
  else .ok x

/-- `tanh`, tanh.rs 12-53 -/
def tanh (N : FPU f64) (x : D) : M D := do
  let t ← tanhAbs N (abs64 x)
  .ok (if x.toNat >>> 63 ≠ 0 then f64.neg t else t)

namespace F32
abbrev S := BitVec f32.w
open Expm1.F32

/-- k_expo2f.rs 9 -/
def KLN2 : S := 0x4322e3bc#f32.w
/-- k_expo2f.rs 11 -/
def SCALE : S := BitVec.ofNat f32.w ((0x7f + 235 / 2) <<< 23)
/-- `k_expo2f`, k_expo2f.rs 8-14 -/
def kexpo2f (N : FPU f32) (x : S) : M S := expo2 N (Exp.F32.expf N) KLN2 SCALE x

/-- `|x|`: coshf.rs 13-15, sinhf.rs 12-13, tanhf.rs 12-13 -/
def abs32 (x : S) : S := BitVec.ofNat f32.w (x.toNat &&& 0x7fffffff)

/-- `coshf`, coshf.rs 9-36 -/
def coshf (N : FPU f32) (x : S) : M S :=
  let x := abs32 x
  let w := x.toNat
  if w < 0x3f317217 then
    if w < 0x3f800000 - (12 <<< 23) then .ok K32.one
    else do
      let t ← expm1f N x
      .ok (cSmall N K32 t)
  else if w < 0x42b17217 then do
    let t ← Exp.F32.expf N x
    .ok (cMid N K32 t)
  else kexpo2f N x

/-- `h`, sinhf.rs 6-10 -/
def h32 (x : S) : S := if x.toNat >>> 31 ≠ 0 then f32.neg K32.half else K32.half

/-- `sinhf`, sinhf.rs 5-30 -/
def sinhf (N : FPU f32) (x : S) : M S :=
  let h := h32 x
  let absx := abs32 x
  let w := absx.toNat
  if w < 0x42b17217 then do
    let t ← expm1f N absx
    if w < 0x3f800000 then
      if w < 0x3f800000 - (12 <<< 23) then .ok x
      else .ok (sSmall N K32 h t)
    else .ok (sMid N K32 h t)
  else do
    let e ← kexpo2f N absx
    .ok (N.mul (N.mul K32.two h) e)

/-- the value before the sign is restored, tanhf.rs 15-36 -/
def tanhfAbs (N : FPU f32) (x : S) : M S :=
  let w := x.toNat
  if w > 0x3f0c9f54 then
    if w > 0x41200000 then .ok (N.add K32.one (N.div 0#f32.w x))
    else do
      let t ← expm1f N (N.mul K32.two x)
      .ok (tA N K32 t)
  else if w > 0x3e82c578 then do
    let t ← expm1f N (N.mul K32.two x)
    .ok (tB N K32 t)
  else if w ≥ 0x00800000 then do
    let t ← expm1f N (N.mul K32.mtwo x)
    .ok (tC N K32 t)
  else .ok x

/-- `tanhf`, tanhf.rs 7-38 -/
def tanhf (N : FPU f32) (x : S) : M S := do
  let t ← tanhfAbs N (abs32 x)
  .ok (if x.toNat >>> 31 ≠ 0 then f32.neg t else t)
end F32
end Hyper
end Verif
