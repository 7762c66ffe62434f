import Verif.Libm.Expm1
import Verif.Libm.Log1p
import Verif.Libm.Asin
/-!
# Model of `asinh`, `acosh`, `atanh` and of the `f32` versions

libm/src/math/{asinh,acosh,atanh,asinhf,acoshf,atanhf}.rs

`force_eval!` (asinh.rs 32, atanh.rs 21, asinhf.rs 31, atanhf.rs 21) only raises floating-point exceptions; it is left out.
The formulas are the same text in the two formats; they are modelled once, for a format, its constants and its functions `sqrt`, `log` and `log1p`.
-/
namespace Verif
namespace InvHyp
open Pio2 Expm1

section
variable {F : Fmt} (N : FPU F) (K : Cn F)

/-- `log(x) + LN2`, asinh.rs 22, acosh.rs 25, asinhf.rs 21, acoshf.rs 25 -/
def big (lg : BitVec F.w → M (BitVec F.w)) (ln2 x : BitVec F.w) : M (BitVec F.w) := do
  let l ← lg x
  .ok (N.add l ln2)
/-- `log(2.0 * x + 1.0 / (sqrt(x * x + 1.0) + x))`, asinh.rs 25, asinhf.rs 24 -/
def asMid (sq lg : BitVec F.w → M (BitVec F.w)) (x : BitVec F.w) : M (BitVec F.w) := do
  let s ← sq (N.add (N.mul x x) K.one)
  lg (N.add (N.mul K.two x) (N.div K.one (N.add s x)))
/-- `log1p(x + x * x / (sqrt(x * x + 1.0) + 1.0))`, asinh.rs 28, asinhf.rs 27 -/
def asSmall (sq l1p : BitVec F.w → M (BitVec F.w)) (x : BitVec F.w) : M (BitVec F.w) := do
  let s ← sq (N.add (N.mul x x) K.one)
  l1p (N.add x (N.div (N.mul x x) (N.add s K.one)))
/-- acosh.rs 18-19, acoshf.rs 18-19 -/
def acSmall (sq l1p : BitVec F.w → M (BitVec F.w)) (x : BitVec F.w) : M (BitVec F.w) := do
  let x1 := N.sub x K.one
  let s ← sq (N.add (N.mul x1 x1) (N.mul K.two x1))
  l1p (N.add x1 s)
/-- `log(2.0 * x - 1.0 / (x + sqrt(x * x - 1.0)))`, acosh.rs 22, acoshf.rs 22 -/
def acMid (sq lg : BitVec F.w → M (BitVec F.w)) (x : BitVec F.w) : M (BitVec F.w) := do
  let s ← sq (N.sub (N.mul x x) K.one)
  lg (N.sub (N.mul K.two x) (N.div K.one (N.add x s)))
/-- `0.5 * log1p(2.0 * y + 2.0 * y * y / (1.0 - y))`, atanh.rs 25, atanhf.rs 25 -/
def atSmall (l1p : BitVec F.w → M (BitVec F.w)) (y : BitVec F.w) : M (BitVec F.w) := do
  let l ← l1p (N.add (N.mul K.two y) (N.div (N.mul (N.mul K.two y) y) (N.sub K.one y)))
  .ok (N.mul K.half l)
/-- `0.5 * log1p(2.0 * (y / (1.0 - y)))`, atanh.rs 29, atanhf.rs 29 -/
def atBig (l1p : BitVec F.w → M (BitVec F.w)) (y : BitVec F.w) : M (BitVec F.w) := do
  let l ← l1p (N.mul K.two (N.div y (N.sub K.one y)))
  .ok (N.mul K.half l)
end

/-- `LN2`, asinh.rs 3, acosh.rs 3 -/
def LN2 : D := 0x3fe62e42fefa39ef#f64.w

/-- the value before the sign is restored, asinh.rs 20-33 -/
def asinhAbs (N : FPU f64) (e : Nat) (x : D) : M D :=
  if e ≥ 0x3ff + 26 then big N (Log.log N) LN2 x
  else if e ≥ 0x3ff + 1 then asMid N K64 (Asin.sqrtD N) (Log.log N) x
  else if e ≥ 0x3ff - 26 then asSmall N K64 (Asin.sqrtD N) (Log1p.log1p N) x
  else .ok x

/-- `asinh`, asinh.rs 11-36 -/
def asinh (N : FPU f64) (x : D) : M D := do
  let u := x.toNat
  let e := (u >>> 52) &&& 0x7ff
  let y ← asinhAbs N e (BitVec.ofNat f64.w (u &&& 0x7fffffffffffffff))
  .ok (if u >>> 63 ≠ 0 then f64.neg y else y)

/-- `acosh`, acosh.rs 11-27 -/
def acosh (N : FPU f64) (x : D) : M D :=
  let ux := x.toNat
  if ux &&& 0x7fffffffffffffff < 0x4000000000000000 then acSmall N K64 (Asin.sqrtD N) (Log1p.log1p N) x
  else if ux < 0x4190000000000000 then acMid N K64 (Asin.sqrtD N) (Log.log N) x
  else big N (Log.log N) LN2 x

/-- the value before the sign is restored, atanh.rs 17-30 -/
def atanhAbs (N : FPU f64) (e : Nat) (y : D) : M D :=
  if e < 0x3ff - 1 then
    if e < 0x3ff - 32 then .ok y
    else atSmall N K64 (Log1p.log1p N) y
  else atBig N K64 (Log1p.log1p N) y

/-- `atanh`, atanh.rs 9-33 -/
def atanh (N : FPU f64) (x : D) : M D := do
  let u := x.toNat
  let e := (u >>> 52) &&& 0x7ff
  let y ← atanhAbs N e (BitVec.ofNat f64.w (u &&& 0x7fffffffffffffff))
  .ok (if u >>> 63 ≠ 0 then f64.neg y else y)

namespace F32
open Expm1.F32
abbrev S := BitVec f32.w

/-- `LN2`, asinhf.rs 3, acoshf.rs 3 -/
def LN2 : S := 0x3f317218#f32.w

/-- the value before the sign is restored, asinhf.rs 19-32 -/
def asinhfAbs (N : FPU f32) (i : Nat) (x : S) : M S :=
  if i ≥ 0x3f800000 + (12 <<< 23) then big N (Log.F32.logf N) LN2 x
  else if i ≥ 0x3f800000 + (1 <<< 23) then asMid N K32 (Asin.F32.sqrtS N) (Log.F32.logf N) x
  else if i ≥ 0x3f800000 - (12 <<< 23) then asSmall N K32 (Asin.F32.sqrtS N) (Log1p.F32.log1pf N) x
  else .ok x

/-- `asinhf`, asinhf.rs 11-35 -/
def asinhf (N : FPU f32) (x : S) : M S := do
  let u := x.toNat
  let i := u &&& 0x7fffffff
  let y ← asinhfAbs N i (BitVec.ofNat f32.w i)
  .ok (if u >>> 31 ≠ 0 then f32.neg y else y)

/-- `acoshf`, acoshf.rs 11-27 -/
def acoshf (N : FPU f32) (x : S) : M S :=
  let ux := x.toNat
  if ux &&& 0x7fffffff < 0x40000000 then acSmall N K32 (Asin.F32.sqrtS N) (Log1p.F32.log1pf N) x
  else if ux < 0x45800000 then acMid N K32 (Asin.F32.sqrtS N) (Log.F32.logf N) x
  else big N (Log.F32.logf N) LN2 x

/-- the value before the sign is restored, atanhf.rs 17-30 -/
def atanhfAbs (N : FPU f32) (u : Nat) (x : S) : M S :=
  if u < 0x3f800000 - (1 <<< 23) then
    if u < 0x3f800000 - (32 <<< 23) then .ok x
    else atSmall N K32 (Log1p.F32.log1pf N) x
  else atBig N K32 (Log1p.F32.log1pf N) x

/-- `atanhf`, atanhf.rs 9-33 -/
def atanhf (N : FPU f32) (x : S) : M S := do
  let u := x.toNat
  let i := u &&& 0x7fffffff
  let y ← atanhfAbs N i (BitVec.ofNat f32.w i)
  .ok (if u >>> 31 ≠ 0 then f32.neg y else y)
end F32
end InvHyp
end Verif
