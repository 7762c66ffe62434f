import Verif.Libm.Log
/-!
# Model of `log1p` and `log1pf`

libm/src/math/{log1p,log1pf}.rs

The constants (log1p.rs 56-64, log1pf.rs 13-19) are those of `log` and `logf`, and so is the polynomial.
`force_eval!` (log1p.rs 99, log1pf.rs 54) only raises floating-point exceptions; it is left out.
-/
namespace Verif
namespace Log1p
open Pio2 Log

section
variable (N : FPU f64)

/-- the result from `f`, `c` and `k`, log1p.rs 133-141 -/
def finish (f c : D) (k : Int) : M D := do
  let hfsq := N.mul (N.mul half f) f
  let s := N.div f (N.add two f)
  let r := polyR N s
  let dk ← ofI32 k
  pure (N.add (N.add (N.sub (N.add (N.mul s (N.add hfsq r)) (N.add (N.mul dk LN2_LO) c)) hfsq) f) (N.mul dk LN2_HI))

/-- the correction `c` for the rounding error of `u = 1 + x`, log1p.rs 117-126 -/
def corr (x u : D) (k : Int) : D :=
  if k < 54 then N.div (if k ≥ 2 then N.sub one (N.sub u x) else N.sub x (N.sub u one)) u else 0#f64.w

/-- arguments that need a reduction, log1p.rs 112-141 -/
def far (x : D) : M D := do
  let u := N.add one x
  let hu ← u32C (u.toNat >>> 32 + (0x3ff00000 - 0x3fe6a09e))
  let k ← i32C ((hu >>> 20 : Nat) - 0x3ff)
  let c := corr N x u k
  let hu ← u32C ((hu &&& 0x000fffff) + 0x3fe6a09e)
  finish N (N.sub (BitVec.ofNat f64.w (hu <<< 32 ||| (u.toNat &&& 0xffffffff))) one) c k

/-- `log1p`, log1p.rs 68-142 -/
def log1p (x : D) : M D :=
  let hx := x.toNat >>> 32
  if hx < 0x3fda827a ∨ hx >>> 31 > 0 then
    if hx ≥ 0xbff00000 then
      if f64.feq x mone then .ok (N.div x 0#f64.w)
      else .ok (N.div (N.sub x x) 0#f64.w)
    else if (hx <<< 1) % 2 ^ 32 < (0x3ca00000 <<< 1) then .ok x
    else if hx ≤ 0xbfd2bec4 then finish N x 0#f64.w 0
    else far N x
  else if hx ≥ 0x7ff00000 then .ok x
  else far N x
end

namespace F32
open Exp.F32 (S)
open Log.F32

section
variable (N : FPU f32)

/-- the result from `f`, `c` and `k`, log1pf.rs 88-96 -/
def finish (f c : S) (k : Int) : M S := do
  let s := N.div f (N.add two f)
  let r := polyR N s
  let hfsq := N.mul (N.mul half f) f
  let dk ← Exp.F32.ofI32 k
  pure (N.add (N.add (N.sub (N.add (N.mul s (N.add hfsq r)) (N.add (N.mul dk LN2_LO) c)) hfsq) f) (N.mul dk LN2_HI))

/-- the correction `c` for the rounding error of `u = 1 + x`, log1pf.rs 72-82 -/
def corr (x u : S) (k : Int) : S :=
  if k < 25 then N.div (if k ≥ 2 then N.sub one (N.sub u x) else N.sub x (N.sub u one)) u else 0#f32.w

/-- arguments that need a reduction, log1pf.rs 67-96 -/
def far (x : S) : M S := do
  let u := N.add one x
  let iu ← u32C (u.toNat + (0x3f800000 - 0x3f3504f3))
  let k ← i32C ((iu >>> 23 : Nat) - 0x7f)
  let c := corr N x u k
  let iu ← u32C ((iu &&& 0x007fffff) + 0x3f3504f3)
  finish N (N.sub (BitVec.ofNat f32.w iu) one) c k

/-- `log1pf`, log1pf.rs 23-97 -/
def log1pf (x : S) : M S :=
  let ix := x.toNat
  if ix < 0x3ed413d0 ∨ ix >>> 31 > 0 then
    if ix ≥ 0xbf800000 then
      if f32.feq x mone then .ok (N.div x 0#f32.w)
      else .ok (N.div (N.sub x x) 0#f32.w)
    else if (ix <<< 1) % 2 ^ 32 < (0x33800000 <<< 1) then .ok x
    else if ix ≤ 0xbe95f619 then finish N x 0#f32.w 0
    else far N x
  else if ix ≥ 0x7f800000 then .ok x
  else far N x
end
end F32
end Log1p
end Verif
