import Verif.Libm.Native
import Verif.Libm.FmaWide
import Verif.Libm.Log
/-!
# Model of `cbrtf`

libm/src/math/cbrtf.rs

Additions of `u32` fail on overflow, as in a debug build.
-/
namespace Verif
namespace Cbrtf

/-- `f32` -/
abbrev S := BitVec f32.w
/-- `f64` -/
abbrev D := BitVec f64.w

/-- `B1`, `B2`, cbrtf.rs 20-21 -/
def B1 : Nat := 709958130
def B2 : Nat := 642849266
/-- `x1p24`, cbrtf.rs 28 -/
def x1p24 : S := 0x4b800000#f32.w

section
variable (N : FPU f32) (N64 : FPU f64) (C : FloatCast f32 f64)

/-- one step of the iteration, cbrtf.rs 63-64 and 70-71 -/
def step (x t : D) : D :=
  let r := N64.mul (N64.mul t t) t
  N64.div (N64.mul t (N64.add (N64.add x x) r)) (N64.add (N64.add x r) r)

/-- the rest of the function from the bits `ui` (of which the sign is used) and the magnitude `hx` of the first approximation, cbrtf.rs 54-74 -/
def main (x : S) (ui hx : Nat) : S :=
  let t := C.widen (BitVec.ofNat f32.w ((ui &&& 0x80000000) ||| hx))
  let t := step N64 (C.widen x) t
  let t := step N64 (C.widen x) t
  C.narrow t

/-- `cbrtf`, cbrtf.rs 27-75 -/
def cbrtf (x : S) : M S :=
  let ui := x.toNat
  let hx := ui &&& 0x7fffffff
  if hx ≥ 0x7f800000 then .ok (N.add x x)
  else if hx < 0x00800000 then
    if hx = 0 then .ok x
    else do
      let ui := (N.mul x x1p24).toNat
      let hx := ui &&& 0x7fffffff
      let hx ← Log.u32C (hx / 3 + B2)
      pure (main N64 C x ui hx)
  else do
    let hx ← Log.u32C (hx / 3 + B1)
    pure (main N64 C x ui hx)
end
end Cbrtf
end Verif
