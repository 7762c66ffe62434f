import Verif.Libm.Native
/-!
# Model of the functions rounding to an integral value (libm/src/math/generic/)

The `select_implementation!` hooks, which replace a function by an instruction sequence on some targets, are not
modelled.
-/
namespace Verif

/-- `Status`, libm/src/math/support/env.rs 53. -/
abbrev Status := BitVec 8
/-- env.rs 61 -/
def Status.OK : Status := 0#8
/-- env.rs 73 -/
def Status.INVALID : Status := 1#8
/-- env.rs 81 -/
def Status.DIVIDE_BY_ZERO : Status := 1#8 <<< 1
/-- env.rs 89 -/
def Status.OVERFLOW : Status := 1#8 <<< 2
/-- env.rs 92 -/
def Status.UNDERFLOW : Status := 1#8 <<< 3
/-- env.rs 96 -/
def Status.INEXACT : Status := 1#8 <<< 4

namespace Fmt
variable (F : Fmt)

/-- `exp_unbiased`, float_traits.rs 171-173 -/
def expUnbiased (x : BitVec F.w) : M Int := i32C ((F.ex x : Int) - F.bias)

/-- `F::ZERO`, `F::NEG_ZERO` float_traits.rs 254-255 -/
def zero : BitVec F.w := 0#F.w
def negZero : BitVec F.w := F.signMask
/-- `F::ONE`, `F::NEG_ONE` float_traits.rs 256-257 -/
def one : BitVec F.w := F.fromParts false F.bias 0#F.w
def negOne : BitVec F.w := F.fromParts true F.bias 0#F.w
/-- `F::EPSILON` float_traits.rs 282: `2^-SIG_BITS` -/
def epsilon : BitVec F.w := F.fromParts false (F.bias - F.s) 0#F.w

/-- `ceil_status`, ceil.rs 13-63. -/
def ceilStatus (x : BitVec F.w) : M (BitVec F.w × Status) := do
  let e ← F.expUnbiased x
  if e ≥ F.s then pure (x, Status.OK)
  else if e ≥ 0 then do
    let m ← shrC F.sigMask e.toNat
    if x &&& m = 0#F.w then pure (x, Status.OK)
    else do
      let ix ← (if F.sign x = false then addC x m else pure x)
      pure (ix &&& ~~~m, Status.INEXACT)
  else do
    let status := if x &&& ~~~F.signMask = 0#F.w then Status.OK else Status.INEXACT
    let t ← shlC x 1
    pure (if F.sign x then F.negZero else if t ≠ 0#F.w then F.one else x, status)

/-- `floor_status`, floor.rs 13-55. -/
def floorStatus (x : BitVec F.w) : M (BitVec F.w × Status) := do
  let e ← F.expUnbiased x
  if e ≥ F.s then pure (x, Status.OK)
  else if e ≥ 0 then do
    let m ← shrC F.sigMask e.toNat
    if x &&& m = 0#F.w then pure (x, Status.OK)
    else do
      let ix ← (if F.sign x then addC x m else pure x)
      pure (ix &&& ~~~m, Status.INEXACT)
  else if x &&& ~~~F.signMask = 0#F.w then pure (x, Status.OK)
  else pure (if F.sign x = false then F.zero else F.negOne, Status.INEXACT)

/-- `trunc_status`, trunc.rs 7-36. -/
def truncStatus (x : BitVec F.w) : M (BitVec F.w × Status) := do
  let e ← F.expUnbiased x
  if e ≥ F.s then pure (x, Status.OK)
  else do
    let clear_mask ← (if e < 0 then pure (~~~F.signMask) else shrC F.sigMask e.toNat)
    let cleared := x &&& clear_mask
    let status := if cleared = 0#F.w then Status.OK else Status.INEXACT
    pure (x ^^^ cleared, status)

/-- `rint_status`, rint.rs 9-50. `force` is the identity outside x87 targets, which are not modelled. -/
def rintStatus (N : FPU F) (x : BitVec F.w) : BitVec F.w × Status :=
  let toint := N.div F.one F.epsilon
  let e := F.ex x
  let positive := !F.sign x
  let res :=
    if e ≥ F.bias + F.s then x
    else
      let y := if positive then N.sub (N.add x toint) toint else N.add (N.sub x toint) toint
      if F.feq y F.zero then (if positive then F.zero else F.negZero) else y
  (res, if F.feq res x then Status.OK else Status.INEXACT)

/-- `copysign`, copysign.rs 5-11 -/
def copysign (x y : BitVec F.w) : BitVec F.w :=
  (x &&& ~~~F.signMask) ||| (y &&& F.signMask)

/-- `fabs`, fabs.rs 5-8 -/
def fabs (x : BitVec F.w) : BitVec F.w := x &&& ~~~F.signMask

/-- `round`, round.rs 5-10 -/
def round (N : FPU F) (x : BitVec F.w) : M (BitVec F.w) := do
  let a ← nsubC F.bias 1
  let f0p5 := F.fromParts false a 0#F.w
  let b ← nsubC F.bias 2
  let f0p25 := F.fromParts false b 0#F.w
  let r ← F.truncStatus (N.add x (F.copysign (N.sub f0p5 (N.mul f0p25 F.epsilon)) x))
  pure r.1

end Fmt
end Verif
