import Verif.Float.Repr
import Verif.Int.NarrowDiv
/-!
# Model of `mul` (compiler-builtins/src/float/mul.rs)

`F::Int::D` (the product type: the next wider primitive, `u256` for `f128`) is a parameter `O : DOps F.w`;
`mulPrim` and `mulWide` below fix it as the code does.
-/
namespace Verif

/-- `.cast_lossy()` of an `i32` to an unsigned integer (int_traits.rs, `CastFrom`): `as` conversion. -/
def castLossyI (w : Nat) (x : Int) : BitVec w := BitVec.ofInt w x

namespace Fmt
variable (F : Fmt)

/-- mul.rs 33-34: `(rep >> significand_bits) & max_exponent.cast()`. -/
def mulExp (rep : BitVec F.w) : M (BitVec F.w) := do
  let m ← castU F.w F.expSat
  pure ((rep >>> F.s) &&& m)

/-- mul.rs 45-85: the early returns among the special cases (`none`: fall through). -/
def mulSpecial (a b product_sign : BitVec F.w) : Option (BitVec F.w) :=
  let a_abs := a &&& F.absMask
  let b_abs := b &&& F.absMask
  let inf_rep := F.expMask
  if a_abs > inf_rep then some (a ||| F.quietBit)
  else if b_abs > inf_rep then some (b ||| F.quietBit)
  else if a_abs = inf_rep then
    if b_abs ≠ 0#F.w then some (a_abs ||| product_sign) else some F.qnanRep
  else if b_abs = inf_rep then
    if a_abs ≠ 0#F.w then some (b_abs ||| product_sign) else some F.qnanRep
  else if a_abs = 0#F.w then some product_sign
  else if b_abs = 0#F.w then some product_sign
  else none

/-- mul.rs 90-100: renormalise a subnormal operand. -/
def mulNorm (rep sig : BitVec F.w) (scale : Int) : M (Int × BitVec F.w) := do
  if rep &&& F.absMask < F.implicitBit then do
    let (exponent, significand) ← F.normalize sig
    let scale ← i32C (scale + exponent)
    pure (scale, significand)
  else pure (scale, sig)

/-- mul.rs 133-178: overflow, denormalisation, packing, rounding. -/
def mulFinish (product_sign : BitVec F.w) (product_exponent : Int) (product_high product_low : BitVec F.w) :
    M (BitVec F.w) := do
  if product_exponent ≥ F.expSat then pure (F.expMask ||| product_sign)
  else do
    let r ← (if product_exponent ≤ 0 then do
        let shift ← castToU32 (1#F.w - castLossyI F.w product_exponent)
        if shift ≥ F.w then pure none
        else do
          let k ← nsubC F.w shift
          let t ← shlC product_low k
          let sticky := if t ≠ 0#F.w then 1#F.w else 0#F.w
          let h ← shlC product_high k
          let l ← shrC product_low shift
          let hi ← shrC product_high shift
          pure (some (hi, (h ||| l) ||| sticky))
      else do
        let product_high := product_high &&& F.sigMask
        let t ← castI F.w product_exponent
        let t ← shlC t F.s
        pure (some (product_high ||| t, product_low)))
    match r with
    | none => pure product_sign
    | some (product_high, product_low) => do
      let product_high := product_high ||| product_sign
      let product_high ← (if product_low > F.signMask then addC product_high 1#F.w else pure product_high)
      if product_low = F.signMask then addC product_high (product_high &&& 1#F.w) else pure product_high

/-- mul.rs 103-131: multiply significands, normalise the product. -/
def mulCore (O : DOps F.w) (product_sign a_exponent b_exponent a_sig b_sig : BitVec F.w) (scale : Int) :
    M (BitVec F.w) := do
  let a_sig := a_sig ||| F.implicitBit
  let b_sig := b_sig ||| F.implicitBit
  let t ← shlC b_sig F.e
  let p ← O.widenMul a_sig t
  let product_low := O.lo p
  let product_high := O.hi p
  let ae ← castToI32 a_exponent
  let be ← castToI32 b_exponent
  let product_exponent := i32W (i32W (i32W (ae + be) + scale) - F.bias)
  if product_high &&& F.implicitBit ≠ 0#F.w then
    F.mulFinish product_sign (i32W (product_exponent + 1)) product_high product_low
  else do
    let h ← shlC product_high 1
    let l ← shrC product_low (F.w - 1)
    let product_low ← shlC product_low 1
    F.mulFinish product_sign product_exponent (h ||| l) product_low

/-- mul.rs 3-179: `mul`. -/
def mul (O : DOps F.w) (a b : BitVec F.w) : M (BitVec F.w) := do
  let a_exponent ← F.mulExp a
  let b_exponent ← F.mulExp b
  let product_sign := (a ^^^ b) &&& F.signMask
  let a_sig := a &&& F.sigMask
  let b_sig := b &&& F.sigMask
  let t ← nsubC F.expSat 1
  let t ← castU F.w t
  if a_exponent - 1#F.w ≥ t ∨ b_exponent - 1#F.w ≥ t then
    match F.mulSpecial a b product_sign with
    | some r => pure r
    | none => do
      let (scale, a_sig) ← F.mulNorm a a_sig 0
      let (scale, b_sig) ← F.mulNorm b b_sig scale
      F.mulCore O product_sign a_exponent b_exponent a_sig b_sig scale
  else F.mulCore O product_sign a_exponent b_exponent a_sig b_sig 0

/-- `__mulhf3`, `__mulsf3`, `__muldf3` (mul.rs 181-195): the product type is a primitive integer. -/
def mulPrim (a b : BitVec F.w) : M (BitVec F.w) := F.mul (DOps.prim F.w) a b

/-- `__multf3` (mul.rs 197-201): the product type is `u256` over two `u128` limbs. -/
def multf3 (a b : BitVec f128.w) : M (BitVec f128.w) := f128.mul (DOps.wide 64) a b

end Fmt
end Verif
