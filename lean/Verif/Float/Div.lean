import Verif.Float.Mul
/-!
# Model of `div` (compiler-builtins/src/float/div.rs)

The number of Newton iterations depends on the pointer size of the target (`size_of::<*const ()>()`), a parameter
`ptr` (in bytes) of the model. `HalfRep<F>` is `BitVec (F.w / 2)`. The double-width products at half width, and at full
width in the `f32` iterations, are primitive; the final product uses the parameter `O` (`u256` for `f128`).
-/
namespace Verif

/-- `get_iterations`, div.rs 516-528. -/
def getIterations (bits ptr : Nat) : M (Nat × Nat) := do
  let total ← nsubC bits.log2 2
  if 2 * (bits / 8) ≤ ptr then pure (0, total)
  else do
    let h ← nsubC total 1
    pure (h, 1)

/-- `reciprocal_precision`, div.rs 553-572. -/
def reciprocalPrecision (bits ptr : Nat) : M Nat := do
  let (half, full) ← getIterations bits ptr
  if full < 1 then .error .assert
  else if bits = 32 ∧ half = 2 ∧ full = 1 then pure 74
  else if bits = 32 ∧ half = 0 ∧ full = 3 then pure 10
  else if bits = 64 ∧ half = 3 ∧ full = 1 then pure 220
  else if bits = 128 ∧ half = 4 ∧ full = 1 then pure 13922
  else .error .assert

/-- `c_hw`, div.rs 579-586. -/
def cHw (h : Nat) : BitVec h := BitVec.ofNat h (0x7504f333f9de6108b2fb1366eaa6a542 >>> (128 - h))

/-- `next_guess`, div.rs 593-605. -/
def nextGuess {w : Nat} (x_uq0 b_uq1 : BitVec w) : BitVec w :=
  let corr_uq1 := 0#w - hi (zeroWidenMul x_uq0 b_uq1)
  lo (zeroWidenMul x_uq0 corr_uq1 >>> (w - 1))

/-- The loops of div.rs 302-339 and 416-418. -/
def guessLoop {w : Nat} : Nat → BitVec w → BitVec w → BitVec w
  | 0, x, _ => x
  | n + 1, x, b => guessLoop n (nextGuess x b) b

namespace Fmt
variable (F : Fmt)

/-- div.rs 260-409: the reciprocal with half-width iterations and one full-width iteration. -/
def divRecipHalf (half_iterations : Nat) (b_uq1 : BitVec F.w) : M (BitVec F.w) := do
  let hw := F.w / 2
  let b_uq1_hw : BitVec hw := (b_uq1 >>> hw).setWidth hw
  let t ← shlC 1#hw (hw - 1)
  assertC (decide (b_uq1_hw &&& t > 0#hw))
  let x_uq0_hw := cHw hw - b_uq1_hw
  let x_uq0_hw := guessLoop half_iterations x_uq0_hw b_uq1_hw
  let x_uq0_hw := x_uq0_hw - 1#hw
  let lo_mask ← shrC (BitVec.allOnes F.w) hw
  let blo := b_uq1 &&& lo_mask
  let x := x_uq0_hw.setWidth F.w
  let t1 ← mulC x (b_uq1_hw.setWidth F.w)
  let t2 ← mulC x blo
  let t2 ← shrC t2 hw
  let t ← addC t1 t2
  let corr_uq1 := -(t - 1#F.w)
  let lo_corr := corr_uq1 &&& lo_mask
  let hi_corr ← shrC corr_uq1 hw
  let p ← mulC x hi_corr
  let p ← shlC p 1
  let r ← mulC x lo_corr
  let r ← shrC r (hw - 1)
  subC (p + r - 2#F.w) 1#F.w

/-- div.rs 410-421: the reciprocal with full-width iterations only. -/
def divRecipFull (full_iterations : Nat) (b_uq1 : BitVec F.w) : M (BitVec F.w) := do
  let c ← shlC (BitVec.ofNat F.w 0x7504F333) (F.w - 32)
  pure (guessLoop full_iterations (c - b_uq1) b_uq1)

/-- div.rs 260-427: a lower estimate of the reciprocal of `b_uq1`. -/
def divRecip (half_iterations full_iterations recip_precision : Nat) (b_uq1 : BitVec F.w) : M (BitVec F.w) := do
  let x_uq0 ← (if half_iterations > 0 then F.divRecipHalf half_iterations b_uq1
    else F.divRecipFull full_iterations b_uq1)
  let p ← castU F.w recip_precision
  subC (x_uq0 - 2#F.w) p

/-- div.rs 437-452: quotient of the significands, residual, adjusted numerator and exponent. -/
def divQuot (quotient_uq1 a_sig b_sig : BitVec F.w) (res_exponent : Int) :
    M (BitVec F.w × BitVec F.w × BitVec F.w × Int) := do
  let t ← shlC F.implicitBit 1
  if quotient_uq1 < t then do
    let t ← shlC a_sig (F.s + 1)
    let residual_lo := t - quotient_uq1 * b_sig
    let res_exponent ← i32C (res_exponent - 1)
    let a_sig ← shlC a_sig 1
    pure (quotient_uq1, residual_lo, a_sig, res_exponent)
  else do
    let quotient_uq1 ← shrC quotient_uq1 1
    let t ← shlC a_sig F.s
    pure (quotient_uq1, t - quotient_uq1 * b_sig, a_sig, res_exponent)

/-- div.rs 489-503: the rounding increments; `extra` = `F::BITS == 128 || (F::BITS == 32 && half_iterations > 0)`. -/
def divRound (extra : Bool) (abs_result residual_lo b_sig quotient_sign : BitVec F.w) : M (BitVec F.w) := do
  let residual_lo ← addC residual_lo (abs_result &&& 1#F.w)
  let abs_result ← addC abs_result (if residual_lo > b_sig then 1#F.w else 0#F.w)
  let abs_result ← (if extra then do
      let c ← (if abs_result < F.expMask then do
          let t ← castU F.w (2 + 1)
          let t ← mulC t b_sig
          pure (decide (residual_lo > t))
        else pure false)
      addC abs_result (if c then 1#F.w else 0#F.w)
    else pure abs_result)
  let abs_result ← (if F.w = 128 then do
      let c ← (if abs_result < F.expMask then do
          let t ← castU F.w (4 + 1)
          let t ← mulC t b_sig
          pure (decide (residual_lo > t))
        else pure false)
      addC abs_result (if c then 1#F.w else 0#F.w)
    else pure abs_result)
  pure (abs_result ||| quotient_sign)

/-- div.rs 466-503: overflow, packing, denormal path, rounding. -/
def divFinish (extra : Bool) (quotient residual_lo a_sig b_sig quotient_sign : BitVec F.w) (res_exponent : Int) :
    M (BitVec F.w) := do
  if res_exponent ≥ F.expSat then pure (F.expMask ||| quotient_sign)
  else if res_exponent > 0 then do
    let ret := quotient &&& F.sigMask
    let t ← castU F.w res_exponent.toNat
    let t ← shlC t F.s
    let residual_lo ← shlC residual_lo 1
    F.divRound extra (ret ||| t) residual_lo b_sig quotient_sign
  else do
    let t ← i32C (F.s + res_exponent)
    if t < 0 then pure quotient_sign
    else do
      let k ← castI 32 (i32W (-res_exponent))
      let k ← addC k 1#32
      let ret := wshr quotient k.toNat
      let t ← shlC (ret * b_sig) 1
      let residual_lo := wshl a_sig ((BitVec.ofNat 32 F.s + castLossyI 32 res_exponent).toNat) - t
      F.divRound extra ret residual_lo b_sig quotient_sign

/-- div.rs 204-503, after the special cases. -/
def divCore (O : DOps F.w) (half_iterations full_iterations recip_precision : Nat)
    (quotient_sign a_sig b_sig : BitVec F.w) (res_exponent : Int) : M (BitVec F.w) := do
  let a_sig := a_sig ||| F.implicitBit
  let b_sig := b_sig ||| F.implicitBit
  let b_uq1 ← shlC b_sig (F.w - F.s - 1)
  let x_uq0 ← F.divRecip half_iterations full_iterations recip_precision b_uq1
  let t ← shlC a_sig 1
  let p ← O.widenMul x_uq0 t
  let (quotient, residual_lo, a_sig, res_exponent) ← F.divQuot (O.hi p) a_sig b_sig res_exponent
  F.divFinish (F.w = 128 ∨ (F.w = 32 ∧ half_iterations > 0)) quotient residual_lo a_sig b_sig quotient_sign res_exponent

/-- div.rs 147-185: the early returns among the special cases (`none`: fall through). -/
def divSpecial (a b quotient_sign : BitVec F.w) : Option (BitVec F.w) :=
  let a_abs := a &&& F.absMask
  let b_abs := b &&& F.absMask
  let inf_rep := F.expMask
  if a_abs > inf_rep then some (a ||| F.quietBit)
  else if b_abs > inf_rep then some (b ||| F.quietBit)
  else if a_abs = inf_rep then
    if b_abs = inf_rep then some F.qnanRep else some (a_abs ||| quotient_sign)
  else if b_abs = inf_rep then some quotient_sign
  else if a_abs = 0#F.w then
    if b_abs = 0#F.w then some F.qnanRep else some quotient_sign
  else if b_abs = 0#F.w then some (inf_rep ||| quotient_sign)
  else none

/-- div.rs 189-201: renormalise a subnormal operand; `sub` selects `res_exponent -= exponent`. -/
def divNorm (sub : Bool) (rep sig : BitVec F.w) (res_exponent : Int) : M (Int × BitVec F.w) := do
  if rep &&& F.absMask < F.implicitBit then do
    let (exponent, significand) ← F.normalize sig
    let res_exponent ← i32C (if sub then res_exponent - exponent else res_exponent + exponent)
    pure (res_exponent, significand)
  else pure (res_exponent, sig)

/-- div.rs 87-504: `div`, on a target with pointers of `ptr` bytes. -/
def div (O : DOps F.w) (ptr : Nat) (a b : BitVec F.w) : M (BitVec F.w) := do
  let (half_iterations, full_iterations) ← getIterations F.w ptr
  let recip_precision ← reciprocalPrecision F.w ptr
  let half_iterations := if F.w = 128 then half_iterations + 1 else half_iterations
  let a_exponent ← F.mulExp a
  let b_exponent ← F.mulExp b
  let quotient_sign := (a ^^^ b) &&& F.signMask
  let a_sig := a &&& F.sigMask
  let b_sig := b &&& F.sigMask
  let ae ← castToI32 a_exponent
  let be ← castToI32 b_exponent
  let t ← i32C (ae - be)
  let res_exponent ← i32C (t + F.bias)
  let t ← nsubC F.expSat 1
  let t ← castU F.w t
  if a_exponent - 1#F.w ≥ t ∨ b_exponent - 1#F.w ≥ t then
    match F.divSpecial a b quotient_sign with
    | some r => pure r
    | none => do
      let (res_exponent, a_sig) ← F.divNorm false a a_sig res_exponent
      let (res_exponent, b_sig) ← F.divNorm true b b_sig res_exponent
      F.divCore O half_iterations full_iterations recip_precision quotient_sign a_sig b_sig res_exponent
  else F.divCore O half_iterations full_iterations recip_precision quotient_sign a_sig b_sig res_exponent

/-- `__divsf3`, `__divdf3` (div.rs 607-617): the product type is a primitive integer. -/
def divPrim (ptr : Nat) (a b : BitVec F.w) : M (BitVec F.w) := F.div (DOps.prim F.w) ptr a b

/-- `__divtf3` (div.rs 619-623): the product type is `u256` over two `u128` limbs. -/
def divtf3 (ptr : Nat) (a b : BitVec f128.w) : M (BitVec f128.w) := f128.div (DOps.wide 64) ptr a b

end Fmt
end Verif
