import Verif.Libm.FmaWideProofs
import Verif.Libm.FmaTop
/-! # `fmaf16` (libm/src/math/fmaf16.rs): 21.43-bit fixed point -/
namespace Verif
open Fmt

/-- `f16_from_u21_43`, fmaf16.rs 131-169 -/
def f16FromU2143 (r64 : BitVec 64) : M (BitVec f16.w) := do
  let extra_bits : Nat := 64 - 16
  let max_finite_lz : Nat := 64 - f16.s - extra_bits - 1
  let top ← shlC (BitVec.allOnes 64) (64 - max_finite_lz)
  if r64 &&& top ≠ 0#64 then pure (f16.fromParts false f16.expSat 0#f16.w)
  else do
    let exp_max_biased_m1 : Nat := f16.bias + f16.bias - 1
    let lz := nlz r64
    let rexp := exp_max_biased_m1 + max_finite_lz - lz
    let shift ← nsubC exp_max_biased_m1 rexp
    let r64 ← shlC r64 shift
    let round_bit ← shlC 1#64 (extra_bits - 1)
    let um ← shlC 1#64 (extra_bits + 1)
    let um ← subC um 1#64
    let up_mask := um &&& ~~~round_bit
    let round_up : Bool := decide (r64 &&& round_bit ≠ 0#64) && decide (r64 &&& up_mask ≠ 0#64)
    let round_up := ofBoolW f16.w round_up
    let t ← shrC r64 extra_bits
    let r : BitVec f16.w := t.setWidth f16.w
    let re ← castU f16.w rexp
    let re ← shlC re f16.s
    let r ← addC r re
    addC r round_up

/-- significand with the implicit bit, fmaf16.rs 42-56 -/
def fmaf16Sig (ix : BitVec f16.w) (xexp : Nat) : BitVec f16.w :=
  let xsig := ix &&& f16.sigMask
  if xexp ≠ 0 then xsig ||| f16.implicitBit else xsig

/-- the product in fixed point, fmaf16.rs 81-106 -/
def fmaf16Prod (xsig ysig : BitVec f16.w) (mexp : Nat) : M (BitVec 64) := do
  let m ← mulC (xsig.setWidth 32) (ysig.setWidth 32)
  let m64 : BitVec 64 := m.setWidth 64
  if 5 ≤ mexp then do
    let mshift := mexp - 5
    let n ← nsubC 64 mshift
    assertC (decide ((if n < 64 then m64 >>> n else 0#64) = 0#64))
    shlC m64 mshift
  else do
    let sticky := decide (m64 &&& 0b11111#64 ≠ 0#64)
    let t ← shrC m64 (5 - mexp)
    pure (t ||| ofBoolW 64 sticky)

/-- `fmaf16`, fmaf16.rs 13-128 -/
def fmaf16 (N : FPU f16) (x y z : BitVec f16.w) : M (BitVec f16.w) := do
  let ix := x &&& ~~~f16.signMask
  let iy := y &&& ~~~f16.signMask
  let iz := z &&& ~~~f16.signMask
  let xneg := f16.sign x
  let yneg := f16.sign y
  let zneg := f16.sign z
  let mneg := xneg ^^ yneg
  if ix.toNat = 0 ∨ f16.expMask ≤ ix ∨ iy.toNat = 0 ∨ f16.expMask ≤ iy then pure (N.add (N.mul x y) z)
  else if iz.toNat = 0 then pure (N.mul x y)
  else if f16.expMask ≤ iz then pure z
  else do
    let xexp := f16.ex x
    let yexp := f16.ex y
    let zexp := f16.ex z
    let xsig := fmaf16Sig ix xexp
    let ysig := fmaf16Sig iy yexp
    let zsig := fmaf16Sig iz zexp
    let xexp := xexp - 1
    let yexp := yexp - 1
    let zexp := zexp - 1
    let adjbias := f16.bias - 1
    let mexp := xexp + yexp
    let mbias := adjbias * 2
    let inf_exp := mbias + f16.bias
    if mexp > inf_exp + 1 then
      pure (f16.fromParts mneg f16.expSat 0#f16.w)
    else do
      let m64 ← fmaf16Prod xsig ysig mexp
      let t ← nsubC (zexp + 43) f16.s
      let zshift ← nsubC t adjbias
      let z64 ← shlC ((zsig.setWidth 64 : BitVec 64)) zshift
      let (rneg, r64) ← (if (mneg ^^ zneg) = true then
          (if z64 < m64 then pure (mneg, m64 - z64)
           else if m64 = z64 then pure (false, m64 - z64)
           else pure (zneg, z64 - m64))
        else do
          let s ← addC m64 z64
          pure (mneg, s))
      let r ← f16FromU2143 r64
      let one : BitVec f16.w := f16.fromParts rneg f16.bias 0#f16.w
      pure (f16.copysign r one)

end Verif
