import Verif.Libm.Scalbn
import Verif.Int.ModularProofs
/-!
# Model of `fma_round` (libm/src/math/generic/fma.rs): `fma` (f64) and `fmaf128`

`F::cast_from_lossy(i)` is the native conversion of a signed integer of the width of the float (`as`); it is a parameter
`C : IntCast F` that is only assumed to round correctly. The status flags that `fma_round` also computes are not modelled
(`fma` and `fmaf128` drop them, fma.rs 40, 50).
-/
namespace Verif

/-- `a >> n` with an `i32` shift amount. -/
def shrI {w} (a : BitVec w) (n : Int) : M (BitVec w) :=
  if 0 ≤ n ∧ n < w then .ok (a >>> n.toNat) else .error .shift

/-- `IntTy::<F>::from(bool)` -/
def ofBoolW (w : Nat) (b : Bool) : BitVec w := if b then 1#w else 0#w

/-- Checked signed negation. -/
def negC {w} (a : BitVec w) : M (BitVec w) := if a = BitVec.intMin w then .error .overflow else .ok (-a)

/-- Native conversion from the signed integer type of the same width. -/
structure IntCast (F : Fmt) where
  cast : BitVec F.w → BitVec F.w
  spec : ∀ i, F.Rounds (i.toInt : ℚ) (cast i)

/-- `struct Norm`, fma.rs 220-227. -/
structure FmaNorm (w : Nat) where
  m : BitVec w
  e : Int
  neg : Bool

/-- The two aligned double-width operands `(rhi, rlo)`, `(zhi, zlo)` and their common exponent. -/
structure FmaAligned (w : Nat) where
  rhi : BitVec w
  rlo : BitVec w
  zhi : BitVec w
  zlo : BitVec w
  e : Int

namespace Fmt
variable (F : Fmt)

/-- `Norm::from_float`, fma.rs 237-266. -/
def fmaNorm (N : FPU F) (x : BitVec F.w) : M (FmaNorm F.w) := do
  let neg := x.msb
  let (ix, e) ←
    (if F.ex x = 0 then do
      let scale_f := F.fromParts false (F.w - 1 + F.bias) 0#F.w
      let scaled := N.mul x scale_f
      if F.ex scaled = 0 then pure (scaled, ((1 <<< F.e : Nat) : Int))
      else do
        let e ← i32C ((F.ex scaled : Int) - (F.w - 1 : Nat))
        pure (scaled, e)
    else pure (x, (F.ex x : Int)))
  let e ← i32C (e - (F.bias + F.s + 1 : Nat))
  let ix ← shlC ((ix &&& F.sigMask) ||| F.implicitBit) 1
  pure ⟨ix, e, neg⟩

/-- `Norm::ZERO_INF_NAN`, fma.rs 235 (a constant: positive for the formats in use). -/
def fmaZin : Int := (F.expSat : Int) - (F.bias + F.s + 1 : Nat)

/-- fma.rs 42-100: the product, and the alignment of the two operands. -/
def fmaAlign (O : DOps F.w) (nx ny nz : FmaNorm F.w) : M (FmaAligned F.w) := do
  let p ← O.widenMul nx.m ny.m
  let rlo := O.lo p
  let rhi := O.hi p
  let e ← i32C (nx.e + ny.e)
  let d ← i32C (nz.e - e)
  let sbits : Int := F.w
  if d > 0 then
    if d < sbits then do
      let zlo ← shlI nz.m d
      let t ← i32C (sbits - d)
      let zhi ← shrI nz.m t
      pure ⟨rhi, rlo, zhi, zlo, e⟩
    else do
      let d ← i32C (d - sbits)
      let e ← i32C (nz.e - sbits)
      if d = 0 then pure ⟨rhi, rlo, nz.m, 0#F.w, e⟩
      else if d < sbits then do
        let t ← i32C (sbits - d)
        let a ← shlI rhi t
        let b ← shrI rlo d
        let rlo := a ||| b
        let s ← shlI rlo t
        let rlo := rlo ||| ofBoolW F.w (s != 0#F.w)
        let rhi ← shrI rhi d
        pure ⟨rhi, rlo, nz.m, 0#F.w, e⟩
      else pure ⟨0#F.w, 1#F.w, nz.m, 0#F.w, e⟩
  else do
    let d ← i32C (-d)
    if d = 0 then pure ⟨rhi, rlo, 0#F.w, nz.m, e⟩
    else if d < sbits then do
      let t ← i32C (sbits - d)
      let s ← shlI nz.m t
      let z ← shrI nz.m d
      pure ⟨rhi, rlo, 0#F.w, z ||| ofBoolW F.w (s != 0#F.w), e⟩
    else pure ⟨rhi, rlo, 0#F.w, 1#F.w, e⟩

/-- fma.rs 104-123: the addition. Returns `(neg, rhi, rlo, rhi_nonzero)`. -/
def fmaAdd (neg zneg : Bool) (a : FmaAligned F.w) : M (Bool × BitVec F.w × BitVec F.w × Bool) := do
  let samesign := (!neg) ^^ zneg
  if samesign then do
    let rlo := a.rlo + a.zlo
    let t ← addC a.zhi (ofBoolW F.w (decide (rlo.toNat < a.zlo.toNat)))
    let rhi ← addC a.rhi t
    pure (neg, rhi, rlo, true)
  else do
    let borrow := decide (a.rlo.toNat < a.zlo.toNat)
    let rlo := a.rlo - a.zlo
    let rhi := a.rhi - (a.zhi + ofBoolW F.w borrow)
    let t ← shrC rhi (F.w - 1)
    if t ≠ 0#F.w then do
      let rlo := -rlo
      let rhi ← subC (-rhi) (ofBoolW F.w (rlo != 0#F.w))
      pure (!neg, rhi, rlo, rhi != 0#F.w)
    else pure (neg, rhi, rlo, rhi != 0#F.w)

/-- fma.rs 128-149: shift the sum into one word, last bit sticky; `none` for an exact zero. Returns `(rhi, e)`. -/
def fmaShift (rhi rlo : BitVec F.w) (rhi_nonzero : Bool) (e : Int) : M (Option (BitVec F.w × Int)) := do
  let sbits : Int := F.w
  if rhi_nonzero then do
    let e ← i32C (e + sbits)
    let d ← i32C ((nlz rhi : Int) - 1)
    let a ← shlI rhi d
    let t ← i32C (sbits - d)
    let b ← shrI rlo t
    let s ← shlI rlo d
    let e ← i32C (e - d)
    pure (some ((a ||| b) ||| ofBoolW F.w (s != 0#F.w), e))
  else if rlo ≠ 0#F.w then do
    let d ← i32C ((nlz rlo : Int) - 1)
    let e ← i32C (e - d)
    if d < 0 then do
      let t ← shrC rlo 1
      pure (some (t ||| (rlo &&& 1#F.w), e))
    else do
      let t ← shlI rlo d
      pure (some (t, e))
  else pure none

/-- `rhi.signed()` and `if neg { i = -i }`, then the native conversion (fma.rs 153-160, 188-194, 204-210). -/
def fmaCast (C : IntCast F) (neg : Bool) (i : BitVec F.w) : M (BitVec F.w) := do
  let i ← (if neg then negC i else pure i)
  pure (C.cast i)

/-- fma.rs 153-215: conversion to a float, subnormal results, scaling. -/
def fmaFinish (N : FPU F) (C : IntCast F) (neg : Bool) (rhi : BitVec F.w) (e : Int) : M (BitVec F.w) := do
  let r ← F.fmaCast C neg rhi
  let max_pow : Nat := F.w - 1 + F.bias
  if e < -((max_pow : Int) - 2) then
    if e = -((max_pow : Int) - 1) then do
      let c := F.fromParts false max_pow 0#F.w
      let c := if neg then F.neg c else c
      if F.feq r c then pure (F.copysign (F.fromParts false 1 0#F.w) r)
      else do
        let t ← shlC rhi (F.s + 1)
        if t ≠ 0#F.w then do
          let a ← shrC rhi 1
          let b ← shlC 1#F.w (F.w - 2)
          let iu := (a ||| (rhi &&& 1#F.w)) ||| b
          let r ← F.fmaCast C neg iu
          F.scalbn N (N.sub (N.mul (F.fromParts false (F.bias + 1) 0#F.w) r) c) e
        else F.scalbn N r e
    else do
      let d : Int := (F.e : Int) - 1
      let t ← i32C ((F.w : Int) - d)
      let s ← shlI rhi t
      let a ← shrI rhi d
      let i ← shlI (a ||| ofBoolW F.w (s != 0#F.w)) d
      let r ← F.fmaCast C neg i
      F.scalbn N r e
  else F.scalbn N r e

/-- `fma_round`, fma.rs 11-216, result value only. -/
def fmaRound (N : FPU F) (C : IntCast F) (O : DOps F.w) (x y z : BitVec F.w) : M (BitVec F.w) := do
  let nx ← F.fmaNorm N x
  let ny ← F.fmaNorm N y
  let nz ← F.fmaNorm N z
  if nx.e ≥ F.fmaZin ∨ ny.e ≥ F.fmaZin then pure (N.add (N.mul x y) z)
  else if nz.e ≥ F.fmaZin then
    if nz.e > F.fmaZin then pure (N.mul x y) else pure z
  else do
    let a ← F.fmaAlign O nx ny nz
    let (neg, rhi, rlo, nonzero) ← F.fmaAdd (nx.neg ^^ ny.neg) nz.neg a
    match ← F.fmaShift rhi rlo nonzero a.e with
    | none => pure (N.add (N.mul x y) z)
    | some (rhi, e) => F.fmaFinish N C neg rhi e

end Fmt
end Verif
