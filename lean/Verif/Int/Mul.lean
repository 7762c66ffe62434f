import Verif.Int.DInt
/-!
# Model of `compiler-builtins/src/int/mul.rs`
-/
namespace Verif

/-- `Mul::mul`, mul.rs 7-27 for the unsigned type (`u64`), with quarter width `q`.
`tmp << (Self::BITS / 4)` is a checked shift. `__muldi3` (targets with a multiplier), lines 154-157. -/
def mulD {q : Nat} (a b : BitVec (2 * (2 * q))) : M (BitVec (2 * (2 * q))) := do
  let lhsLo := lo a
  let rhsLo := lo b
  let tmp0 := zeroWidenMul (lo lhsLo) (lo rhsLo)
  let tmp1 := zeroWidenMul (lo lhsLo) (hi rhsLo)
  let tmp2 := zeroWidenMul (hi lhsLo) (lo rhsLo)
  let tmp3 := zeroWidenMul (hi lhsLo) (hi rhsLo)
  let s1 ← shlC (zeroWiden tmp1) (2 * (2 * q) / 4)
  let s2 ← shlC (zeroWiden tmp2) (2 * (2 * q) / 4)
  let mul := fromLoHi tmp0 tmp3 + s1 + s2
  pure (mul + widenHi (lhsLo * hi b) + widenHi (hi a * rhsLo))

/-- `Mul::mul`, mul.rs 7-27 for the signed type (`i128`): `hi` shifts arithmetically and `widen_hi`
sign-extends. `__multi3`, lines 160-162. -/
def mulDS {q : Nat} (a b : BitVec (2 * (2 * q))) : M (BitVec (2 * (2 * q))) := do
  let lhsLo := lo a
  let rhsLo := lo b
  let tmp0 := zeroWidenMul (lo lhsLo) (lo rhsLo)
  let tmp1 := zeroWidenMul (lo lhsLo) (hiS rhsLo)
  let tmp2 := zeroWidenMul (hiS lhsLo) (lo rhsLo)
  let tmp3 := zeroWidenMul (hiS lhsLo) (hiS rhsLo)
  let s1 ← shlC (zeroWiden tmp1) (2 * (2 * q) / 4)
  let s2 ← shlC (zeroWiden tmp2) (2 * (2 * q) / 4)
  let mul := (zeroWiden tmp0 ||| widenHiS tmp3) + s1 + s2
  pure (mul + widenHiS (lhsLo * hiS b) + widenHiS (hiS a * rhsLo))

/-- `UMulo::mulo`, mul.rs 34-53; `__rust_u128_mulo`, lines 200-204.
`wrapping_mul` in the `(false, false)` arm is the primitive wrapping multiplication. -/
def umulo {h : Nat} (a b : BitVec (2 * h)) : BitVec (2 * h) × Bool :=
  match hi a == 0#h, hi b == 0#h with
  | false, false => (a * b, true)
  | true, false =>
    let mulLo := zeroWidenMul (lo a) (lo b)
    let mulHi := zeroWidenMul (lo a) (hi b)
    let (mul, o) := overflowingAdd mulLo (widenHi (lo mulHi))
    (mul, o || !(hi mulHi == 0#h))
  | false, true =>
    let mulLo := zeroWidenMul (lo b) (lo a)
    let mulHi := zeroWidenMul (lo b) (hi a)
    let (mul, o) := overflowingAdd mulLo (widenHi (lo mulHi))
    (mul, o || !(hi mulHi == 0#h))
  | true, true => (zeroWidenMul (lo a) (lo b), false)

/-- `impl_signed_mulo!`, mul.rs 60-94; `__mulosi4`, `__mulodi4`, `__muloti4`, `__rust_i128_mulo`. -/
def smulo {h : Nat} (lhs rhs : BitVec (2 * h)) : BitVec (2 * h) × Bool :=
  if lhs == 0#_ || rhs == 0#_ then (0#_, false)
  else
    let lhsNeg := lhs.slt 0#_
    let rhsNeg := rhs.slt 0#_
    let lhs := if lhsNeg then -lhs else lhs
    let rhs := if rhsNeg then -rhs else rhs
    let mulNeg := lhsNeg != rhsNeg
    let (mul, o) := umulo lhs rhs
    let mul := if mulNeg then -mul else mul
    if (mul.slt 0#_) != mulNeg then (mul, true) else (mul, o)

/-- The `while a > 0` loop of `__mulsi3`, mul.rs 124-130, and of `__muldi3` on targets without a
multiplier, lines 143-149 (shifts by the constant 1 of a wider type cannot fail). -/
def mulLoop {w : Nat} (a b r : BitVec w) : BitVec w :=
  if _h : a.toNat > 0 then
    let r := if (a &&& 1#w).toNat > 0 then r + b else r
    mulLoop (a >>> 1) (b <<< 1) r
  else r
termination_by a.toNat
decreasing_by
  simp only [BitVec.toNat_ushiftRight, Nat.shiftRight_eq_div_pow, Nat.pow_one]
  omega

/-- `__mulsi3`, mul.rs 120-133; `__muldi3`, mul.rs 137-152 on riscv without the `m` extension. -/
def mulEgypt {w : Nat} (a b : BitVec w) : BitVec w := mulLoop a b 0#w

/-- `__muloti4` for x86_64 UEFI, mul.rs 185-192: operands arrive as pairs of `u64`. -/
def mulotiUefi (aLo aHi bLo bHi : BitVec 64) : BitVec 128 × Bool :=
  smulo (h := 64) ((aHi.setWidth 128 <<< 64) ||| aLo.setWidth 128)
    ((bHi.setWidth 128 <<< 64) ||| bLo.setWidth 128)

end Verif
