import Verif.Libm.Exp2
import Verif.Libm.Pow
/-!
# Model of `exp10`

libm/src/math/exp10.rs. `select_implementation!` chooses another implementation on `x86` without `sse2`, which is not modelled.
The decimal constants are given by their bit patterns (`LN10` is that of `Exp2.lean`, exp10.rs 3).
-/
namespace Verif
namespace Exp10

/-- `f64` -/
abbrev D := BitVec f64.w

/-- `P10`, exp10.rs 4-7 -/
def P10 : List Nat := [0x3cd203af9ee75616, 0x3d06849b86a12b9b, 0x3d3c25c268497682, 0x3d719799812dea11, 0x3da5fd7fe1796495, 0x3ddb7cdfd9d7bdbb, 0x3e112e0be826d695, 0x3e45798ee2308c3a, 0x3e7ad7f29abcaf48, 0x3eb0c6f7a0b5ed8d, 0x3ee4f8b588e368f1, 0x3f1a36e2eb1c432d, 0x3f50624dd2f1a9fc, 0x3f847ae147ae147b, 0x3fb999999999999a, 0x3ff0000000000000, 0x4024000000000000, 0x4059000000000000, 0x408f400000000000, 0x40c3880000000000, 0x40f86a0000000000, 0x412e848000000000, 0x416312d000000000, 0x4197d78400000000, 0x41cdcd6500000000, 0x4202a05f20000000, 0x42374876e8000000, 0x426d1a94a2000000, 0x42a2309ce5400000, 0x42d6bcc41e900000, 0x430c6bf526340000]

/-- `10.0`, exp10.rs 29 -/
def ten : D := 0x4024000000000000#f64.w

section
variable (N : FPU f64)

/-- `i!(P10, ((n as isize) + 15) as usize)`, exp10.rs 24, 27; `isize` has 64 bits -/
def pow10 (n : D) : M D := do
  let i ← f64.floatToSigned 64 n
  let j := i.toInt + 15
  if 0 ≤ j then Pio2.rd 31 (fun i => BitVec.ofNat f64.w (P10.getD i 0)) j.toNat else .error .ub

/-- exp10.rs 23-27 -/
def small (y n : D) : M D :=
  if f64.feq y 0#f64.w then pow10 n
  else do
    let y ← Exp2.exp2 N (N.mul Exp2.LN10 y)
    let p ← pow10 n
    pure (N.mul y p)

/-- `exp10`, exp10.rs 11-30 -/
def exp10 (x : D) : M D := do
  let (y, n) ← f64.modf N x
  if (n.toNat >>> 52) &&& 0x7ff < 0x3ff + 4 then small N y n else Power.pow N ten x
end
end Exp10
end Verif
